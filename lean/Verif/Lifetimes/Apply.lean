import Verif.Lifetimes.Dsu
import Verif.Lifetimes.Subst
/-
C49: applying constraints to a function signature. Model of `LifetimeConstraints::ApplyToFunctionLifetimes`,
lifetime_analysis/lifetime_constraints.cc lines 86-176. The signature is the list of the lifetimes in it
(`FunctionLifetimes::Traverse` and `SubstituteLifetimes` visit the same places). `ord` is the order in which a hash set is
iterated: any permutation. The unused `output_lifetimes` are left out.
-/
namespace Verif.Lifetimes
open Relation

/-- `Add` with its `assert`. -/
def Subst.addChecked (s : Subst) (v l : Lifetime) : Option Subst := if v.isVariable then s.add v l else none

/-- The loop of lines 110-117: everything that outlives 'static; inner `none` is the returned error. -/
def staticLoop : Subst → List Lifetime → List Lifetime → Option (Option (Subst × List Lifetime))
  | s, already, [] => some (some (s, already))
  | s, already, l :: ls =>
    if l.isLocal then some none
    else (s.addChecked l .static).bind fun s => staticLoop s (already ++ [l]) ls

/-- The loop of lines 143-147. -/
def unionLoop (interesting already : List Lifetime) (lifetime : Lifetime) : Dsu.Parents → List Lifetime → Option Dsu.Parents
  | p, [] => some p
  | p, longer :: ls =>
    if longer ∈ already then unionLoop interesting already lifetime p ls
    else if longer ∉ interesting then unionLoop interesting already lifetime p ls
    else (Dsu.union p longer lifetime).bind fun p => unionLoop interesting already lifetime p ls

/-- The loop of lines 125-148. -/
def mergeLoop (ord : List Lifetime → List Lifetime) (c : Constraints) (interesting : List Lifetime) :
    Dsu.Parents → Subst → List Lifetime → List Lifetime → Option (Dsu.Parents × Subst × List Lifetime)
  | p, s, already, [] => some (p, s, already)
  | p, s, already, lifetime :: ls => do
    let longer ← c.outliving lifetime
    let longer := ord (longer.filter (· ≠ .static))
    match longer.find? Lifetime.isLocal with
    | some l =>
      let s ← s.addChecked lifetime l
      mergeLoop ord c interesting p s (already ++ [lifetime]) ls
    | none =>
      let p ← unionLoop interesting already lifetime p longer
      mergeLoop ord c interesting p s already ls

/-- The loop of lines 154-167. -/
def finishLoop (already : List Lifetime) (ccStatic : Lifetime) : Dsu.Parents → Subst → List Lifetime → Option Subst
  | _, s, [] => some s
  | p, s, l :: ls =>
    if l ∈ already ∨ l.isVariable = false then finishLoop already ccStatic p s ls
    else do
      let (cc, p) ← Dsu.findRoot p l
      let s ← s.addChecked l (if cc = ccStatic then .static else cc)
      finishLoop already ccStatic p s ls

/-- `ApplyToFunctionLifetimes`: outer `none` if it does not return (a loop, or an assertion), inner `none` if it returns the
error "Function assigns local to static", otherwise the new signature. -/
def Constraints.applyTo (ord : List Lifetime → List Lifetime) (c : Constraints) (sig : List Lifetime) : Option (Option (List Lifetime)) := do
  let interesting := ord (setInsertAll [] sig).1
  let statics ← c.outliving .static
  match ← staticLoop .empty [] (ord statics) with
  | none => return none
  | some (s, already) =>
    let p := interesting.foldl Dsu.makeSet (Dsu.makeSet [] .static)
    let (p, s, already) ← mergeLoop ord c interesting p s already interesting
    let (ccStatic, p) ← Dsu.findRoot p .static
    let s ← finishLoop already ccStatic p s interesting
    let out ← sig.mapM s.substitute
    return some out

/-! ### Substitutions as functions -/

/-- `s` replaces every `x` by `g x`. -/
def Acts (s : Subst) (g : Lifetime → Lifetime) : Prop := s.Good ∧ ∀ x, s.substitute x = some (g x)

theorem acts_empty : Acts .empty id := by
  refine ⟨Subst.good_empty, fun x => ?_⟩
  have := (Subst.good_empty).ends x
  exact Subst.substitute_eq (s := .empty) (.stop rfl)

theorem acts_congr {s g g'} (h : Acts s g) (e : ∀ x, g x = g' x) : Acts s g' := ⟨h.1, fun x => by rw [← e]; exact h.2 x⟩

theorem acts_add {s g} (h : Acts s g) {v : Lifetime} (l : Lifetime) (hv : v.isVariable = true) (hn : g v = v) :
    ∃ s', s.addChecked v l = some s' ∧ Acts s' fun x => if g x = v then g l else g x := by
  obtain ⟨s', r, h1, g1, h3, h4, h5⟩ := Subst.add_spec h.1 v l hv
  have hr : r = g l := by have := h.2 l; rw [h3, Option.some.injEq] at this; exact this
  have hvn : AMap.get? s.map v = none := by
    have := h.2 v
    rw [hn] at this
    obtain ⟨n, hn⟩ := Subst.substitute_ends this
    exact hn.end_stops
  refine ⟨s', by unfold Subst.addChecked; rw [if_pos hv]; exact h1, g1, fun x => ?_⟩
  show s'.substitute x = some (if g x = v then g l else g x)
  by_cases e : g x = v
  · rw [if_pos e, ← hr]
    apply h4
    have := h.2 x
    rw [e] at this
    obtain ⟨n, hn⟩ := Subst.substitute_ends this
    exact Dsu.ends_leads hn
  · rw [if_neg e, ← h.2 x]
    apply h5
    intro hx
    obtain ⟨n, hn⟩ := Dsu.leads_ends hx (.stop hvn)
    have := Subst.substitute_eq hn
    rw [h.2 x, Option.some.injEq] at this
    exact e this

/-! ### Unions as equivalences -/

theorem eqv_mono {r s : Lifetime → Lifetime → Prop} (h : ∀ a b, r a b → s a b) {x y : Lifetime} (e : EqvGen r x y) : EqvGen s x y := by
  induction e with
  | rel a b hab => exact .rel _ _ (h a b hab)
  | refl => exact .refl _
  | symm _ _ _ ih => exact ih.symm _ _
  | trans _ _ _ _ _ ih1 ih2 => exact ih1.trans _ _ _ ih2


theorem same_eqv_add {p p' : Dsu.Parents} {R : Lifetime → Lifetime → Prop} {a b : Lifetime} (i : Dsu.Inv p)
    (hR : ∀ x y, Dsu.Same p x y ↔ EqvGen R x y)
    (hu : ∀ x y, Dsu.Same p' x y ↔ Dsu.Same p x y ∨ (Dsu.Same p x a ∧ Dsu.Same p y b) ∨ (Dsu.Same p x b ∧ Dsu.Same p y a))
    (i' : Dsu.Inv p') (x y : Lifetime) :
    Dsu.Same p' x y ↔ EqvGen (fun u v => R u v ∨ (u = b ∧ v = a)) x y := by
  have mono : ∀ {x y}, Dsu.Same p x y → EqvGen (fun u v => R u v ∨ (u = b ∧ v = a)) x y := by
    intro x y h
    exact eqv_mono (fun _ _ h => Or.inl h) ((hR x y).mp h)
  have hba : EqvGen (fun u v => R u v ∨ (u = b ∧ v = a)) b a := .rel _ _ (Or.inr ⟨rfl, rfl⟩)
  constructor
  · intro h
    rcases (hu x y).mp h with h | ⟨h1, h2⟩ | ⟨h1, h2⟩
    · exact mono h
    · exact (mono h1).trans _ _ _ ((hba.symm _ _).trans _ _ _ ((mono h2).symm _ _))
    · exact (mono h1).trans _ _ _ (hba.trans _ _ _ ((mono h2).symm _ _))
  · intro h
    induction h with
    | rel u v h =>
      rcases h with h | ⟨rfl, rfl⟩
      · exact (hu _ _).mpr (Or.inl ((hR u v).mpr (.rel _ _ h)))
      · exact (hu _ _).mpr (Or.inr (Or.inr ⟨.refl i _, .refl i _⟩))
    | refl u => exact .refl i' u
    | symm _ _ _ ih => exact ih.symm
    | trans _ _ _ _ _ ih1 ih2 => exact ih1.trans ih2

theorem unionLoop_spec (I already : List Lifetime) (a : Lifetime) (ha : a ∈ I) : ∀ (ls : List Lifetime) (p : Dsu.Parents) (R : Lifetime → Lifetime → Prop),
    Dsu.Inv p → (∀ x, x ∈ I → x ∈ AMap.keys p) → (∀ x y, Dsu.Same p x y ↔ EqvGen R x y) →
    ∃ p', unionLoop I already a p ls = some p' ∧ Dsu.Inv p' ∧ (∀ x, x ∈ AMap.keys p' ↔ x ∈ AMap.keys p) ∧
      ∀ x y, Dsu.Same p' x y ↔ EqvGen (fun u v => R u v ∨ (u = a ∧ v ∈ ls ∧ v ∉ already ∧ v ∈ I)) x y := by
  intro ls
  induction ls with
  | nil =>
    intro p R i hk hR
    refine ⟨p, rfl, i, fun _ => Iff.rfl, fun x y => ?_⟩
    rw [hR]
    constructor
    · exact eqv_mono fun _ _ h => Or.inl h
    · exact eqv_mono fun _ _ h => h.elim id fun h => by simp at h
  | cons l ls ih =>
    intro p R i hk hR
    have skip : (l ∈ already ∨ l ∉ I) → ∃ p', unionLoop I already a p ls = some p' ∧ Dsu.Inv p' ∧ (∀ x, x ∈ AMap.keys p' ↔ x ∈ AMap.keys p) ∧
      ∀ x y, Dsu.Same p' x y ↔ EqvGen (fun u v => R u v ∨ (u = a ∧ v ∈ l :: ls ∧ v ∉ already ∧ v ∈ I)) x y := by
      intro hl
      obtain ⟨p', h1, h2, h3, h4⟩ := ih p R i hk hR
      refine ⟨p', h1, h2, h3, fun x y => ?_⟩
      rw [h4]
      constructor
      · exact eqv_mono fun _ _ h => h.elim Or.inl fun ⟨e, h1, h2⟩ => Or.inr ⟨e, by simp [h1], h2⟩
      · refine eqv_mono fun _ v h => h.elim Or.inl fun ⟨e, h1, h2, h3⟩ => Or.inr ⟨e, ?_, h2, h3⟩
        rcases List.mem_cons.mp h1 with e | e
        · subst e; rcases hl with h | h
          · exact absurd h h2
          · exact absurd h3 h
        · exact e
    unfold unionLoop
    by_cases h1 : l ∈ already
    · rw [if_pos h1]; exact skip (Or.inl h1)
    · rw [if_neg h1]
      by_cases h2 : l ∉ I
      · rw [if_pos h2]; exact skip (Or.inr h2)
      · rw [if_neg h2]
        have h2' : l ∈ I := Decidable.not_not.mp h2
        obtain ⟨p1, e1, i1, k1, s1⟩ := Dsu.union_spec i (hk l h2') (hk a ha)
        have hR1 := fun x y => same_eqv_add i hR s1 i1 x y
        obtain ⟨p', g1, g2, g3, g4⟩ := ih p1 _ i1 (fun x hx => (k1 x).mpr (hk x hx)) hR1
        refine ⟨p', by rw [e1]; exact g1, g2, fun x => (g3 x).trans (k1 x), fun x y => ?_⟩
        rw [g4]
        constructor
        · refine eqv_mono fun u v h => ?_
          rcases h with (h | ⟨e, e'⟩) | ⟨e, h⟩
          · exact Or.inl h
          · exact Or.inr ⟨e, by simp [e'], e' ▸ h1, e' ▸ h2'⟩
          · exact Or.inr ⟨e, by simp [h.1], h.2⟩
        · refine eqv_mono fun u v h => ?_
          rcases h with h | ⟨e, h3, h4⟩
          · exact Or.inl (Or.inl h)
          · rcases List.mem_cons.mp h3 with e' | e'
            · exact Or.inl (Or.inr ⟨e, e'⟩)
            · exact Or.inr ⟨e, e', h4⟩

/-! ### Specification -/

/-- `a` is outlived by a local. -/
def Constraints.ToLocal (c : Constraints) (a : Lifetime) : Prop := ∃ l : Lifetime, l.isLocal = true ∧ c.Implies a l

/-- A lifetime of the signature that is neither forced to be 'static nor outlived by a local. -/
def Constraints.Free (c : Constraints) (sig : List Lifetime) (a : Lifetime) : Prop :=
  a ∈ sig ∧ ¬ c.Implies .static a ∧ ¬ c.ToLocal a

/-- Two lifetimes linked by implied constraints, in any direction, through free lifetimes of the signature. -/
def Constraints.Linked (c : Constraints) (sig : List Lifetime) : Lifetime → Lifetime → Prop :=
  EqvGen fun a b => c.Free sig a ∧ c.Free sig b ∧ c.Implies a b

/-- Every lifetime of the constraints is a variable, a local or 'static. -/
def Constraints.Valid (c : Constraints) : Prop := ∀ p ∈ c, ∀ l ∈ [p.1, p.2], l.isVariable = true ∨ l.isLocal = true ∨ l = .static

/-- The lifetimes of a signature are variables or 'static. -/
def SigOk (sig : List Lifetime) : Prop := ∀ l ∈ sig, l.isVariable = true ∨ l = .static

/-! ### Proof -/

theorem static_not_var : (Lifetime.static).isVariable = false := by decide
theorem static_not_local : (Lifetime.static).isLocal = false := by decide
theorem var_not_local {l : Lifetime} (h : l.isVariable = true) : l.isLocal = false := by
  unfold Lifetime.isVariable at h; unfold Lifetime.isLocal; simp at h ⊢; omega
theorem var_ne_static {l : Lifetime} (h : l.isVariable = true) : l ≠ .static := by rintro rfl; simp [static_not_var] at h
theorem local_ne_static {l : Lifetime} (h : l.isLocal = true) : l ≠ .static := by rintro rfl; simp [static_not_local] at h

theorem Constraints.below_valid {c : Constraints} (hv : c.Valid) {a b : Lifetime} (h : c.Below a b) :
    a = b ∨ b.isVariable = true ∨ b.isLocal = true ∨ b = .static := by
  rcases Relation.ReflTransGen.cases_tail h with h | ⟨x, -, h⟩
  · exact Or.inl h.symm
  · exact Or.inr (hv _ h b (by simp))

theorem staticLoop_spec {ord : List Lifetime → List Lifetime} (S : List Lifetime) (hS : S.Nodup) (hst : Lifetime.static ∉ S)
    (hv : ∀ l ∈ S, l.isVariable = true ∨ l.isLocal = true) :
    ∀ (rest done : List Lifetime) (s : Subst), done ++ rest = S → Acts s (fun x => if x ∈ done then .static else x) →
      (∀ l ∈ done, l.isLocal = false) →
      ((∃ l ∈ S, l.isLocal = true) ∧ staticLoop s done rest = some none) ∨
      ((∀ l ∈ S, l.isLocal = false) ∧ ∃ s', staticLoop s done rest = some (some (s', S)) ∧ Acts s' (fun x => if x ∈ S then .static else x)) := by
  intro rest
  induction rest with
  | nil =>
    intro done s he ha hl
    rw [List.append_nil] at he; subst he
    exact Or.inr ⟨hl, s, rfl, ha⟩
  | cons l rest ih =>
    intro done s he ha hl
    unfold staticLoop
    have hlS : l ∈ S := by rw [← he]; simp
    by_cases hloc : l.isLocal = true
    · rw [if_pos hloc]; exact Or.inl ⟨⟨l, hlS, hloc⟩, rfl⟩
    · rw [if_neg hloc]
      have hvar : l.isVariable = true := (hv l hlS).resolve_right hloc
      have hnd : l ∉ done := by
        rw [← he, List.nodup_append] at hS
        intro h
        exact hS.2.2 l h l (by simp) rfl
      have hsd : Lifetime.static ∉ done := fun h => hst (by rw [← he]; simp [h])
      obtain ⟨s', h1, h2⟩ := acts_add ha .static hvar (by simp [hnd])
      rw [h1, Option.bind_some]
      refine ih (done ++ [l]) s' (by rw [← he]; simp) (acts_congr h2 fun x => ?_) ?_
      · have hls : Lifetime.static ≠ l := fun e => var_ne_static hvar e.symm
        by_cases h1 : x ∈ done
        · simp [h1, hls]
        · by_cases h2 : x = l
          · subst h2; simp [hnd, hsd]
          · simp [h1, h2]
      · intro x hx
        rcases List.mem_append.mp hx with h | h
        · exact hl x h
        · simp only [List.mem_singleton] at h; rw [h]; simpa using hloc

/-- The state before and after the loop of lines 125-148, when `done` has been processed. -/
structure MergeInv (c : Constraints) (sig S done : List Lifetime) (p : Dsu.Parents) (s : Subst) (already : List Lifetime)
    (loc : Lifetime → Lifetime) : Prop where
  acts : Acts s fun x => open Classical in if x ∈ S then .static else if x ∈ done ∧ c.ToLocal x then loc x else x
  locs : ∀ x ∈ done, c.ToLocal x → (loc x).isLocal = true ∧ c.Implies x (loc x)
  have' : ∀ x, x ∈ already ↔ x ∈ S ∨ (x ∈ done ∧ c.ToLocal x)
  inv : Dsu.Inv p
  keys : ∀ x, x ∈ AMap.keys p ↔ x = .static ∨ x ∈ sig
  same : ∀ x y, Dsu.Same p x y ↔ EqvGen (fun a b => a ∈ done ∧ c.Free sig a ∧ c.Free sig b ∧ c.Implies a b) x y

theorem mergeLoop_spec {ord : List Lifetime → List Lifetime} (hord : ∀ l, (ord l).Perm l) {c : Constraints} {sig S I : List Lifetime}
    (hsig : SigOk sig) (hI : ∀ x, x ∈ I ↔ x ∈ sig) (hIn : I.Nodup)
    (hS : ∀ x, x ∈ S ↔ x ≠ .static ∧ c.Implies .static x) (hno : ¬ c.ToLocal .static) :
    ∀ (rest done : List Lifetime) p s already loc, done ++ rest = I → MergeInv c sig S done p s already loc →
    ∃ p' s' already' loc', mergeLoop ord c I p s already rest = some (p', s', already') ∧ MergeInv c sig S I p' s' already' loc' := by
  classical
  intro rest
  induction rest with
  | nil =>
    intro done p s already loc he m
    rw [List.append_nil] at he; subst he
    exact ⟨p, s, already, loc, rfl, m⟩
  | cons a rest ih =>
    intro done p s already loc he m
    have haI : a ∈ I := by rw [← he]; simp
    have hasig : a ∈ sig := (hI a).mp haI
    have hnd : a ∉ done := by
      rw [← he, List.nodup_append] at hIn
      intro h
      exact hIn.2.2 a h a (by simp) rfl
    have hdI : ∀ x ∈ done, x ∈ sig := fun x hx => (hI x).mp (by rw [← he]; simp [hx])
    have tr : ∀ {x y z}, c.Implies x y → c.Implies y z → c.Implies x z :=
      fun h1 h2 le ho hh => ho.trans _ _ _ (h1 le ho hh) (h2 le ho hh)
    obtain ⟨out, ho, -, hout⟩ := outliving_exact c a
    have hlong : ∀ x, x ∈ ord (out.filter (· ≠ .static)) ↔ x ≠ .static ∧ x ≠ a ∧ c.Implies a x := by
      intro x
      rw [(hord _).mem_iff, List.mem_filter, hout]
      simp [and_comm]
    unfold mergeLoop
    rw [ho]
    simp only [Option.bind_eq_bind, Option.bind_some]
    by_cases hloc : c.ToLocal a
    · -- outlived by a local
      have hastat : a ≠ .static := fun e => hno (e ▸ hloc)
      have havar : a.isVariable = true := (hsig a hasig).resolve_right hastat
      have haS : a ∉ S := by
        rw [hS]
        rintro ⟨-, h⟩
        obtain ⟨l, hl, hal⟩ := hloc
        exact hno ⟨l, hl, tr h hal⟩
      cases hf : (ord (out.filter (· ≠ .static))).find? Lifetime.isLocal with
      | none =>
        exfalso
        obtain ⟨l, hl, hal⟩ := hloc
        rw [List.find?_eq_none] at hf
        refine hf l ((hlong l).mpr ⟨local_ne_static hl, ?_, hal⟩) hl
        rintro rfl
        rw [var_not_local havar] at hl; simp at hl
      | some l =>
        have hl : l.isLocal = true := List.find?_some hf
        have hal : c.Implies a l := ((hlong l).mp (List.mem_of_find?_eq_some hf)).2.2
        have hlS : l ∉ S := by rw [hS]; rintro ⟨-, h⟩; exact hno ⟨l, hl, h⟩
        have hldone : l ∉ done := by
          intro h
          rcases hsig l (hdI l h) with h' | h'
          · rw [var_not_local h'] at hl; simp at hl
          · exact local_ne_static hl h'
        obtain ⟨s', e1, e2⟩ := acts_add m.acts l havar (by simp [haS, hnd])
        simp only
        rw [e1]
        simp only [Option.bind_some]
        refine ih (done ++ [a]) p s' (already ++ [a]) (fun x => if x = a then l else loc x) (by rw [← he]; simp) ?_
        refine ⟨acts_congr e2 fun x => ?_, ?_, ?_, m.inv, m.keys, fun x y => ?_⟩
        · have hsa : Lifetime.static ≠ a := Ne.symm hastat
          by_cases h1 : x ∈ S
          · simp [h1, hsa]
          · by_cases h2 : x = a
            · subst h2; simp [haS, hnd, hloc, hlS, hldone]
            · by_cases h3 : x ∈ done ∧ c.ToLocal x
              · have : loc x ≠ a := by
                  intro e
                  have := (m.locs x h3.1 h3.2).1
                  rw [e, var_not_local havar] at this; simp at this
                simp [h1, h2, h3, this]
              · have h3' : ¬ ((x ∈ done ∨ x = a) ∧ c.ToLocal x) := by
                  rintro ⟨h | h, h'⟩
                  · exact h3 ⟨h, h'⟩
                  · exact h2 h
                simp only [if_neg h1, if_neg h3, if_neg h2, List.mem_append, List.mem_singleton, if_neg h3']
        · intro x hx hxl
          by_cases h2 : x = a
          · simp only [h2, if_true]; exact ⟨hl, hal⟩
          · simp only [if_neg h2]
            refine m.locs x ?_ hxl
            simpa [h2] using hx
        · intro x
          simp only [List.mem_append, List.mem_singleton, m.have']
          constructor
          · rintro ((h | h) | h)
            · exact Or.inl h
            · exact Or.inr ⟨Or.inl h.1, h.2⟩
            · exact Or.inr ⟨Or.inr h, h ▸ hloc⟩
          · rintro (h | ⟨h | h, h'⟩)
            · exact Or.inl (Or.inl h)
            · exact Or.inl (Or.inr ⟨h, h'⟩)
            · exact Or.inr h
        · rw [m.same]
          constructor
          · exact eqv_mono fun u v h => ⟨by simp [h.1], h.2⟩
          · refine eqv_mono fun u v h => ⟨?_, h.2⟩
            rcases List.mem_append.mp h.1 with h' | h'
            · exact h'
            · simp only [List.mem_singleton] at h'
              exact absurd (h' ▸ hloc) h.2.1.2.2
    · -- not outlived by a local
      have hf : (ord (out.filter (· ≠ .static))).find? Lifetime.isLocal = none := by
        rw [List.find?_eq_none]
        intro l hl hll
        exact hloc ⟨l, hll, ((hlong l).mp hl).2.2⟩
      simp only [hf]
      obtain ⟨p', e1, i', k', s'⟩ := unionLoop_spec I already a haI (ord (out.filter (· ≠ .static))) p _ m.inv
        (fun x hx => (m.keys x).mpr (Or.inr ((hI x).mp hx))) m.same
      rw [e1]
      simp only [Option.bind_some]
      refine ih (done ++ [a]) p' s already loc (by rw [← he]; simp) ⟨acts_congr m.acts fun x => ?_, ?_, ?_, i', fun x => (k' x).trans (m.keys x), fun x y => ?_⟩
      · by_cases h1 : x ∈ S
        · simp [h1]
        · by_cases h2 : x = a
          · subst h2; simp [h1, hloc]
          · simp [h1, h2]
      · intro x hx hxl
        rcases List.mem_append.mp hx with h | h
        · exact m.locs x h hxl
        · simp only [List.mem_singleton] at h; exact absurd (h ▸ hxl) hloc
      · intro x
        rw [m.have']
        constructor
        · rintro (h | h)
          · exact Or.inl h
          · exact Or.inr ⟨by simp [h.1], h.2⟩
        · rintro (h | ⟨h, h'⟩)
          · exact Or.inl h
          · rcases List.mem_append.mp h with h | h
            · exact Or.inr ⟨h, h'⟩
            · simp only [List.mem_singleton] at h; exact absurd (h ▸ h') hloc
      · rw [s']
        constructor
        · refine eqv_mono fun u v h => ?_
          rcases h with h | ⟨e, h1, h2, h3⟩
          · exact ⟨by simp [h.1], h.2⟩
          · subst e
            obtain ⟨hvs, hvu, huv⟩ := (hlong v).mp h1
            have hvS : v ∉ S := fun h => h2 ((m.have' v).mpr (Or.inl h))
            have hvst : ¬ c.Implies .static v := fun h => hvS ((hS v).mpr ⟨hvs, h⟩)
            refine ⟨by simp, ⟨hasig, fun h => hvst (tr h huv), hloc⟩, ⟨(hI v).mp h3, hvst, ?_⟩, huv⟩
            rintro ⟨l, hl, hvl⟩
            exact hloc ⟨l, hl, tr huv hvl⟩
        · intro h
          induction h with
          | rel u v h =>
            obtain ⟨h1, h2, h3, h4⟩ := h
            rcases List.mem_append.mp h1 with h1 | h1
            · exact .rel _ _ (Or.inl ⟨h1, h2, h3, h4⟩)
            · simp only [List.mem_singleton] at h1
              subst h1
              by_cases e : v = u
              · subst e; exact .refl _
              · refine .rel _ _ (Or.inr ⟨rfl, (hlong v).mpr ⟨?_, e, h4⟩, ?_, (hI v).mpr h3.1⟩)
                · rintro rfl
                  exact h3.2.1 (fun le ho _ => ho.refl _)
                · rw [m.have']
                  rintro (h | h)
                  · exact h3.2.1 ((hS v).mp h).2
                  · exact h3.2.2 h.2
          | refl u => exact .refl _
          | symm _ _ _ ih => exact ih.symm _ _
          | trans _ _ _ _ _ ih1 ih2 => exact ih1.trans _ _ _ ih2

theorem linked_free {c : Constraints} {sig : List Lifetime} {a b : Lifetime} (h : c.Linked sig a b) : a = b ∨ (c.Free sig a ∧ c.Free sig b) := by
  induction h with
  | rel a b h => exact Or.inr ⟨h.1, h.2.1⟩
  | refl => exact Or.inl rfl
  | symm a b _ ih => exact ih.elim (fun e => Or.inl e.symm) fun h => Or.inr ⟨h.2, h.1⟩
  | trans a b d _ _ ih1 ih2 =>
    rcases ih1 with rfl | h1
    · exact ih2
    · rcases ih2 with rfl | h2
      · exact Or.inr h1
      · exact Or.inr ⟨h1.1, h2.2⟩

theorem finishLoop_spec {c : Constraints} {sig S I already : List Lifetime} (hsig : SigOk sig) (hI : ∀ x, x ∈ I ↔ x ∈ sig) (hIn : I.Nodup)
    (hS : ∀ x, x ∈ S ↔ x ≠ .static ∧ c.Implies .static x) (hal : ∀ x, x ∈ already ↔ x ∈ S ∨ (x ∈ I ∧ c.ToLocal x))
    {cs : Lifetime} (ρ loc : Lifetime → Lifetime) (hlocs : ∀ x ∈ I, c.ToLocal x → (loc x).isLocal = true ∧ c.Implies x (loc x))
    (hcs : ∀ a, c.Free sig a → ρ a ≠ cs) (hρ : ∀ a, ρ (ρ a) = ρ a) (hρf : ∀ a, c.Free sig a → c.Free sig (ρ a)) :
    ∀ (rest done : List Lifetime) p s, done ++ rest = I →
    Dsu.Inv p → (∀ x, x ∈ I → x ∈ AMap.keys p) → (∀ x, Dsu.Root p x (ρ x)) →
    Acts s (fun x => open Classical in if x ∈ S then .static else if x ∈ I ∧ c.ToLocal x then loc x else if x ∈ done ∧ c.Free sig x then ρ x else x) →
    ∃ s', finishLoop already cs p s rest = some s' ∧
      Acts s' (fun x => open Classical in if x ∈ S then .static else if x ∈ I ∧ c.ToLocal x then loc x else if x ∈ I ∧ c.Free sig x then ρ x else x) := by
  classical
  intro rest
  induction rest with
  | nil =>
    intro done p s he i k r a
    rw [List.append_nil] at he; subst he
    exact ⟨s, rfl, a⟩
  | cons a rest ih =>
    intro done p s he i k r act
    have haI : a ∈ I := by rw [← he]; simp
    have hasig : a ∈ sig := (hI a).mp haI
    have hnd : a ∉ done := by
      rw [← he, List.nodup_append] at hIn
      intro h
      exact hIn.2.2 a h a (by simp) rfl
    have hfree : c.Free sig a ↔ ¬ (a ∈ already ∨ a.isVariable = false) := by
      rw [hal]
      constructor
      · rintro ⟨h1, h2, h3⟩ ((h | h) | h)
        · exact h2 ((hS a).mp h).2
        · exact h3 h.2
        · rcases hsig a h1 with h' | h'
          · rw [h'] at h; simp at h
          · rw [h'] at h2; exact h2 fun le ho _ => ho.refl _
      · intro h
        simp only [not_or, Bool.not_eq_false] at h
        refine ⟨hasig, fun h' => h.1.1 ((hS a).mpr ⟨var_ne_static h.2, h'⟩), fun h' => h.1.2 ⟨haI, h'⟩⟩
    unfold finishLoop
    by_cases hsk : a ∈ already ∨ a.isVariable = false
    · rw [if_pos hsk]
      refine ih (done ++ [a]) p s (by rw [← he]; simp) i k r (acts_congr act fun x => ?_)
      have hnf : ¬ c.Free sig a := fun h => hfree.mp h hsk
      by_cases e : x = a
      · subst e; simp [hnf]
      · simp [e]
    · rw [if_neg hsk]
      have hf : c.Free sig a := hfree.mpr hsk
      have hvar : a.isVariable = true := by simp only [not_or, Bool.not_eq_false] at hsk; exact hsk.2
      obtain ⟨r', p', e1, r1, i1, -, k1, s1⟩ := Dsu.findRoot_spec i (k a haI)
      have hr' : r' = ρ a := r1.unique (r a)
      rw [e1]
      simp only [Option.bind_eq_bind, Option.bind_some]
      rw [if_neg (by rw [hr']; exact hcs a hf), hr']
      have hga : (if a ∈ S then Lifetime.static else if a ∈ I ∧ c.ToLocal a then loc a else if a ∈ done ∧ c.Free sig a then ρ a else a) = a := by
        have h1 : a ∉ S := fun h => hf.2.1 ((hS a).mp h).2
        simp [h1, hf.2.2, hnd]
      obtain ⟨s', e2, a2⟩ := acts_add act (ρ a) hvar hga
      rw [e2]
      simp only [Option.bind_some]
      refine ih (done ++ [a]) p' s' (by rw [← he]; simp) i1 (fun x hx => (k1 x).mpr (k x hx)) (fun x => (s1 x _).mpr (r x)) (acts_congr a2 fun x => ?_)
      have hrf := hρf a hf
      have hrS : ρ a ∉ S := fun h => hrf.2.1 ((hS _).mp h).2
      have hgr : (if ρ a ∈ S then Lifetime.static else if ρ a ∈ I ∧ c.ToLocal (ρ a) then loc (ρ a) else if ρ a ∈ done ∧ c.Free sig (ρ a) then ρ (ρ a) else ρ a) = ρ a := by
        simp [hrS, hrf.2.2, hρ]
      simp only [hgr]
      by_cases h1 : x ∈ S
      · simp [h1, (var_ne_static hvar).symm]
      · by_cases h2 : x ∈ I ∧ c.ToLocal x
        · have : loc x ≠ a := by
            intro e
            have := (hlocs x h2.1 h2.2).1
            rw [e, var_not_local hvar] at this; simp at this
          simp [h1, h2, this]
        · by_cases h3 : x ∈ done ∧ c.Free sig x
          · simp only [if_neg h1, if_neg h2, if_pos h3, List.mem_append, h3.1, h3.2, true_or, true_and, if_true]
            by_cases e : ρ x = a
            · rw [if_pos e, ← e, hρ]
            · rw [if_neg e]
          · by_cases e : x = a
            · subst e; simp [h1, h2, hnd, hf]
            · have h3' : ¬ ((x ∈ done ∨ x = a) ∧ c.Free sig x) := by
                rintro ⟨h | h, h'⟩
                · exact h3 ⟨h, h'⟩
                · exact e h
              simp only [if_neg h1, if_neg h2, if_neg h3, if_neg e, List.mem_append, List.mem_singleton, if_neg h3']

theorem makeSets_spec (ls : List Lifetime) : ∀ p : Dsu.Parents, (∀ x q, AMap.get? p x = some q → q = x) →
    (∀ x q, AMap.get? (ls.foldl Dsu.makeSet p) x = some q → q = x) ∧ (∀ x, x ∈ AMap.keys (ls.foldl Dsu.makeSet p) ↔ x ∈ AMap.keys p ∨ x ∈ ls) := by
  induction ls with
  | nil => intro p h; exact ⟨h, by simp⟩
  | cons l ls ih =>
    intro p h
    have h' : ∀ x q, AMap.get? (Dsu.makeSet p l) x = some q → q = x := by
      intro x q hq
      unfold Dsu.makeSet at hq
      rw [AMap.get?_insert] at hq
      by_cases e : l = x
      · rw [if_pos e, Option.some.injEq] at hq; rw [← hq, e]
      · rw [if_neg e] at hq; exact h x q hq
    obtain ⟨h1, h2⟩ := ih _ h'
    refine ⟨h1, fun x => ?_⟩
    rw [List.foldl_cons, h2]
    unfold Dsu.makeSet
    rw [AMap.keys_insert_mem, List.mem_cons]
    constructor
    · rintro ((h | h) | h) <;> simp [h]
    · rintro (h | h | h) <;> simp [h]

/-- C49: applying constraints to a signature whose lifetimes are variables or 'static, whatever order hash sets are iterated
in. The call returns. It fails iff the constraints imply that a local outlives 'static. Otherwise every occurrence of a
lifetime `a` is replaced by `σ a`, where: `σ a` is 'static iff the constraints imply that `a` outlives 'static; `σ a` is a
local iff `a` is outlived by a local (and then it is such a local); any other lifetime is replaced by a variable of the
signature of the same kind, and two of them become equal iff implied constraints link them. -/
theorem apply_spec (ord : List Lifetime → List Lifetime) (hord : ∀ l, (ord l).Perm l) (c : Constraints) (hv : c.Valid)
    (sig : List Lifetime) (hsig : SigOk sig) :
    (c.ToLocal .static ∧ c.applyTo ord sig = some none) ∨
    (¬ c.ToLocal .static ∧ ∃ σ : Lifetime → Lifetime, c.applyTo ord sig = some (some (sig.map σ)) ∧
      (∀ a ∈ sig, σ a = .static ↔ c.Implies .static a) ∧
      (∀ a ∈ sig, ((σ a).isLocal = true ↔ c.ToLocal a) ∧ ((σ a).isLocal = true → c.Implies a (σ a))) ∧
      (∀ a, c.Free sig a → c.Free sig (σ a) ∧ (σ a).isVariable = true ∧ c.Linked sig a (σ a)) ∧
      (∀ a b, c.Free sig a → c.Free sig b → (σ a = σ b ↔ c.Linked sig a b))) := by
  classical
  obtain ⟨S0, hS0, hS0n, hS0m⟩ := outliving_exact c .static
  have hSp : (ord S0).Perm S0 := hord S0
  have hS : ∀ x, x ∈ ord S0 ↔ x ≠ .static ∧ c.Implies .static x := fun x => by rw [hSp.mem_iff, hS0m]
  have hSn : (ord S0).Nodup := hSp.nodup_iff.mpr hS0n
  have hSv : ∀ l ∈ ord S0, l.isVariable = true ∨ l.isLocal = true := by
    intro l hl
    obtain ⟨h1, h2⟩ := (hS l).mp hl
    rcases c.below_valid hv ((c.implies_iff _ _).mp h2) with h | h | h | h
    · exact absurd h.symm h1
    · exact Or.inl h
    · exact Or.inr h
    · exact absurd h h1
  have hI : ∀ x, x ∈ ord (setInsertAll [] sig).1 ↔ x ∈ sig := by
    intro x; rw [(hord _).mem_iff, mem_setInsertAll]; simp
  have hIn : (ord (setInsertAll [] sig).1).Nodup := (hord _).nodup_iff.mpr (nodup_setInsertAll _ List.nodup_nil)
  have hstS : Lifetime.static ∉ ord S0 := by rw [hS]; simp
  unfold Constraints.applyTo
  rw [hS0]
  simp only [Option.bind_eq_bind, Option.bind_some]
  rcases staticLoop_spec (ord := ord) (ord S0) hSn hstS hSv (ord S0) [] .empty (by simp) (acts_congr acts_empty (by simp)) (by simp) with
    ⟨⟨l, hl, hll⟩, e⟩ | ⟨hnl, s1, e, a1⟩
  · left
    refine ⟨⟨l, hll, ((hS l).mp hl).2⟩, ?_⟩
    rw [e]; rfl
  · right
    have hno : ¬ c.ToLocal .static := by
      rintro ⟨l, hll, hl⟩
      have := hnl l ((hS l).mpr ⟨local_ne_static hll, hl⟩)
      rw [hll] at this; simp at this
    refine ⟨hno, ?_⟩
    rw [e]
    simp only [Option.bind_some]
    generalize hIe : ord (setInsertAll [] sig).1 = I at hI hIn ⊢
    obtain ⟨m1, m2⟩ := makeSets_spec I (Dsu.makeSet [] .static) (by
      intro x q hq
      simp only [Dsu.makeSet, AMap.insert, AMap.get?] at hq
      split at hq
      · rename_i e; simp only [Option.some.injEq] at hq; rw [← hq, e]
      · simp at hq)
    have hup : ∀ x, Dsu.up (I.foldl Dsu.makeSet (Dsu.makeSet [] .static)) x = none := by
      intro x
      unfold Dsu.up
      split
      · rfl
      · rename_i q hq
        rw [if_pos (m1 x q hq)]
    have hroot0 : ∀ x, Dsu.Root (I.foldl Dsu.makeSet (Dsu.makeSet [] .static)) x x := fun x => ⟨0, .stop (hup x)⟩
    have minv0 : MergeInv c sig (ord S0) [] (I.foldl Dsu.makeSet (Dsu.makeSet [] .static)) s1 (ord S0) id := by
      refine ⟨acts_congr a1 (by simp), by simp, by simp, ⟨fun x => ⟨x, hroot0 x⟩, fun l q h => ?_⟩, fun x => ?_, fun x y => ?_⟩
      · rw [m1 l q h]; exact (AMap.mem_keys_iff _ _).mpr ⟨q, h⟩
      · rw [m2, hI]; simp [Dsu.makeSet, AMap.insert, AMap.keys]
      · constructor
        · rintro ⟨r, h1, h2⟩
          rw [h1.unique (hroot0 x)] at h2
          rw [h2.unique (hroot0 y)]
          exact .refl _
        · intro h
          have : x = y := by
            induction h with
            | rel _ _ h => simp at h
            | refl => rfl
            | symm _ _ _ ih => exact ih.symm
            | trans _ _ _ _ _ ih1 ih2 => exact ih1.trans ih2
          rw [this]; exact ⟨y, hroot0 y, hroot0 y⟩
    obtain ⟨p2, s2, al2, loc, e2, m⟩ := mergeLoop_spec hord hsig hI hIn hS hno I [] _ _ _ _ (by simp) minv0
    rw [e2]
    simp only [Option.bind_some]
    obtain ⟨cs, p3, e3, rcs, i3, -, k3, s3⟩ := Dsu.findRoot_spec m.inv ((m.keys .static).mpr (Or.inl rfl))
    rw [e3]
    simp only [Option.bind_some]
    have hsame : ∀ x y, Dsu.Same p2 x y ↔ c.Linked sig x y := by
      intro x y
      rw [m.same]
      constructor
      · exact eqv_mono fun _ _ h => h.2
      · exact eqv_mono fun _ _ h => ⟨(hI _).mpr h.1.1, h⟩
    have hex : ∀ x, ∃ r, Dsu.Root p2 x r := m.inv.ends
    let ρ : Lifetime → Lifetime := fun x => Classical.choose (hex x)
    have hρ : ∀ x, Dsu.Root p2 x (ρ x) := fun x => Classical.choose_spec (hex x)
    have hρl : ∀ x, c.Linked sig x (ρ x) := fun x => (hsame _ _).mp ⟨ρ x, hρ x, ⟨0, .stop (hρ x).self⟩⟩
    have hρρ : ∀ x, ρ (ρ x) = ρ x := fun x => (hρ (ρ x)).unique ⟨0, .stop (hρ x).self⟩
    have hstf : ¬ c.Free sig .static := fun h => h.2.1 fun le ho _ => ho.refl _
    have hρf : ∀ a, c.Free sig a → c.Free sig (ρ a) := by
      intro a ha
      rcases linked_free (hρl a) with h | h
      · rw [← h]; exact ha
      · exact h.2
    have hcs : ∀ a, c.Free sig a → ρ a ≠ cs := by
      intro a ha e
      have : c.Linked sig a .static := (hsame _ _).mp ⟨cs, e ▸ hρ a, rcs⟩
      rcases linked_free this with h | h
      · exact hstf (h ▸ ha)
      · exact hstf h.2
    obtain ⟨s4, e4, a4⟩ := finishLoop_spec hsig hI hIn hS m.have' ρ loc m.locs hcs hρρ hρf I [] p3 s2 (by simp) i3
      (fun x hx => (k3 x).mpr ((m.keys x).mpr (Or.inr ((hI x).mp hx)))) (fun x => (s3 x _).mpr (hρ x)) (acts_congr m.acts (by simp))
    rw [e4]
    simp only [Option.bind_some]
    refine ⟨fun x => if x ∈ ord S0 then .static else if x ∈ I ∧ c.ToLocal x then loc x else if x ∈ I ∧ c.Free sig x then ρ x else x, ?_, ?_, ?_, ?_, ?_⟩
    · have : sig.mapM s4.substitute = some (sig.map fun x => if x ∈ ord S0 then .static else if x ∈ I ∧ c.ToLocal x then loc x else if x ∈ I ∧ c.Free sig x then ρ x else x) := by
        rw [show s4.substitute = fun x => some _ from funext a4.2]
        exact List.mapM_pure
      rw [this]; rfl
    · intro a ha
      have haI := (hI a).mpr ha
      constructor
      · intro h
        by_cases h1 : a ∈ ord S0
        · exact ((hS a).mp h1).2
        · simp only [if_neg h1] at h
          by_cases h2 : a ∈ I ∧ c.ToLocal a
          · rw [if_pos h2] at h
            exact absurd h (local_ne_static (m.locs a h2.1 h2.2).1)
          · rw [if_neg h2] at h
            by_cases h3 : a ∈ I ∧ c.Free sig a
            · rw [if_pos h3] at h
              exact absurd (h ▸ hρf a h3.2) hstf
            · rw [if_neg h3] at h; rw [h]; exact fun le ho _ => ho.refl _
      · intro h
        by_cases e : a = .static
        · subst e
          simp [hstS, hno, hstf]
        · simp [(hS a).mpr ⟨e, h⟩]
    · intro a ha
      have haI := (hI a).mpr ha
      have hnl : a.isLocal = false := (hsig a ha).elim var_not_local fun e => e ▸ static_not_local
      by_cases h1 : a ∈ ord S0
      · have : ¬ c.ToLocal a := by
          rintro ⟨l, hl, hal⟩
          exact hno ⟨l, hl, fun le ho hh => ho.trans _ _ _ (((hS a).mp h1).2 le ho hh) (hal le ho hh)⟩
        simp [h1, this, static_not_local]
      · by_cases h2 : c.ToLocal a
        · have := m.locs a haI h2
          simp [h1, h2, haI, this]
        · by_cases h3 : c.Free sig a
          · have hρs := hρf a h3
            have : (ρ a).isLocal = false := (hsig _ hρs.1).elim var_not_local fun e => by rw [e]; exact static_not_local
            simp [h1, h2, h3, haI, this]
          · simp [h1, h2, h3, hnl]
    · intro a ha
      have haI := (hI a).mpr ha.1
      have h1 : a ∉ ord S0 := fun h => ha.2.1 ((hS a).mp h).2
      have hval : (if a ∈ ord S0 then Lifetime.static else if a ∈ I ∧ c.ToLocal a then loc a else if a ∈ I ∧ c.Free sig a then ρ a else a) = ρ a := by
        simp [h1, ha.2.2, haI, ha]
      simp only [hval]
      have hf := hρf a ha
      refine ⟨hf, (hsig _ hf.1).resolve_right fun e => hstf (e ▸ hf), hρl a⟩
    · intro a b ha hb
      have hval : ∀ a, c.Free sig a → (if a ∈ ord S0 then Lifetime.static else if a ∈ I ∧ c.ToLocal a then loc a else if a ∈ I ∧ c.Free sig a then ρ a else a) = ρ a := by
        intro a ha
        have h1 : a ∉ ord S0 := fun h => ha.2.1 ((hS a).mp h).2
        simp [h1, ha.2.2, (hI a).mpr ha.1, ha]
      simp only [hval a ha, hval b hb]
      rw [← hsame]
      constructor
      · intro e; exact ⟨ρ a, hρ a, e ▸ hρ b⟩
      · rintro ⟨r, h1, h2⟩; rw [(hρ a).unique h1, (hρ b).unique h2]

/-- C49: soundness. After a successful application every implied constraint between lifetimes of the signature is met:
the two are equal, or the longer one is 'static, or the shorter one is a local. -/
theorem apply_sound (ord : List Lifetime → List Lifetime) (hord : ∀ l, (ord l).Perm l) (c : Constraints) (hv : c.Valid)
    (sig out : List Lifetime) (hsig : SigOk sig) (h : c.applyTo ord sig = some (some out)) :
    ∃ σ : Lifetime → Lifetime, out = sig.map σ ∧
      ∀ a ∈ sig, ∀ b ∈ sig, c.Implies a b → σ a = σ b ∨ σ b = .static ∨ (σ a).isLocal = true := by
  rcases apply_spec ord hord c hv sig hsig with ⟨-, e⟩ | ⟨-, σ, e, h1, h2, h3, h4⟩
  · rw [e] at h; simp at h
  · rw [e] at h
    simp only [Option.some.injEq] at h
    refine ⟨σ, h.symm, fun a ha b hb hab => ?_⟩
    have tr : ∀ {x y z}, c.Implies x y → c.Implies y z → c.Implies x z :=
      fun h1 h2 le ho hh => ho.trans _ _ _ (h1 le ho hh) (h2 le ho hh)
    by_cases hs : c.Implies .static b
    · exact Or.inr (Or.inl ((h1 b hb).mpr hs))
    · by_cases hl : c.ToLocal a
      · exact Or.inr (Or.inr ((h2 a ha).1.mpr hl))
      · have fa : c.Free sig a := ⟨ha, fun h => hs (tr h hab), hl⟩
        have fb : c.Free sig b := ⟨hb, hs, fun ⟨l, h, h'⟩ => hl ⟨l, h, tr hab h'⟩⟩
        exact Or.inl ((h4 a b fa fb).mpr (.rel _ _ ⟨fa, fb, hab⟩))

/-- C49: the result does not depend on the iteration orders, up to the choice of representatives: 'static, being a local,
and being equal are the same in both results. -/
theorem apply_order_independent (ord ord' : List Lifetime → List Lifetime) (hord : ∀ l, (ord l).Perm l) (hord' : ∀ l, (ord' l).Perm l)
    (c : Constraints) (hv : c.Valid) (sig : List Lifetime) (hsig : SigOk sig) :
    (c.applyTo ord sig = some none ↔ c.applyTo ord' sig = some none) ∧
    ∀ out, c.applyTo ord sig = some (some out) → ∃ out', c.applyTo ord' sig = some (some out') ∧ out.length = out'.length ∧
      ∀ i (hi : i < out.length) (hi' : i < out'.length), (out[i] = .static ↔ out'[i] = .static) ∧ (out[i].isLocal = out'[i].isLocal) ∧
        ∀ j (hj : j < out.length) (hj' : j < out'.length), out[i].isVariable = true → out[j].isVariable = true → (out[i] = out[j] ↔ out'[i] = out'[j]) := by
  rcases apply_spec ord hord c hv sig hsig with ⟨hl, e⟩ | ⟨hl, σ, e, h1, h2, h3, h4⟩ <;>
    rcases apply_spec ord' hord' c hv sig hsig with ⟨hl', e'⟩ | ⟨hl', σ', e', g1, g2, g3, g4⟩
  · simp [e, e']
  · exact absurd hl hl'
  · exact absurd hl' hl
  · refine ⟨by simp [e, e'], fun out ho => ?_⟩
    rw [e] at ho
    simp only [Option.some.injEq] at ho
    subst ho
    refine ⟨_, e', by simp, fun i hi hi' => ?_⟩
    simp only [List.length_map] at hi hi'
    have hloc : ∀ a ∈ sig, (σ a).isLocal = (σ' a).isLocal := fun a ha => by
      rw [Bool.eq_iff_iff, (h2 a ha).1, (g2 a ha).1]
    have hfree : ∀ a ∈ sig, (σ a).isVariable = true → c.Free sig a := by
      intro a ha hvar
      refine ⟨ha, fun h => ?_, fun h => ?_⟩
      · have := (h1 a ha).mpr h
        rw [this, static_not_var] at hvar; simp at hvar
      · have := (h2 a ha).1.mpr h
        rw [var_not_local hvar] at this; simp at this
    simp only [List.getElem_map]
    refine ⟨by rw [h1 _ (List.getElem_mem hi), g1 _ (List.getElem_mem hi)], hloc _ (List.getElem_mem hi), fun j hj hj' hvi hvj => ?_⟩
    simp only [List.length_map] at hj
    have fi := hfree _ (List.getElem_mem hi) hvi
    have fj := hfree _ (List.getElem_mem hj) hvj
    rw [h4 _ _ fi fj, g4 _ _ fi fj]

/-- Non-vacuity: constraints and a signature with all cases: a lifetime forced to 'static, one outlived by a local, two
linked through a third. -/
example : ∃ c : Constraints, c.Valid ∧ ∃ sig, SigOk sig ∧ c.applyTo id sig = some (some [.static, ⟨-5⟩, ⟨4⟩, ⟨4⟩, ⟨4⟩, .static, ⟨9⟩]) := by
  refine ⟨[(.static, ⟨2⟩), (⟨3⟩, ⟨-5⟩), (⟨4⟩, ⟨5⟩), (⟨4⟩, ⟨6⟩)], ?_, [⟨2⟩, ⟨3⟩, ⟨4⟩, ⟨5⟩, ⟨6⟩, .static, ⟨9⟩], ?_, by decide⟩
  · unfold Constraints.Valid; decide
  · unfold SigOk; decide

/-- Non-vacuity: the error. -/
example : Constraints.applyTo id [(.static, ⟨2⟩), (⟨2⟩, ⟨-5⟩)] [⟨2⟩] = some none := by decide

end Verif.Lifetimes

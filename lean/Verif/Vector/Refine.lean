import Verif.Vector.Mid
/-
C64-C67: programs with memory do what the specification says.
-/
namespace Verif.Vector
open Verif

/-- The value of a name, in memory and in the specification. -/
def SameObj (m : Mem) : Option Obj → Option AObj → Prop
  | some o, some p => IsObj m o p
  | none, none => True
  | _, _ => False

/-- All names are old and used once. -/
def Names {α : Type} (objs : List (Nat × α)) (next : Nat) : Prop := (AMap.keys objs).Nodup ∧ ∀ x ∈ AMap.keys objs, x < next

theorem Names.insert {α : Type} {objs : List (Nat × α)} {next x : Nat} (h : Names objs next) {o : α} (hx : AMap.get? objs x = some o) (v : α) :
    Names (AMap.insert objs x v) next := by
  refine ⟨AMap.nodup_insert _ _ _ h.1, fun y hy => ?_⟩
  rw [AMap.keys_insert_mem] at hy
  rcases hy with rfl | hy
  · exact h.2 y ((AMap.mem_keys_iff _ _).2 ⟨o, hx⟩)
  · exact h.2 y hy

theorem Names.add {α : Type} {objs : List (Nat × α)} {next : Nat} (h : Names objs next) (v : α) : Names ((next, v) :: objs) (next + 1) := by
  refine ⟨?_, fun y hy => ?_⟩
  · simp only [AMap.keys, List.map_cons, List.nodup_cons]
    refine ⟨fun hm => ?_, h.1⟩
    exact absurd (h.2 next hm) (by omega)
  · simp only [AMap.keys, List.map_cons, List.mem_cons] at hy
    rcases hy with rfl | hy
    · omega
    · have := h.2 y hy; omega

theorem Names.erase {α : Type} {objs : List (Nat × α)} {next : Nat} (h : Names objs next) (x : Nat) : Names (AMap.erase objs x) next := by
  refine ⟨AMap.nodup_erase _ _ h.1, fun y hy => ?_⟩
  rw [AMap.keys_erase] at hy
  exact h.2 y (List.mem_of_mem_erase hy)

theorem Names.fresh {α : Type} {objs : List (Nat × α)} {next x : Nat} (h : Names objs next) (hx : next ≤ x) : AMap.get? objs x = none := by
  rw [AMap.get?_eq_none_iff]
  intro hm
  have := h.2 x hm; omega

/-- A state of memory that represents a state of the specification. -/
structure Rel (s : State) (a : AState) : Prop where
  w : s.mem.w = a.w
  next : s.next = a.next
  wf : s.mem.Wf
  names : Names s.objs s.next
  anames : Names a.objs a.next
  obj : ∀ x, SameObj s.mem (AMap.get? s.objs x) (AMap.get? a.objs x)
  unique : ∀ x y o p, x ≠ y → AMap.get? s.objs x = some o → AMap.get? s.objs y = some p → ∀ b ∈ o.buf, b ∉ p.buf
  owned : ∀ b, s.mem.heap b ≠ none → ∃ x o, AMap.get? s.objs x = some o ∧ b ∈ o.buf

theorem Rel.vec {s : State} {a : AState} (h : Rel s a) {x : Nat} {es : List Nat} {cap : Nat} (hx : a.vec x = some (es, cap)) :
    ∃ v c, s.vec x = some v ∧ AMap.get? s.objs x = some (.vec v) ∧ AMap.get? a.objs x = some (.vec es cap c) ∧ IsVector s.mem v es cap c := by
  have h1 := h.obj x
  unfold AState.vec at hx
  split at hx
  · next c he =>
    simp only [Option.some.injEq, Prod.mk.injEq] at hx
    obtain ⟨rfl, rfl⟩ := hx
    rw [he] at h1
    cases hg : AMap.get? s.objs x with
    | none => rw [hg] at h1; exact h1.elim
    | some o =>
      rw [hg] at h1
      cases o with
      | vec v => exact ⟨v, c, by simp [State.vec, hg], rfl, he, h1⟩
      | iter => exact h1.elim
      | rvec => exact h1.elim
  · simp at hx

theorem Rel.rvec {s : State} {a : AState} (h : Rel s a) {x : Nat} {es : List Nat} (hx : a.rvec x = some es) :
    s.rvec x = some es ∧ AMap.get? s.objs x = some (.rvec es) ∧ AMap.get? a.objs x = some (.rvec es) := by
  have h1 := h.obj x
  unfold AState.rvec at hx
  split at hx
  · next he =>
    simp only [Option.some.injEq] at hx
    subst hx
    rw [he] at h1
    cases hg : AMap.get? s.objs x with
    | none => rw [hg] at h1; exact h1.elim
    | some o =>
      rw [hg] at h1
      cases o with
      | rvec v =>
        have : v = _ := h1
        subst this
        exact ⟨by simp [State.rvec, hg], rfl, he⟩
      | iter => exact h1.elim
      | vec => exact h1.elim
  · simp at hx

theorem Rel.iter {s : State} {a : AState} (h : Rel s a) {x : Nat} {es : List Nat} (hx : a.iter x = some es) :
    ∃ it, s.iter x = some it ∧ AMap.get? s.objs x = some (.iter it) ∧ AMap.get? a.objs x = some (.iter es) ∧ IsIter s.mem it es := by
  have h1 := h.obj x
  unfold AState.iter at hx
  split at hx
  · next he =>
    simp only [Option.some.injEq] at hx
    subst hx
    rw [he] at h1
    cases hg : AMap.get? s.objs x with
    | none => rw [hg] at h1; exact h1.elim
    | some o =>
      rw [hg] at h1
      cases o with
      | iter it => exact ⟨it, by simp [State.iter, hg], rfl, he, h1⟩
      | vec => exact h1.elim
      | rvec => exact h1.elim
  · simp at hx

theorem Frame.obj {m m' : Mem} {L L' : List Nat} (h : Frame m m' L L') {o : Obj} {p : AObj} (hd : ∀ b ∈ o.buf, b ∉ L) (ho : IsObj m o p) :
    IsObj m' o p ∧ ∀ b ∈ o.buf, b ∉ L' := by
  cases o with
  | vec v =>
    cases p with
    | vec es cap c => exact h.vector hd ho
    | iter => exact ho.elim
    | rvec => exact ho.elim
  | iter it =>
    cases p with
    | iter es =>
      obtain ⟨h1, h2⟩ := ho
      rcases h2 with h2 | ⟨b, hb, hr⟩
      · refine ⟨⟨h1, Or.inl h2⟩, ?_⟩
        simp [Obj.buf, h2.2.2, Ptr.buf]
      · simp only [Obj.buf, hb, Ptr.buf, List.mem_singleton, forall_eq] at hd ⊢
        obtain ⟨h3, h4⟩ := h.region hd hr
        exact ⟨⟨h1, Or.inr ⟨b, hb, h3⟩⟩, h4⟩
    | vec => exact ho.elim
    | rvec => exact ho.elim
  | rvec es =>
    cases p with
    | rvec fs => exact ⟨ho, by simp [Obj.buf]⟩
    | vec => exact ho.elim
    | iter => exact ho.elim

/-- The names in `X` change. -/
theorem step_rel {s s' : State} {a a' : AState} (h : Rel s a) (X L L' : List Nat) (hf : Frame s.mem s'.mem L L')
    (hL1 : ∀ b ∈ L, ∃ x ∈ X, ∃ o, AMap.get? s.objs x = some o ∧ b ∈ o.buf)
    (hL2 : ∀ x ∈ X, ∀ o, AMap.get? s.objs x = some o → ∀ b ∈ o.buf, b ∈ L)
    (hL3 : ∀ b ∈ L', ∃ x ∈ X, ∃ o, AMap.get? s'.objs x = some o ∧ b ∈ o.buf)
    (hL4 : ∀ x ∈ X, ∀ o, AMap.get? s'.objs x = some o → ∀ b ∈ o.buf, b ∈ L')
    (hun : ∀ x ∈ X, ∀ y ∈ X, ∀ o p, x ≠ y → AMap.get? s'.objs x = some o → AMap.get? s'.objs y = some p → ∀ b ∈ o.buf, b ∉ p.buf)
    (hobj : ∀ x ∈ X, SameObj s'.mem (AMap.get? s'.objs x) (AMap.get? a'.objs x))
    (hsame : ∀ x, x ∉ X → AMap.get? s'.objs x = AMap.get? s.objs x ∧ AMap.get? a'.objs x = AMap.get? a.objs x)
    (hw : s'.mem.w = a'.w) (hnext : s'.next = a'.next) (hnames : Names s'.objs s'.next) (hanames : Names a'.objs a'.next) : Rel s' a' := by
  have hout : ∀ x o, x ∉ X → AMap.get? s.objs x = some o → (∀ b ∈ o.buf, b ∉ L) := by
    intro x o hx ho b hb hbL
    obtain ⟨y, hy, p, hp, hbp⟩ := hL1 b hbL
    exact h.unique x y o p (by rintro rfl; exact hx hy) ho hp b hb hbp
  have hobj' : ∀ x o, x ∉ X → AMap.get? s.objs x = some o → (∀ b ∈ o.buf, b ∉ L') ∧ SameObj s'.mem (some o) (AMap.get? a.objs x) := by
    intro x o hx ho
    have h1 := h.obj x
    rw [ho] at h1
    cases hp : AMap.get? a.objs x with
    | none => rw [hp] at h1; exact h1.elim
    | some p =>
      rw [hp] at h1
      obtain ⟨h2, h3⟩ := hf.obj (hout x o hx ho) h1
      exact ⟨h3, h2⟩
  refine ⟨hw, hnext, hf.2 h.wf, hnames, hanames, fun x => ?_, ?_, fun b hb => ?_⟩
  · by_cases hx : x ∈ X
    · exact hobj x hx
    · obtain ⟨h1, h2⟩ := hsame x hx
      rw [h1, h2]
      cases ho : AMap.get? s.objs x with
      | none =>
        have := h.obj x
        rw [ho] at this
        cases hp : AMap.get? a.objs x with
        | none => trivial
        | some p => rw [hp] at this; exact this.elim
      | some o => exact (hobj' x o hx ho).2
  · intro x y o p hxy ho hp b hb hbp
    by_cases hx : x ∈ X
    · by_cases hy : y ∈ X
      · exact hun x hx y hy o p hxy ho hp b hb hbp
      · rw [(hsame y hy).1] at hp
        exact (hobj' y p hy hp).1 b hbp (hL4 x hx o ho b hb)
    · rw [(hsame x hx).1] at ho
      by_cases hy : y ∈ X
      · exact (hobj' x o hx ho).1 b hb (hL4 y hy p hp b hbp)
      · rw [(hsame y hy).1] at hp
        exact h.unique x y o p hxy ho hp b hb hbp
  · by_cases hbL : b ∈ L'
    · obtain ⟨x, -, o, ho, hbo⟩ := hL3 b hbL
      exact ⟨x, o, ho, hbo⟩
    · have := hf.1 b
      unfold rest at this
      rw [if_neg hbL] at this
      by_cases hb2 : b ∈ L
      · rw [if_pos hb2] at this; exact absurd this hb
      · rw [if_neg hb2] at this
        rw [this] at hb
        obtain ⟨x, o, ho, hbo⟩ := h.owned b hb
        have hx : x ∉ X := fun hx => hb2 (hL2 x hx o ho b hbo)
        exact ⟨x, o, by rw [(hsame x hx).1, ho], hbo⟩

/-- One value changes. -/
theorem Rel.put {s : State} {a : AState} (h : Rel s a) {x : Nat} {o o' : Obj} {p p' : AObj} {m' : Mem} {w' : World} (ho : AMap.get? s.objs x = some o)
    (hp : AMap.get? a.objs x = some p) (hf : Frame s.mem m' o.buf o'.buf) (hi : IsObj m' o' p') (hw : m'.w = w') (lk : List Nat) :
    Rel { s with mem := m', objs := AMap.insert s.objs x o' } { a with w := w', leaked := lk, objs := AMap.insert a.objs x p' } := by
  refine step_rel h [x] o.buf o'.buf hf ?_ ?_ ?_ ?_ ?_ ?_ ?_ hw h.next (h.names.insert ho _) (h.anames.insert hp _)
  · exact fun b hb => ⟨x, by simp, o, ho, hb⟩
  · intro y hy o2 ho2; simp only [List.mem_singleton] at hy; subst hy; rw [ho] at ho2; cases ho2; exact fun b hb => hb
  · exact fun b hb => ⟨x, by simp, o', AMap.get?_insert_self _ _ _, hb⟩
  · intro y hy o2 ho2; simp only [List.mem_singleton] at hy; subst hy; simp only [AMap.get?_insert_self] at ho2; cases ho2; exact fun b hb => hb
  · intro y hy z hz; simp only [List.mem_singleton] at hy hz; subst hy; subst hz; intro _ _ hne; exact absurd rfl hne
  · intro y hy; simp only [List.mem_singleton] at hy; subst hy; simp only [AMap.get?_insert_self]; exact hi
  · intro y hy; simp only [List.mem_singleton] at hy
    exact ⟨AMap.get?_insert_ne _ _ (fun e => hy e.symm), AMap.get?_insert_ne _ _ (fun e => hy e.symm)⟩

/-- A new value. -/
theorem Rel.add {s : State} {a : AState} (h : Rel s a) {o' : Obj} {p' : AObj} {m' : Mem} {w' : World} (hf : Frame s.mem m' [] o'.buf)
    (hi : IsObj m' o' p') (hw : m'.w = w') :
    Rel { s with mem := m', next := s.next + 1, objs := (s.next, o') :: s.objs } { a with w := w', next := a.next + 1, objs := (a.next, p') :: a.objs } := by
  have g : ∀ {α : Type} (k : Nat) (v : α) (l : List (Nat × α)), AMap.get? ((k, v) :: l) k = some v := by intros; simp [AMap.get?]
  refine step_rel h [s.next] [] o'.buf hf (by simp) ?_ ?_ ?_ ?_ ?_ ?_ hw (by simp [h.next]) (h.names.add _) (h.anames.add _)
  · intro y hy o2 ho2; simp only [List.mem_singleton] at hy; subst hy; rw [h.names.fresh (Nat.le_refl _)] at ho2; cases ho2
  · exact fun b hb => ⟨s.next, by simp, o', g _ _ _, hb⟩
  · intro y hy o2 ho2; simp only [List.mem_singleton] at hy; subst hy; simp only [g] at ho2; cases ho2; exact fun b hb => hb
  · intro y hy z hz; simp only [List.mem_singleton] at hy hz; subst hy; subst hz; intro _ _ hne; exact absurd rfl hne
  · intro y hy; simp only [List.mem_singleton] at hy; subst hy; simp only [g]; rw [h.next]; simp only [g]; exact hi
  · intro y hy; simp only [List.mem_singleton] at hy
    have h2 : a.next ≠ y := by rw [← h.next]; exact fun e => hy e.symm
    exact ⟨by simp only [AMap.get?]; rw [if_neg (fun e => hy e.symm)], by simp only [AMap.get?]; rw [if_neg h2]⟩

/-- A value is gone. -/
theorem Rel.erase {s : State} {a : AState} (h : Rel s a) {x : Nat} {o : Obj} {m' : Mem} {w' : World} (ho : AMap.get? s.objs x = some o)
    (hf : Frame s.mem m' o.buf []) (hw : m'.w = w') :
    Rel { s with mem := m', objs := AMap.erase s.objs x } { a with w := w', objs := AMap.erase a.objs x } := by
  have g1 := fun y => AMap.get?_erase s.objs x y h.names.1
  have g2 := fun y => AMap.get?_erase a.objs x y h.anames.1
  refine step_rel h [x] o.buf [] hf ?_ ?_ (by simp) ?_ ?_ ?_ ?_ hw h.next (h.names.erase _) (h.anames.erase _)
  · exact fun b hb => ⟨x, by simp, o, ho, hb⟩
  · intro y hy o2 ho2; simp only [List.mem_singleton] at hy; subst hy; rw [ho] at ho2; cases ho2; exact fun b hb => hb
  · intro y hy o2 ho2; simp only [List.mem_singleton] at hy; subst hy; simp [g1] at ho2
  · intro y hy z hz; simp only [List.mem_singleton] at hy hz; subst hy; subst hz; intro _ _ hne; exact absurd rfl hne
  · intro y hy; simp only [List.mem_singleton] at hy; subst hy; simp [g1, g2, SameObj]
  · intro y hy; simp only [List.mem_singleton] at hy
    have h2 : x ≠ y := fun e => hy e.symm
    simp [g1, g2, h2]

theorem Rel.world {s : State} {a : AState} (h : Rel s a) (w' : World) :
    Rel { s with mem := { s.mem with w := w' } } { a with w := w' } := by
  refine step_rel h [] [] [] (.same _ rfl rfl) (by simp) (by simp) (by simp) (by simp) (by simp) (by simp) (fun x _ => ⟨rfl, rfl⟩) rfl h.next
    h.names h.anames

theorem exec_refines {s : State} {a a' : AState} (h : Rel s a) (op : Op) (hs : op.spec a = some a') : ∃ s', exec s op = some s' ∧ Rel s' a' := by
  cases op with
  | make =>
    simp only [Op.spec, Option.some.injEq] at hs
    subst hs
    refine ⟨_, rfl, ?_⟩
    rw [h.w]; exact h.world _
  | dropElem e =>
    simp only [Op.spec, Option.bind_eq_bind] at hs
    cases ht : a.w.take [e] with
    | none => rw [ht] at hs; simp at hs
    | some w =>
      rw [ht] at hs
      simp only [Option.bind_some, Option.pure_def, Option.some.injEq] at hs
      subst hs
      refine ⟨{ s with mem := { s.mem with w := w.drop e } }, ?_, h.world _⟩
      simp only [exec, h.w, ht, Option.bind_eq_bind, Option.bind_some, Option.pure_def]
  | new =>
    simp only [Op.spec, Option.some.injEq] at hs
    subst hs
    refine ⟨_, rfl, ?_⟩
    have := h.add (o' := .vec .new) (p' := .vec [] 0 true) (m' := s.mem) (w' := a.w) (.refl _ _) (Or.inl ⟨rfl, rfl, rfl⟩) h.w
    exact this
  | mutate x ps panics =>
    simp only [Op.spec, Option.bind_eq_bind] at hs
    cases hv : a.vec x with
    | none => rw [hv] at hs; simp at hs
    | some ec =>
      obtain ⟨es, cap⟩ := ec
      rw [hv] at hs
      simp only [Option.bind_some] at hs
      obtain ⟨v, c, g1, g2, g3, hi⟩ := h.vec hv
      cases hp : specPrims a.w es cap ps with
      | none => rw [hp] at hs; simp at hs
      | some t =>
        obtain ⟨w, fs, c'⟩ := t
        rw [hp] at hs
        simp only [Option.bind_some] at hs
        rw [← h.w] at hp
        cases panics with
        | false =>
          simp only [Bool.false_eq_true, if_false, Option.pure_def, Option.some.injEq] at hs
          subst hs
          obtain ⟨m', v', r1, r2, r3, r4⟩ := mutate_refines hi h.wf ps hp
          refine ⟨{ s with mem := m', objs := AMap.insert s.objs x (.vec v') }, ?_, ?_⟩
          · simp only [exec, g1, r1, Option.bind_eq_bind, Option.bind_some, Option.pure_def]
          · exact h.put g2 g3 (o' := .vec v') (p' := .vec fs c' true) r4 r3 r2 a.leaked
        | true =>
          simp only [if_true] at hs
          split at hs
          · next hall =>
            simp only [Option.pure_def, Option.some.injEq] at hs
            subst hs
            obtain ⟨m', r1, r2, r3, r4⟩ := mutate_panics hi h.wf ps hp hall
            refine ⟨{ s with mem := m', objs := AMap.insert s.objs x (.vec v) }, ?_, ?_⟩
            · simp only [exec, g1, r1, Option.bind_eq_bind, Option.bind_some, Option.pure_def]
            · exact h.put g2 g3 (o' := .vec v) (p' := .vec (fs.take es.length) cap false) r4 r3 r2 (fs.drop es.length ++ a.leaked)
          · simp at hs
  | append x y cap' =>
    simp only [Op.spec, Option.bind_eq_bind] at hs
    cases hv : a.vec x with
    | none => rw [hv] at hs; simp at hs
    | some ec =>
      obtain ⟨es, cap⟩ := ec
      cases hu : a.vec y with
      | none => rw [hv, hu] at hs; simp at hs
      | some fd =>
        obtain ⟨fs, d⟩ := fd
        rw [hv, hu] at hs
        simp only [Option.bind_some] at hs
        split at hs
        · next hc =>
          simp only [Option.pure_def, Option.some.injEq] at hs
          subst hs
          obtain ⟨v, c, g1, g2, g3, hi⟩ := h.vec hv
          obtain ⟨u, c', k1, k2, k3, hj⟩ := h.vec hu
          have hxy := hc.1
          obtain ⟨m', v', u', r1, r2, r3, r4, r5, r6⟩ := append_refines (cap' := cap') hi hj h.wf (h.unique x y _ _ hxy g2 k2) hc.2
          refine ⟨{ s with mem := m', objs := AMap.insert (AMap.insert s.objs x (.vec v')) y (.vec u') }, ?_, ?_⟩
          · simp only [exec]
            rw [if_neg hxy]
            simp only [g1, k1, r1, Option.bind_eq_bind, Option.bind_some, Option.pure_def]
          · have gx : ∀ {α : Type} (l : List (Nat × α)) (p q : α), AMap.get? (AMap.insert (AMap.insert l x p) y q) x = some p := by
              intros; rw [AMap.get?_insert_ne _ _ (fun e => hxy e.symm), AMap.get?_insert_self]
            have gy : ∀ {α : Type} (l : List (Nat × α)) (p q : α), AMap.get? (AMap.insert (AMap.insert l x p) y q) y = some q := by
              intros; rw [AMap.get?_insert_self]
            have go : ∀ {α : Type} (l : List (Nat × α)) (p q : α) z, z ≠ x → z ≠ y → AMap.get? (AMap.insert (AMap.insert l x p) y q) z = AMap.get? l z := by
              intro α l p q z h1 h2
              rw [AMap.get?_insert_ne _ _ (fun e => h2 e.symm), AMap.get?_insert_ne _ _ (fun e => h1 e.symm)]
            refine step_rel h [x, y] _ _ r5 ?_ ?_ ?_ ?_ ?_ ?_ ?_ (by rw [r2, h.w]; rfl) h.next ?_ ?_
            · intro b hb
              rcases List.mem_append.1 hb with hb | hb
              · exact ⟨x, by simp, _, g2, hb⟩
              · exact ⟨y, by simp, _, k2, hb⟩
            · intro z hz o ho b hb
              simp only [List.mem_cons, List.not_mem_nil, or_false] at hz
              rcases hz with rfl | rfl
              · rw [g2] at ho; cases ho; exact List.mem_append_left _ hb
              · rw [k2] at ho; cases ho; exact List.mem_append_right _ hb
            · intro b hb
              rcases List.mem_append.1 hb with hb | hb
              · exact ⟨x, by simp, _, gx _ _ _, hb⟩
              · exact ⟨y, by simp, _, gy _ _ _, hb⟩
            · intro z hz o ho b hb
              simp only [List.mem_cons, List.not_mem_nil, or_false] at hz
              rcases hz with rfl | rfl
              · simp only [gx] at ho; cases ho; exact List.mem_append_left _ hb
              · simp only [gy] at ho; cases ho; exact List.mem_append_right _ hb
            · intro z hz z' hz' o p hne ho hp b hb hb'
              simp only [List.mem_cons, List.not_mem_nil, or_false] at hz hz'
              rcases hz with rfl | rfl <;> rcases hz' with rfl | rfl
              · exact hne rfl
              · simp only [gx] at ho; simp only [gy] at hp; cases ho; cases hp; exact r6 b hb hb'
              · simp only [gy] at ho; simp only [gx] at hp; cases ho; cases hp; exact r6 b hb' hb
              · exact hne rfl
            · intro z hz
              simp only [List.mem_cons, List.not_mem_nil, or_false] at hz
              rcases hz with rfl | rfl
              · simp only [AState.put, gx]; exact r3
              · simp only [AState.put, gy]; exact r4
            · intro z hz
              simp only [List.mem_cons, List.not_mem_nil, or_false, not_or] at hz
              exact ⟨go _ _ _ z hz.1 hz.2, by simp only [AState.put]; exact go _ _ _ z hz.1 hz.2⟩
            · exact (h.names.insert g2 _).insert (o := .vec u) (by rw [AMap.get?_insert_ne _ _ hxy]; exact k2) _
            · exact (h.anames.insert g3 _).insert (o := .vec fs d c') (by rw [AMap.get?_insert_ne _ _ hxy]; exact k3) _
        · simp at hs
  | splitOff x i =>
    simp only [Op.spec, Option.bind_eq_bind] at hs
    cases hv : a.vec x with
    | none => rw [hv] at hs; simp at hs
    | some ec =>
      obtain ⟨es, cap⟩ := ec
      rw [hv] at hs
      simp only [Option.bind_some] at hs
      split at hs
      · next hc =>
        simp only [Option.pure_def, Option.some.injEq] at hs
        subst hs
        obtain ⟨v, c, g1, g2, g3, hi⟩ := h.vec hv
        obtain ⟨m', v', u', r1, r2, r3, r4, r5, r6⟩ := splitOff_refines hi h.wf hc
        refine ⟨State.add { s with mem := m', objs := AMap.insert s.objs x (.vec v') } (.vec u'), ?_, ?_⟩
        · simp only [exec, g1, r1, Option.bind_eq_bind, Option.bind_some, Option.pure_def]
        · have hlt : x < s.next := h.names.2 x ((AMap.mem_keys_iff _ _).2 ⟨_, g2⟩)
          have gx : ∀ {α : Type} (l : List (Nat × α)) (p q : α), AMap.get? ((s.next, q) :: AMap.insert l x p) x = some p := by
            intros; simp only [AMap.get?]; rw [if_neg (by omega), AMap.get?_insert_self]
          have gy : ∀ {α : Type} (l : List (Nat × α)) (p q : α), AMap.get? ((s.next, q) :: AMap.insert l x p) s.next = some q := by
            intros; simp [AMap.get?]
          have go : ∀ {α : Type} (l : List (Nat × α)) (p q : α) z, z ≠ x → z ≠ s.next → AMap.get? ((s.next, q) :: AMap.insert l x p) z = AMap.get? l z := by
            intro α l p q z h1 h2
            simp only [AMap.get?]
            rw [if_neg (fun e => h2 e.symm), AMap.get?_insert_ne _ _ (fun e => h1 e.symm)]
          have hfr : AMap.get? s.objs s.next = none := h.names.fresh (Nat.le_refl _)
          refine step_rel h [x, s.next] _ _ r5 ?_ ?_ ?_ ?_ ?_ ?_ ?_ (by simp only [State.add]; rw [r2, h.w]; rfl) (by simp [State.add, AState.add, AState.put, h.next]) ?_ ?_
          · exact fun b hb => ⟨x, by simp, _, g2, hb⟩
          · intro z hz o ho b hb
            simp only [List.mem_cons, List.not_mem_nil, or_false] at hz
            rcases hz with rfl | rfl
            · rw [g2] at ho; cases ho; exact hb
            · rw [hfr] at ho; cases ho
          · intro b hb
            rcases List.mem_append.1 hb with hb | hb
            · exact ⟨x, by simp, _, gx _ _ _, hb⟩
            · exact ⟨s.next, by simp, _, gy _ _ _, hb⟩
          · intro z hz o ho b hb
            simp only [List.mem_cons, List.not_mem_nil, or_false] at hz
            rcases hz with rfl | rfl
            · simp only [State.add, gx] at ho; cases ho; exact List.mem_append_left _ hb
            · simp only [State.add, gy] at ho; cases ho; exact List.mem_append_right _ hb
          · intro z hz z' hz' o p hne ho hp b hb hb'
            simp only [List.mem_cons, List.not_mem_nil, or_false] at hz hz'
            rcases hz with rfl | rfl <;> rcases hz' with rfl | rfl
            · exact hne rfl
            · simp only [State.add, gx] at ho; simp only [State.add, gy] at hp; cases ho; cases hp; exact r6 b hb hb'
            · simp only [State.add, gy] at ho; simp only [State.add, gx] at hp; cases ho; cases hp; exact r6 b hb' hb
            · exact hne rfl
          · intro z hz
            simp only [List.mem_cons, List.not_mem_nil, or_false] at hz
            simp only [State.add, AState.add, AState.put]
            rw [← h.next]
            rcases hz with rfl | rfl
            · simp only [gx]; exact r3
            · simp only [gy]; exact r4
          · intro z hz
            simp only [List.mem_cons, List.not_mem_nil, or_false, not_or] at hz
            simp only [State.add, AState.add, AState.put]
            rw [← h.next]
            exact ⟨go _ _ _ z hz.1 hz.2, go _ _ _ z hz.1 hz.2⟩
          · exact (h.names.insert g2 _).add _
          · exact (h.anames.insert g3 _).add _
      · simp at hs
  | clone x =>
    simp only [Op.spec, Option.bind_eq_bind] at hs
    cases hv : a.vec x with
    | none => rw [hv] at hs; simp at hs
    | some ec =>
      obtain ⟨es, cap⟩ := ec
      rw [hv] at hs
      simp only [Option.bind_some, Option.pure_def, Option.some.injEq] at hs
      subst hs
      obtain ⟨v, c, g1, g2, g3, hi⟩ := h.vec hv
      obtain ⟨m', u, r1, r2, r3, r4⟩ := clone_refines hi h.wf
      refine ⟨State.add { s with mem := m' } (.vec u), ?_, ?_⟩
      · simp only [exec, g1, r1, Option.bind_eq_bind, Option.bind_some, Option.pure_def]
      · rw [h.w] at r2 r3
        exact h.add (o' := .vec u) r4 r3 r2
  | mkVec es =>
    simp only [Op.spec, Option.bind_eq_bind] at hs
    cases ht : a.w.take es with
    | none => rw [ht] at hs; simp at hs
    | some w =>
      rw [ht] at hs
      simp only [Option.bind_some, Option.pure_def, Option.some.injEq] at hs
      subst hs
      refine ⟨State.add { s with mem := { s.mem with w := w } } (.rvec es), ?_, ?_⟩
      · simp only [exec, h.w, ht, Option.bind_eq_bind, Option.bind_some, Option.pure_def]
      · exact h.add (o' := .rvec es) (p' := .rvec es) (m' := { s.mem with w := w }) (.same _ rfl rfl) rfl rfl
  | dropVec x =>
    simp only [Op.spec, Option.bind_eq_bind] at hs
    cases hv : a.rvec x with
    | none => rw [hv] at hs; simp at hs
    | some es =>
      rw [hv] at hs
      simp only [Option.bind_some, Option.pure_def, Option.some.injEq] at hs
      subst hs
      obtain ⟨g1, g2, g3⟩ := h.rvec hv
      refine ⟨{ s with mem := { s.mem with w := s.mem.w.dropAll es }, objs := AMap.erase s.objs x }, ?_, ?_⟩
      · simp only [exec, g1, Option.bind_eq_bind, Option.bind_some, Option.pure_def]
      · exact h.erase (m' := { s.mem with w := s.mem.w.dropAll es }) g2 (.same _ rfl rfl) (by rw [← h.w])
  | fromVec x cap =>
    simp only [Op.spec, Option.bind_eq_bind] at hs
    cases hv : a.rvec x with
    | none => rw [hv] at hs; simp at hs
    | some es =>
      rw [hv] at hs
      simp only [Option.bind_some, Option.pure_def] at hs
      obtain ⟨g1, g2, g3⟩ := h.rvec hv
      have key : (es ≠ [] → es.length ≤ cap) ∧ a' = a.put x (.vec es (if es = [] then 0 else cap) true) := by
        split at hs
        · next he => subst he; exact ⟨by simp, by simpa using hs.symm⟩
        · next he =>
          split at hs
          · refine ⟨fun _ => ‹_›, ?_⟩
            rw [if_neg he]; simpa using hs.symm
          · simp at hs
      obtain ⟨hc, rfl⟩ := key
      obtain ⟨m', v, r1, r2, r3, r4⟩ := fromVec_refines (m := { s.mem with w := { s.mem.w with hand := es ++ s.mem.w.hand } }) (hd := s.mem.w.hand)
        h.wf rfl hc
      refine ⟨{ s with mem := m', objs := AMap.insert s.objs x (.vec v) }, ?_, ?_⟩
      · simp only [exec, g1, r1, Option.bind_eq_bind, Option.bind_some, Option.pure_def]
      · refine h.put g2 g3 (o' := .vec v) (p' := .vec es (if es = [] then 0 else cap) true) (w' := a.w) ?_ r3 ?_ a.leaked
        · have f1 : Frame s.mem { s.mem with w := { s.mem.w with hand := es ++ s.mem.w.hand } } [] [] := .same _ rfl rfl
          exact f1.trans r4
        · rw [r2, ← h.w]
  | intoVec x =>
    simp only [Op.spec, Option.bind_eq_bind] at hs
    cases hv : a.vec x with
    | none => rw [hv] at hs; simp at hs
    | some ec =>
      obtain ⟨es, cap⟩ := ec
      rw [hv] at hs
      simp only [Option.bind_some, Option.pure_def, Option.some.injEq] at hs
      subst hs
      obtain ⟨v, c, g1, g2, g3, hi⟩ := h.vec hv
      obtain ⟨m', r1, r2, r3⟩ := intoVec_refines hi
      refine ⟨{ s with mem := m', objs := AMap.insert s.objs x (.rvec es) }, ?_, ?_⟩
      · simp only [exec, g1, r1, Option.bind_eq_bind, Option.bind_some, Option.pure_def]
      · exact h.put g2 g3 (o' := .rvec es) (p' := .rvec es) r3 rfl (by rw [r2, h.w]) a.leaked
  | intoIter x =>
    simp only [Op.spec, Option.bind_eq_bind] at hs
    cases hv : a.vec x with
    | none => rw [hv] at hs; simp at hs
    | some ec =>
      obtain ⟨es, cap⟩ := ec
      rw [hv] at hs
      simp only [Option.bind_some, Option.pure_def, Option.some.injEq] at hs
      subst hs
      obtain ⟨v, c, g1, g2, g3, hi⟩ := h.vec hv
      obtain ⟨m', it, r1, r2, r3, r4⟩ := intoIter_refines hi
      refine ⟨{ s with mem := m', objs := AMap.insert s.objs x (.iter it) }, ?_, ?_⟩
      · simp only [exec, g1, r1, Option.bind_eq_bind, Option.bind_some, Option.pure_def]
      · exact h.put g2 g3 (o' := .iter it) (p' := .iter es) r4 r3 (by rw [r2, h.w]) a.leaked
  | next x =>
    simp only [Op.spec, Option.bind_eq_bind] at hs
    cases hv : a.iter x with
    | none => rw [hv] at hs; simp at hs
    | some es =>
      rw [hv] at hs
      simp only [Option.bind_some] at hs
      obtain ⟨it, g1, g2, g3, hi⟩ := h.iter hv
      have hn := next_refines hi
      cases es with
      | nil =>
        simp only [Option.pure_def, Option.some.injEq] at hs
        subst hs
        simp only at hn
        refine ⟨{ s with objs := AMap.insert s.objs x (.iter it) }, ?_, ?_⟩
        · simp only [exec, g1, hn, Option.bind_eq_bind, Option.bind_some, Option.pure_def]
        · have := h.put g2 g3 (o' := .iter it) (p' := .iter []) (.refl _ _) hi h.w a.leaked
          refine ⟨this.w, this.next, this.wf, this.names, h.anames, fun y => ?_, this.unique, this.owned⟩
          have ho := this.obj y
          by_cases hy : x = y
          · subst hy; rw [g3]; simp only [AMap.get?_insert_self] at ho ⊢; exact ho
          · simpa [AMap.get?_insert_ne _ _ hy] using ho
      | cons e es =>
        simp only [Option.pure_def, Option.some.injEq] at hs
        subst hs
        obtain ⟨it', r1, r2, r3⟩ := hn
        refine ⟨{ s with mem := { s.mem with w := { s.mem.w with hand := e :: s.mem.w.hand } }, objs := AMap.insert s.objs x (.iter it') }, ?_, ?_⟩
        · simp only [exec, g1, r1, Option.bind_eq_bind, Option.bind_some, Option.pure_def]
        · refine h.put g2 g3 (o' := .iter it') (p' := .iter es) (m' := { s.mem with w := { s.mem.w with hand := e :: s.mem.w.hand } }) ?_ r2 (by rw [← h.w]) a.leaked
          simp only [Obj.buf, r3]
          exact .same _ rfl rfl
  | nextBack x =>
    simp only [Op.spec, Option.bind_eq_bind] at hs
    cases hv : a.iter x with
    | none => rw [hv] at hs; simp at hs
    | some es =>
      rw [hv] at hs
      simp only [Option.bind_some] at hs
      obtain ⟨it, g1, g2, g3, hi⟩ := h.iter hv
      have hn := nextBack_refines hi
      cases hl : es.getLast? with
      | none =>
        rw [hl] at hs hn
        simp only [Option.pure_def, Option.some.injEq] at hs
        subst hs
        simp only at hn
        refine ⟨{ s with objs := AMap.insert s.objs x (.iter it) }, ?_, ?_⟩
        · simp only [exec, g1, hn, Option.bind_eq_bind, Option.bind_some, Option.pure_def]
        · have := h.put g2 g3 (o' := .iter it) (p' := .iter es) (.refl _ _) hi h.w a.leaked
          refine ⟨this.w, this.next, this.wf, this.names, h.anames, fun y => ?_, this.unique, this.owned⟩
          have ho := this.obj y
          by_cases hy : x = y
          · subst hy; rw [g3]; simp only [AMap.get?_insert_self] at ho ⊢; exact ho
          · simpa [AMap.get?_insert_ne _ _ hy] using ho
      | some e =>
        rw [hl] at hs hn
        simp only [Option.pure_def, Option.some.injEq] at hs
        subst hs
        obtain ⟨it', r1, r2, r3⟩ := hn
        refine ⟨{ s with mem := { s.mem with w := { s.mem.w with hand := e :: s.mem.w.hand } }, objs := AMap.insert s.objs x (.iter it') }, ?_, ?_⟩
        · simp only [exec, g1, r1, Option.bind_eq_bind, Option.bind_some, Option.pure_def]
        · refine h.put g2 g3 (o' := .iter it') (p' := .iter es.dropLast) (m' := { s.mem with w := { s.mem.w with hand := e :: s.mem.w.hand } }) ?_ r2 (by rw [← h.w]) a.leaked
          simp only [Obj.buf, r3]
          exact .same _ rfl rfl
  | dropIter x =>
    simp only [Op.spec, Option.bind_eq_bind] at hs
    cases hv : a.iter x with
    | none => rw [hv] at hs; simp at hs
    | some es =>
      rw [hv] at hs
      simp only [Option.bind_some, Option.pure_def, Option.some.injEq] at hs
      subst hs
      obtain ⟨it, g1, g2, g3, hi⟩ := h.iter hv
      obtain ⟨m', r1, r2, r3⟩ := dropIter_refines hi
      refine ⟨{ s with mem := m', objs := AMap.erase s.objs x }, ?_, ?_⟩
      · simp only [exec, g1, r1, Option.bind_eq_bind, Option.bind_some, Option.pure_def]
      · exact h.erase g2 r3 (by rw [r2, h.w])
  | prepare x =>
    simp only [Op.spec, Option.bind_eq_bind] at hs
    cases hv : a.vec x with
    | none => rw [hv] at hs; simp at hs
    | some ec =>
      obtain ⟨es, cap⟩ := ec
      rw [hv] at hs
      simp only [Option.bind_some, Option.pure_def, Option.some.injEq] at hs
      subst hs
      obtain ⟨v, c, g1, g2, g3, hi⟩ := h.vec hv
      obtain ⟨m', r1, r2, r3, r4, -, -⟩ := open_vector hi
      refine ⟨{ s with mem := m' }, ?_, ?_⟩
      · simp only [exec, g1, prepareToWriteIntoTail, r1, Option.bind_eq_bind, Option.bind_some, Option.pure_def]
      · have := h.put g2 g3 (o' := .vec v) (p' := .vec es cap false) r4 r3 (w' := a.w) (by rw [r2, h.w]) a.leaked
        refine ⟨this.w, this.next, this.wf, h.names, this.anames, fun y => ?_, ?_, ?_⟩
        · have ho := this.obj y
          by_cases hy : x = y
          · subst hy; simp only [AMap.get?_insert_self] at ho; simp only [g2, AState.put, AMap.get?_insert_self]; exact ho
          · simpa [AState.put, AMap.get?_insert_ne _ _ hy] using ho
        · exact h.unique
        · intro b hb
          obtain ⟨y, o, ho, hbo⟩ := this.owned b hb
          by_cases hy : x = y
          · subst hy; simp only [AMap.get?_insert_self] at ho; cases ho; exact ⟨x, _, g2, hbo⟩
          · exact ⟨y, o, by simpa [AMap.get?_insert_ne _ _ hy] using ho, hbo⟩
  | writeTail x fs =>
    simp only [Op.spec, Option.bind_eq_bind] at hs
    cases hv : a.vec x with
    | none => rw [hv] at hs; simp at hs
    | some ec =>
      obtain ⟨es, cap⟩ := ec
      rw [hv] at hs
      simp only [Option.bind_some] at hs
      obtain ⟨v, c, g1, g2, g3, hi⟩ := h.vec hv
      cases ht : a.w.take fs with
      | none => rw [ht] at hs; simp at hs
      | some w =>
        rw [ht] at hs
        simp only [Option.bind_some] at hs
        split at hs
        · next hc =>
          simp only [Option.pure_def, Option.some.injEq] at hs
          subst hs
          obtain ⟨m', v', r1, r2, r3, r4⟩ := writeTail_refines hi (by rw [h.w]; exact ht) hc
          refine ⟨{ s with mem := m', objs := AMap.insert s.objs x (.vec v') }, ?_, ?_⟩
          · simp only [exec, g1, r1, Option.bind_eq_bind, Option.bind_some, Option.pure_def]
          · exact h.put g2 g3 (o' := .vec v') (p' := .vec (es ++ fs) cap true) r4 r3 r2 a.leaked
        · simp at hs
  | drop x =>
    simp only [Op.spec, Option.bind_eq_bind] at hs
    cases hv : a.vec x with
    | none => rw [hv] at hs; simp at hs
    | some ec =>
      obtain ⟨es, cap⟩ := ec
      rw [hv] at hs
      simp only [Option.bind_some, Option.pure_def, Option.some.injEq] at hs
      subst hs
      obtain ⟨v, c, g1, g2, g3, hi⟩ := h.vec hv
      obtain ⟨m', r1, r2, r3⟩ := drop_refines hi
      refine ⟨{ s with mem := m', objs := AMap.erase s.objs x }, ?_, ?_⟩
      · simp only [exec, g1, r1, Option.bind_eq_bind, Option.bind_some, Option.pure_def]
      · exact h.erase g2 r3 (by rw [r2, h.w])
  | cpp es cap =>
    simp only [Op.spec, Option.bind_eq_bind] at hs
    cases ht : a.w.take es with
    | none => rw [ht] at hs; simp at hs
    | some w =>
      rw [ht] at hs
      simp only [Option.bind_some] at hs
      split at hs
      · next hc =>
        simp only [Option.pure_def, Option.some.injEq] at hs
        subst hs
        obtain ⟨m', v, r1, r2, r3, r4⟩ := cppVec_refines (m := { s.mem with w := w }) h.wf hc
        refine ⟨State.add { s with mem := m' } (.vec v), ?_, ?_⟩
        · simp only [exec, h.w, ht, r1, Option.bind_eq_bind, Option.bind_some, Option.pure_def]
        · have f1 : Frame s.mem { s.mem with w := w } [] [] := .same _ rfl rfl
          exact h.add (o' := .vec v) (p' := .vec es cap true) (f1.trans r4) r3 r2
      · simp at hs

theorem init_rel : Rel .init .init :=
  ⟨rfl, rfl, fun _ _ => rfl, ⟨by simp [State.init, AMap.keys], by simp [State.init, AMap.keys]⟩, ⟨by simp [AState.init, AMap.keys], by simp [AState.init, AMap.keys]⟩,
    fun _ => trivial, fun _ _ _ _ _ h => by simp [State.init, AMap.get?] at h, fun _ h => absurd rfl h⟩

theorem run_refines (ops : List Op) : ∀ {s : State} {a a' : AState}, Rel s a → specRun a ops = some a' → ∃ s', run s ops = some s' ∧ Rel s' a' := by
  induction ops with
  | nil => intro s a a' h hs; simp only [specRun, Option.some.injEq] at hs; subst hs; exact ⟨s, rfl, h⟩
  | cons op ops ih =>
    intro s a a' h hs
    simp only [specRun, Option.bind_eq_bind] at hs
    cases h1 : op.spec a with
    | none => rw [h1] at hs; simp at hs
    | some a1 =>
      rw [h1] at hs
      obtain ⟨s1, e1, r1⟩ := exec_refines h op h1
      obtain ⟨s2, e2, r2⟩ := ih r1 hs
      exact ⟨s2, by simp only [run, e1, Option.bind_eq_bind, Option.bind_some, e2], r2⟩

end Verif.Vector

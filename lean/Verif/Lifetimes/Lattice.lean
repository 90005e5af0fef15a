import Verif.Lifetimes.Constraints
import Mathlib.Data.Finset.Basic
import Mathlib.Data.Finset.Lattice.Basic
/-
C48: the dataflow lattice of the lifetime analysis. Model of lifetime_analysis/object_set.h, points_to_map.{h,cc} and
lifetime_lattice.{h,cc}. `ObjectSet` (a set of object pointers) is a `Finset`; `DenseMap`s are finite maps.
-/
namespace Verif.Lifetimes.Lattice
open Verif

variable {O E : Type} [DecidableEq O] [DecidableEq E]

/-- `PointsToMap`, points_to_map.h lines 100-101. -/
structure PointsTo (O E : Type) where
  ptrs : List (O × Finset O)
  exprs : List (E × Finset O)

/-- `map[key].Add(set)` for every entry of `other`, as in `Union`, points_to_map.cc lines 46-48 and 52-54. -/
def extendAll {K : Type} [DecidableEq K] (m : List (K × Finset O)) : List (K × Finset O) → List (K × Finset O)
  | [] => m
  | (k, s) :: other => extendAll (AMap.insert m k ((AMap.get? m k).getD ∅ ∪ s)) other

/-- `PointsToMap::Union`, points_to_map.cc lines 42-57. -/
def PointsTo.union (a b : PointsTo O E) : PointsTo O E := ⟨extendAll a.ptrs b.ptrs, extendAll a.exprs b.exprs⟩

/-- `DenseMap::operator==`: equal sizes, and every entry of the one is in the other with an equal value. -/
def mapEq {K : Type} [DecidableEq K] (a b : List (K × Finset O)) : Bool :=
  a.length = b.length && a.all fun p => decide (AMap.get? b p.1 = some p.2)

/-- `PointsToMap::operator==`, points_to_map.cc lines 26-29. -/
def PointsTo.beq (a b : PointsTo O E) : Bool := mapEq a.ptrs b.ptrs && mapEq a.exprs b.exprs

/-- `GetPointerPointsToSet(const Object*)`, lines 59-65. -/
def PointsTo.get (m : PointsTo O E) (p : O) : Finset O := (AMap.get? m.ptrs p).getD ∅

/-- `SetPointerPointsToSet(const Object*, ObjectSet)`, lines 67-70. -/
def PointsTo.set (m : PointsTo O E) (p : O) (s : Finset O) : PointsTo O E := { m with ptrs := AMap.insert m.ptrs p s }

/-- `ExtendPointerPointsToSet`, lines 79-83. -/
def PointsTo.extend (m : PointsTo O E) (p : O) (s : Finset O) : PointsTo O E :=
  { m with ptrs := AMap.insert m.ptrs p (m.get p ∪ s) }

/-- `SetPointerPointsToSet(const ObjectSet&, const ObjectSet&)`, lines 72-77; `ps` lists the pointers in iteration order. -/
def PointsTo.setAll (m : PointsTo O E) (ps : List O) (s : Finset O) : PointsTo O E := ps.foldl (fun m p => m.set p s) m

/-- `GetPointerPointsToSet(const ObjectSet&)`, lines 85-94. -/
def PointsTo.getAll (m : PointsTo O E) (ps : List O) : Finset O :=
  ps.foldl (fun r p => match AMap.get? m.ptrs p with | some s => r ∪ s | none => r) ∅

/-- `SetExprObjectSet`, lines 125-129. -/
def PointsTo.setExpr (m : PointsTo O E) (e : E) (s : Finset O) : PointsTo O E := { m with exprs := AMap.insert m.exprs e s }

/-- `GetExprObjectSet`, lines 96-118: one `ParenExpr` is skipped; `none` is the fatal error. -/
def PointsTo.getExpr (paren : E → Option E) (m : PointsTo O E) (e : E) : Option (Finset O) :=
  AMap.get? m.exprs ((paren e).getD e)

/-- `LifetimeLattice`, lifetime_lattice.h lines 93-95. -/
inductive State (O E : Type)
  | ok (pts : PointsTo O E) (cons : Constraints) (single : Finset O)
  | err (msg : String)

/-- `LifetimeLattice::join`, lifetime_lattice.cc lines 55-83: the result and whether the effect is `Changed`. -/
def State.join : State O E → State O E → State O E × Bool
  | .err m, _ => (.err m, false)
  | .ok .., .err m => (.err m, true)
  | .ok pts cons single, .ok pts' cons' single' =>
    let (cons, c1) := cons.join cons'
    let joined := pts.union pts'
    let (pts, c2) := if pts.beq joined then (pts, c1) else (joined, true)
    let both := single ∩ single'
    let (single, c3) := if single = both then (single, c2) else (both, true)
    (.ok pts cons single, c3)

/-- `DenseSet::operator==`. -/
def setEq {α : Type} [DecidableEq α] (a b : List α) : Bool := a.length = b.length && a.all (· ∈ b)

/-- `LifetimeLattice::operator==`, lines 85-91. -/
def State.beq : State O E → State O E → Bool
  | .err _, .err _ => true
  | .ok p c _, .ok p' c' _ => p.beq p' && setEq c c'
  | _, _ => false

/-! ### Specification: the facts a state records -/

/-- What a state may say. -/
inductive Fact (O E : Type)
  /-- `p` has a points-to set -/
  | pointer (p : O)
  /-- `p` may point to `o` -/
  | mayPoint (p o : O)
  /-- the expression has an object set -/
  | expr (e : E)
  /-- the expression may denote `o` -/
  | mayDenote (e : E) (o : O)
  /-- a constraint -/
  | outlives (c : Lifetime × Lifetime)
  /-- a write to `o` might not overwrite all of it -/
  | multi (o : O)

/-- The facts of a state; an error says everything. -/
def State.Says : State O E → Fact O E → Prop
  | .err _, _ => True
  | .ok p _ _, .pointer q => ∃ s, AMap.get? p.ptrs q = some s
  | .ok p _ _, .mayPoint q o => ∃ s, AMap.get? p.ptrs q = some s ∧ o ∈ s
  | .ok p _ _, .expr e => ∃ s, AMap.get? p.exprs e = some s
  | .ok p _ _, .mayDenote e o => ∃ s, AMap.get? p.exprs e = some s ∧ o ∈ s
  | .ok _ c _, .outlives x => x ∈ c
  | .ok _ _ s, .multi o => o ∉ s

def State.IsErr : State O E → Prop
  | .err _ => True
  | .ok .. => False

/-- The containers are maps and sets. -/
def State.Good : State O E → Prop
  | .err _ => True
  | .ok p c _ => (AMap.keys p.ptrs).Nodup ∧ (AMap.keys p.exprs).Nodup ∧ c.Nodup

/-! ### Maps -/

theorem get?_extendAll {K : Type} [DecidableEq K] : ∀ (b a : List (K × Finset O)), (AMap.keys b).Nodup → ∀ k,
    AMap.get? (extendAll a b) k = match AMap.get? b k with
      | none => AMap.get? a k
      | some s => some ((AMap.get? a k).getD ∅ ∪ s) := by
  intro b
  induction b with
  | nil => intro a _ k; rfl
  | cons p b ih =>
    intro a hn k
    obtain ⟨x, s⟩ := p
    simp only [AMap.keys, List.map_cons, List.nodup_cons] at hn
    show AMap.get? (extendAll _ b) k = _
    rw [ih _ hn.2]
    have hx : AMap.get? b x = none := by rw [AMap.get?_eq_none_iff]; exact hn.1
    by_cases e : x = k
    · subst e
      simp [hx, AMap.get?, AMap.get?_insert_self]
    · simp [AMap.get?, if_neg e, AMap.get?_insert_ne _ _ e]

theorem nodup_extendAll {K : Type} [DecidableEq K] : ∀ (b a : List (K × Finset O)), (AMap.keys a).Nodup →
    (AMap.keys (extendAll a b)).Nodup := by
  intro b
  induction b with
  | nil => intro a h; exact h
  | cons p b ih => intro a h; exact ih _ (AMap.nodup_insert _ _ _ h)

theorem mapEq_iff {K : Type} [DecidableEq K] {a b : List (K × Finset O)} (ha : (AMap.keys a).Nodup) (hb : (AMap.keys b).Nodup) :
    mapEq a b = true ↔ ∀ k, AMap.get? a k = AMap.get? b k := by
  unfold mapEq
  rw [Bool.and_eq_true, decide_eq_true_iff, List.all_eq_true]
  constructor
  · rintro ⟨hl, h⟩ k
    have hsub : ∀ x ∈ AMap.keys a, x ∈ AMap.keys b := by
      intro x hx
      obtain ⟨v, hv⟩ := (AMap.mem_keys_iff a x).mp hx
      have := h _ (AMap.mem_of_get? a hv)
      simp only [decide_eq_true_eq] at this
      exact (AMap.mem_keys_iff b x).mpr ⟨v, this⟩
    cases hk : AMap.get? a k with
    | some v =>
      have := h _ (AMap.mem_of_get? a hk)
      simp only [decide_eq_true_eq] at this
      exact this.symm
    | none =>
      symm
      rw [AMap.get?_eq_none_iff]
      intro hkb
      have hka : k ∉ AMap.keys a := (AMap.get?_eq_none_iff a k).mp hk
      have : (k :: AMap.keys a).length ≤ (AMap.keys b).length :=
        (List.nodup_cons.mpr ⟨hka, ha⟩).length_le_of_subset (by
          intro x hx
          rcases List.mem_cons.mp hx with e | e
          · exact e ▸ hkb
          · exact hsub x e)
      simp [AMap.keys] at this
      omega
  · intro h
    have h1 : ∀ {a b : List (K × Finset O)}, (AMap.keys a).Nodup → (∀ k, AMap.get? a k = AMap.get? b k) → a.length ≤ b.length := by
      intro a b ha h
      have : (AMap.keys a).length ≤ (AMap.keys b).length := ha.length_le_of_subset (by
        intro x hx
        obtain ⟨v, hv⟩ := (AMap.mem_keys_iff a x).mp hx
        exact (AMap.mem_keys_iff b x).mpr ⟨v, by rw [← h]; exact hv⟩)
      simpa [AMap.keys] using this
    refine ⟨Nat.le_antisymm (h1 ha h) (h1 hb fun k => (h k).symm), fun p hp => ?_⟩
    rw [decide_eq_true_iff, ← h]
    exact (AMap.mem_iff_get? a ha _ _).mp hp

/-- What the union of two maps records. -/
theorem extendAll_facts {K : Type} [DecidableEq K] {a b : List (K × Finset O)} (hb : (AMap.keys b).Nodup) (k : K) (o : O) :
    ((∃ s, AMap.get? (extendAll a b) k = some s) ↔ (∃ s, AMap.get? a k = some s) ∨ ∃ s, AMap.get? b k = some s) ∧
    ((∃ s, AMap.get? (extendAll a b) k = some s ∧ o ∈ s) ↔
      (∃ s, AMap.get? a k = some s ∧ o ∈ s) ∨ ∃ s, AMap.get? b k = some s ∧ o ∈ s) := by
  rw [get?_extendAll b a hb k]
  cases h1 : AMap.get? b k <;> cases h2 : AMap.get? a k <;> simp

/-- Equal maps record the same; and a map that records nothing more equals the union. -/
theorem mapEq_union_iff {K : Type} [DecidableEq K] {a b : List (K × Finset O)} (ha : (AMap.keys a).Nodup) (hb : (AMap.keys b).Nodup) :
    mapEq a (extendAll a b) = true ↔ ∀ k, (∀ s, AMap.get? b k = some s → ∃ s', AMap.get? a k = some s' ∧ s ⊆ s') := by
  rw [mapEq_iff ha (nodup_extendAll b a ha)]
  constructor
  · intro h k s hs
    have := h k
    rw [get?_extendAll b a hb k, hs] at this
    simp only at this
    cases ha : AMap.get? a k with
    | none => rw [ha] at this; simp at this
    | some s' =>
      rw [ha] at this
      simp only [Option.getD_some, Option.some.injEq] at this
      exact ⟨s', rfl, by rw [this]; exact Finset.subset_union_right⟩
  · intro h k
    rw [get?_extendAll b a hb k]
    cases hs : AMap.get? b k with
    | none => rfl
    | some s =>
      obtain ⟨s', h1, h2⟩ := h k s hs
      simp only [h1, Option.getD_some]
      rw [Finset.union_eq_left.mpr h2]

/-! ### The join -/

theorem join_good (a b : State O E) (ha : a.Good) (hb : b.Good) : (a.join b).1.Good := by
  cases a with
  | err => trivial
  | ok p c s =>
    cases b with
    | err => trivial
    | ok p' c' s' =>
      obtain ⟨h1, h2, h3⟩ := ha
      simp only [State.join]
      refine ⟨?_, ?_, nodup_setInsertAll _ h3⟩
      · split
        · exact h1
        · exact nodup_extendAll _ _ h1
      · split
        · exact h2
        · exact nodup_extendAll _ _ h2

/-- C48: the join of two analysis states says exactly what one of them says: it is their least upper bound. -/
theorem join_facts (a b : State O E) (ha : a.Good) (hb : b.Good) (f : Fact O E) :
    (a.join b).1.Says f ↔ a.Says f ∨ b.Says f := by
  cases a with
  | err => simp [State.join, State.Says]
  | ok p c s =>
    cases b with
    | err => simp [State.join, State.Says]
    | ok p' c' s' =>
      obtain ⟨h1, h2, h3⟩ := ha
      obtain ⟨g1, g2, g3⟩ := hb
      have hp : ∀ k, AMap.get? (if p.beq (p.union p') then (p, (c.join c').2) else (p.union p', true)).1.ptrs k =
          AMap.get? (extendAll p.ptrs p'.ptrs) k := by
        intro k
        by_cases hq : p.beq (p.union p') = true
        · rw [if_pos hq]
          unfold PointsTo.beq at hq
          rw [Bool.and_eq_true] at hq
          exact (mapEq_iff h1 (nodup_extendAll _ _ h1)).mp hq.1 k
        · rw [if_neg hq]; rfl
      have he : ∀ k, AMap.get? (if p.beq (p.union p') then (p, (c.join c').2) else (p.union p', true)).1.exprs k =
          AMap.get? (extendAll p.exprs p'.exprs) k := by
        intro k
        by_cases hq : p.beq (p.union p') = true
        · rw [if_pos hq]
          unfold PointsTo.beq at hq
          rw [Bool.and_eq_true] at hq
          exact (mapEq_iff h2 (nodup_extendAll _ _ h2)).mp hq.2 k
        · rw [if_neg hq]; rfl
      cases f with
      | pointer q =>
        simp only [State.join, State.Says, hp]
        exact (extendAll_facts (a := p.ptrs) g1 q q).1
      | mayPoint q o => simp only [State.join, State.Says, hp]; exact (extendAll_facts (a := p.ptrs) g1 q o).2
      | expr e =>
        simp only [State.join, State.Says, he]
        rw [get?_extendAll _ _ g2]
        cases h1 : AMap.get? p'.exprs e <;> cases h2 : AMap.get? p.exprs e <;> simp
      | mayDenote e o => simp only [State.join, State.Says, he]; exact (extendAll_facts (a := p.exprs) g2 e o).2
      | outlives x => simp only [State.join, State.Says]; exact mem_setInsertAll _ _ _
      | multi o =>
        simp only [State.join, State.Says]
        split
        · rename_i h
          simp only
          constructor
          · exact Or.inl
          · rintro (h' | h')
            · exact h'
            · rw [h]; simp [h']
        · simp only [Finset.mem_inter, not_and_or]

/-- C48: the effect is `Changed` iff the other state says something new, and a state reported `Unchanged` is untouched. -/
theorem join_effect (a b : State O E) (ha : a.Good) (hb : b.Good) :
    ((a.join b).2 = false → (a.join b).1 = a) ∧
    (¬ b.IsErr → ((a.join b).2 = true ↔ ∃ f, b.Says f ∧ ¬ a.Says f)) ∧
    (b.IsErr → ((a.join b).2 = true ↔ ¬ a.IsErr)) := by
  cases a with
  | err => simp [State.join, State.IsErr, State.Says]
  | ok p c s =>
    cases b with
    | err => simp [State.join, State.IsErr]
    | ok p' c' s' =>
      obtain ⟨h1, h2, h3⟩ := ha
      obtain ⟨g1, g2, g3⟩ := hb
      have hjoin : (State.join (.ok p c s) (.ok p' c' s')).2 = true ↔
          (c.join c').2 = true ∨ p.beq (p.union p') = false ∨ s ≠ s ∩ s' := by
        simp only [State.join]
        by_cases e1 : s = s ∩ s' <;> by_cases e2 : p.beq (p.union p') = true
        · rw [if_pos e1, if_pos e2]; simp only [e2]; simp [← e1]
        · rw [if_pos e1, if_neg e2]; simp [e2]
        · rw [if_neg e1]; simp [e1]
        · rw [if_neg e1]; simp [e1]
      refine ⟨?_, fun _ => ?_, fun h => absurd h (by simp [State.IsErr])⟩
      · intro h
        have hn : ¬ ((c.join c').2 = true ∨ p.beq (p.union p') = false ∨ s ≠ s ∩ s') := by
          rw [← hjoin, h]; simp
        simp only [not_or, Bool.not_eq_true, Bool.not_eq_false, ne_eq, Decidable.not_not] at hn
        obtain ⟨n1, n2, n3⟩ := hn
        have hc : (c.join c').1 = c := (constraints_join c c').2.2.1 n1
        simp only [State.join]
        rw [if_pos n3, if_pos n2, hc]
      · rw [hjoin, (constraints_join c c').2.1]
        have hbeq : p.beq (p.union p') = false ↔ ¬ ((∀ k, (∀ s, AMap.get? p'.ptrs k = some s → ∃ s', AMap.get? p.ptrs k = some s' ∧ s ⊆ s')) ∧
            (∀ k, (∀ s, AMap.get? p'.exprs k = some s → ∃ s', AMap.get? p.exprs k = some s' ∧ s ⊆ s'))) := by
          rw [← mapEq_union_iff h1 g1, ← mapEq_union_iff h2 g2, ← Bool.and_eq_true, Bool.not_eq_true]; rfl
        rw [hbeq]
        constructor
        · rintro (⟨x, hx, hn⟩ | h | h)
          · exact ⟨.outlives x, hx, hn⟩
          · rw [not_and_or] at h
            rcases h with h | h
            · simp only [not_forall] at h
              obtain ⟨k, t, ht, hn⟩ := h
              cases hk : AMap.get? p.ptrs k with
              | none => exact ⟨.pointer k, ⟨t, ht⟩, by rintro ⟨s, hs⟩; rw [hk] at hs; simp at hs⟩
              | some t' =>
                have : ¬ t ⊆ t' := fun hh => hn ⟨t', hk, hh⟩
                rw [Finset.not_subset] at this
                obtain ⟨o, ho, hno⟩ := this
                refine ⟨.mayPoint k o, ⟨t, ht, ho⟩, ?_⟩
                rintro ⟨s, hs, hos⟩
                rw [hk, Option.some.injEq] at hs; subst hs; exact hno hos
            · simp only [not_forall] at h
              obtain ⟨k, t, ht, hn⟩ := h
              cases hk : AMap.get? p.exprs k with
              | none => exact ⟨.expr k, ⟨t, ht⟩, by rintro ⟨s, hs⟩; rw [hk] at hs; simp at hs⟩
              | some t' =>
                have : ¬ t ⊆ t' := fun hh => hn ⟨t', hk, hh⟩
                rw [Finset.not_subset] at this
                obtain ⟨o, ho, hno⟩ := this
                refine ⟨.mayDenote k o, ⟨t, ht, ho⟩, ?_⟩
                rintro ⟨s, hs, hos⟩
                rw [hk, Option.some.injEq] at hs; subst hs; exact hno hos
          · have : ¬ s ⊆ s' := fun hh => h (Finset.inter_eq_left.mpr hh).symm
            rw [Finset.not_subset] at this
            obtain ⟨o, ho, hno⟩ := this
            exact ⟨.multi o, hno, fun h => h ho⟩
        · rintro ⟨f, hf, hn⟩
          cases f with
          | pointer q =>
            obtain ⟨t, ht⟩ := hf
            refine Or.inr (Or.inl fun hh => hn ?_)
            obtain ⟨t', ht', -⟩ := hh.1 q t ht
            exact ⟨t', ht'⟩
          | mayPoint q o =>
            obtain ⟨t, ht, ho⟩ := hf
            refine Or.inr (Or.inl fun hh => hn ?_)
            obtain ⟨t', ht', hs⟩ := hh.1 q t ht
            exact ⟨t', ht', hs ho⟩
          | expr e =>
            obtain ⟨t, ht⟩ := hf
            refine Or.inr (Or.inl fun hh => hn ?_)
            obtain ⟨t', ht', -⟩ := hh.2 e t ht
            exact ⟨t', ht'⟩
          | mayDenote e o =>
            obtain ⟨t, ht, ho⟩ := hf
            refine Or.inr (Or.inl fun hh => hn ?_)
            obtain ⟨t', ht', hs⟩ := hh.2 e t ht
            exact ⟨t', ht', hs ho⟩
          | outlives x => exact Or.inl ⟨x, hf, hn⟩
          | multi o =>
            refine Or.inr (Or.inr fun e => ?_)
            have ho : o ∈ s := Decidable.not_not.mp hn
            rw [e] at ho
            exact hf (Finset.mem_inter.mp ho).2

/-- C48: the first error is kept. -/
theorem join_error (a b : State O E) : (∀ m, a = .err m → (a.join b).1 = .err m) ∧
    (∀ m, ¬ a.IsErr → b = .err m → (a.join b).1 = .err m) ∧ ((a.join b).1.IsErr ↔ a.IsErr ∨ b.IsErr) := by
  cases a <;> cases b <;> simp [State.join, State.IsErr]

/-- A state and the number of `Changed` effects after joining the states of a list one after the other. -/
def joinAll : State O E → List (State O E) → State O E × Nat
  | a, [] => (a, 0)
  | a, b :: bs => let (a', ch) := a.join b; let (r, n) := joinAll a' bs; (r, (if ch then 1 else 0) + n)

/-- C48: an analysis that only ever finds facts of a finite set `U` (besides those it started with) is changed by joins at
most `|U| + 1` times, however long it runs. -/
theorem joins_change_finitely (U : List (Fact O E)) (a : State O E) (ha : a.Good) (bs : List (State O E))
    (hb : ∀ b ∈ bs, b.Good ∧ (b.IsErr ∨ ∀ f, b.Says f → a.Says f ∨ f ∈ U)) : (joinAll a bs).2 ≤ U.length + 1 := by
  classical
  have main : ∀ (bs : List (State O E)) (a : State O E), a.Good →
      (∀ b ∈ bs, b.Good ∧ (b.IsErr ∨ ∀ f, b.Says f → a.Says f ∨ f ∈ U)) →
      (joinAll a bs).2 ≤ (U.filter fun f => ¬ a.Says f).length + (if a.IsErr then 0 else 1) := by
    intro bs
    induction bs with
    | nil => intro a _ _; simp [joinAll]
    | cons b bs ih =>
      intro a ha hb
      obtain ⟨gb, hfb⟩ := hb b (by simp)
      have hg := join_good a b ha gb
      have hf := join_facts a b ha gb
      obtain ⟨e1, e2, e3⟩ := join_effect a b ha gb
      have herr := (join_error a b).2.2
      have key := ih (a.join b).1 hg (fun x hx => ⟨(hb x (by simp [hx])).1, by
        rcases (hb x (by simp [hx])).2 with h | h
        · exact Or.inl h
        · refine Or.inr fun f hff => ?_
          rcases h f hff with h | h
          · exact Or.inl ((hf f).mpr (Or.inl h))
          · exact Or.inr h⟩)
      have hstep : (joinAll a (b :: bs)).2 = (if (a.join b).2 then 1 else 0) + (joinAll (a.join b).1 bs).2 := rfl
      rw [hstep]
      by_cases hc : (a.join b).2 = true
      · rw [if_pos hc]
        have hle : (U.filter fun f => ¬ (a.join b).1.Says f).length ≤ (U.filter fun f => ¬ a.Says f).length := by
          have : (U.filter fun f => ¬ (a.join b).1.Says f).Sublist (U.filter fun f => ¬ a.Says f) := by
            apply List.monotone_filter_right
            intro f hh
            simp only [decide_not, Bool.not_eq_true', decide_eq_false_iff_not] at hh ⊢
            exact fun h => hh ((hf f).mpr (Or.inl h))
          exact this.length_le
        by_cases hbe : b.IsErr
        · have hae : ¬ a.IsErr := (e3 hbe).mp hc
          have : (a.join b).1.IsErr := herr.mpr (Or.inr hbe)
          rw [if_pos this] at key
          rw [if_neg hae]
          omega
        · obtain ⟨f, hf1, hf2⟩ := (e2 hbe).mp hc
          have hU : f ∈ U := by
            rcases hfb with h | h
            · exact absurd h hbe
            · exact (h f hf1).resolve_left hf2
          have hlt : (U.filter fun f => ¬ (a.join b).1.Says f).length < (U.filter fun f => ¬ a.Says f).length := by
            have hsub : (U.filter fun f => ¬ (a.join b).1.Says f) = (U.filter fun f => ¬ a.Says f).filter fun f => ¬ (a.join b).1.Says f := by
              rw [List.filter_filter]
              apply List.filter_congr
              intro x _
              by_cases h1 : (a.join b).1.Says x
              · simp [h1]
              · have h2 : ¬ a.Says x := fun h => h1 ((hf x).mpr (Or.inl h))
                simp [h1, h2]
            rw [hsub]
            refine Nat.lt_of_le_of_ne (List.length_filter_le _ _) ?_
            intro he
            rw [List.length_filter_eq_length_iff] at he
            have := he f (List.mem_filter.mpr ⟨hU, by simp [hf2]⟩)
            simp only [decide_not, Bool.not_eq_true', decide_eq_false_iff_not] at this
            exact this ((hf f).mpr (Or.inr hf1))
          by_cases hae : a.IsErr
          · cases a with
            | err => exact absurd trivial hf2
            | ok => exact absurd hae (by simp [State.IsErr])
          · rw [if_neg hae]
            have : (if (a.join b).1.IsErr then 0 else 1) ≤ 1 := by split <;> omega
            omega
      · rw [if_neg hc]
        have : (a.join b).1 = a := e1 (by simpa using hc)
        rw [this] at key ⊢
        omega
  have := main bs a ha hb
  have h1 := List.length_filter_le (fun f => decide (¬ a.Says f)) U
  have h2 : (if a.IsErr then 0 else 1) ≤ 1 := by split <;> omega
  omega

/-- Disagreement: `operator==` ignores the single-valued objects, so a state can be equal to the one before a join that
reports `Changed` and really loses information. -/
theorem equality_misses_change : ∃ a b : State Nat Nat, a.Good ∧ b.Good ∧ (a.join b).2 = true ∧ a.beq (a.join b).1 = true ∧
    ∃ f, (a.join b).1.Says f ∧ ¬ a.Says f := by
  refine ⟨.ok ⟨[], []⟩ [] {1}, .ok ⟨[], []⟩ [] ∅, ⟨by decide, by decide, by decide⟩, ⟨by decide, by decide, by decide⟩, by decide, by decide, .multi 1, ?_, ?_⟩
  · show (1 : Nat) ∉ _; decide
  · simp [State.Says]

theorem setEq_iff {α : Type} [DecidableEq α] {a b : List α} (ha : a.Nodup) (hb : b.Nodup) : setEq a b = true ↔ ∀ x, x ∈ a ↔ x ∈ b := by
  unfold setEq
  rw [Bool.and_eq_true, decide_eq_true_iff, List.all_eq_true]
  constructor
  · rintro ⟨hl, h⟩ x
    refine ⟨fun hx => by simpa using h x hx, fun hx => ?_⟩
    by_contra hn
    have : (x :: a).length ≤ b.length := (List.nodup_cons.mpr ⟨hn, ha⟩).length_le_of_subset (by
      intro y hy
      rcases List.mem_cons.mp hy with e | e
      · exact e ▸ hx
      · simpa using h y e)
    simp at this; omega
  · intro h
    refine ⟨Nat.le_antisymm (ha.length_le_of_subset fun x hx => (h x).mp hx) (hb.length_le_of_subset fun x hx => (h x).mpr hx), fun x hx => ?_⟩
    simpa using (h x).mp hx

/-- C48: apart from that, states are equal iff they say the same (all errors are equal). -/
theorem equality_exact (a b : State O E) (ha : a.Good) (hb : b.Good) :
    a.beq b = true ↔ (a.IsErr ∧ b.IsErr) ∨
      (¬ a.IsErr ∧ ¬ b.IsErr ∧ ∀ f, (∀ o, f ≠ .multi o) → (a.Says f ↔ b.Says f)) := by
  cases a with
  | err => cases b <;> simp [State.beq, State.IsErr]
  | ok p c s =>
    cases b with
    | err => simp [State.beq, State.IsErr]
    | ok p' c' s' =>
      obtain ⟨h1, h2, h3⟩ := ha
      obtain ⟨g1, g2, g3⟩ := hb
      simp only [State.beq, PointsTo.beq, Bool.and_eq_true, mapEq_iff h1 g1, mapEq_iff h2 g2, setEq_iff h3 g3, State.IsErr]
      simp only [false_and, false_or, not_false_eq_true, true_and]
      have key : ∀ {K : Type} [DecidableEq K] (x y : List (K × Finset O)) (k : K), ((∃ s, AMap.get? x k = some s) ↔ ∃ s, AMap.get? y k = some s) →
          (∀ o, (∃ s, AMap.get? x k = some s ∧ o ∈ s) ↔ ∃ s, AMap.get? y k = some s ∧ o ∈ s) → AMap.get? x k = AMap.get? y k := by
        intro K _ x y k e1 e2
        cases hx : AMap.get? x k <;> cases hy : AMap.get? y k <;> simp [hx, hy] at e1 e2 ⊢
        exact Finset.ext e2
      constructor
      · rintro ⟨⟨e1, e2⟩, e3⟩ f hf
        cases f with
        | pointer q => simp [State.Says, e1]
        | mayPoint q o => simp [State.Says, e1]
        | expr e => simp [State.Says, e2]
        | mayDenote e o => simp [State.Says, e2]
        | outlives x => simp [State.Says, e3]
        | multi o => exact absurd rfl (hf o)
      · intro h
        refine ⟨⟨fun k => key _ _ _ (h (.pointer k) (by simp)) fun o => h (.mayPoint k o) (by simp),
          fun k => key _ _ _ (h (.expr k) (by simp)) fun o => h (.mayDenote k o) (by simp)⟩, fun x => h (.outlives x) (by simp)⟩

/-! ### Points-to updates -/

/-- C48: what the points-to operations do. Setting replaces (for every pointer of a set), extending adds, reading through a
set of pointers is the union over them. -/
theorem points_to_updates (m : PointsTo O E) (p q : O) (s : Finset O) (ps : List O) (o : O) :
    (m.set p s).get q = (if q = p then s else m.get q) ∧
    (m.extend p s).get q = (if q = p then m.get q ∪ s else m.get q) ∧
    (m.setAll ps s).get q = (if q ∈ ps then s else m.get q) ∧
    (o ∈ m.getAll ps ↔ ∃ p ∈ ps, o ∈ m.get p) := by
  refine ⟨?_, ?_, ?_, ?_⟩
  · unfold PointsTo.get PointsTo.set
    simp only [AMap.get?_insert]
    by_cases h : p = q <;> simp [h, eq_comm]
  · unfold PointsTo.extend PointsTo.get
    simp only [AMap.get?_insert]
    by_cases h : p = q
    · subst h; simp
    · rw [if_neg h, if_neg (fun e => h e.symm)]
  · unfold PointsTo.setAll
    induction ps generalizing m with
    | nil => simp
    | cons x ps ih =>
      rw [List.foldl_cons, ih]
      have hset : (m.set x s).get q = if q = x then s else m.get q := by
        unfold PointsTo.get PointsTo.set
        simp only [AMap.get?_insert]
        by_cases h : x = q
        · simp [h]
        · rw [if_neg h, if_neg (fun e => h e.symm)]
      rw [hset]
      by_cases h1 : q ∈ ps <;> by_cases h2 : q = x <;> simp [h1, h2]
  · unfold PointsTo.getAll
    have : ∀ (ps : List O) (r : Finset O), o ∈ ps.foldl (fun r p => match AMap.get? m.ptrs p with | some s => r ∪ s | none => r) r ↔
        o ∈ r ∨ ∃ p ∈ ps, o ∈ m.get p := by
      intro ps
      induction ps with
      | nil => simp
      | cons x ps ih =>
        intro r
        rw [List.foldl_cons, ih]
        unfold PointsTo.get
        cases h : AMap.get? m.ptrs x <;> simp [h, or_assoc]
    rw [this]; simp

/-- C48: a parenthesized expression has the object set of its operand, if the operand is not itself parenthesized. -/
theorem expr_lookup (paren : E → Option E) (m : PointsTo O E) (e x : E) (s : Finset O) (h : paren e = none) (hx : paren x = some e ∨ x = e) :
    (m.setExpr e s).getExpr paren x = some s := by
  unfold PointsTo.getExpr PointsTo.setExpr
  rcases hx with hx | hx
  · rw [hx]; exact AMap.get?_insert_self _ _ _
  · rw [hx, h]; exact AMap.get?_insert_self _ _ _

/-- Disagreement: only one pair of parentheses is skipped: `((x))` is a fatal error although `x` has an object set. -/
theorem double_parens_fatal : ∃ (paren : Nat → Option Nat) (m : PointsTo Nat Nat), paren 2 = some 1 ∧ paren 1 = some 0 ∧ paren 0 = none ∧
    m.getExpr paren 0 ≠ none ∧ m.getExpr paren 2 = none :=
  ⟨fun n => match n with | 2 => some 1 | 1 => some 0 | _ => none, ⟨[], [(0, ∅)]⟩, rfl, rfl, rfl, by decide, by decide⟩

/-- Non-vacuity: two states with common and different facts. -/
example : ∃ a b : State Nat Nat, a.Good ∧ b.Good ∧ (a.join b).2 = true ∧ (a.join b).1.Says (.mayPoint 1 3) ∧
    (a.join b).1.Says (.mayPoint 1 2) ∧ (a.join b).1.Says (.multi 4) ∧ ¬ (a.join b).1.Says (.multi 5) := by
  refine ⟨.ok ⟨[(1, {2})], []⟩ [] {4, 5}, .ok ⟨[(1, {3}), (7, ∅)], []⟩ [(⟨2⟩, ⟨3⟩)] {5},
    ⟨by decide, by decide, by decide⟩, ⟨by decide, by decide, by decide⟩, by decide, ⟨{2, 3}, by decide, by decide⟩, ⟨{2, 3}, by decide, by decide⟩, ?_, ?_⟩
  · show (4 : Nat) ∉ _; decide
  · show ¬ (5 : Nat) ∉ _; decide

end Verif.Lifetimes.Lattice

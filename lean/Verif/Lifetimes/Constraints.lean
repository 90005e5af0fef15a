import Verif.Lifetimes.Model
import Mathlib.Logic.Relation
/- C47: outlives constraints and what they imply. Model of lifetime_analysis/lifetime_constraints.{h,cc} lines 28-83. -/
namespace Verif.Lifetimes

/-- `LifetimeConstraints`: a `DenseSet` of pairs `shorter <= longer`, lifetime_constraints.h lines 62-63. The order of the
list is the (arbitrary) order in which the set is iterated; no theorem depends on it. -/
abbrev Constraints := List (Lifetime × Lifetime)

/-- `DenseSet::insert`: the set and whether the element is new. New elements come at the end of this list. -/
def setInsert {α : Type} [DecidableEq α] (s : List α) (x : α) : List α × Bool := if x ∈ s then (s, false) else (s ++ [x], true)

/-- `AddOutlivesConstraint`, lifetime_constraints.h lines 36-39. -/
def Constraints.addOutlives (c : Constraints) (shorter longer : Lifetime) : Constraints := (setInsert c (shorter, longer)).1

/-- Insert every element, remembering whether one was new. -/
def setInsertAll {α : Type} [DecidableEq α] (s : List α) : List α → List α × Bool
  | [] => (s, false)
  | x :: xs => let (s, new) := setInsert s x; let (s, c) := setInsertAll s xs; (s, new || c)

/-- `LifetimeConstraints::join`, lifetime_constraints.cc lines 28-36: the result and whether the effect is `Changed`. -/
def Constraints.join (c other : Constraints) : Constraints × Bool := setInsertAll c other

/-- The loop of `GetOutlivingLifetimes`, lines 69-81: the top of the stack is the head of the list. `none` if it does not
stop within `fuel` iterations. -/
def Constraints.walk (c : Constraints) : Nat → List Lifetime → List Lifetime → Option (List Lifetime)
  | _, [], visited => some visited
  | 0, _ :: _, _ => none
  | fuel + 1, v :: stack, visited =>
    if v ∈ visited then Constraints.walk c fuel stack visited
    else Constraints.walk c fuel (((c.filter fun p => p.1 = v).map Prod.snd).reverse ++ stack) (v :: visited)

/-- `GetOutlivingLifetimes`, lines 62-84 (see `outliving_terminates`). -/
def Constraints.outliving (c : Constraints) (l : Lifetime) : Option (List Lifetime) :=
  (Constraints.walk c (c.length + 1) [l] []).map fun visited => visited.filter (· ≠ l)

/-! ### Specification -/

/-- `a` must be outlived by `b` (or is `b`): a chain of constraints. -/
def Constraints.Below (c : Constraints) : Lifetime → Lifetime → Prop := Relation.ReflTransGen fun a b => (a, b) ∈ c

/-- A way of comparing lifetimes. -/
structure IsOrder (le : Lifetime → Lifetime → Prop) : Prop where
  refl : ∀ a, le a a
  trans : ∀ a b c, le a b → le b c → le a c

/-- The constraints hold. -/
def Constraints.Holds (c : Constraints) (le : Lifetime → Lifetime → Prop) : Prop := ∀ p ∈ c, le p.1 p.2

/-- `a ≤ b` follows from the constraints. -/
def Constraints.Implies (c : Constraints) (a b : Lifetime) : Prop :=
  ∀ le : Lifetime → Lifetime → Prop, IsOrder le → c.Holds le → le a b

theorem Constraints.implies_iff (c : Constraints) (a b : Lifetime) : c.Implies a b ↔ c.Below a b := by
  constructor
  · intro h
    exact h c.Below ⟨fun _ => .refl, fun _ _ _ h1 h2 => h1.trans h2⟩ (fun p hp => .single hp)
  · intro h le ho hh
    induction h with
    | refl => exact ho.refl _
    | tail _ h2 ih => exact ho.trans _ _ _ ih (hh _ h2)

/-! ### Sets -/

theorem mem_setInsert {α : Type} [DecidableEq α] (s : List α) (x y : α) : y ∈ (setInsert s x).1 ↔ y ∈ s ∨ y = x := by
  unfold setInsert
  by_cases h : x ∈ s
  · simp only [if_pos h]
    exact ⟨Or.inl, fun h' => h'.elim id (fun e => e ▸ h)⟩
  · simp [if_neg h]

theorem setInsert_new {α : Type} [DecidableEq α] (s : List α) (x : α) : (setInsert s x).2 = true ↔ x ∉ s := by
  unfold setInsert; by_cases h : x ∈ s <;> simp [h]

theorem nodup_setInsert {α : Type} [DecidableEq α] {s : List α} (h : s.Nodup) (x : α) : (setInsert s x).1.Nodup := by
  unfold setInsert
  by_cases hx : x ∈ s
  · simpa [hx] using h
  · simp only [if_neg hx]
    rw [List.nodup_append]
    refine ⟨h, by simp, ?_⟩
    intro a ha b hb e
    simp only [List.mem_singleton] at hb
    exact hx (hb ▸ e ▸ ha)

theorem mem_setInsertAll {α : Type} [DecidableEq α] : ∀ (xs s : List α) (y : α), y ∈ (setInsertAll s xs).1 ↔ y ∈ s ∨ y ∈ xs := by
  intro xs
  induction xs with
  | nil => simp [setInsertAll]
  | cons x xs ih =>
    intro s y
    show y ∈ (setInsertAll (setInsert s x).1 xs).1 ↔ _
    rw [ih, mem_setInsert, List.mem_cons, or_assoc]

theorem setInsertAll_changed {α : Type} [DecidableEq α] : ∀ (xs s : List α), (setInsertAll s xs).2 = true ↔ ∃ x ∈ xs, x ∉ s := by
  intro xs
  induction xs with
  | nil => simp [setInsertAll]
  | cons x xs ih =>
    intro s
    have hs : (setInsertAll s (x :: xs)).2 = ((setInsert s x).2 || (setInsertAll (setInsert s x).1 xs).2) := rfl
    rw [hs, Bool.or_eq_true, ih, setInsert_new]
    constructor
    · rintro (h | ⟨y, hy, hn⟩)
      · exact ⟨x, by simp, h⟩
      · exact ⟨y, by simp [hy], fun h => hn ((mem_setInsert s x y).mpr (Or.inl h))⟩
    · rintro ⟨y, hy, hn⟩
      rcases List.mem_cons.mp hy with e | e
      · exact Or.inl (e ▸ hn)
      · by_cases hx : x ∈ s
        · refine Or.inr ⟨y, e, ?_⟩
          rw [mem_setInsert]
          rintro (h | h)
          · exact hn h
          · exact hn (h ▸ hx)
        · exact Or.inl hx

theorem nodup_setInsertAll {α : Type} [DecidableEq α] : ∀ (xs : List α) {s : List α}, s.Nodup → (setInsertAll s xs).1.Nodup := by
  intro xs
  induction xs with
  | nil => intro s h; exact h
  | cons x xs ih => intro s h; exact ih (nodup_setInsert h x)

/-! ### The walk -/

theorem Constraints.walk_spec (c : Constraints) (l : Lifetime) : ∀ (fuel : Nat) (stack visited : List Lifetime),
    stack.length + (c.filter fun p => p.1 ∉ visited).length ≤ fuel →
    (∀ v, v ∈ stack ∨ v ∈ visited → c.Below l v) →
    (∀ v ∈ visited, ∀ w, (v, w) ∈ c → w ∈ stack ∨ w ∈ visited) →
    (l ∈ stack ∨ l ∈ visited) → visited.Nodup →
    ∃ r, Constraints.walk c fuel stack visited = some r ∧ r.Nodup ∧ ∀ v, v ∈ r ↔ c.Below l v := by
  intro fuel
  induction fuel with
  | zero =>
    intro stack visited hf h1 h2 h3 hnd
    cases stack with
    | cons => simp at hf
    | nil =>
      refine ⟨visited, rfl, hnd, fun v => ⟨fun h => h1 v (Or.inr h), fun h => ?_⟩⟩
      induction h with
      | refl => simpa using h3
      | tail _ h5 ih => simpa using h2 _ ih _ h5
  | succ f ih =>
    intro stack visited hf h1 h2 h3 hnd
    cases stack with
    | nil =>
      refine ⟨visited, rfl, hnd, fun v => ⟨fun h => h1 v (Or.inr h), fun h => ?_⟩⟩
      induction h with
      | refl => simpa using h3
      | tail _ h5 ih => simpa using h2 _ ih _ h5
    | cons v stack =>
      unfold Constraints.walk
      by_cases hv : v ∈ visited
      · rw [if_pos hv]
        refine ih stack visited (by simp at hf; simp; omega) ?_ ?_ ?_ hnd
        · intro w hw; exact h1 w (hw.elim (fun h => Or.inl (by simp [h])) Or.inr)
        · intro w hw x hx
          rcases h2 w hw x hx with h | h
          · rcases List.mem_cons.mp h with e | e
            · exact Or.inr (e ▸ hv)
            · exact Or.inl e
          · exact Or.inr h
        · rcases h3 with h | h
          · rcases List.mem_cons.mp h with e | e
            · exact Or.inr (e ▸ hv)
            · exact Or.inl e
          · exact Or.inr h
      · rw [if_neg hv]
        refine ih _ (v :: visited) ?_ ?_ ?_ ?_ (List.nodup_cons.mpr ⟨hv, hnd⟩)
        · have key : ∀ c : Constraints, (c.filter fun p => p.1 = v).length + (c.filter fun p => p.1 ∉ v :: visited).length =
              (c.filter fun p => p.1 ∉ visited).length := by
            intro c
            induction c with
            | nil => rfl
            | cons p c ih =>
              by_cases e : p.1 = v
              · have : p.1 ∉ visited := e ▸ hv
                simp [List.filter_cons, e, hv] at ih ⊢
                omega
              · by_cases e2 : p.1 ∈ visited
                · simp [List.filter_cons, e, e2] at ih ⊢; omega
                · simp [List.filter_cons, e, e2] at ih ⊢; omega
          have := key c
          simp only [List.length_append, List.length_reverse, List.length_map, List.length_cons] at hf ⊢
          omega
        · intro w hw
          simp only [List.mem_append, List.mem_reverse, List.mem_map, List.mem_filter, decide_eq_true_eq, List.mem_cons] at hw
          have hlv : c.Below l v := h1 v (Or.inl (by simp))
          rcases hw with (⟨p, ⟨hp, e⟩, rfl⟩ | hw) | (rfl | hw)
          · exact hlv.tail (by rw [← e]; exact hp)
          · exact h1 w (Or.inl (by simp [hw]))
          · exact hlv
          · exact h1 w (Or.inr hw)
        · intro w hw x hx
          simp only [List.mem_append, List.mem_reverse, List.mem_map, List.mem_filter, decide_eq_true_eq, List.mem_cons]
          rcases List.mem_cons.mp hw with e | e
          · exact Or.inl (Or.inl ⟨(w, x), ⟨hx, e⟩, rfl⟩)
          · rcases h2 w e x hx with h | h
            · rcases List.mem_cons.mp h with e' | e'
              · exact Or.inr (Or.inl e')
              · exact Or.inl (Or.inr e')
            · exact Or.inr (Or.inr h)
        · simp only [List.mem_append, List.mem_cons]
          rcases h3 with h | h
          · rcases List.mem_cons.mp h with e | e
            · exact Or.inr (Or.inl e)
            · exact Or.inl (Or.inr e)
          · exact Or.inr (Or.inr h)

theorem Constraints.outliving_below (c : Constraints) (l : Lifetime) :
    ∃ r, c.outliving l = some r ∧ r.Nodup ∧ ∀ v, v ∈ r ↔ v ≠ l ∧ c.Below l v := by
  obtain ⟨r, h1, h2, h3⟩ := c.walk_spec l (c.length + 1) [l] []
    (by simp only [List.length_singleton]; have := List.length_filter_le (fun p : Lifetime × Lifetime => decide (p.1 ∉ ([] : List Lifetime))) c; omega)
    (by intro v hv; simp only [List.mem_singleton, List.not_mem_nil, or_false] at hv; rw [hv]; exact .refl)
    (by simp) (by simp) List.nodup_nil
  refine ⟨r.filter (· ≠ l), by unfold Constraints.outliving; rw [h1]; rfl, h2.filter _, fun v => ?_⟩
  rw [List.mem_filter, h3]
  simp [and_comm]

/-- C47: `GetOutlivingLifetimes` always returns, for any set of constraints (also with circles), and returns exactly the
other lifetimes that the constraints imply must outlive `l`: those that are at least `l` in every interpretation that
satisfies the constraints. -/
theorem outliving_exact (c : Constraints) (l : Lifetime) :
    ∃ r, c.outliving l = some r ∧ r.Nodup ∧ ∀ v, v ∈ r ↔ v ≠ l ∧ c.Implies l v := by
  obtain ⟨r, h1, h2, h3⟩ := c.outliving_below l
  exact ⟨r, h1, h2, fun v => by rw [h3, c.implies_iff]⟩

/-- C47: joining two sets of constraints is conjunction: an interpretation satisfies the result iff it satisfies both; the
effect is `Changed` iff a constraint was added; adding one constraint adds just that. -/
theorem constraints_join (c other : Constraints) :
    (∀ le, (c.join other).1.Holds le ↔ c.Holds le ∧ other.Holds le) ∧
    ((c.join other).2 = true ↔ ∃ p ∈ other, p ∉ c) ∧
    ((c.join other).2 = false → (c.join other).1 = c) ∧
    (∀ le a b, (c.addOutlives a b).Holds le ↔ c.Holds le ∧ le a b) := by
  refine ⟨fun le => ?_, setInsertAll_changed _ _, ?_, fun le a b => ?_⟩
  · constructor
    · intro h
      exact ⟨fun p hp => h p ((mem_setInsertAll _ _ _).mpr (Or.inl hp)), fun p hp => h p ((mem_setInsertAll _ _ _).mpr (Or.inr hp))⟩
    · rintro ⟨h1, h2⟩ p hp
      rcases (mem_setInsertAll _ _ _).mp hp with h | h
      · exact h1 p h
      · exact h2 p h
  · intro h
    unfold Constraints.join at h ⊢
    induction other generalizing c with
    | nil => rfl
    | cons x xs ih =>
      have hs : (setInsertAll c (x :: xs)).2 = ((setInsert c x).2 || (setInsertAll (setInsert c x).1 xs).2) := rfl
      rw [hs, Bool.or_eq_false_iff] at h
      have hx : (setInsert c x).1 = c := by
        unfold setInsert at h ⊢
        by_cases hx : x ∈ c
        · simp [hx]
        · simp [hx] at h
      show (setInsertAll (setInsert c x).1 xs).1 = c
      rw [hx] at h ⊢
      exact ih c h.2
  · unfold Constraints.addOutlives
    constructor
    · intro h
      exact ⟨fun p hp => h p ((mem_setInsert _ _ _).mpr (Or.inl hp)), h (a, b) ((mem_setInsert _ _ _).mpr (Or.inr rfl))⟩
    · rintro ⟨h1, h2⟩ p hp
      rcases (mem_setInsert _ _ _).mp hp with h | h
      · exact h1 p h
      · rw [h]; exact h2

/-- Non-vacuity: a circle, and a lifetime out of reach. -/
example : Constraints.outliving [(⟨2⟩, ⟨3⟩), (⟨3⟩, ⟨4⟩), (⟨4⟩, ⟨2⟩), (⟨5⟩, ⟨2⟩), (⟨4⟩, ⟨-1⟩)] ⟨2⟩ = some [⟨-1⟩, ⟨4⟩, ⟨3⟩] := by decide

end Verif.Lifetimes

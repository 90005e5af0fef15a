import Verif.FnCall.Model

/-! # Parameters: whatever C++ puts in, Rust takes out -/

namespace Verif.FnCall

/-! ## Values and paths -/

theorem lt_of_get? {α : Type} {l : List α} {i : Nat} {a : α} (h : l[i]? = some a) :
    i < l.length := by
  rcases Nat.lt_or_ge i l.length with hlt | hge
  · exact hlt
  · simp [List.getElem?_eq_none hge] at h

theorem Val.at_append (p q : List Nat) : ∀ v : Val, v.at (p ++ q) = (v.at p).bind (·.at q) := by
  induction p with
  | nil => intro v; simp [Val.at]
  | cons i p ih =>
    intro v
    cases v with
    | leaf l => simp [Val.at]
    | tup vs =>
      simp only [List.cons_append, Val.at]
      cases vs[i]? with
      | none => simp
      | some w => simp [ih]

theorem Val.at_put (p : List Nat) : ∀ (v w u : Val), v.at p = some w → (v.put p u).at p = some u := by
  induction p with
  | nil => intro v w u _; cases v <;> simp [Val.at, Val.put]
  | cons i p ih =>
    intro v w u h
    cases v with
    | leaf l => simp [Val.at] at h
    | tup vs =>
      simp only [Val.at] at h
      cases hv : vs[i]? with
      | none => simp [hv] at h
      | some y =>
        simp only [hv, Option.bind_some] at h
        have hi : i < vs.length := lt_of_get? hv
        simp only [Val.put, hv, Val.at]
        simp [hi, ih y w u h]

theorem Val.at_put_parent (p : List Nat) : ∀ (V : Val) (vs : List Val) (i : Nat) (w : Val),
    V.at p = some (.tup vs) → i < vs.length →
    (V.put (p ++ [i]) w).at p = some (.tup (vs.set i w)) := by
  induction p with
  | nil =>
    intro V vs i w h hi
    cases V with
    | leaf l => simp [Val.at] at h
    | tup us =>
      simp only [Val.at, Option.some.injEq, Val.tup.injEq] at h
      subst h
      simp [Val.put, List.getElem?_eq_getElem hi, Val.at]
  | cons j p ih =>
    intro V vs i w h hi
    cases V with
    | leaf l => simp [Val.at] at h
    | tup us =>
      simp only [Val.at] at h
      cases hv : us[j]? with
      | none => simp [hv] at h
      | some y =>
        simp only [hv, Option.bind_some] at h
        have hj : j < us.length := lt_of_get? hv
        simp only [List.cons_append, Val.put, hv, Val.at]
        simp [hj, ih y vs i w h hi]

theorem Val.put_put_parent (p q : List Nat) : ∀ (V w u : Val),
    (V.put (p ++ q) w).put p u = V.put p u := by
  induction p with
  | nil => intro V w u; cases V <;> simp [Val.put]
  | cons j p ih =>
    intro V w u
    cases V with
    | leaf l => simp [Val.put]
    | tup us =>
      simp only [List.cons_append, Val.put]
      cases hv : us[j]? with
      | none => simp [Val.put, hv]
      | some y =>
        have hj : j < us.length := lt_of_get? hv
        simp [Val.put, hj, ih]

theorem Val.put_same (p : List Nat) : ∀ (V w : Val), V.at p = some w → V.put p w = V := by
  induction p with
  | nil => intro V w h; cases V <;> simp_all [Val.put, Val.at]
  | cons j p ih =>
    intro V w h
    cases V with
    | leaf l => simp [Val.at] at h
    | tup us =>
      simp only [Val.at] at h
      cases hv : us[j]? with
      | none => simp [hv] at h
      | some y =>
        simp only [hv, Option.bind_some] at h
        have hj : j < us.length := lt_of_get? hv
        have hy : us[j] = y := by simpa [List.getElem?_eq_getElem hj] using hv
        simp only [Val.put, hv, ih y w h]
        rw [← hy, List.set_getElem_self]

theorem movedAll_length (vs : List Val) : (movedAll vs).length = vs.length := by
  induction vs with
  | nil => simp [movedAll]
  | cons v vs ih => simp [movedAll, ih]

mutual
theorem moved_owns : ∀ v : Val, v.moved.owns = []
  | .leaf l => by
      simp only [Val.moved, Val.owns, Leaf.moved]
      split <;> simp_all
  | .tup vs => by simp [Val.moved, Val.owns, movedAll_owns vs]
theorem movedAll_owns : ∀ vs : List Val, ownsAll (movedAll vs) = []
  | [] => by simp [movedAll, ownsAll]
  | v :: vs => by simp [movedAll, ownsAll, moved_owns v, movedAll_owns vs]
end

mutual
/-- A value of a type without drop glue is left as it is by a move. -/
theorem moved_trivial : ∀ (t : Ty) (v : Val), HasTy t v → t.needsDrop = false → v.moved = v
  | .scalar d, .leaf l, h, hd => by
      simp only [HasTy, Ty.needsDrop] at h hd; simp [Val.moved, Leaf.moved, h hd]
  | .adt d, .leaf l, h, hd => by
      simp only [HasTy, Ty.needsDrop] at h hd; simp [Val.moved, Leaf.moved, h hd]
  | .legacyPtr _, .leaf l, h, hd => by
      simp only [HasTy] at h; simp [Val.moved, Leaf.moved, h]
  | .legacyVal _ d, .leaf l, h, hd => by
      simp only [HasTy, Ty.needsDrop] at h hd; simp [Val.moved, Leaf.moved, h hd]
  | .composable _, v, _, hd => by simp [Ty.needsDrop] at hd
  | .tup ts, .tup vs, h, hd => by
      simp only [HasTy, Ty.needsDrop] at h hd; simp [Val.moved, movedAll_trivial ts vs h hd]
  | .scalar _, .tup _, h, _ => by simp [HasTy] at h
  | .adt _, .tup _, h, _ => by simp [HasTy] at h
  | .legacyPtr _, .tup _, h, _ => by simp [HasTy] at h
  | .legacyVal _ _, .tup _, h, _ => by simp [HasTy] at h
  | .tup _, .leaf _, h, _ => by simp [HasTy] at h
theorem movedAll_trivial : ∀ (ts : List Ty) (vs : List Val), HasTys ts vs →
    needsDropAny ts = false → movedAll vs = vs
  | [], [], _, _ => by simp [movedAll]
  | t :: ts, v :: vs, h, hd => by
      simp only [HasTys, needsDropAny, Bool.or_eq_false_iff] at h hd
      simp [movedAll, moved_trivial t v h.1 hd.1, movedAll_trivial ts vs h.2 hd.2]
  | [], _ :: _, h, _ => by simp [HasTys] at h
  | _ :: _, [], h, _ => by simp [HasTys] at h
end

theorem HasTys_length : ∀ (ts : List Ty) (vs : List Val), HasTys ts vs → vs.length = ts.length
  | [], [], _ => rfl
  | t :: ts, v :: vs, h => by
      simp only [HasTys] at h
      simp [HasTys_length ts vs h.2]
  | [], _ :: _, h => by simp [HasTys] at h
  | _ :: _, [], h => by simp [HasTys] at h

mutual
theorem rustOf_sameBytes (K : Convs) : ∀ (t : Ty) (v : Val), HasTy t v → SameBytes t →
    rustOf K t v = v
  | .scalar _, .leaf _, _, _ => by simp [rustOf]
  | .adt _, .leaf _, _, _ => by simp [rustOf]
  | .legacyPtr c, .leaf _, _, h => by simp only [SameBytes] at h; subst h; simp [rustOf]
  | .legacyVal c _, .leaf _, _, h => by simp only [SameBytes] at h; subst h; simp [rustOf]
  | .composable _, _, _, h => by simp [SameBytes] at h
  | .tup ts, .tup vs, hv, h => by
      simp only [SameBytes, HasTy] at h hv
      simp [rustOf, rustOfs_sameBytes K ts vs hv h]
  | .scalar _, .tup _, h, _ => by simp [HasTy] at h
  | .adt _, .tup _, h, _ => by simp [HasTy] at h
  | .legacyPtr _, .tup _, h, _ => by simp [HasTy] at h
  | .legacyVal _ _, .tup _, h, _ => by simp [HasTy] at h
  | .tup _, .leaf _, h, _ => by simp [HasTy] at h
theorem rustOfs_sameBytes (K : Convs) : ∀ (ts : List Ty) (vs : List Val), HasTys ts vs →
    SameBytesAll ts → rustOfs K ts vs = vs
  | [], [], _, _ => by simp [rustOfs]
  | t :: ts, v :: vs, hv, h => by
      simp only [SameBytesAll, HasTys] at h hv
      simp [rustOfs, rustOf_sameBytes K t v hv.1 h.1, rustOfs_sameBytes K ts vs hv.2 h.2]
  | [], _ :: _, h, _ => by simp [HasTys] at h
  | _ :: _, [], h, _ => by simp [HasTys] at h
end

/-! ## Names -/

/-- `n` is a name derived from `x`. -/
def Below (x n : Name) : Prop := ∃ pre, pre ≠ [] ∧ n = pre ++ x

theorem below_cons (s : Seg) (x : Name) : Below x (s :: x) := ⟨[s], by simp, rfl⟩

theorem below_trans {s : Seg} {x n : Name} (h : Below (s :: x) n) : Below x n := by
  obtain ⟨pre, _, rfl⟩ := h
  exact ⟨pre ++ [s], by simp, by simp⟩

theorem not_below_self (x : Name) : ¬ Below x x := by
  rintro ⟨pre, hp, h⟩
  have := congrArg List.length h
  simp only [List.length_append] at this
  exact hp (List.length_eq_zero_iff.mp (by omega))

theorem below_ne {x n : Name} (h : Below x n) : n ≠ x := by
  rintro rfl; exact not_below_self _ h

/-- The names of tuple element `j` of `x`: the element itself, everything derived from it, and the
name of its converted form. -/
def Elem (x : Name) (j : Nat) (n : Name) : Prop :=
  n = .idx j :: x ∨ Below (.idx j :: x) n ∨ n = .idx j :: .cabi :: x

theorem elem_below {x : Name} {j : Nat} {n : Name} (h : Elem x j n) : Below x n := by
  rcases h with rfl | h | rfl
  · exact below_cons _ _
  · exact below_trans h
  · exact ⟨[.idx j, .cabi], by simp, by simp⟩

theorem below_idx_inj {s s' : Seg} {x n : Name} (h : n = s :: x ∨ Below (s :: x) n)
    (h' : n = s' :: x ∨ Below (s' :: x) n) : s = s' := by
  have aux : ∀ s, (n = s :: x ∨ Below (s :: x) n) → ∃ pre, n = pre ++ s :: x := by
    rintro s (rfl | ⟨pre, _, rfl⟩)
    · exact ⟨[], rfl⟩
    · exact ⟨pre, rfl⟩
  obtain ⟨p, hp⟩ := aux s h
  obtain ⟨q, hq⟩ := aux s' h'
  have hl := congrArg List.length (hp.symm.trans hq)
  simp only [List.length_append, List.length_cons] at hl
  have := List.append_inj_right (hp.symm.trans hq) (by omega)
  simp at this
  exact this

theorem elem_inj {x : Name} {i j : Nat} {n : Name} (hi : Elem x i n) (hj : Elem x j n) : i = j := by
  have key : ∀ {a b : Nat}, (n = .idx a :: x ∨ Below (.idx a :: x) n) →
      n = .idx b :: .cabi :: x → False := by
    intro a b ha hb
    have h2 : n = .cabi :: x ∨ Below (.cabi :: x) n := Or.inr ⟨[.idx b], by simp, by simp [hb]⟩
    have := below_idx_inj ha h2
    cases this
  rcases hi with h | h | h <;> rcases hj with h' | h' | h'
  · simpa using below_idx_inj (Or.inl h) (Or.inl h')
  · simpa using below_idx_inj (Or.inl h) (Or.inr h')
  · exact (key (Or.inl h) h').elim
  · simpa using below_idx_inj (Or.inr h) (Or.inl h')
  · simpa using below_idx_inj (Or.inr h) (Or.inr h')
  · exact (key (Or.inr h) h').elim
  · exact (key (Or.inl h') h).elim
  · exact (key (Or.inr h') h).elim
  · rw [h] at h'; simpa using h'

theorem not_elem_cabi (x : Name) (j : Nat) : ¬ Elem x j (.cabi :: x) := by
  rintro (h | h | h)
  · simp at h
  · have := below_idx_inj (Or.inr h) (Or.inl (rfl : Seg.cabi :: x = .cabi :: x))
    cases this
  · have := congrArg List.length h
    simp at this

theorem not_elem_self (x : Name) (j : Nat) : ¬ Elem x j x := fun h =>
  not_below_self x (elem_below h)

end Verif.FnCall

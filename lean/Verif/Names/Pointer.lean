import Verif.Names.Model
import Mathlib.Data.List.Induction

/-
Pointer types (C172).
-/

namespace Verif.Names

theorem ends_facts (l : List Tok) : (ends l).1 = l.head? ∧ (ends l).2.2 = l.getLast? := by
  induction l using List.reverseRecOn with
  | nil => exact ⟨rfl, rfl⟩
  | append_singleton l a ih =>
    unfold ends at ih ⊢
    rw [List.foldl_append]
    simp only [List.foldl_cons, List.foldl_nil]
    rw [ih.1]
    refine ⟨?_, by rw [List.getLast?_append]; rfl⟩
    cases l <;> simp

theorem ends_append (ts : List Tok) (t : Tok) :
    ends (ts ++ [t]) = (some (ts.head?.getD t), ts.getLast?, some t) := by
  obtain ⟨a, b⟩ := ends_facts ts
  unfold ends at a b ⊢
  rw [List.foldl_append]
  simp only [List.foldl_cons, List.foldl_nil]
  rw [a, b]
  cases ts <;> simp

theorem spelling_ne_nil : ∀ {t : CTy}, t.Proper → t.spelling ≠ []
  | .base k ts, h => by cases k <;> simp [CTy.spelling, h.1]
  | .ptr t k, h => by simp [CTy.spelling]

theorem head_append {a b : List Tok} (h : a ≠ []) : (a ++ b).head? = a.head? := by
  cases a with
  | nil => exact absurd rfl h
  | cons => rfl

theorem spelling_head : ∀ {t : CTy}, t.Proper → (t.spelling.head? = some (.ident "const") ↔ t.front = true)
  | .base .no ts, h => by simp [CTy.spelling, CTy.front, h.2.1]
  | .base .west ts, h => by simp [CTy.spelling, CTy.front]
  | .base .east ts, h => by
      rw [CTy.spelling, head_append h.1]
      simp [CTy.front, h.2.1]
  | .ptr t k, h => by
      rw [CTy.spelling, List.append_assoc, head_append (spelling_ne_nil (t := t) h)]
      exact spelling_head (t := t) h

theorem spelling_last : ∀ {t : CTy}, t.Proper → (t.spelling.getLast? = some (.ident "const") ↔
    t.isConst = true ∧ t.front = false ∨ ∃ u, t = .ptr u true)
  | .base .no ts, h => by simp [CTy.spelling, CTy.isConst, h.2.2.1]
  | .base .west ts, h => by
      rw [CTy.spelling, List.getLast?_cons]
      cases ts with
      | nil => exact absurd rfl h.1
      | cons a ts =>
        have := h.2.2.1
        rw [List.getLast?_cons] at this
        simp [CTy.front, List.getLast?_cons] at this ⊢
        exact this
  | .base .east ts, h => by simp [CTy.spelling, CTy.isConst, CTy.front]
  | .ptr t true, h => by simp [CTy.spelling, CTy.isConst]
  | .ptr t false, h => by simp [CTy.spelling, CTy.isConst]

/-- C172: What is said about a pointer that is not const itself: it points to const exactly if the pointee is const, or
`const` is in front of the whole type. -/
theorem pointer_type {t : CTy} (h : t.Proper) :
    pointerType (CTy.ptr t false).spelling = some (t.isConst || t.front) := by
  have e : (CTy.ptr t false).spelling = t.spelling ++ [.punct '*'] := by simp [CTy.spelling]
  unfold pointerType
  rw [e, ends_append]
  simp only
  have hh : (some (t.spelling.head?.getD (.punct '*')) = some (.ident "const")) ↔ t.front = true := by
    rw [← spelling_head h]
    cases hd : t.spelling.head? with
    | none => exact absurd (List.head?_eq_none_iff.mp hd) (spelling_ne_nil h)
    | some a => simp
  have hl := spelling_last h
  by_cases hf : t.front = true
  · rw [if_pos ⟨hh.mpr hf, trivial⟩, hf, Bool.or_true]
  · rw [if_neg (fun x => hf (hh.mp x.1))]
    by_cases hc : t.isConst = true
    · rw [if_pos ⟨hl.mpr (.inl ⟨hc, by simpa using hf⟩), trivial⟩, hc]; rfl
    · rw [if_neg, if_pos trivial]
      · have hf' : t.front = false := by simpa using hf
        have hc' : t.isConst = false := by simpa using hc
        rw [hf', hc']; rfl
      · rintro ⟨x, -⟩
        rcases hl.mp x with ⟨y, -⟩ | ⟨u, rfl⟩
        · exact hc y
        · exact hc rfl

/-- C172: A pointer to something other than a pointer is a pointer to const exactly if that is const. -/
theorem pointer_to_base {k : Side} {ts : List Tok} (h : (CTy.base k ts).Proper) :
    pointerType (CTy.ptr (.base k ts) false).spelling = some (CTy.base k ts).isConst := by
  rw [pointer_type h]
  cases k <;> rfl

/-- C172: What is not a pointer is not taken for one. -/
theorem not_pointer {k : Side} {ts : List Tok} (h : (CTy.base k ts).Proper) :
    pointerType (CTy.base k ts).spelling = none := by
  have hl : (ends (CTy.base k ts).spelling).2.2 ≠ some (.punct '*') := by
    rw [(ends_facts _).2]
    cases k with
    | no => exact h.2.2.2
    | west =>
      rw [CTy.spelling, List.getLast?_cons]
      cases ts with
      | nil => exact absurd rfl h.1
      | cons a ts =>
        have := h.2.2.2
        rw [List.getLast?_cons] at this
        simpa [List.getLast?_cons] using this
    | east => simp [CTy.spelling]
  unfold pointerType
  generalize ends (CTy.base k ts).spelling = x at hl
  obtain ⟨a, b, c⟩ := x
  simp only at hl ⊢
  simp [hl]

/-- C172: A pointer that is const itself is not recognised. -/
theorem const_pointer_not_recognised (t : CTy) : pointerType (CTy.ptr t true).spelling = none := by
  have e : (CTy.ptr t true).spelling = (t.spelling ++ [.punct '*']) ++ [.ident "const"] := by simp [CTy.spelling]
  unfold pointerType
  rw [e, ends_append]
  simp

end Verif.Names

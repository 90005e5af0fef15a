import Verif.Names.Escape
import Verif.Names.Facts

/-
C++ identifiers for Rust names (C169).
-/

namespace Verif.Names

theorem reserved_iff (m : Bool) (s : Str) : isReserved m s = true ↔ s ∈ keywords ∨ m = true ∧ s ∈ macros := by
  unfold isReserved isKeyword
  by_cases h : s ∈ keywords
  · simp [h]
  · cases m <;> simp [h]

/-- C169: Every keyword of C++ is treated as one. -/
theorem cpp_keywords_reserved (m : Bool) : ∀ w ∈ cppKeywords, isReserved m w.toList = true := by
  intro w hw
  rw [reserved_iff]
  exact .inl (cpp_keywords_listed w hw)

theorem reserved_mem {m : Bool} {s : Str} (h : isReserved m s = true) : s ∈ keywords ++ macros := by
  rw [reserved_iff] at h
  exact List.mem_append.mpr (h.imp id (·.2))

/-- No word is reserved with and without an underscore. -/
theorem reserved_under {m m' : Bool} {s : Str} (h : isReserved m s = true) : isReserved m' (s ++ ['_']) = false := by
  rw [← Bool.not_eq_true]
  intro h'
  have := no_underscore _ (reserved_mem h') (by simp)
  rw [List.dropLast_concat] at this
  exact this (reserved_mem h)

theorem word_ident (X : Xid) {w : Str} (h : w ∈ keywords ++ macros) : IsIdent X w := by
  obtain ⟨h1, h2, h3⟩ := words_ident w h
  cases w with
  | nil => exact absurd rfl h1
  | cons c s =>
    refine ⟨(h2 c (by simp)).imp (X.alpha _) id, fun d hd => ?_⟩
    rcases h3 d (List.mem_cons_of_mem _ hd) with h | h | rfl
    · exact X.sub _ (X.alpha _ h)
    · exact X.digit _ h
    · exact X.under

/-- C169: An escaped name is never reserved. -/
theorem unkeyword_not_reserved (m : Bool) (s : Str) : isReserved m (unkeyword m s) = false := by
  unfold unkeyword
  split
  · exact reserved_under (by assumption)
  · rename_i h
    exact Bool.eq_false_iff.mpr h

/-- C169: Other names are left alone. -/
theorem unkeyword_other {m : Bool} {s : Str} (h : isReserved m s = false) : unkeyword m s = s := by
  unfold unkeyword
  rw [h]; rfl

/-- C169: Two names get the same name in C++ only if one is a reserved word and the other the same with an underscore. -/
theorem unkeyword_collides {m : Bool} {s t : Str} : unkeyword m s = unkeyword m t ↔
    s = t ∨ (isReserved m s = true ∧ t = s ++ ['_']) ∨ (isReserved m t = true ∧ s = t ++ ['_']) := by
  constructor
  · unfold unkeyword
    intro h
    split at h <;> split at h
    · exact .inl (List.append_cancel_right h)
    · exact .inr (.inl ⟨by assumption, h.symm⟩)
    · exact .inr (.inr ⟨by assumption, h⟩)
    · exact .inl h
  · rintro (rfl | ⟨h, rfl⟩ | ⟨h, rfl⟩)
    · rfl
    · rw [unkeyword_other (reserved_under h)]
      unfold unkeyword
      rw [h]; rfl
    · rw [unkeyword_other (reserved_under h)]
      unfold unkeyword
      rw [h]; rfl

theorem ident_under {X : Xid} {s : Str} (h : s ≠ []) : IsIdent X (s ++ ['_']) ↔ IsIdent X s := by
  cases s with
  | nil => exact absurd rfl h
  | cons c s =>
    constructor
    · rintro ⟨h1, h2⟩
      exact ⟨h1, fun d hd => h2 d (List.mem_append_left _ hd)⟩
    · intro h
      exact h.append fun d hd => by rw [List.mem_singleton.mp hd]; exact X.under

theorem unkeyword_ident {X : Xid} {m : Bool} {s : Str} : IsIdent X (unkeyword m s) ↔ IsIdent X s := by
  unfold unkeyword
  split
  · have := word_ident X (reserved_mem (by assumption))
    exact ident_under fun h => by rw [h] at this; exact this
  · rfl

theorem parseAny_plain {X : Xid} {s : Str} (h : '#' ∉ s) : parseAny X s = if IsIdent X s then some s else none := by
  unfold parseAny
  split
  · rfl
  · split
    · simp at h
    · rfl

theorem unkeyword_hash {m : Bool} {s : Str} (h : '#' ∉ s) : '#' ∉ unkeyword m s := by
  unfold unkeyword
  split
  · intro h'
    rcases List.mem_append.mp h' with h' | h'
    · exact h h'
    · simp at h'
  · exact h

/-- C169: A Rust name without `r#` has a name in C++ exactly if it is an identifier that is not reserved or reserved words
are escaped; the name is the same, with an underscore if it is reserved. -/
theorem format_name {X : Xid} {m e : Bool} {s : Str} (h : '#' ∉ s) :
    formatCcDb X m e s =
      if IsIdent X s ∧ (e = true ∨ isReserved m s = false) then some (if isReserved m s then s ++ ['_'] else s)
      else none := by
  unfold formatCcDb formatCc
  cases e
  · cases hr : isReserved m s <;> simp [parseAny_plain h]
  · rw [if_pos rfl, unkeyword_not_reserved, if_neg (by decide), parseAny_plain (unkeyword_hash h)]
    simp only [unkeyword_ident, true_or, and_true]
    rfl

/-- C169: The name in C++ is an identifier and no keyword. -/
theorem format_name_safe {X : Xid} {m e : Bool} {s r : Str} (h : '#' ∉ s) (hr : formatCcDb X m e s = some r) :
    IsIdent X r ∧ isReserved m r = false ∧ ∀ w ∈ cppKeywords, w.toList ≠ r := by
  have key : IsIdent X r ∧ isReserved m r = false := by
    rw [format_name h] at hr
    split at hr
    · rename_i hc
      have hr := Option.some.inj hr
      have hu : unkeyword m s = r := hr
      rw [← hu]
      exact ⟨unkeyword_ident.mpr hc.1, unkeyword_not_reserved m s⟩
    · cases hr
  refine ⟨key.1, key.2, fun w hw e => ?_⟩
  have := cpp_keywords_reserved m w hw
  rw [e, key.2] at this
  cases this

/-! ### Fields -/

theorem anonField_inj {i j : Nat} (h : anonField i = anonField j) : i = j :=
  dec_inj i j (List.append_cancel_left h)

theorem anonField_ident (X : Xid) (i : Nat) : IsIdent X (anonField i) :=
  (ascii_ident X (by decide) (by decide +kernel)).append (dec_chars i)

theorem anonField_not_reserved (m : Bool) (i : Nat) : isReserved m (anonField i) = false := by
  rw [← Bool.not_eq_true]
  intro h
  refine no_field _ (reserved_mem h) ?_
  unfold anonField
  rw [List.take_append_of_le_length (by decide)]
  decide +kernel

/-- C169: Every field has a name that is an identifier and not reserved. -/
theorem field_name_safe (X : Xid) (m e : Bool) (members : List Str) (i : Nat) {s : Str} (h : '#' ∉ s) :
    IsIdent X (fieldName X m e members i s) ∧ isReserved m (fieldName X m e members i s) = false := by
  unfold fieldName
  simp only
  have hh : '#' ∉ (if members.contains (unkeyword m s) then unkeyword m s ++ "_".toList else unkeyword m s) := by
    have := unkeyword_hash (m := m) h
    split
    · intro h'
      rcases List.mem_append.mp h' with h' | h'
      · exact this h'
      · simp at h'
    · exact this
  cases hf : formatCcDb X m e (if members.contains (unkeyword m s) then unkeyword m s ++ "_".toList else unkeyword m s) with
  | none => exact ⟨anonField_ident X i, anonField_not_reserved m i⟩
  | some r => exact ⟨(format_name_safe hh hf).1, (format_name_safe hh hf).2.1⟩

/-- C169: A field keeps its name if it is not reserved and no method has it. -/
theorem field_name_kept {X : Xid} {m e : Bool} {members : List Str} {i : Nat} {s : Str} (h : '#' ∉ s) (hi : IsIdent X s)
    (hr : isReserved m s = false) (hm : s ∉ members) : fieldName X m e members i s = s := by
  unfold fieldName
  have : members.contains s = false := by simpa using hm
  simp only [unkeyword_other hr, this, Bool.false_eq_true, if_false]
  rw [format_name h, if_pos ⟨hi, .inr hr⟩, hr]
  rfl

/-- C169: The name of a field is not that of a method, unless that method is called like the field (or the field as
escaped) with an underscore. -/
theorem field_name_not_method {X : Xid} {m e : Bool} {members : List Str} {i : Nat} {s : Str} (h : '#' ∉ s)
    (hi : IsIdent X s) (h1 : unkeyword m s ++ ['_'] ∉ members) (h2 : unkeyword m s ++ ['_', '_'] ∉ members)
    (h3 : anonField i ∉ members) : fieldName X m e members i s ∉ members := by
  unfold fieldName
  simp only
  have hh := unkeyword_hash (m := m) h
  by_cases hc : members.contains (unkeyword m s) = true
  · rw [if_pos hc]
    have hh : '#' ∉ unkeyword m s ++ "_".toList := by
      intro h'
      rcases List.mem_append.mp h' with h' | h'
      · exact hh h'
      · simp at h'
    rw [format_name hh]
    split
    · split
      · simpa using h2
      · exact h1
    · exact h3
  · rw [if_neg hc, format_name hh, unkeyword_not_reserved]
    split
    · simpa using hc
    · exact h3

theorem dec_head (n : Nat) : ∃ c s, dec n = c :: s ∧ c.isDigit = true := by
  induction n using Nat.strongRecOn with
  | _ n ih =>
    have hd : ∀ k < 10, (digit k).isDigit = true := by decide +kernel
    rw [dec]
    split
    · exact ⟨_, _, rfl, hd n (by assumption)⟩
    · obtain ⟨c, s, h1, h2⟩ := ih (n / 10) (by omega)
      rw [h1]
      exact ⟨c, _, rfl, h2⟩

/-- C169: The fields of a tuple struct, called `0`, `1` and so on, are called `__field0`, `__field1` and so on. -/
theorem tuple_field_name (X : Xid) (m e : Bool) (members : List Str) (i : Nat) :
    fieldName X m e members i (dec i) = anonField i := by
  obtain ⟨c, s, h1, h2⟩ := dec_head i
  have hn : ∀ t, ¬ IsIdent X (c :: t) := by
    rintro t ⟨h | rfl, -⟩
    · rw [X.nodigit c h2] at h; cases h
    · cases h2
  have hp : ∀ t, parseAny X (c :: t) = none := by
    intro t
    unfold parseAny
    rw [if_neg (hn t)]
    split
    · rename_i heq
      cases heq
      cases h2
    · rfl
  have hr : ∀ t, isReserved m (c :: t) = false := by
    intro t
    rw [← Bool.not_eq_true]
    exact fun h => hn t (word_ident X (reserved_mem h))
  have hf : ∀ t, formatCcDb X m e (c :: t) = none := by
    intro t
    unfold formatCcDb formatCc
    rw [unkeyword_other (hr t), hr t]
    cases e <;> simp [hp]
  unfold fieldName
  simp only [h1, unkeyword_other (hr s)]
  split
  · rw [List.cons_append, hf]; rfl
  · rw [hf]; rfl

/-- C169: so they have different names. -/
theorem tuple_fields_differ (X : Xid) (m e : Bool) (members : List Str) {i j : Nat}
    (h : fieldName X m e members i (dec i) = fieldName X m e members j (dec j)) : i = j := by
  rw [tuple_field_name, tuple_field_name] at h
  exact anonField_inj h

end Verif.Names

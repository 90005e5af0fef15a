/-
Specification of UTF-8 (Unicode standard, section 3.9, table 3-6), independent of any code in the
repository.  Used by the specifications of `rs_std::char_` (C28, C29) and `LossyFormatter` (C18-C21).
-/
namespace Verif.Utf8

/-- A Unicode scalar value: a code point that is not a surrogate (Unicode D76). -/
def IsScalar (c : Nat) : Prop := c ≤ 0x10FFFF ∧ ¬ (0xD800 ≤ c ∧ c ≤ 0xDFFF)

instance (c : Nat) : Decidable (IsScalar c) := by unfold IsScalar; infer_instance

/-- The UTF-8 encoding form (Unicode table 3-6), by arithmetic on the code point. -/
def encode (c : Nat) : List Nat :=
  if c < 0x80 then [c]
  else if c < 0x800 then [0xC0 + c / 64, 0x80 + c % 64]
  else if c < 0x10000 then [0xE0 + c / 4096, 0x80 + c / 64 % 64, 0x80 + c % 64]
  else [0xF0 + c / 262144, 0x80 + c / 4096 % 64, 0x80 + c / 64 % 64, 0x80 + c % 64]

/-- The bytes of a text (a sequence of scalars). -/
def encodeAll (cs : List Nat) : List Nat := cs.flatMap encode

/-- A byte string is well-formed UTF-8 when it is the encoding of some sequence of scalars. -/
def WellFormed (bs : List Nat) : Prop := ∃ cs, (∀ c ∈ cs, IsScalar c) ∧ bs = encodeAll cs

/-- `m` is a prefix of the encoding of some scalar. -/
def IsPartial (m : List Nat) : Prop := ∃ c, IsScalar c ∧ m <+: encode c

theorem encode_ne_nil (c : Nat) : encode c ≠ [] := by
  unfold encode; (repeat' split) <;> simp

theorem encode_length (c : Nat) : 1 ≤ (encode c).length ∧ (encode c).length ≤ 4 := by
  unfold encode; (repeat' split) <;> simp

/-- The encoding is prefix-free, hence uniquely decodable. -/
theorem encode_prefix_free {c d : Nat} (hc : IsScalar c) (hd : IsScalar d) (h : encode c <+: encode d) :
    c = d := by
  obtain ⟨hc1, hc2⟩ := hc
  obtain ⟨hd1, hd2⟩ := hd
  obtain ⟨t, ht⟩ := h
  unfold encode at ht
  (repeat' split at ht) <;>
    simp only [List.cons_append, List.nil_append, List.cons.injEq, reduceCtorEq, and_false] at ht <;>
    omega

theorem encode_injective {c d : Nat} (hc : IsScalar c) (hd : IsScalar d) (h : encode c = encode d) : c = d :=
  encode_prefix_free hc hd (h ▸ List.prefix_refl _)

theorem encode_append_inj {c d : Nat} {r s : List Nat} (hc : IsScalar c) (hd : IsScalar d)
    (h : encode c ++ r = encode d ++ s) : c = d ∧ r = s := by
  have hcd : c = d := by
    rcases List.prefix_or_prefix_of_prefix (l₃ := encode c ++ r) (List.prefix_append _ _)
      (h ▸ List.prefix_append (encode d) s) with h' | h'
    · exact encode_prefix_free hc hd h'
    · exact (encode_prefix_free hd hc h').symm
  subst hcd
  exact ⟨rfl, List.append_cancel_left h⟩

theorem encodeAll_injective {cs ds : List Nat} (hc : ∀ c ∈ cs, IsScalar c) (hd : ∀ c ∈ ds, IsScalar c)
    (h : encodeAll cs = encodeAll ds) : cs = ds := by
  induction cs generalizing ds with
  | nil =>
    cases ds with
    | nil => rfl
    | cons d ds =>
      simp only [encodeAll, List.flatMap_nil, List.flatMap_cons] at h
      have := List.append_eq_nil_iff.mp h.symm
      exact absurd this.1 (encode_ne_nil _)
  | cons c cs ih =>
    cases ds with
    | nil =>
      simp only [encodeAll, List.flatMap_nil, List.flatMap_cons] at h
      have := List.append_eq_nil_iff.mp h
      exact absurd this.1 (encode_ne_nil _)
    | cons d ds =>
      simp only [encodeAll, List.flatMap_cons] at h
      obtain ⟨rfl, h2⟩ := encode_append_inj (hc _ (by simp)) (hd _ (by simp)) h
      rw [ih (fun c hm => hc c (by simp [hm])) (fun c hm => hd c (by simp [hm])) h2]

end Verif.Utf8

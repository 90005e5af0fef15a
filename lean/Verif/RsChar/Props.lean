import Verif.RsChar.Model
import Verif.Common.Utf8
/- `rs_std::char_` properties C28, C29. -/
namespace Verif.RsChar
open Verif.Utf8

theorem valid_iff (c : UInt32) : isValidCodePoint c = true ↔ IsScalar c.toNat := by
  unfold isValidCodePoint IsScalar
  have h1 : (c > 0x10ffff) ↔ 0x10ffff < c.toNat := UInt32.lt_iff_toNat_lt
  have h2 : (c >= 0xd800) ↔ 0xd800 ≤ c.toNat := UInt32.le_iff_toNat_le
  have h3 : (c <= 0xdfff) ↔ c.toNat ≤ 0xdfff := UInt32.le_iff_toNat_le
  by_cases a : c > 0x10ffff
  · simp [a]; intro h; have := h1.mp a; omega
  · have : ¬ 0x10ffff < c.toNat := fun h => a (h1.mpr h)
    simp only [a, if_false, Bool.and_eq_true, decide_eq_true_eq, h2, h3]
    split <;> simp <;> omega

/-- C28: `from_u32` succeeds exactly on the Unicode scalar values, and the result converts back to
the same integer. -/
theorem from_u32_iff (c : UInt32) :
    ((fromU32 c).isSome ↔ IsScalar c.toNat) ∧
    (∀ ch, fromU32 c = some ch → ch.toU32 = c) := by
  have := valid_iff c
  unfold fromU32
  cases h : isValidCodePoint c
  · simp [h] at this ⊢; exact this
  · simp [h] at this ⊢; exact ⟨this, rfl⟩

/-- C28: the values a C++ program can build through the public constructors (default, literal,
`from_u32`, `MAX`, copies) are exactly the scalars. -/
inductive Reachable : Char_ → Prop
  | default : Reachable default_
  | max : Reachable max_
  | fromU32 {c ch} : fromU32 c = some ch → Reachable ch
  | literal {c ch} : fromLiteral c = some ch → Reachable ch

theorem reachable_iff (ch : Char_) : Reachable ch ↔ IsScalar ch.value.toNat := by
  constructor
  · intro h
    cases h with
    | default => decide
    | max => decide
    | fromU32 h =>
      unfold RsChar.fromU32 at h
      split at h
      · simp at h
      · simp at h; subst h; rename_i h'; simp at h'; exact (valid_iff _).mp h'
    | literal h =>
      unfold fromLiteral at h
      split at h
      · simp at h
      · simp at h; subst h; rename_i h'; simp at h'; exact (valid_iff _).mp h'
  · intro h
    refine .fromU32 (c := ch.value) ?_
    simp [RsChar.fromU32, (valid_iff _).mpr h]

/-- C28: equality and order agree with the integer value. -/
theorem cmp_iff (a b : Char_) :
    (a.eq b = true ↔ a.toU32.toNat = b.toU32.toNat) ∧ (a.eq b = true ↔ a = b) ∧
    (a.cmp b = .lt ↔ a.toU32.toNat < b.toU32.toNat) ∧ (a.cmp b = .gt ↔ b.toU32.toNat < a.toU32.toNat) ∧
    (a.cmp b = .eq ↔ a = b) := by
  obtain ⟨a⟩ := a; obtain ⟨b⟩ := b
  simp only [Char_.eq, Char_.cmp, Char_.toU32, beq_iff_eq, Char_.mk.injEq, UInt32.toNat_inj, true_and]
  have e : a = b ↔ a.toNat = b.toNat := UInt32.toNat_inj.symm
  have l : a < b ↔ a.toNat < b.toNat := UInt32.lt_iff_toNat_lt
  simp only [compare, compareOfLessAndEq]
  by_cases h1 : a < b
  · simp [h1]; have := l.mp h1; refine ⟨?_, ?_, ?_⟩
    · exact this
    · omega
    · rw [e]; omega
  · by_cases h2 : a = b
    · subst h2; simp
    · simp [h1, h2]; rw [e] at h2; rw [l] at h1; omega

theorem len_eq (c : Char_) : c.lenUtf8 = (encode c.value.toNat).length := by
  have l : ∀ k : UInt32, c.value < k ↔ c.value.toNat < k.toNat := fun k => UInt32.lt_iff_toNat_lt
  have a := l 0x80; have b := l 0x800; have d := l 0x10000
  simp only [show (0x80 : UInt32).toNat = 0x80 from rfl, show (0x800 : UInt32).toNat = 0x800 from rfl,
    show (0x10000 : UInt32).toNat = 0x10000 from rfl] at a b d
  unfold Char_.lenUtf8 encode
  simp only [a, b, d]
  (repeat' split) <;> rfl

private theorem field_cont (v s : UInt32) (hs : s.toNat < 32) :
    (field v s 0x3f ||| contFlag).toNat = 0x80 + v.toNat / 2 ^ s.toNat % 64 := by
  have h1 : (field v s 0x3f).toNat = v.toNat / 2 ^ s.toNat % 64 := by
    simp only [field, UInt32.toNat_toUInt8, UInt32.toNat_and, UInt32.toNat_shiftRight, Nat.mod_eq_of_lt hs,
      Nat.shiftRight_eq_div_pow, show (0x3f : UInt32).toNat = 2 ^ 6 - 1 from rfl, Nat.and_two_pow_sub_one_eq_mod]
    omega
  rw [UInt8.toNat_or, h1]
  have : v.toNat / 2 ^ s.toNat % 64 < 2 ^ 7 := by omega
  have := Nat.two_pow_add_eq_or_of_lt this 1
  simp only [Nat.mul_one, show contFlag.toNat = 2 ^ 7 from rfl] at this ⊢
  rw [Nat.or_comm]; omega

private theorem field_lead (v s : UInt32) (hs : s.toNat < 32) (k n : Nat) (m : UInt32) (hm : m.toNat = 2 ^ k - 1)
    (t : UInt8) (ht : t.toNat = 2 ^ (k + 1) * n) (hk : k < 8) (hb : v.toNat / 2 ^ s.toNat < 2 ^ k) :
    (field v s m ||| t).toNat = t.toNat + v.toNat / 2 ^ s.toNat := by
  have hle : 2 ^ k ≤ 2 ^ 8 := Nat.pow_le_pow_right (by omega) (by omega)
  have h1 : (field v s m).toNat = v.toNat / 2 ^ s.toNat := by
    simp only [field, UInt32.toNat_toUInt8, UInt32.toNat_and, UInt32.toNat_shiftRight, Nat.mod_eq_of_lt hs,
      Nat.shiftRight_eq_div_pow, hm, Nat.and_two_pow_sub_one_eq_mod]
    rw [Nat.mod_eq_of_lt hb, Nat.mod_eq_of_lt (by omega)]
  rw [UInt8.toNat_or, h1, ht, Nat.or_comm]
  have h2 : 2 ^ k ≤ 2 ^ (k + 1) := Nat.pow_le_pow_right (by omega) (by omega)
  exact (Nat.two_pow_add_eq_or_of_lt (by omega) n).symm

/-- C29: for every scalar and every buffer, `encode_utf8` aborts iff the buffer is shorter than
`len_utf8()`; otherwise it returns a string of `len_utf8()` bytes which are the UTF-8 encoding of the
value, and leaves the rest of the buffer untouched. -/
theorem encode_utf8_spec (c : Char_) (hc : IsScalar c.value.toNat) (buf : Array UInt8) :
    (c.encodeUtf8 buf = none ↔ buf.size < (encode c.value.toNat).length) ∧
    ∀ out n, c.encodeUtf8 buf = some (out, n) →
      n = (encode c.value.toNat).length ∧ n = c.lenUtf8 ∧
      (out.toList.take n).map UInt8.toNat = encode c.value.toNat ∧
      out.toList.drop n = buf.toList.drop n ∧ out.size = buf.size := by
  have hl := len_eq c
  have l : ∀ k : UInt32, c.value < k ↔ c.value.toNat < k.toNat := fun k => UInt32.lt_iff_toNat_lt
  obtain ⟨hc1, -⟩ := hc
  unfold Char_.encodeUtf8
  refine ⟨by simp only [hl]; split <;> simp <;> omega, ?_⟩
  intro out n h
  simp only at h
  split at h
  · simp at h
  rename_i hsz
  simp only [Decidable.not_not] at hsz
  simp only [Option.some.injEq, Prod.mk.injEq] at h
  obtain ⟨rfl, rfl⟩ := h
  refine ⟨hl, rfl, ?_⟩
  obtain ⟨buf⟩ := buf
  have hE := encode.eq_1 c.value.toNat
  by_cases h1 : c.value.toNat < 0x80
  · rw [if_pos h1] at hE
    rw [hE] at hl ⊢
    rw [hl] at hsz ⊢
    obtain - | ⟨b0, r⟩ := buf
    · simp at hsz
    simp
    omega
  by_cases h2 : c.value.toNat < 0x800
  · rw [if_neg h1, if_pos h2] at hE
    rw [hE] at hl ⊢
    rw [hl] at hsz ⊢
    obtain - | ⟨b0, - | ⟨b1, r⟩⟩ := buf
    · simp at hsz
    · simp at hsz
    have e0 := field_lead c.value 6 (by decide) 5 3 0x1f (by decide) 0b11000000 (by decide) (by omega)
      (by simp only [show (6 : UInt32).toNat = 6 from rfl]; omega)
    have e1 := field_cont c.value 0 (by decide)
    simp only [show (6 : UInt32).toNat = 6 from rfl, show (0 : UInt32).toNat = 0 from rfl, Nat.pow_zero, Nat.div_one] at e0 e1
    refine ⟨?_, rfl, rfl⟩
    show [(field c.value 6 0x1f ||| 0b11000000), (field c.value 0 0x3f ||| contFlag)].map UInt8.toNat = _
    simp only [List.map_cons, List.map_nil, e0, e1]
    rfl
  by_cases h3 : c.value.toNat < 0x10000
  · rw [if_neg h1, if_neg h2, if_pos h3] at hE
    rw [hE] at hl ⊢
    rw [hl] at hsz ⊢
    obtain - | ⟨b0, - | ⟨b1, - | ⟨b2, r⟩⟩⟩ := buf
    · simp at hsz
    · simp at hsz
    · simp at hsz
    have e0 := field_lead c.value 12 (by decide) 4 7 0x0f (by decide) 0b11100000 (by decide) (by omega)
      (by simp only [show (12 : UInt32).toNat = 12 from rfl]; omega)
    have e1 := field_cont c.value 6 (by decide)
    have e2 := field_cont c.value 0 (by decide)
    simp only [show (6 : UInt32).toNat = 6 from rfl, show (12 : UInt32).toNat = 12 from rfl, show (0 : UInt32).toNat = 0 from rfl, Nat.pow_zero, Nat.div_one] at e0 e1 e2
    refine ⟨?_, rfl, rfl⟩
    show [(field c.value 12 0x0f ||| 0b11100000), (field c.value 6 0x3f ||| contFlag), (field c.value 0 0x3f ||| contFlag)].map UInt8.toNat = _
    simp only [List.map_cons, List.map_nil, e0, e1, e2]
    rfl
  · rw [if_neg h1, if_neg h2, if_neg h3] at hE
    rw [hE] at hl ⊢
    rw [hl] at hsz ⊢
    obtain - | ⟨b0, - | ⟨b1, - | ⟨b2, - | ⟨b3, r⟩⟩⟩⟩ := buf
    · simp at hsz
    · simp at hsz
    · simp at hsz
    · simp at hsz
    have e0 := field_lead c.value 18 (by decide) 3 15 0x07 (by decide) 0b11110000 (by decide) (by omega)
      (by simp only [show (18 : UInt32).toNat = 18 from rfl]; omega)
    have e1 := field_cont c.value 12 (by decide)
    have e2 := field_cont c.value 6 (by decide)
    have e3 := field_cont c.value 0 (by decide)
    simp only [show (6 : UInt32).toNat = 6 from rfl, show (12 : UInt32).toNat = 12 from rfl, show (18 : UInt32).toNat = 18 from rfl, show (0 : UInt32).toNat = 0 from rfl, Nat.pow_zero, Nat.div_one] at e0 e1 e2 e3
    refine ⟨?_, rfl, rfl⟩
    show [(field c.value 18 0x07 ||| 0b11110000), (field c.value 12 0x3f ||| contFlag), (field c.value 6 0x3f ||| contFlag), (field c.value 0 0x3f ||| contFlag)].map UInt8.toNat = _
    simp only [List.map_cons, List.map_nil, e0, e1, e2, e3]
    rfl

/-- C29: the encoding determines the character: two characters whose written bytes agree are equal. -/
theorem encode_utf8_injective (a b : Char_) (ha : Reachable a) (hb : Reachable b) (ba bb oa ob : Array UInt8) (n m : Nat)
    (h1 : a.encodeUtf8 ba = some (oa, n)) (h2 : b.encodeUtf8 bb = some (ob, m))
    (h : oa.toList.take n = ob.toList.take m) : a = b := by
  have ha' := (reachable_iff a).mp ha
  have hb' := (reachable_iff b).mp hb
  have e1 := ((encode_utf8_spec a ha' ba).2 _ _ h1).2.2.1
  have e2 := ((encode_utf8_spec b hb' bb).2 _ _ h2).2.2.1
  rw [h, e2] at e1
  have := encode_injective hb' ha' e1
  obtain ⟨a⟩ := a; obtain ⟨b⟩ := b
  simp only [Char_.mk.injEq]
  exact (UInt32.toNat_inj.mp this).symm

/-- C29, `AbslStringify` (support/rs_std/char.h lines 186-191): a four-byte buffer is always enough. -/
theorem four_bytes_suffice (c : Char_) (hc : Reachable c) (buf : Array UInt8) (hb : 4 ≤ buf.size) :
    ∃ out n, c.encodeUtf8 buf = some (out, n) := by
  have h := (encode_utf8_spec c ((reachable_iff c).mp hc) buf).1
  have hl := (encode_length c.value.toNat).2
  cases he : c.encodeUtf8 buf with
  | none => have := h.mp he; omega
  | some p => exact ⟨p.1, p.2, rfl⟩

/-- Non-vacuity: U+20AC (euro sign) in a five-byte buffer. -/
example : Char_.encodeUtf8 ⟨0x20AC⟩ #[1, 2, 3, 4, 5] = some (#[0xE2, 0x82, 0xAC, 4, 5], 3) := by decide
example : Reachable ⟨0x20AC⟩ := (reachable_iff _).mpr (by decide)
example : Char_.encodeUtf8 ⟨0x20AC⟩ #[1, 2] = none := by decide
example : fromU32 0xD800 = none ∧ fromU32 0x110000 = none := by decide

end Verif.RsChar

import Verif.Consts.ToCpp
/-
C147: the constructor that C++ gets for a variant without fields makes the bytes of that variant.
C148: distinct C++ types are distinct Rust types.
-/
namespace Verif.Consts

theorem leBytes_length : ∀ n v, (leBytes n v).length = n
  | 0, _ => rfl
  | n + 1, v => by simp [leBytes, leBytes_length n]

theorem leBytes_lt : ∀ n v, ∀ b ∈ leBytes n v, b < 256
  | 0, _, b, h => by simp [leBytes] at h
  | n + 1, v, b, h => by
    simp only [leBytes, List.mem_cons] at h
    rcases h with rfl | h
    · exact Nat.mod_lt _ (by decide)
    · exact leBytes_lt n _ b h

theorem take_leBytes : ∀ {k n : Nat} (v : Nat), k ≤ n → (leBytes n v).take k = leBytes k v
  | 0, _, _, _ => by simp [leBytes]
  | k + 1, 0, _, h => absurd h (by omega)
  | k + 1, n + 1, v, h => by
    simp only [leBytes, List.take_succ_cons]
    rw [take_leBytes (v / 256) (Nat.le_of_succ_le_succ h)]

theorem ofDigits_leBytes : ∀ (n v : Nat), v < 256 ^ n → Nat.ofDigits 256 (leBytes n v) = v
  | 0, v, h => by
    obtain rfl : v = 0 := by simpa using h
    rfl
  | n + 1, v, h => by
    have hlt : v / 256 < 256 ^ n := by
      rw [Nat.pow_succ] at h
      exact Nat.div_lt_of_lt_mul (by rw [Nat.mul_comm]; exact h)
    simp only [leBytes, Nat.ofDigits_cons, ofDigits_leBytes n _ hlt]
    exact Nat.mod_add_div v 256

/-- The bytes of the tag, as the target stores them. -/
theorem tagBytes_eq {e : Endian} {adtSize tagSize off v : Nat} (h : off + tagSize ≤ adtSize)
    (hs : tagSize ≤ 16) :
    tagBytes e adtSize tagSize off v =
      match e with
      | .little => leBytes tagSize v
      | .big => (leBytes tagSize v).reverse := by
  have hm : min (adtSize - off) tagSize = tagSize := by omega
  unfold tagBytes
  simp only [hm]
  cases e with
  | little => exact take_leBytes v hs
  | big =>
    simp only [beBytes, List.drop_reverse, leBytes_length]
    rw [show 16 - (16 - tagSize) = tagSize by omega, take_leBytes v hs]

/-- **C147.** The object that the C++ constructor of a fieldless variant makes has the size of the
enum; reading the tag, where the layout has it and in the byte order of the target, gives the tag of
the variant; all other bytes are zero. -/
theorem variant_constructor {e : Endian} {adtSize tagSize off v : Nat} (h : off + tagSize ≤ adtSize)
    (hs : tagSize ≤ 16) (hv : v < 256 ^ tagSize) :
    (variantBytes e adtSize tagSize off v).length = adtSize ∧
    readMem e (((variantBytes e adtSize tagSize off v).drop off).take tagSize) = v ∧
    (∀ i, i < adtSize → i < off ∨ off + tagSize ≤ i →
      (variantBytes e adtSize tagSize off v)[i]? = some 0) ∧
    (∀ b ∈ variantBytes e adtSize tagSize off v, b < 256) := by
  obtain ⟨tb, htb⟩ : ∃ tb, tagBytes e adtSize tagSize off v = tb := ⟨_, rfl⟩
  have hlen : tb.length = tagSize := by
    rw [← htb, tagBytes_eq h hs]
    cases e <;> simp [leBytes_length]
  have hread : readMem e tb = v := by
    rw [← htb, tagBytes_eq h hs]
    cases e <;> simp only [readMem, List.reverse_reverse] <;> exact ofDigits_leBytes _ _ hv
  have hbyte : ∀ b ∈ tb, b < 256 := by
    rw [← htb, tagBytes_eq h hs]
    cases e
    · exact leBytes_lt _ _
    · intro b hb; exact leBytes_lt _ _ b (by simpa using hb)
  have heq : variantBytes e adtSize tagSize off v =
      List.replicate off 0 ++ (tb ++ List.replicate (adtSize - (off + tagSize)) 0) := by
    unfold variantBytes
    simp only [htb, hlen, List.take_replicate, List.drop_replicate, List.append_assoc]
    rw [Nat.min_eq_left (by omega)]
  rw [heq]
  refine ⟨?_, ?_, ?_, ?_⟩
  · simp only [List.length_append, List.length_replicate, hlen]; omega
  · rw [List.drop_append_of_le_length (by simp), List.drop_of_length_le (by simp), List.nil_append,
      List.take_append_of_le_length (by omega), List.take_of_length_le (by omega)]
    exact hread
  · rintro i hi (ho | ho)
    · rw [List.getElem?_append_left (by simpa using ho), List.getElem?_replicate]
      simp [ho]
    · rw [List.getElem?_append_right (by simp; omega),
        List.getElem?_append_right (by simp; omega), List.getElem?_replicate]
      simp only [List.length_replicate, hlen]
      rw [if_pos (by omega)]
  · intro b hb
    simp only [List.mem_append, List.mem_replicate] at hb
    rcases hb with ⟨_, rfl⟩ | hb | ⟨_, rfl⟩
    · decide
    · exact hbyte b hb
    · decide

/-- An enum with one inhabited variant has no tag: the object is all zeros. -/
theorem single_variant (e : Endian) (n : Nat) : variantBytes e n 0 0 0 = List.replicate n 0 := by
  have : tagBytes e n 0 0 0 = [] := by cases e <;> simp [tagBytes, beBytes, leBytes]
  simp [variantBytes, this]

/-- A two-byte tag 0x0102 at offset 4 of 8 bytes. -/
theorem ex_tag : variantBytes .little 8 2 4 0x0102 = [0, 0, 0, 0, 2, 1, 0, 0] ∧
    variantBytes .big 8 2 4 0x0102 = [0, 0, 0, 0, 1, 2, 0, 0] := by decide

/-! ### Type identity -/

/-- What the typedefs of `<stdint.h>` are (smallest fundamental type; `int64_t` by the platform). -/
def stdint (a : Abi) : RInt → Option Ffi
  | .i8 => some .c_schar
  | .i16 => some .c_short
  | .i32 => some .c_int
  | .i64 => if a = .lp64 then some .c_long else some .c_longlong
  | .u8 => some .c_uchar
  | .u16 => some .c_ushort
  | .u32 => some .c_uint
  | .u64 => if a = .lp64 then some .c_ulong else some .c_ulonglong
  | _ => none

/-- Width of the C++ type with a name (`wchar_t` has 16 bits on Windows). -/
def Ffi.cxxBits (a : Abi) : Ffi → Nat
  | .c_char | .c_schar | .c_uchar | .c_char8_t => 8
  | .c_short | .c_ushort | .c_char16_t => 16
  | .c_int | .c_uint | .c_char32_t => 32
  | .c_long | .c_ulong => a.longBits
  | .c_longlong | .c_ulonglong => 64
  | .c_wchar_t => if a = .llp64 then 16 else 32

/-- **C148.** Different C++ integer types are different Rust types in `ffi_11`, on every platform. -/
theorem ffi11_one_to_one {a : Abi} {m n : Ffi} (h : ffi11 a m = ffi11 a n) : m = n := by
  cases a <;> cases m <;> cases n <;> first | rfl | (revert h; decide)

/-- A type of `ffi_11` is the builtin `iN` or `uN` exactly if the C++ type is `intN_t` or `uintN_t`;
it is never another builtin type. -/
theorem ffi11_builtin_iff {a : Abi} {n : Ffi} {r : RInt} :
    ffi11 a n = .int r ↔ stdint a r = some n := by
  cases a <;> cases n <;> cases r <;> decide

/-- The Rust type has the width of the C++ type. -/
theorem ffi11_width (a : Abi) (n : Ffi) : ((ffi11 a n).shape a).bits = n.cxxBits a := by
  cases a <;> cases n <;> decide

/-- The C++ type that a primitive is, typedefs resolved (`size_t` and `intptr_t` as wide as a
pointer: `long` on LP64, `long long` on LLP64, `int` on ILP32). Other types stand for themselves. -/
def cxxName (a : Abi) : Prim → Ffi ⊕ Prim
  | .char => .inl .c_char
  | .signedChar => .inl .c_schar
  | .unsignedChar => .inl .c_uchar
  | .short => .inl .c_short
  | .int => .inl .c_int
  | .long => .inl .c_long
  | .longLong => .inl .c_longlong
  | .unsignedShort => .inl .c_ushort
  | .unsignedInt => .inl .c_uint
  | .unsignedLong => .inl .c_ulong
  | .unsignedLongLong => .inl .c_ulonglong
  | .char16T => .inl .c_char16_t
  | .char32T => .inl .c_char32_t
  | .int8T => .inl .c_schar
  | .int16T => .inl .c_short
  | .int32T => .inl .c_int
  | .int64T => .inl (if a = .lp64 then .c_long else .c_longlong)
  | .uint8T => .inl .c_uchar
  | .uint16T => .inl .c_ushort
  | .uint32T => .inl .c_uint
  | .uint64T => .inl (if a = .lp64 then .c_ulong else .c_ulonglong)
  | .ptrdiffT => .inl (ptr a true)
  | .intptrT => .inl (ptr a true)
  | .sizeT => .inl (ptr a false)
  | .uintptrT => .inl (ptr a false)
  | p => .inr p
where
  ptr (a : Abi) (s : Bool) : Ffi :=
    match a, s with
    | .lp64, true | .lp64ll, true => .c_long
    | .lp64, false | .lp64ll, false => .c_ulong
    | .llp64, true => .c_longlong
    | .llp64, false => .c_ulonglong
    | .ilp32, true => .c_int
    | .ilp32, false => .c_uint

/-- Two C++ integer types that get the same Rust type in bindings are the same C++ type, `char16_t`
and `char32_t` apart: overloads that C++ keeps apart are kept apart in Rust. -/
theorem primitives_one_to_one {a : Abi} {p q : Prim} {t : RsTy} (hp : rsTyOf a p = some t)
    (hq : rsTyOf a q = some t) (h1 : p ≠ .char16T ∧ p ≠ .char32T) (h2 : q ≠ .char16T ∧ q ≠ .char32T) :
    cxxName a p = cxxName a q := by
  have h : rsTyOf a p = rsTyOf a q := hp.trans hq.symm
  have hs : (rsTyOf a p).isSome := by rw [hp]; rfl
  clear hp hq
  revert h1 h2 h hs
  cases a <;> cases p <;> cases q <;> decide

/-- Disagreement: `char16_t` and `uint16_t` are different types in C++ but both `u16` in bindings
(although `ffi_11` has `c_char16_t`); likewise `char32_t`. -/
theorem char16_collides (a : Abi) :
    rsTyOf a .char16T = rsTyOf a .uint16T ∧ cxxName a .char16T ≠ cxxName a .uint16T ∧
    rsTyOf a .char32T = rsTyOf a .uint32T ∧ cxxName a .char32T ≠ cxxName a .uint32T ∧
    ffi11 a .c_char16_t ≠ ffi11 a .c_ushort := by
  cases a <;> decide

end Verif.Consts

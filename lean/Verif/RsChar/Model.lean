/-
Model of `rs_std::char_` (support/rs_std/char.h, support/rs_std/char.cc).
-/
namespace Verif.RsChar

/-- `char_`: support/rs_std/char.h lines 39-173; one `std::uint32_t value_`. -/
structure Char_ where
  value : UInt32
deriving DecidableEq, Repr

/-- `char_::IsValidCodePoint`, support/rs_std/char.h lines 140-153. -/
def isValidCodePoint (c : UInt32) : Bool :=
  if c > 0x10ffff then false
  else if c >= 0xd800 && c <= 0xdfff then false
  else true

/-- `char_::from_u32` (and `from_u32_unchecked`), support/rs_std/char.h lines 83-89, 134-138. -/
def fromU32 (c : UInt32) : Option Char_ :=
  if !isValidCodePoint c then none else some ⟨c⟩

/-- default constructor, support/rs_std/char.h lines 45, 160 (`value_ = '\0'`). -/
def default_ : Char_ := ⟨0⟩

/-- `char_::MAX`, support/rs_std/char.h line 167. -/
def max_ : Char_ := ⟨0x10ffff⟩

/-- The `consteval` character-literal constructor, support/rs_std/char.h lines 54-65, for a literal
whose character type has been zero-extended to 32 bits (`char8_t`, `char16_t`, `char32_t`).
`none` = compile error. Plain `char` literals with negative value are not modelled. -/
def fromLiteral (c : UInt32) : Option Char_ :=
  if !isValidCodePoint c then none else some ⟨c⟩

/-- `operator std::uint32_t`, support/rs_std/char.h line 94. -/
def Char_.toU32 (c : Char_) : UInt32 := c.value

/-- `operator==`, support/rs_std/char.h lines 169-171. -/
def Char_.eq (l r : Char_) : Bool := l.value == r.value

/-- `operator<=>`, support/rs_std/char.h lines 173-175. -/
def Char_.cmp (l r : Char_) : Ordering := compare l.value r.value

/-- `char_::len_utf8`, support/rs_std/char.h lines 117-127. -/
def Char_.lenUtf8 (c : Char_) : Nat :=
  if c.value < 0x80 then 1
  else if c.value < 0x800 then 2
  else if c.value < 0x10000 then 3
  else 4

/-- `static_cast<uint8_t>((value_ >> s) & mask)`. -/
def field (v s mask : UInt32) : UInt8 := ((v >>> s) &&& mask).toUInt8

/-- `kContFlag`, support/rs_std/char.cc line 20. -/
def contFlag : UInt8 := 0b10000000

/-- `char_::encode_utf8`, support/rs_std/char.cc lines 24-61. The buffer is the caller's span; the
result is the buffer afterwards together with the returned `StrRef` (pointer to the start of the
buffer, so only its length is a datum). `none` is the `CRUBIT_CHECK` abort. -/
def Char_.encodeUtf8 (c : Char_) (buf : Array UInt8) : Option (Array UInt8 × Nat) :=
  let len := c.lenUtf8
  if ¬ (len ≤ buf.size) then none else
  let v := c.value
  let out := match len with
    | 1 => buf.setIfInBounds 0 v.toUInt8
    | 2 => (buf.setIfInBounds 0 (field v 6 0x1f ||| 0b11000000)).setIfInBounds 1 (field v 0 0x3f ||| contFlag)
    | 3 => ((buf.setIfInBounds 0 (field v 12 0x0f ||| 0b11100000)).setIfInBounds 1
              (field v 6 0x3f ||| contFlag)).setIfInBounds 2 (field v 0 0x3f ||| contFlag)
    | _ => (((buf.setIfInBounds 0 (field v 18 0x07 ||| 0b11110000)).setIfInBounds 1
              (field v 12 0x3f ||| contFlag)).setIfInBounds 2 (field v 6 0x3f ||| contFlag)).setIfInBounds 3
              (field v 0 0x3f ||| contFlag)
  some (out, len)

end Verif.RsChar

import Verif.Consts.Spec
/-
Model of constants that cross the language boundary, in both directions.
-/
namespace Verif.Consts

/-- Decimal text of a natural number, most significant digit first, as written by Rust's `Display`
(`to_string`, `format!`) and `proc_macro2::Literal`. -/
def showNat (n : Nat) : List Nat := if n = 0 then [0] else (Nat.digits 10 n).reverse

/-! ### C++ to Rust -/

/-- `Primitive`, rs_bindings_from_cc/ir.rs lines 599-644. The two spellings `X` and `std::X` of the
typedefs are one constructor here. -/
inductive Prim where
  | bool | void | float | double | char | signedChar | unsignedChar | short | int | long | longLong
  | int128 | unsignedShort | unsignedInt | unsignedLong | unsignedLongLong | unsignedInt128
  | char16T | char32T | ptrdiffT | intptrT | sizeT | uintptrT
  | int8T | int16T | int32T | int64T | uint8T | uint16T | uint32T | uint64T
deriving DecidableEq, Repr

/-- The shape of the C++ type (C++ and the platform's ABI; the width of `bool` is that of the
`APSInt`s Clang makes for it, `ASTContext::getIntWidth`). `none`: not an integer type. -/
def Prim.ty (T : Target) : Prim → Option IntTy
  | .bool => some ⟨1, false⟩
  | .void | .float | .double => none
  | .char => some ⟨8, T.charSigned⟩
  | .signedChar => some ⟨8, true⟩
  | .unsignedChar => some ⟨8, false⟩
  | .short => some ⟨16, true⟩
  | .int => some ⟨32, true⟩
  | .long => some ⟨T.abi.longBits, true⟩
  | .longLong => some ⟨64, true⟩
  | .int128 => some ⟨128, true⟩
  | .unsignedShort => some ⟨16, false⟩
  | .unsignedInt => some ⟨32, false⟩
  | .unsignedLong => some ⟨T.abi.longBits, false⟩
  | .unsignedLongLong => some ⟨64, false⟩
  | .unsignedInt128 => some ⟨128, false⟩
  | .char16T => some ⟨16, false⟩
  | .char32T => some ⟨32, false⟩
  | .ptrdiffT | .intptrT => some ⟨T.abi.ptrBits, true⟩
  | .sizeT | .uintptrT => some ⟨T.abi.ptrBits, false⟩
  | .int8T => some ⟨8, true⟩
  | .int16T => some ⟨16, true⟩
  | .int32T => some ⟨32, true⟩
  | .int64T => some ⟨64, true⟩
  | .uint8T => some ⟨8, false⟩
  | .uint16T => some ⟨16, false⟩
  | .uint32T => some ⟨32, false⟩
  | .uint64T => some ⟨64, false⟩

/-- The types `ffi_11::c_*`, support/ffi_11/src/lib.rs lines 121-127 (`c_char`), 236-270 (the
aliases), 273-408 (`long_integers`, one per data model), 448-465 (`charN_t`), 477-514 (`wchar_t`).
`wrap`: a `new_integer!` newtype. -/
def ffi11 (a : Abi) : Ffi → RsTy
  | .c_char => .wrap .c_char .u8
  | .c_schar => .int .i8
  | .c_uchar => .int .u8
  | .c_short => .int .i16
  | .c_ushort => .int .u16
  | .c_int => .int .i32
  | .c_uint => .int .u32
  | .c_long =>
    match a with
    | .lp64 => .int .i64
    | .lp64ll => .wrap .c_long .i64
    | .llp64 => .wrap .c_long .i32
    | .ilp32 => .wrap .c_long .i32
  | .c_ulong =>
    match a with
    | .lp64 => .int .u64
    | .lp64ll => .wrap .c_ulong .u64
    | .llp64 => .wrap .c_ulong .u32
    | .ilp32 => .wrap .c_ulong .u32
  | .c_longlong =>
    match a with
    | .lp64 => .wrap .c_longlong .i64
    | .lp64ll => .int .i64
    | .llp64 => .int .i64
    | .ilp32 => .int .i64
  | .c_ulonglong =>
    match a with
    | .lp64 => .wrap .c_ulonglong .u64
    | .lp64ll => .int .u64
    | .llp64 => .int .u64
    | .ilp32 => .int .u64
  | .c_char8_t => .wrap .c_char8_t .u8
  | .c_char16_t => .wrap .c_char16_t .u16
  | .c_char32_t => .wrap .c_char32_t .u32
  | .c_wchar_t => .wrap .c_wchar_t (if a = .llp64 then .u16 else .u32)

/-- `PrimitiveName`, rs_bindings_from_cc/generate_bindings/database/rs_snippet.rs lines 2287-2290;
`other`: the native or `ffi_11` types that are no integer types. -/
inductive PrimName where
  | native (t : RsTy)
  | ffi (n : Ffi)
  | other
deriving DecidableEq, Repr

/-- `PrimitiveName::from_primitive`, rs_snippet.rs lines 2293-2333. -/
def primName : Prim → PrimName
  | .bool => .native .bool
  | .void => .other
  | .float => .other
  | .double => .other
  | .char => .ffi .c_char
  | .signedChar => .ffi .c_schar
  | .unsignedChar => .ffi .c_uchar
  | .short => .ffi .c_short
  | .int => .ffi .c_int
  | .long => .ffi .c_long
  | .longLong => .ffi .c_longlong
  | .int128 => .native (.int .i128)
  | .unsignedShort => .ffi .c_ushort
  | .unsignedInt => .ffi .c_uint
  | .unsignedLong => .ffi .c_ulong
  | .unsignedLongLong => .ffi .c_ulonglong
  | .unsignedInt128 => .native (.int .u128)
  | .ptrdiffT => .native (.int .isize)
  | .intptrT => .native (.int .isize)
  | .sizeT => .native (.int .usize)
  | .uintptrT => .native (.int .usize)
  | .int8T => .native (.int .i8)
  | .int16T => .native (.int .i16)
  | .int32T => .native (.int .i32)
  | .int64T => .native (.int .i64)
  | .uint8T => .native (.int .u8)
  | .char16T => .native (.int .u16)
  | .uint16T => .native (.int .u16)
  | .char32T => .native (.int .u32)
  | .uint32T => .native (.int .u32)
  | .uint64T => .native (.int .u64)

/-- The Rust type that the bindings write for a primitive (`PrimitiveName::to_token_stream`,
rs_snippet.rs lines 2334-2345), with the `ffi_11` aliases of the platform resolved. -/
def rsTyOf (a : Abi) (p : Prim) : Option RsTy :=
  match primName p with
  | .native t => some t
  | .ffi n => some (ffi11 a n)
  | .other => none

/-- `llvm::APSInt`: a bit pattern of a width, and a sign. -/
structure APSInt where
  ty : IntTy
  raw : Nat
deriving DecidableEq, Repr

/-- Number of leading bits, of the lowest `n`, that are equal to `b`: `APInt::countl_one`,
`countl_zero` (LLVM). -/
def countl (b : Bool) (raw : Nat) : Nat → Nat
  | 0 => 0
  | n + 1 => if raw.testBit n = b then 1 + countl b raw n else 0

/-- `APInt::isNegative` (LLVM): the top bit, whatever the signedness of the `APSInt`. -/
def APSInt.topBit (v : APSInt) : Bool := v.raw.testBit (v.ty.bits - 1)

/-- `APInt::getSignificantBits` (LLVM): `BitWidth - getNumSignBits() + 1`. -/
def APSInt.significantBits (v : APSInt) : Nat :=
  v.ty.bits - countl v.topBit v.raw v.ty.bits + 1

/-- `APInt::getSExtValue` cast to `uint64_t`: sign extension of up to 64 bits, else the low word. -/
def APSInt.sext64 (v : APSInt) : Nat :=
  if v.ty.bits ≤ 64 then
    if v.topBit then v.raw + (2 ^ 64 - 2 ^ v.ty.bits) else v.raw
  else v.raw % 2 ^ 64

/-- `APInt::getZExtValue`: the value of up to 64 bits, else the low word (the assertion
`getActiveBits() <= 64` exists only in debug builds of LLVM, and is not modelled). -/
def APSInt.zext64 (v : APSInt) : Nat := v.raw % 2 ^ 64

/-- `crubit::IntegerConstant`, rs_bindings_from_cc/ir.h lines 302-306, and `ir::IntegerConstant`,
rs_bindings_from_cc/ir.rs lines 857-860. -/
structure IntConst where
  isNegative : Bool
  wrapped : Nat
deriving DecidableEq, Repr

/-- `IntegerConstant::FromAPValue` and the constructor, rs_bindings_from_cc/ir.h lines 277-300.
`value < 0` is the comparison of `APSInt`, which looks at the signedness. -/
def fromAPValue (v : APSInt) : Option IntConst :=
  if v.significantBits > 64 then none
  else some { isNegative := v.ty.signed && v.topBit
              wrapped := if v.ty.signed then v.sext64 else v.zext64 }

/-- `static_cast<int64_t>` of a `uint64_t`, and Rust's `as i64`. -/
def asI64 (n : Nat) : Int := if n < 2 ^ 63 then n else (n : Int) - (2 ^ 64 : Nat)

/-- Rust's `as u64` of an `i64`. -/
def asU64 (i : Int) : Nat := (i % (2 ^ 64 : Nat)).toNat

/-- `ir_proto::IntegerConstant`: the wrapped value is an `int64`. -/
structure ProtoConst where
  isNegative : Bool
  wrapped : Int

/-- `IntegerConstant::WriteToProto`, rs_bindings_from_cc/ir.cc lines 123-126. -/
def IntConst.toProto (c : IntConst) : ProtoConst := ⟨c.isNegative, asI64 c.wrapped⟩

/-- `IntegerConstantView::to_ir`, rs_bindings_from_cc/ir.rs lines 865-870. -/
def ProtoConst.toIr (c : ProtoConst) : IntConst := ⟨c.isNegative, asU64 c.wrapped⟩

/-- `Literal::i64_unsuffixed` and `Literal::u64_unsuffixed` as Rust tokens. -/
def litI64 (i : Int) : RsExpr := if i < 0 then .neg (showNat i.natAbs) else .lit (showNat i.natAbs)

/-- `integer_constant_to_token_stream`,
rs_bindings_from_cc/generate_bindings/database/code_snippet.rs lines 462-503, for a type that is
(an alias of) the primitive `p`; other types are refused there. For `other` primitives the code
would write a call of a function for them; no integer constant has such a type. -/
def constTokens (c : IntConst) (p : Prim) : Option RsExpr :=
  if p = .bool then
    if c.wrapped = 0 then some .ff else some .tt
  else
    let value := if c.isNegative then litI64 (asI64 c.wrapped) else .lit (showNat c.wrapped)
    let value := if p = .char then .asU8 value else value
    match primName p with
    | .native _ => some value
    | .ffi n => some (.new n value)
    | .other => none

/-- From the C++ constant to the Rust expression: enumerators (importers/enum.cc lines 112-120;
generate_enum.rs lines 52-58), enumerators of anonymous enums (importers/enum_constant.cc lines
79-90) and `constexpr` variables (importers/var.cc lines 111-140), the latter two by
`generate_constant` (generate_bindings/lib.rs lines 209-238). `none`: no bindings. -/
def rustConst (p : Prim) (v : APSInt) : Option RsExpr :=
  (fromAPValue v).bind fun c => constTokens c.toProto.toIr p

/-! ### Rust to C++ -/

/-- Result of a function that may refuse (`bail!`) or panic. -/
inductive Res (α : Type) where
  | ok (a : α)
  | bail
  | panic
deriving DecidableEq, Repr

/-- Text of a signed value. -/
def litInt (i : Int) : CcExpr := .lit (decide (i < 0)) (showNat i.natAbs)

/-- Text of a signed value inside a macro. -/
def macInt (m : Mac) (i : Int) : CcExpr := .mac m (decide (i < 0)) (showNat i.natAbs)

/-- `ScalarInt::to_i32` etc.: the value, or a panic if the size of the scalar is another one. -/
def scalarTo (t want : IntTy) (raw : Nat) : Option Int :=
  if t.bits = want.bits then some (want.value raw) else none

/-- The step from a sized read to a text. -/
def Res.ofRead (v : Option Int) (f : Int → CcExpr) : Res CcExpr :=
  match v with
  | some i => .ok (f i)
  | none => .panic

/-- The shape of the representation of a Rust constant's type; one byte for `bool`. -/
def RsTy.shape (a : Abi) : RsTy → IntTy
  | .bool => ⟨8, false⟩
  | .int r => r.ty a
  | .wrap _ r => r.ty a

/-- The text for an `i64`: lines 151-160, 161-168 of `scalar_value_to_string`. -/
def i64Text (v : Int) : CcExpr := if v = -(2 ^ 63 : Nat) then .int64Min else macInt .INT64_C v

/-- `scalar_value_to_string`, cc_bindings_from_rs/generate_bindings/generate_struct_and_union.rs
lines 112-187, for a scalar with bits `raw` of the type `ty` (floats and pointers not modelled).
On targets with 32-bit pointers `to_target_isize` reads 32 bits and extends. -/
def scalarText (a : Abi) (ty : RsTy) (raw : Nat) : Res CcExpr :=
  let t := ty.shape a
  match ty with
  | .bool => .ok (.bool (decide (raw ≠ 0)))
  | .int r =>
    if t.signed = false ∧ raw < 32767 then .ok (.lit false (showNat raw))
    else
      match r with
      | .i8 => .ofRead (scalarTo t ⟨8, true⟩ raw) litInt
      | .i16 => .ofRead (scalarTo t ⟨16, true⟩ raw) litInt
      | .i32 => .ofRead (scalarTo t ⟨32, true⟩ raw) (macInt .INT32_C)
      | .u8 => .ofRead (scalarTo t ⟨8, false⟩ raw) litInt
      | .u16 => .ofRead (scalarTo t ⟨16, false⟩ raw) (macInt .UINT16_C)
      | .u32 => .ofRead (scalarTo t ⟨32, false⟩ raw) (macInt .UINT32_C)
      | .u64 => .ofRead (scalarTo t ⟨64, false⟩ raw) (macInt .UINT64_C)
      | .usize => .ofRead (scalarTo t ⟨a.ptrBits, false⟩ raw) (macInt .UINT64_C)
      | .i64 => .ofRead (scalarTo t ⟨64, true⟩ raw) i64Text
      | .isize => .ofRead (scalarTo t ⟨a.ptrBits, true⟩ raw) i64Text
      | .i128 => .bail
      | .u128 => .bail
  | .wrap n _ =>
    match n with
    | .c_char => .ofRead (scalarTo t ⟨8, false⟩ raw) litInt
    | .c_long => .ofRead (scalarTo t ⟨32, true⟩ raw) (macInt .INT32_C)
    | .c_ulong => .ofRead (scalarTo t ⟨32, false⟩ raw) (macInt .UINT32_C)
    | .c_longlong => .ofRead (scalarTo t ⟨64, true⟩ raw) (macInt .INT64_C)
    | .c_ulonglong => .ofRead (scalarTo t ⟨64, false⟩ raw) (macInt .UINT64_C)
    | _ => .bail

/-- The C++ type of a Rust constant: `format_int_ty_for_cc`, `format_uint_ty_for_cc`
(cc_bindings_from_rs/generate_bindings/format_type.rs lines 282-350), `bool`, and the annotated
types of `ffi_11`, whose `cpp_type` is the C++ type of the same name. Only the shape; 128-bit types
are refused. -/
def ccTyOf (T : Target) : RsTy → Option IntTy
  | .bool => some ⟨1, false⟩
  | .int .i128 => none
  | .int .u128 => none
  | .int r => some (r.ty T.abi)
  | .wrap .c_char _ => some ⟨8, T.charSigned⟩
  | .wrap _ r => some (r.ty T.abi)

/-! ### Constructors of variants without fields -/

/-- `to_le_bytes` of an `n`-byte integer. -/
def leBytes : Nat → Nat → List Nat
  | 0, _ => []
  | n + 1, v => v % 256 :: leBytes n (v / 256)

/-- `to_be_bytes`. -/
def beBytes (n v : Nat) : List Nat := (leBytes n v).reverse

/-- `tag_bytes`, cc_bindings_from_rs/generate_bindings/generate_struct_and_union.rs lines
2037-2044, for a tag in a `u128`. -/
def tagBytes (e : Endian) (adtSize tagSize tagOffset tagVal : Nat) : List Nat :=
  let discrBytesize := min (adtSize - tagOffset) tagSize
  match e with
  | .little => (leBytes 16 tagVal).take discrBytesize
  | .big => (beBytes 16 tagVal).drop (16 - discrBytesize)

/-- The bytes of the object that the constructor makes, lines 2045-2049: zeros, over which the tag
is copied. -/
def variantBytes (e : Endian) (adtSize tagSize tagOffset tagVal : Nat) : List Nat :=
  let tb := tagBytes e adtSize tagSize tagOffset tagVal
  let bytes := List.replicate adtSize 0
  bytes.take tagOffset ++ tb ++ bytes.drop (tagOffset + tb.length)

end Verif.Consts

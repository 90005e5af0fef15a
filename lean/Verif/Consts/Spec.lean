import Mathlib.Data.Nat.Digits.Defs
import Mathlib.Data.Nat.Digits.Lemmas
/-
What the two languages say about integer constants: the integer types of the platforms, the value of
a bit pattern, decimal literals and the expressions in which the generated code uses them.
Nothing here is taken from Crubit's code; it is the language rules (C++ [lex.icon],
[expr.unary.op], [dcl.init.list] narrowing, [dcl.enum]; Rust reference "Integer literal
expressions", lint `overflowing_literals`, E0600) against which the model is judged.
-/
namespace Verif.Consts

/-- The data models for which `ffi_11` exists (support/ffi_11/src/lib.rs lines 62-72):
LP64 with `int64_t = long`, LP64 with `int64_t = long long`, LLP64 and ILP32. -/
inductive Abi where
  | lp64 | lp64ll | llp64 | ilp32
deriving DecidableEq, Repr

/-- A platform: data model and signedness of plain `char`. -/
structure Target where
  abi : Abi
  charSigned : Bool
deriving DecidableEq, Repr

/-- Width of C++ `long`. -/
def Abi.longBits : Abi → Nat
  | .lp64 => 64
  | .lp64ll => 64
  | .llp64 => 32
  | .ilp32 => 32

/-- Width of a pointer, hence of `size_t`, `intptr_t`, `isize`... -/
def Abi.ptrBits : Abi → Nat
  | .lp64 => 64
  | .lp64ll => 64
  | .llp64 => 64
  | .ilp32 => 32

/-- The shape of an integer type: width and signedness. -/
structure IntTy where
  bits : Nat
  signed : Bool
deriving DecidableEq, Repr

/-- Least value of a type. -/
def IntTy.lo (t : IntTy) : Int := if t.signed then -(2 ^ (t.bits - 1) : Nat) else 0

/-- Greatest value of a type. -/
def IntTy.hi (t : IntTy) : Int := if t.signed then (2 ^ (t.bits - 1) : Nat) - 1 else (2 ^ t.bits : Nat) - 1

/-- `v` is a value of the type. -/
def IntTy.Fits (t : IntTy) (v : Int) : Prop := t.lo ≤ v ∧ v ≤ t.hi

instance (t : IntTy) (v : Int) : Decidable (t.Fits v) := by unfold IntTy.Fits; infer_instance

/-- The value of a bit pattern in two's complement. -/
def IntTy.value (t : IntTy) (raw : Nat) : Int :=
  if t.signed ∧ 2 ^ (t.bits - 1) ≤ raw then (raw : Int) - (2 ^ t.bits : Nat) else raw

/-- The bit pattern of a value: the value modulo `2^bits`. -/
def IntTy.pattern (t : IntTy) (v : Int) : Nat := (v % (2 ^ t.bits : Nat)).toNat

/-- The number that a string of decimal digits, most significant first, denotes. -/
def readDec (ds : List Nat) : Nat := Nat.ofDigits 10 ds.reverse

/-! ### Rust -/

/-- Builtin integer types of Rust. -/
inductive RInt where
  | i8 | i16 | i32 | i64 | i128 | isize | u8 | u16 | u32 | u64 | u128 | usize
deriving DecidableEq, Repr

/-- Shape of a builtin integer type of Rust. -/
def RInt.ty (a : Abi) : RInt → IntTy
  | .i8 => ⟨8, true⟩ | .i16 => ⟨16, true⟩ | .i32 => ⟨32, true⟩ | .i64 => ⟨64, true⟩
  | .i128 => ⟨128, true⟩ | .isize => ⟨a.ptrBits, true⟩
  | .u8 => ⟨8, false⟩ | .u16 => ⟨16, false⟩ | .u32 => ⟨32, false⟩ | .u64 => ⟨64, false⟩
  | .u128 => ⟨128, false⟩ | .usize => ⟨a.ptrBits, false⟩

/-- The names of the types of `ffi_11` for integers. -/
inductive Ffi where
  | c_char | c_schar | c_uchar | c_short | c_ushort | c_int | c_uint | c_long | c_ulong
  | c_longlong | c_ulonglong | c_char8_t | c_char16_t | c_char32_t | c_wchar_t
deriving DecidableEq, Repr

/-- Types of Rust constants: `bool`, builtin integers, and newtypes of `ffi_11`. -/
inductive RsTy where
  | bool
  | int (r : RInt)
  | wrap (n : Ffi) (r : RInt)
deriving DecidableEq, Repr

/-- The expressions that occur as values of generated Rust constants. -/
inductive RsExpr where
  | tt
  | ff
  /-- an unsuffixed decimal literal -/
  | lit (ds : List Nat)
  /-- `-` applied to an unsuffixed decimal literal -/
  | neg (ds : List Nat)
  /-- `e as u8` -/
  | asU8 (e : RsExpr)
  /-- `::ffi_11::new_<name>(e)` -/
  | new (n : Ffi) (e : RsExpr)
deriving DecidableEq, Repr

/-- The value of a Rust expression where a value of type `ty` is expected; `none`: it does not
compile. An unsuffixed literal has the expected type and must fit it; `-` needs a signed type, and
is taken together with its literal; in `e as u8` an unsuffixed literal is inferred to be `u8` (so
that `-1 as u8` is error E0600). `new` gives the type that `ffi_11::<name>` is on the platform. -/
def rsEval (a : Abi) (newTy : Ffi → RsTy) : RsTy → RsExpr → Option Int
  | ty, .tt => if ty = .bool then some 1 else none
  | ty, .ff => if ty = .bool then some 0 else none
  | .int r, .lit ds => if (r.ty a).Fits (readDec ds) then some (readDec ds) else none
  | _, .lit _ => none
  | .int r, .neg ds =>
    if (r.ty a).signed ∧ (r.ty a).Fits (-(readDec ds : Int)) then some (-(readDec ds : Int)) else none
  | _, .neg _ => none
  | ty, .asU8 e => if ty = .int .u8 then rsEval a newTy (.int .u8) e else none
  | ty, .new n e =>
    if ty = newTy n then
      match newTy n with
      | .bool => none
      | .int r => rsEval a newTy (.int r) e
      | .wrap _ r => rsEval a newTy (.int r) e
    else none

/-! ### C++ -/

/-- Suffixes of integer literals. -/
inductive Suffix where
  | none | U | L | UL | LL | ULL
deriving DecidableEq, Repr

/-- The list of types from which the type of a decimal literal is taken ([lex.icon] table). -/
def Suffix.types (a : Abi) : Suffix → List IntTy
  | .none => [⟨32, true⟩, ⟨a.longBits, true⟩, ⟨64, true⟩]
  | .U => [⟨32, false⟩, ⟨a.longBits, false⟩, ⟨64, false⟩]
  | .L => [⟨a.longBits, true⟩, ⟨64, true⟩]
  | .UL => [⟨a.longBits, false⟩, ⟨64, false⟩]
  | .LL => [⟨64, true⟩]
  | .ULL => [⟨64, false⟩]

/-- Macros of `<cstdint>`. -/
inductive Mac where
  | INT32_C | UINT16_C | UINT32_C | UINT64_C | INT64_C
deriving DecidableEq, Repr

/-- What the macros paste to their argument: nothing for types that promote to `int`, else the
suffix of the type (`long` if that is what `int64_t` is). -/
def Mac.suffix (a : Abi) : Mac → Suffix
  | .INT32_C => .none
  | .UINT16_C => .none
  | .UINT32_C => .U
  | .INT64_C => if a = .lp64 then .L else .LL
  | .UINT64_C => if a = .lp64 then .UL else .ULL

/-- The expressions that occur as values of generated C++ constants. -/
inductive CcExpr where
  | bool (b : Bool)
  /-- `[-]ds` -/
  | lit (neg : Bool) (ds : List Nat)
  /-- `MACRO([-]ds)` -/
  | mac (m : Mac) (neg : Bool) (ds : List Nat)
  /-- `INT64_MIN` -/
  | int64Min
deriving DecidableEq, Repr

/-- A decimal literal with its suffix: its type and value; `none`: no type fits, ill-formed. -/
def ccLit (a : Abi) (s : Suffix) (ds : List Nat) : Option (IntTy × Int) :=
  ((s.types a).find? fun t => decide (t.Fits (readDec ds))).map fun t => (t, (readDec ds : Int))

/-- Unary minus in a type that is at least `int`: modulo `2^bits` in an unsigned type. -/
def ccNeg (v : IntTy × Int) : IntTy × Int :=
  (v.1, if v.1.signed then -v.2 else (-v.2) % (2 ^ v.1.bits : Nat))

/-- Type and value of a C++ expression; `none`: ill-formed. `INT64_MIN` is
`(-INT64_C(9223372036854775807) - 1)`, and has the least value of `int64_t`. -/
def ccEval (a : Abi) : CcExpr → Option (IntTy × Int)
  | .bool b => some (⟨1, false⟩, if b then 1 else 0)
  | .lit n ds => (ccLit a .none ds).map fun v => if n then ccNeg v else v
  | .mac m n ds => (ccLit a (m.suffix a) ds).map fun v => if n then ccNeg v else v
  | .int64Min => some (⟨64, true⟩, -(2 ^ 63 : Nat))

/-- `static constexpr T x = e;`: the value that `x` gets; integral conversion, modulo `2^bits`. -/
def ccConst (a : Abi) (t : IntTy) (e : CcExpr) : Option Int :=
  (ccEval a e).map fun v => t.value (t.pattern v.2)

/-- `enum E : T { x = e }` and `T { e }`: as above, but a value that does not fit `T` is an error. -/
def ccBrace (a : Abi) (t : IntTy) (e : CcExpr) : Option Int :=
  match ccEval a e with
  | none => none
  | some v => if t.Fits v.2 then some v.2 else none

/-! ### Memory -/

/-- Byte order of the target. -/
inductive Endian where
  | little | big
deriving DecidableEq, Repr

/-- The unsigned number that is stored in bytes at increasing addresses. -/
def readMem : Endian → List Nat → Nat
  | .little, bs => Nat.ofDigits 256 bs
  | .big, bs => Nat.ofDigits 256 bs.reverse

end Verif.Consts

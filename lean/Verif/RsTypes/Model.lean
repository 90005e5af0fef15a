import Verif.RsTypes.Spec

/-
Model of cc_bindings_from_rs/generate_bindings/format_type.rs: `format_ty_for_cc` and what it calls.

Not modelled: the prerequisites (includes, forward declarations) that are returned with the tokens,
user-supplied C++ spellings (`cpp_type` attributes, `specializations()`), generic types other than `Option`,
`Result` and `Vec`, and the wording of errors (`none`).
-/

namespace Verif.RsTypes

/-- What the generator knows besides the type. -/
structure Db extends Env where
  /-- the definition of the type gets bindings under a public name (format_type.rs:640-657) -/
  supported : String → Bool
  /-- `has_move_ctor_and_assignment_operator` -/
  movable : String → Bool
  /-- `is_c_abi_compatible_by_value` for ADTs (query_compiler.rs:77-109) -/
  adtByValue : String → Bool
  /-- `is_bridged_type(ty)` is `Composable` -/
  composable : RTy → Bool
  /-- the type may get a specialization of an `rs_std` template (generate_template_specialization.rs:59-67) -/
  specializable : RTy → Bool
  /-- feature `LayoutCompatTuple` -/
  layoutTuple : Bool
  /-- feature `AlwaysSpecializeGenericsInCppApiFromRust` -/
  alwaysSpecialize : Bool
  /-- `portable_abi_compatible` -/
  portable : Bool

/-- `is_bridgeable` (type_location.rs:60-77) -/
def Loc.bridgeable : Loc → Bool
  | .ret false | .param _ _ | .const | .nested => true
  | _ => false

/-- `FnParam` or `FnReturn` -/
def Loc.isFn : Loc → Bool
  | .ret _ | .param _ _ => true
  | _ => false

def Loc.isRet : Loc → Bool
  | .ret _ => true
  | _ => false

/-- `region_is_elided` (format_type.rs:937-942) -/
def Life.elided : Life → Bool
  | .named _ => false
  | _ => true

/-- `format_region_as_cc_lifetime` (format_type.rs:1215-1243) -/
def lifeTok : Life → List Tok
  | .none => []
  | .anon s => [.life s]
  | .named s => [.life s]

mutual
/-- `has_elided_region` (format_type.rs:913-935) -/
def hasElided : RTy → Bool
  | .tuple ts => hasElideds ts
  | .array t _ => hasElided t
  | .gen _ ts => hasElideds ts
  | .rvref _ l t => l.elided || hasElided t
  | .maybeUninit t => hasElided t
  | .slice t => hasElided t
  | .raw _ t => hasElided t
  | .ref l _ t => l.elided || hasElided t
  | .fn _ _ _ _ r ps => hasElided r || hasElideds ps
  | _ => false
def hasElideds : RTys → Bool
  | .nil => false
  | .cons t ts => hasElided t || hasElideds ts
end

/-- A slice or `str` is not `Sized`. -/
def isSized : RTy → Bool
  | .slice _ | .str => false
  | _ => true

/-- `is_c_abi_compatible_by_value` (query_compiler.rs:43-122) -/
def byValue (D : Db) : RTy → Bool
  | .prim .char => !D.portable
  | .prim _ | .int _ _ | .never | .fn .. => true
  | .raw _ t | .ref _ _ t => !D.portable || isSized t
  | .tuple .nil => true
  | .adt n => D.adtByValue n
  | .rvref .. => !D.portable
  | _ => false

def byValues (D : Db) : RTys → Bool
  | .nil => true
  | .cons t ts => byValue D t && byValues D ts

/-- `treat_ref_as_ptr` (format_type.rs:860-900) -/
def refAsPtr (l : Life) : Loc → Bool
  | .param isSelf elidedIsOutput => !isSelf && (!l.elided || elidedIsOutput)
  | .ret _ | .const => false
  | _ => true

def constTok (c : Bool) : List Tok := if c then [.kConst] else []

/-- `MaybeUninit<_>` -/
def isUninit : RTy → Bool
  | .maybeUninit _ => true
  | _ => false

/-- `format_non_owning_pointer_prefix` (format_type.rs:74-89) -/
def nonOwning (l : Life) (t : RTy) : List Tok :=
  .star :: lifeTok l ++ (if isUninit t then [] else [.nonnull])

/-- The sigil of a reference (format_type.rs:711-721) -/
def refSigil (loc : Loc) (l : Life) (t : RTy) : List Tok :=
  if refAsPtr l loc then nonOwning l t
  else match loc with
    | .param _ _ => [.amp]
    | _ => .amp :: lifeTok l

/-- `format_pointer_or_reference_ty_for_cc` (format_type.rs:135-152); `a`: the formatted pointee. -/
def ptrToks (c : Bool) (sigil : List Tok) (t : RTy) (a : Option (List Tok)) : Option (List Tok) :=
  match t with
  | .cvoid => some (constTok c ++ [.prim "void", .star])
  | _ => a.map fun x => x ++ constTok c ++ sigil

/-- `format_slice_ref_for_cc` (format_type.rs:154-195) -/
def sliceToks (c : Bool) (t : RTy) (x : List Tok) : List Tok :=
  .tname "rs_std::SliceRef" :: .lt ::
    (if c then
      match t with
      | .raw .. | .ref .. | .fn .. => x ++ [.kConst]
      | _ => .kConst :: x
    else x) ++ [.gt]

/-- A pointer to `t` (format_type.rs:675-692, with `format_transparent_pointee_or_reference_for_cc`, :202-220);
`a`: the formatted pointee, `b`: the formatted inner type of a slice or `MaybeUninit`. -/
def pointerToks (c : Bool) (sigil : List Tok) (t : RTy) (a b : Option (List Tok)) : Option (List Tok) :=
  match t with
  | .slice e => b.map (sliceToks c e)
  | .maybeUninit e => ptrToks c sigil e b
  | _ => ptrToks c sigil t a

/-- References (format_type.rs:694-744) -/
def refToks (D : Db) (loc : Loc) (l : Life) (m : Bool) (t : RTy) (a b : Option (List Tok)) : Option (List Tok) :=
  match t with
  | .slice e => b.map (sliceToks (!m) e)
  | .str => if m then none else some [.name "rs_std::StrRef"]
  | _ => pointerToks (!(m || (loc.isFn && D.threadSafe t))) (refSigil loc l t) t a b

/-- The sigil of a function pointer (format_type.rs:791-803) -/
def fnSigil : Loc → Tok
  | .ret _ | .param _ _ | .const => .amp
  | _ => .star

def genName : Gen → String
  | .option => "rs_std::Option"
  | .result => "rs_std::Result"
  | .vec => "rs_std::Vec"

/-- Integers (format_type.rs:282-344) -/
def intTok (D : Db) (loc : Loc) (s : Bool) : IntW → Option (List Tok)
  | .w8 => some [.prim (if s then "int8_t" else "uint8_t")]
  | .w16 => some [.prim (if s then "int16_t" else "uint16_t")]
  | .w32 => some [.prim (if s then "int32_t" else "uint32_t")]
  | .w64 => some [.prim (if s then "int64_t" else "uint64_t")]
  | .w128 => none
  | .size =>
      if loc = .templ then
        if D.ptr64 then some [.prim (if s then "int64_t" else "uint64_t")]
        else some [.prim (if s then "int32_t" else "uint32_t")]
      else some [.prim (if s then "intptr_t" else "uintptr_t")]

def primTok : Prim → Tok
  | .bool => .prim "bool"
  | .char => .name "rs_std::char_"
  | .f32 => .prim "float"
  | .f64 => .prim "double"

def isUnit : RTy → Bool
  | .tuple .nil => true
  | _ => false

/-- `parse_unit_in_specialization` (generate_template_specialization.rs:80-95) -/
def argToks (unitOk : Bool) (t : RTy) (a : Option (List Tok)) : Option (List Tok) :=
  if unitOk && isUnit t then some [.name "rs_std::unit_t"] else a

/-- One more argument. -/
def consToks (a b : Option (List Tok)) (last : Bool) : Option (List Tok) :=
  match a, b with
  | some x, some y => some (if last then x else x ++ .comma :: y)
  | _, _ => none

def isNil : RTys → Bool
  | .nil => true
  | _ => false

def anyComposable (D : Db) : RTys → Bool
  | .nil => false
  | .cons t ts => D.composable t || anyComposable D ts

/-- `Name<args>` -/
def tmplToks (n : String) (x : List Tok) : List Tok := .tname n :: .lt :: x ++ [.gt]

/-- `type_identity_t<ret(params)>` and the sigil (format_type.rs:805-821) -/
def fnToks (s : Tok) (r ps : Option (List Tok)) : Option (List Tok) :=
  match r, ps with
  | some r, some ps => some (.tyId :: .lt :: r ++ .lpar :: ps ++ [.rpar, .gt, s])
  | _, _ => none

mutual
/-- `format_ty_for_cc` (format_type.rs:347-825). Simplification: `c_void` other than behind a pointer is an error. -/
def fmt (D : Db) (loc : Loc) : RTy → Option (List Tok)
  | .prim p => some [primTok p]
  | .int s w => intTok D loc s w
  | .never => if loc.isRet then some [.prim "void"] else none
  | .cvoid => none
  | .str => none
  | .tuple ts =>
      if isNil ts && loc.isRet then some [.prim "void"]
      else if !loc.bridgeable || (D.layoutTuple && !isNil ts) then
        if isNil ts || !D.specializable (.tuple ts) then none
        else (fmts D .templ false ts).map (tmplToks "rs_std::Tuple")
      else if anyComposable D ts then none
      else (fmts D .nested false ts).map (tmplToks "std::tuple")
  | .array t n =>
      if loc = .const then none
      else (fmt D .other t).map fun x => .tname "std::array" :: .lt :: x ++ [.comma, .nat n, .gt]
  | .adt n =>
      if loc.bridgeable && D.adtByValue n && !D.movable n then none
      else if D.supported n then some [.name (D.ccName n)] else none
  | .gen g ts =>
      if D.specializable (.gen g ts) && (!loc.bridgeable || g != .option || D.alwaysSpecialize) then
        (fmts D .templ (g != .vec) ts).map (tmplToks (genName g))
      else if g = .option && loc.bridgeable && D.composable (.gen g ts) then
        (fmts D .nested false ts).map (tmplToks "std::optional")
      else none
  | .rvref _ l t =>
      ptrToks false (if loc.isFn then [.ampAmp] else nonOwning l t) t (fmt D .other t)
  | .maybeUninit _ => none
  | .slice _ => none
  | .raw m t => pointerToks (!m) [.star] t (fmt D .other t) (fmtInner D t)
  | .ref l m t => refToks D loc l m t (fmt D .other t) (fmtInner D t)
  | .fn generic _ abi variadic r ps =>
      if generic || variadic || !(abi == "C" || abi == "C-unwind") || !byValue D r || !byValues D ps then none
      else fnToks (fnSigil loc) (fmt D (.ret false) r) (fmts D (.param false (hasElided r)) false ps)
/-- The type in a slice or in `MaybeUninit`. -/
def fmtInner (D : Db) : RTy → Option (List Tok)
  | .slice e => fmt D .other e
  | .maybeUninit e => fmt D .other e
  | _ => none
/-- Template arguments or parameters, with commas. -/
def fmts (D : Db) (loc : Loc) (unitOk : Bool) : RTys → Option (List Tok)
  | .nil => some []
  | .cons t ts => consToks (argToks unitOk t (fmt D loc t)) (fmts D loc unitOk ts) (isNil ts)
end

end Verif.RsTypes

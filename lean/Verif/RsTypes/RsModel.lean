import Verif.RsTypes.RsSpec
import Verif.RsTypes.Model

/-
Model of cc_bindings_from_rs/generate_bindings/format_type.rs: `format_ty_for_rs`, and of
generate_function_thunk.rs: `replace_all_regions_with_static`.

Not modelled: user-supplied C++ types and generic types other than `Option`, `Result`, `Vec` and `RvalueReference`;
type parameters. Errors and panics are `none`.
-/

namespace Verif.RsTypes

/-- `format_region_as_rs_lifetime` (format_type.rs:1247-1256) -/
def rsLife : Life → Option RTok
  | .none => none
  | .anon s => some (.life s)
  | .named s => some (.life s)

/-- `#(#types,)*` -/
def rsConsEach (a b : Option (List RTok)) : Option (List RTok) :=
  match a, b with
  | some x, some y => some (x ++ .comma :: y)
  | _, _ => none

/-- `#(#types),*` -/
def rsConsSep (a b : Option (List RTok)) (last : Bool) : Option (List RTok) :=
  match a, b with
  | some x, some y => some (if last then x else x ++ .comma :: y)
  | _, _ => none

/-- The header of a function pointer (format_type.rs:1050-1060) -/
def rsFnHead (u : Bool) (abi : String) : List RTok :=
  (if u then [.kUnsafe] else []) ++ (if abi = "Rust" then [] else [.kExtern abi]) ++ [.kFn, .lpar]

/-- `fn(..)` and its result (format_type.rs:1079-1087) -/
def rsFn (u : Bool) (abi : String) (unit : Bool) (r ps : Option (List RTok)) : Option (List RTok) :=
  match ps with
  | some ps =>
      if unit then some (rsFnHead u abi ++ ps ++ [.rpar])
      else r.map fun r => rsFnHead u abi ++ ps ++ .rpar :: .arrow :: r
  | none => none

mutual
/-- `format_ty_for_rs` (format_type.rs:1095-1211); `named`: the type has a canonical name. Function pointers that are
polymorphic over a lifetime with a name are errors, those over one without a name are accepted (:1064-1073): here all
are accepted. -/
def fmtRs (named : String → Bool) : RTy → Option (List RTok)
  | .prim p => some [.prim p]
  | .int s w => some [.int s w]
  | .never => some [.bang]
  | .cvoid => some [.item .cvoid]
  | .str => none
  | .tuple ts => (fmtRsEach named ts).map fun x => .lpar :: x ++ [.rpar]
  | .array t n => (fmtRs named t).map fun x => .lbr :: x ++ [.semi, .nat n, .rbr]
  | .adt n => if named n then some [.item (.adt n)] else none
  | .gen .vec ts => (fmtRsFirst named ts).map fun x => .item (.gen .vec) :: .lt :: x ++ [.gt]
  | .gen g ts => (fmtRsSep named ts).map fun x => .item (.gen g) :: .lt :: x ++ [.gt]
  | .rvref b l t =>
      if l = .named "static" then
        (fmtRs named t).map fun x => .item (.rvref b) :: .lt :: .life "static" :: .comma :: x ++ [.gt]
      else none
  | .maybeUninit _ => none
  | .slice t => (fmtRs named t).map fun x => .lbr :: x ++ [.rbr]
  | .raw m t => (fmtRsPointee named t).map fun x => .star :: (if m then .kMut else .kConst) :: x
  | .ref l m t =>
      match rsLife l with
      | some s => (fmtRsReferent named m t).map fun x => .amp :: s :: (if m then [.kMut] else []) ++ x
      | none => none
  | .fn _ u abi v r ps =>
      if v then none
      else rsFn u abi (isUnit r) (fmtRs named r) (fmtRsSep named ps)
/-- The only argument that is written for `Vec` (format_type.rs:1122-1128) -/
def fmtRsFirst (named : String → Bool) : RTys → Option (List RTok)
  | .cons t _ => fmtRs named t
  | .nil => none
/-- `format_transparent_pointee`, otherwise the type (format_type.rs:1021-1030, :1175-1180) -/
def fmtRsPointee (named : String → Bool) : RTy → Option (List RTok)
  | .maybeUninit t => (fmtRs named t).map fun x => .item .uninit :: .lt :: x ++ [.gt]
  | t => fmtRs named t
/-- What a reference refers to (format_type.rs:1183-1200) -/
def fmtRsReferent (named : String → Bool) (m : Bool) : RTy → Option (List RTok)
  | .str => if m then none else some [.str]
  | .maybeUninit t => (fmtRs named t).map fun x => .item .uninit :: .lt :: x ++ [.gt]
  | t => fmtRs named t
/-- The types in a tuple -/
def fmtRsEach (named : String → Bool) : RTys → Option (List RTok)
  | .nil => some []
  | .cons t ts => rsConsEach (fmtRs named t) (fmtRsEach named ts)
/-- Generic arguments and parameters -/
def fmtRsSep (named : String → Bool) : RTys → Option (List RTok)
  | .nil => some []
  | .cons t ts => rsConsSep (fmtRs named t) (fmtRsSep named ts) (isNil ts)
end

mutual
/-- `replace_all_regions_with_static` (generate_function_thunk.rs:534-553) -/
def toStatic : RTy → RTy
  | .tuple ts => .tuple (toStatics ts)
  | .array t n => .array (toStatic t) n
  | .gen g ts => .gen g (toStatics ts)
  | .rvref b _ t => .rvref b (.named "static") (toStatic t)
  | .maybeUninit t => .maybeUninit (toStatic t)
  | .slice t => .slice (toStatic t)
  | .raw m t => .raw m (toStatic t)
  | .ref _ m t => .ref (.named "static") m (toStatic t)
  | .fn g u abi v r ps => .fn g u abi v (toStatic r) (toStatics ps)
  | t => t
def toStatics : RTys → RTys
  | .nil => .nil
  | .cons t ts => .cons (toStatic t) (toStatics ts)
end

end Verif.RsTypes

/-!
# Model: reading annotations

How the generator of Rust bindings reads `[[clang::annotate(..)]]` from the
declarations of an entity, `common/annotation_reader.cc`.
-/

namespace Verif.Annot

/-- Texts (`std::string`, `absl::string_view`; `common/annotation_reader.cc:48-71`). -/
abbrev Str := List Char

/-- Models `clang::APValue` (`common/annotation_reader.cc:131-163`). Simplified: an
lvalue is a string literal or none; kinds that are refused are numbered. -/
inductive Val where
  | int (n : Int)
  | struct (fields : Nat)
  | str (s : Str)
  | lvalue (base : Nat)
  | other (kind : Nat)
  deriving DecidableEq, Repr

/-- Models an argument, `clang::Expr` (`common/annotation_reader.cc:108-125`): its
canonical type and what it evaluates to; `none`: it is no constant expression. -/
structure Arg where
  type : Nat
  value : Option Val
  deriving DecidableEq, Repr

/-- Models `clang::AnnotateAttr` (`common/annotation_reader.cc:85-99`). -/
structure Attr where
  name : Str
  args : List Arg
  deriving DecidableEq, Repr

/-- Models one declaration (`common/annotation_reader.cc:188-198`, of a template: the
templated one): its annotations. -/
abbrev Decl := List Attr

/-- The errors, `absl::Status` (`common/annotation_reader.cc:92-95`, `101-106` and the
others). -/
inductive Err where
  | twice
  | inconsistent
  | notConstant
  | badKind
  | unexpectedArgs
  | notStrings
  | notSingle
  | notBool
  deriving DecidableEq, Repr

/-- Models `GetAnnotateAttrSingleDecl` (`common/annotation_reader.cc:85-99`):
`found`: the one found before. -/
def single (name : Str) : Option Attr → Decl → Except Err (Option Attr)
  | found, [] => .ok found
  | found, a :: d =>
    if a.name ≠ name then single name found d
    else
      match found with
      | some _ => .error .twice
      | none => single name (some a) d

/-- Models `APValue::getKind` (`common/annotation_reader.cc:131`). -/
def Val.kind : Val → Nat
  | .int _ => 0
  | .struct _ => 1
  | .str _ => 2
  | .lvalue _ => 2
  | .other k => 3 + k

/-- Models the string of `GetExprAsStringLiteral`
(`common/annotation_reader.cc:48-71`). -/
def Val.string : Val → Option Str
  | .str s => some s
  | _ => none

/-- Models `CheckExpressionsAreSameConstant` (`common/annotation_reader.cc:108-166`);
`none`: no error. -/
def sameConstant (a b : Arg) : Option Err :=
  if a.type ≠ b.type then some .inconsistent
  else
    match a.value, b.value with
    | some u, some v =>
      if u.kind ≠ v.kind then some .inconsistent
      else
        match u, v with
        | .int m, .int n => if m ≠ n then some .inconsistent else none
        | .struct _, .struct _ => none
        | .other _, _ => some .badKind
        | u, v =>
          match u.string, v.string with
          | some s, some t => if s ≠ t then some .inconsistent else none
          | _, _ => some .badKind
    | _, _ => some .notConstant

/-- Models the loop of `CheckAnnotationsConsistent`
(`common/annotation_reader.cc:174-178`); of lists of the same length. -/
def sameArgs : List Arg → List Arg → Option Err
  | a :: as, b :: bs =>
    match sameConstant a b with
    | some e => some e
    | none => sameArgs as bs
  | _, _ => none

/-- Models `CheckAnnotationsConsistent` (`common/annotation_reader.cc:168-180`). -/
def consistent (a b : Attr) : Option Err :=
  if a.args.length ≠ b.args.length then some .inconsistent else sameArgs a.args b.args

/-- Models the loop of `GetAnnotateAttrArgs` (`common/annotation_reader.cc:235-250`). -/
def loop (name : Str) : Option Attr → Nat → List Decl → Except Err (Option Attr × Nat)
  | found, n, [] => .ok (found, n)
  | found, n, d :: ds =>
    match single name none d with
    | .error e => .error e
    | .ok none => loop name found n ds
    | .ok (some a) =>
      match found with
      | none => loop name (some a) (n + 1) ds
      | some g =>
        match consistent g a with
        | some e => .error e
        | none => loop name (some g) (n + 1) ds

/-- Models `GetAnnotateAttrArgs` (`common/annotation_reader.cc:230-265`); `decls`: the
redeclarations. -/
def readArgs (name : Str) (decls : List Decl) : Except Err (Option (List Arg)) :=
  match loop name none 0 decls with
  | .error e => .error e
  | .ok (none, _) => .ok none
  | .ok (some a, n) =>
    if n = 1 then
      match consistent a a with
      | some e => .error e
      | none => .ok (some a.args)
    else .ok (some a.args)

/-- Models `HasAnnotationWithoutArgs` (`common/annotation_reader.cc:267-282`). -/
def hasFlag (name : Str) (decls : List Decl) : Except Err Bool :=
  match readArgs name decls with
  | .error e => .error e
  | .ok none => .ok false
  | .ok (some args) => if !args.isEmpty then .error .unexpectedArgs else .ok true

/-- Models the loop of `GetAnnotationWithStringArgs`
(`common/annotation_reader.cc:295-304`). -/
def strings : List Arg → Except Err (List Str)
  | [] => .ok []
  | a :: as =>
    match a.value.bind Val.string with
    | none => .error .notStrings
    | some s =>
      match strings as with
      | .error e => .error e
      | .ok ss => .ok (s :: ss)

/-- Models `GetAnnotationWithStringArgs` (`common/annotation_reader.cc:284-306`). -/
def stringArgs (name : Str) (decls : List Decl) : Except Err (Option (List Str)) :=
  match readArgs name decls with
  | .error e => .error e
  | .ok none => .ok none
  | .ok (some args) =>
    match strings args with
    | .error e => .error e
    | .ok ss => .ok (some ss)

/-- Models `GetAnnotationWithStringArg` (`common/annotation_reader.cc:308-321`). -/
def stringArg (name : Str) (decls : List Decl) : Except Err (Option Str) :=
  match stringArgs name decls with
  | .error e => .error e
  | .ok none => .ok none
  | .ok (some [s]) => .ok (some s)
  | .ok (some _) => .error .notSingle

/-- Models `GetExprAsBool` (`common/annotation_reader.cc:202-219`); `boolType`: the
type `bool`. -/
def asBool (boolType : Nat) (a : Arg) : Except Err Bool :=
  if a.type ≠ boolType then .error .notBool
  else
    match a.value with
    | none => .error .notConstant
    | some (.int n) => .ok (!decide (n = 0))
    | some _ => .error .notBool

/-- Models the attributed types around a type
(`common/annotation_reader.cc:329-344`), from the outside: an annotation, or another
attribute. -/
abbrev Sugar := List (Option Attr)

/-- Models `GetTypeAnnotationSingleDecl` (`common/annotation_reader.cc:323-346`). -/
def typeAttr (name : Str) : Option Attr → Sugar → Except Err (Option Attr)
  | found, [] => .ok found
  | found, none :: t => typeAttr name found t
  | found, some a :: t =>
    if a.name = name then
      match found with
      | some _ => .error .twice
      | none => typeAttr name (some a) t
    else typeAttr name found t

end Verif.Annot

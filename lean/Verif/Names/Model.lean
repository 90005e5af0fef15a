import Verif.Names.Spec
import Verif.Names.Words

/-
Model of the functions about names in common/code_gen_utils.rs, of the names of thunks
(cc_bindings_from_rs/generate_bindings/generate_function_thunk.rs:893-936,
rs_bindings_from_cc/generate_bindings/generate_function_thunk.rs:236-303) and of fields
(cc_bindings_from_rs/generate_bindings/generate_struct_and_union.rs:2343-2356), and the part of `GetTranslatedName`
about unescapable identifiers (rs_bindings_from_cc/importer.cc:2372-2386).

Simplified: `syn::parse_str::<Ident>` takes exactly the identifiers that are not keywords and `r#` identifiers (no blanks
or comments around).
-/

namespace Verif.Names

/-! ### Escapes -/

/-- A digit, as Rust's formatting writes it (for common/code_gen_utils.rs:857) -/
def digit (n : Nat) : Char := if n < 10 then Char.ofNat (48 + n) else Char.ofNat (87 + n)

/-- `{:0kx}` for numbers of at most `k` digits -/
def hexN : Nat → Nat → Str
  | 0, _ => []
  | k + 1, n => hexN k (n / 16) ++ [digit (n % 16)]

/-- `{:x}` -/
def hex (n : Nat) : Str := if n < 16 then [digit n] else hex (n / 16) ++ [digit (n % 16)]

/-- `{}` -/
def dec (n : Nat) : Str := if n < 10 then [digit n] else dec (n / 10) ++ [digit (n % 10)]

/-- `escape_non_identifier_chars` (common/code_gen_utils.rs:842-864), for one character; `b`: it is the first. -/
def escChar (X : Xid) (b : Bool) (c : Char) : Str :=
  if c = '_' then "_u".toList
  else if c = '$' then "_d".toList
  else if c = '.' then "_p".toList
  else if (if b then X.start c else X.cont c) then [c]
  else "_x".toList ++ hexN 8 c.toNat

/-- `escape_non_identifier_chars` (common/code_gen_utils.rs:833-867) -/
def escape (X : Xid) (s : Str) : Str :=
  match s with
  | [] => []
  | c :: s => escChar X true c ++ s.flatMap (escChar X false)

/-- `make_thunk_name` (cc_bindings_from_rs/generate_bindings/generate_function_thunk.rs:896-936), not for golden tests;
`crate`: the stable crate id; `symbol`: the symbol name of the function or method. -/
def thunkName (X : Xid) (crate : Nat) (symbol : Str) : Str :=
  "__crubit_thunk_".toList ++ (hex crate ++ "_".toList) ++ escape X symbol

/-! ### Reserved words of C++ -/

/-- `is_cpp_reserved_keyword` (common/code_gen_utils.rs:55-156) -/
def isKeyword (s : Str) : Bool := keywords.contains s

/-- `is_cpp_nonportable_word` (common/code_gen_utils.rs:161-635); `m`: the feature `ReserveStandardMacros`. -/
def isReserved (m : Bool) (s : Str) : Bool :=
  if isKeyword s then true else if !m then false else macros.contains s

/-- `unkeyword_cpp_ident` (common/code_gen_utils.rs:640-646) -/
def unkeyword (m : Bool) (s : Str) : Str := if isReserved m s then s ++ "_".toList else s

/-- `unchecked_format_cc_ident` (common/code_gen_utils.rs:690-698) with `parse_any`: raw identifiers keep their `r#`. -/
def parseAny (X : Xid) (s : Str) : Option Str :=
  if IsIdent X s then some s
  else match s with
  | 'r' :: '#' :: t => if IsIdent X t ∧ t ∉ notRaw.map String.toList then some s else none
  | _ => none

/-- `format_cc_ident` (common/code_gen_utils.rs:669-675) -/
def formatCc (X : Xid) (m : Bool) (s : Str) : Option Str :=
  if isReserved m s then none else parseAny X s

/-- `format_cc_ident` of the database (cc_bindings_from_rs/generate_bindings/format_type.rs:118-133); `e`: keywords are
escaped. -/
def formatCcDb (X : Xid) (m e : Bool) (s : Str) : Option Str :=
  if e then formatCc X m (unkeyword m s) else formatCc X m s

/-- `anonymous_field_ident` (generate_struct_and_union.rs:1812-1814) -/
def anonField (i : Nat) : Str := "__field".toList ++ dec i

/-- The C++ name of a field (generate_struct_and_union.rs:2346-2355) -/
def fieldName (X : Xid) (m e : Bool) (members : List Str) (i : Nat) (s : Str) : Str :=
  let n := unkeyword m s
  let n := if members.contains n then n ++ "_".toList else n
  (formatCcDb X m e n).getD (anonField i)

/-! ### Rust identifiers -/

/-- `s.split('-')` -/
def split : Str → Str → List Str
  | cur, [] => [cur]
  | cur, c :: s => if c = '-' then cur :: split [] s else split (cur ++ [c]) s

/-- `hyphen_to_underscore` (common/code_gen_utils.rs:733-745) -/
def hyphens (s : Str) : Str :=
  match split [] s with
  | [] => []
  | [a] => a
  | a :: b :: ps => (a ++ "_".toList ++ b) ++ ps.flatMap fun p => "_".toList ++ p

/-- `syn::parse_str::<Ident>`; `kw`: the keywords syn knows. -/
def parseIdent (X : Xid) (kw : List Str) (s : Str) : Option RsId :=
  if IsIdent X s ∧ s ∉ kw then some (.plain s)
  else match s with
  | 'r' :: '#' :: t => if IsIdent X t ∧ t ∉ notRaw.map String.toList then some (.raw t) else none
  | _ => none

/-- `try_make_rs_ident` (common/code_gen_utils.rs:759-773); `make_rs_ident` panics where this is `none`. -/
def rsIdent (X : Xid) (kw : List Str) (s : Str) : Option RsId :=
  let s := hyphens s
  if s ∈ ["gen", "async", "await", "try", "dyn"].map String.toList then some (.raw s)
  else (parseIdent X kw s).or (parseIdent X kw ("r#".toList ++ s))

/-- The names `GetTranslatedName` refuses (importer.cc:2372-2386), without a `crubit_rust_name`. -/
def importName (s : Str) : Option Str :=
  if s = [] then none
  else if s = "crate".toList ∨ s = "self".toList ∨ s = "super".toList ∨ s = "Self".toList then none
  else some s

/-! ### Thunks for C++ functions -/

/-- `strip_prefix('\u{1}').unwrap_or` (generate_function_thunk.rs:247) -/
def stripOne : Str → Str
  | c :: t => if c = Char.ofNat 1 then t else c :: t
  | [] => []

/-- `ident_fragment_from_mangled_name` (rs_bindings_from_cc/generate_bindings/generate_function_thunk.rs:243-265) -/
def fragment (X : Xid) (s : Str) : Str :=
  let s := stripOne s
  if s.all X.cont then s
  else s.flatMap fun c => if X.cont c then [c] else "_u".toList ++ dec c.toNat ++ "_".toList

/-- What `thunk_ident` depends on: the mangled name, whether it is in or below a class template, and the 32-bit hash of
its target and source location. -/
structure Func where
  mangled : Str
  templ : Bool
  hash : Nat

/-- `has_conflicting_mangled_name` (database/db.rs:300-304) -/
def conflicting (fs : List Func) (f : Func) : Bool := decide (1 < (fs.filter fun g => g.mangled == f.mangled).length)

/-- `thunk_ident` (generate_function_thunk.rs:288-303) with `compute_disambiguator_hash` (:267-286) -/
def thunkIdent (X : Xid) (fs : List Func) (f : Func) : Str :=
  "__rust_thunk__".toList ++ (if conflicting fs f || f.templ then hexN 8 f.hash ++ "_".toList else []) ++
    fragment X f.mangled

/-! ### Pointer types -/

/-- The loop of `is_cpp_pointer_type` (common/code_gen_utils.rs:29-33): the first token, the one before the last and the
last -/
def ends (ts : List Tok) : Option Tok × Option Tok × Option Tok :=
  ts.foldl (fun (first, _, last) t => (if first.isNone then some t else first, last, some t)) (none, none, none)

/-- `is_cpp_pointer_type` (common/code_gen_utils.rs:25-51): `some true` for a pointer to const -/
def pointerType (ts : List Tok) : Option Bool :=
  match ends ts with
  | (first, prev, last) =>
    if first = some (.ident "const") ∧ last = some (.punct '*') then some true
    else if prev = some (.ident "const") ∧ last = some (.punct '*') then some true
    else if last = some (.punct '*') then some false
    else none

end Verif.Names

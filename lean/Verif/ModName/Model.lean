import Verif.ModName.Spec
import Verif.Common.AMap

/-!
# The module for the items nested in a C++ class: the code

Sources: `rs_bindings_from_cc/generate_bindings/has_bindings.rs`, `…/database/code_snippet.rs`, `…/database/db.rs`,
`rs_bindings_from_cc/ir.rs`.  Maps are association lists; `snake` is `heck::ToSnakeCase`, any function.
-/

namespace Verif.ModName

/-- `ResolvedName`, `code_snippet.rs:382–400`. -/
inductive Resolved where
  | namespace (canon : Nat)
  | explicitItem (id : Nat)
  | valueItem (id : Nat)
  | recordNestedItems (parents : List Nat)
  deriving DecidableEq

/-- `ResolvedName::coalesce`, `code_snippet.rs:405–449`; `none`: an error (here: a panic). -/
def coalesce : Resolved → Resolved → Option Resolved
  | .recordNestedItems a, .recordNestedItems b => some (.recordNestedItems (a ++ b))
  | x, .recordNestedItems _ => some x
  | .recordNestedItems _, x => some x
  | .namespace a, .namespace b => if a = b then some (.namespace a) else none
  | .valueItem a, .valueItem _ => some (.valueItem a)
  | .explicitItem a, .valueItem _ => some (.explicitItem a)
  | .valueItem _, .explicitItem b => some (.explicitItem b)
  | _, _ => none

/-- `NameConflictAction`, `has_bindings.rs:440–444`. -/
inductive Action where
  | doNotUpdate | overwrite | coalesce

/-- `determine_name_conflict_action`, `has_bindings.rs:446–470`; `decl` is `find_untyped_decl`. -/
def action (decl : Nat → Item) : Resolved → Resolved → Action
  | .explicitItem old, .explicitItem new => match (decl old).tag, (decl new).tag with
      | .existingRustType, .existingRustType =>
          if (decl old).name = (decl new).name then .doNotUpdate else .coalesce
      | .incompleteRecord, .record => .overwrite
      | .record, .incompleteRecord => .doNotUpdate
      | _, _ => .coalesce
  | _, _ => .coalesce

abbrev Names := List (Name × Resolved)

/-- The entry after `insert`, `has_bindings.rs:489–515`. -/
def combine (decl : Nat → Item) (old : Option Resolved) (new : Resolved) : Option Resolved := match old with
  | none => some new
  | some old => match action decl old new with
      | .doNotUpdate => some old
      | .overwrite => some new
      | .coalesce => coalesce old new

/-- `insert`, `has_bindings.rs:489–515`; `none`: panic. -/
def insertName (decl : Nat → Item) (m : Names) (n : Name) (r : Resolved) : Option Names :=
  (combine decl (AMap.get? m n) r).map fun v => AMap.insert m n v

/-- What an item adds, `has_bindings.rs:517–562`. -/
def resolved (i : Item) : Option Resolved := match i.tag with
  | .incompleteRecord | .record | .enum | .typeAlias | .useMod | .existingRustType => some (.explicitItem i.id)
  | .namespace => some (.namespace i.canon)
  | .func => if i.ident then some (.valueItem i.id) else none
  | .constant | .globalVar => some (.valueItem i.id)
  | .comment | .unsupported => none

/-- Pass 1, `has_bindings.rs:517–562`. -/
def pass1 (decl : Nat → Item) : Names → List Item → Option Names
  | m, [] => some m
  | m, i :: is => match resolved i with
      | none => pass1 decl m is
      | some r => match insertName decl m i.name r with
          | none => none
          | some m' => pass1 decl m' is

/-- `place_in_nested_module_if_nested_in_record`, `ir.rs:4046–4059`; a namespace in a class cannot happen. -/
def placed : Tag → Bool
  | .incompleteRecord | .record | .globalVar | .typeAlias | .enum | .constant | .useMod | .existingRustType => true
  | .func | .unsupported | .comment | .namespace => false

def suffix : Name := "_items".toList

/-- The name to begin with, `has_bindings.rs:574–579` and `db.rs:684–692`. -/
def baseName (snake : Name → Name) (n : Name) : Name := if snake n = n then snake n ++ suffix else snake n

/-- `while is_used(&name) { name.push('_') }`; the first argument bounds the number of rounds. -/
def pad (used : Name → Bool) : Nat → Name → Name
  | 0, n => n
  | k + 1, n => if used n then pad used k (n ++ ['_']) else n

/-- The disambiguation, `has_bindings.rs:581–590` and `db.rs:702–709`. -/
def pickName (used : Name → Bool) (k : Nat) (n : Name) : Name :=
  if used n then pad used k (if suffix.isSuffixOf n then n else n ++ suffix) else n

/-- The name of the module of a class in pass 2. -/
def moduleName (snake : Name → Name) (m : Names) (i : Item) : Name :=
  pickName (fun n => (AMap.get? m n).isSome) m.length (baseName snake i.name)

/-- Pass 2, `has_bindings.rs:565–604`; `none`: panic. -/
def pass2 (snake : Name → Name) : Names → List Item → Option Names
  | m, [] => some m
  | m, i :: is =>
      if i.tag = .record ∧ i.children.any placed = true then
        if (AMap.get? m (moduleName snake m i)).isSome then none
        else pass2 snake (AMap.insert m (moduleName snake m i) (.recordNestedItems [i.id])) is
      else pass2 snake m is

/-- `resolve_names`, `has_bindings.rs:476–607`, for the scope with the given items. -/
def resolveNames (decl : Nat → Item) (snake : Name → Name) (items : List Item) : Option Names :=
  (pass1 decl [] items).bind fun m => pass2 snake m items

/-- The search for the module of the parent in `has_bindings` (`has_bindings.rs:107–122`): the names are enumerated
in any order. -/
def findModule (parent : Nat) : Names → Option (Name × List Nat)
  | [] => none
  | (n, .recordNestedItems ps) :: m => if parent ∈ ps then some (n, ps) else findModule parent m
  | _ :: m => findModule parent m

/-- What `has_bindings` says about an item nested in a class (`has_bindings.rs:96–147`). -/
inductive Verdict where
  | fine
  | parentModuleNotFound
  | parentModuleNameNotUnique
  deriving DecidableEq

def nestedVerdict (parent : Nat) (child : Tag) (names : Names) : Verdict :=
  if placed child then match findModule parent names with
    | none => .parentModuleNotFound
    | some (_, ps) => if ps.length > 1 then .parentModuleNameNotUnique else .fine
  else .fine

/-- `is_used` in `record_to_associated_module_name`, `db.rs:694–701`. -/
def usedByOther (names : Names) (id : Nat) (n : Name) : Bool := match AMap.get? names n with
  | some (.recordNestedItems ps) => !ps.contains id
  | some _ => true
  | none => false

/-- `record_to_associated_module_name`, `db.rs:680–711`, before `make_rs_ident`. -/
def associatedModuleName (snake : Name → Name) (names : Names) (i : Item) : Name :=
  pickName (usedByOther names i.id) names.length (baseName snake i.name)

/-- The name under which a type alias for a class with a module re-exports this module
(`code_snippet.rs:900–909`), if it does. -/
def aliasModuleName (snake : Name → Name) (i : Item) : Option Name :=
  if snake i.name = i.name then none else some (snake i.name)

end Verif.ModName

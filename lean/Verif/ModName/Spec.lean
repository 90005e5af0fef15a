/-!
# The module for the items nested in a C++ class: specification

Source of the property: items declared inside a class get their Rust bindings in a module beside the struct; the
module must not take the name of anything else.
-/

namespace Verif.ModName

abbrev Name := List Char

/-- The kinds of items. -/
inductive Tag where
  | incompleteRecord | record | enum | typeAlias | namespace | useMod | existingRustType
  | func | constant | globalVar | comment | unsupported
  deriving DecidableEq

/-- An item in a scope: a namespace block, a class, or the top level of a target. -/
structure Item where
  id : Nat
  tag : Tag
  /-- the Rust name -/
  name : Name
  /-- a function that is not an operator, constructor, … -/
  ident : Bool := true
  /-- for a namespace: its first block -/
  canon : Nat := 0
  /-- for a class: what is declared in it -/
  children : List Tag := []

/-- Does an item give a name to its scope? -/
def Item.named (i : Item) : Bool := match i.tag with
  | .comment | .unsupported => false
  | .func => i.ident
  | _ => true

/-- The ways of using a name. -/
inductive Use where
  | namespace (canon : Nat)
  | value
  | declared
  | defined
  | existing
  | other
  deriving DecidableEq

def Item.use (i : Item) : Use := match i.tag with
  | .namespace => .namespace i.canon
  | .func | .constant | .globalVar => .value
  | .incompleteRecord => .declared
  | .record => .defined
  | .existingRustType => .existing
  | _ => .other

/-- The uses of a name, in order. -/
def uses (n : Name) (items : List Item) : List Use :=
  (items.filter fun i => i.named && i.name == n).map Item.use

/-- The types of one name: one type, or the same Rust type several times, or a class that is also declared. -/
def TypesOk : List Use → Prop
  | [] => True
  | [_] => True
  | .existing :: l => ∀ u ∈ l, u = .existing
  | .defined :: l => ∀ u ∈ l, u = .declared
  | .declared :: .defined :: l => ∀ u ∈ l, u = .declared
  | _ => False

/-- The uses of one name go together: blocks of one namespace, or one type and functions and variables. -/
def Compatible (l : List Use) : Prop :=
  (∃ c, ∀ u ∈ l, u = .namespace c) ∨
  ((∀ c, Use.namespace c ∉ l) ∧ TypesOk (l.filter fun u => u != .value))

/-- A class with items that go to a module. -/
def Item.needsModule (i : Item) : Bool := i.tag == .record && i.children.any fun t => match t with
  | .func | .unsupported | .comment | .namespace => false
  | _ => true

end Verif.ModName

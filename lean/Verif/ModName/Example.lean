import Verif.ModName.All

/-!
# The module for the items nested in a C++ class: examples, and what the code does not ensure
-/

namespace Verif.ModName.Example

/-- A stand-in for `to_snake_case`: a few words. -/
def snake (n : Name) : Name :=
  if n = "Foo".toList then "foo".toList
  else if n = "FooBar".toList ∨ n = "Foo_Bar".toList then "foo_bar".toList
  else if n = "FOO".toList then "foo".toList
  else n

/-- `class Foo { enum E {}; }; class FOO { using T = int; }; class foo { struct S {}; }; namespace foo_items {}`,
`void foo_items_(); class Fwd; class Fwd {};` -/
def items : List Item :=
  [ { id := 1, tag := .record, name := "Foo".toList, children := [.func, .enum] },
    { id := 2, tag := .record, name := "FOO".toList, children := [.typeAlias] },
    { id := 3, tag := .record, name := "foo".toList, children := [.record] },
    { id := 4, tag := .namespace, name := "foo_items".toList, canon := 4 },
    { id := 5, tag := .func, name := "foo_items_".toList },
    { id := 6, tag := .incompleteRecord, name := "Fwd".toList },
    { id := 7, tag := .record, name := "Fwd".toList, children := [.func] } ]

def decl (n : Nat) : Item := items.getD (n - 1) { id := n, tag := .comment, name := [] }

/-- The names are resolved, and the three classes get three modules, none of which is `foo`, `foo_items` or
`foo_items_`. -/
example : ∃ names, resolveNames decl snake items = some names ∧
    (items.take 3).map (associatedModuleName snake names) =
      ["foo_items__".toList, "foo_items___".toList, "foo_items____".toList] := by
  refine ⟨((resolveNames decl snake items).getD []), ?_, ?_⟩ <;> decide +kernel

example : (∀ i ∈ items, decl i.id = i) ∧ (items.map Item.id).Nodup ∧
    (items.filter Item.needsModule).map Item.id = [1, 2, 3] := by
  refine ⟨?_, by decide, by decide⟩
  intro i hi
  simp only [items, List.mem_cons, List.not_mem_nil, or_false] at hi
  rcases hi with rfl | rfl | rfl | rfl | rfl | rfl | rfl <;> rfl

/-- Uses that go together and uses that do not. -/
example : Compatible [.declared, .value, .defined, .declared] ∧ ¬ Compatible [.declared, .declared] ∧
    ¬ Compatible [.defined, .other] ∧ ¬ Compatible [.value, .namespace 1] ∧ Compatible [.namespace 1, .namespace 1] ∧
    ¬ Compatible [.namespace 1, .namespace 2] ∧ Compatible [.existing, .existing, .value] := by
  simp only [compatible_iff]
  decide

/-- **Disagreement.** Two names that coincide in Rust only (`CRUBIT_RUST_NAME`) stop the generator: there are no
bindings for the target at all. -/
theorem clash_panics : resolveNames (fun n => { id := n, tag := .record, name := "A".toList }) snake
    [{ id := 1, tag := .record, name := "A".toList }, { id := 2, tag := .record, name := "A".toList }] = none := by
  decide +kernel

/-- **Disagreement.** A class with friend functions only is not counted as having a module, but a module is
generated for it.  The modules of two such classes have the same name. -/
def friends : List Item :=
  [ { id := 1, tag := .record, name := "FooBar".toList, children := [.func] },
    { id := 2, tag := .record, name := "Foo_Bar".toList, children := [.func] } ]

def friendDecl (n : Nat) : Item := friends.getD (n - 1) { id := n, tag := .comment, name := [] }

theorem friends_clash : ∃ names, resolveNames friendDecl snake friends = some names ∧
    (∀ i ∈ friends, i.needsModule = false) ∧
    friends.map (associatedModuleName snake names) = ["foo_bar".toList, "foo_bar".toList] := by
  refine ⟨((resolveNames friendDecl snake friends).getD []), ?_, ?_, ?_⟩ <;>
    decide +kernel

/-- **Disagreement.** A type alias re-exports the module of its class under a name that is not reserved: with
`class Widget { enum E {}; }; using Foo = Widget; namespace foo {}` the name is that of the namespace. -/
def aliased : List Item :=
  [ { id := 1, tag := .record, name := "Widget".toList, children := [.enum] },
    { id := 2, tag := .typeAlias, name := "Foo".toList },
    { id := 3, tag := .namespace, name := "foo".toList, canon := 3 } ]

def aliasDecl (n : Nat) : Item := aliased.getD (n - 1) { id := n, tag := .comment, name := [] }

theorem alias_clash : (resolveNames aliasDecl snake aliased).isSome = true ∧
    (aliased.map (aliasModuleName snake))[1]? = some (some "foo".toList) ∧
    (aliased.map fun i => (i.named, i.name))[2]? = some (true, "foo".toList) := by
  refine ⟨?_, ?_, ?_⟩ <;> decide +kernel

/-- **Disagreement.** The blocks of a namespace are resolved one by one: the module of a class of one block has the
name of an item of another block. -/
theorem blocks_clash : ∃ names, resolveNames decl snake [{ id := 1, tag := .record, name := "Foo".toList, children := [.enum] }]
      = some names ∧
    associatedModuleName snake names { id := 1, tag := .record, name := "Foo".toList, children := [.enum] } =
      ({ id := 8, tag := .namespace, name := "foo".toList } : Item).name := by
  refine ⟨((resolveNames decl snake
    [{ id := 1, tag := .record, name := "Foo".toList, children := [.enum] }]).getD []), ?_, ?_⟩ <;> decide +kernel

end Verif.ModName.Example

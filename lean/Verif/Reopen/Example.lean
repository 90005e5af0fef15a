import Verif.Reopen.Main

/-
Examples for C167.
-/

namespace Verif.Reopen.Example

/-- `namespace a { x; namespace b { y } } z; [[deprecated]] namespace a { namespace b { u } v } namespace o { w }
[[unknown]] namespace q { namespace r { } }`; `o` was opened in another target first. -/
def tops : List Item :=
  [.ns 1 1 true true none [.leaf 2 true, .ns 3 3 true true none [.leaf 4 true]], .leaf 5 true,
   .ns 6 1 true true (some "old") [.ns 7 3 true true none [.leaf 8 true], .leaf 9 true],
   .ns 10 100 true true none [.leaf 11 true],
   .ns 12 12 true false none [.ns 13 13 true false none []]]

def pre : List Item := [.ns 100 100 false true none [.leaf 101 false]]

/-- The hypothesis of `reopened_namespaces` holds. -/
theorem wf : Wf pre tops [] where
  ids := by decide +kernel
  place := by decide +kernel
  quiet := by
    intro i c d ch h
    simp [tops, seenL, Item.seen] at h
    obtain ⟨-, -, -, rfl⟩ := h
    simp [quietL, Item.quiet]
  canon := by
    intro x hx b hb
    simp only [tops, blocksL, Item.blocks] at hb
    simp only [tops, seenL, Item.seen] at hx
    simp at hb hx
    rcases hb with rfl | rfl | rfl | rfl | rfl <;> rcases hx with rfl | rfl | rfl | rfl | rfl | rfl | rfl | rfl | rfl | rfl | rfl | rfl <;>
      simp [Item.id]
  last := by decide +kernel

theorem tops_run : bindings pre tops [] 4 =
    some [.item 5, .mod 1 true [.item 2, .mod 3 false [.item 4, .item 8], .item 9], .mod 100 false [.item 11], .item 12] := by
  simp [bindings, pre, tops, genL, gen, append, put, insert, merge, mergeDep, render, look, isLast, counts, Counts.add,
    everyL, Item.every, canonOfL, Item.canonOf, Item.id]

/-- The last block of a namespace is not supported: everything in the other blocks is lost, without an error. -/
def lost : List Item := [.ns 1 1 true true none [.leaf 2 true], .ns 3 1 true false none []]

theorem lost_run : bindings [] lost [] 4 = some [.item 3] ∧ decls lost = [([1], 2), ([], 3)] := by
  refine ⟨?_, by decide +kernel⟩
  simp [bindings, lost, genL, gen, append, put, insert, merge, mergeDep, render, look, isLast, counts, Counts.add,
    everyL, Item.every, canonOfL, Item.canonOf, Item.id]

/-- The first block of a namespace is not supported but another is: the generator panics. -/
def panics : List Item := [.ns 1 1 true false none [], .ns 2 1 true true none [.leaf 3 true]]

theorem panics_run (fuel : Nat) : bindings [] panics [] fuel = none := by
  simp [bindings, panics, genL, gen, append, put, insert, merge, Item.id]

end Verif.Reopen.Example

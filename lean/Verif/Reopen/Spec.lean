/-
Specification vocabulary for the Rust modules of C++ namespaces that are opened several times (C167).
-/

namespace Verif.Reopen

/-- Declarations of a header: `leaf` is anything but a namespace; `ns` is one block of a namespace, with the number of the
block, the number of the namespace (that of its first block, which may be in another target), whether the block is in
the target that bindings are made for, whether it is supported, and its `deprecated` attribute. -/
inductive Item where
  | leaf (id : Nat) (own : Bool)
  | ns (id canon : Nat) (own ok : Bool) (dep : Option String) (children : List Item)

def Item.id : Item → Nat
  | .leaf i _ => i
  | .ns i .. => i

mutual
/-- What has to be in the bindings: the declarations of the target with the namespaces they are in, in order. A block
that is not supported is a declaration itself (a comment about it). -/
def Item.decl : Item → List (List Nat × Nat)
  | .leaf i own => if own then [([], i)] else []
  | .ns i c own ok _ ch =>
      if own then (if ok then (decls ch).map fun x => (c :: x.1, x.2) else [([], i)]) else []
def decls : List Item → List (List Nat × Nat)
  | [] => []
  | x :: xs => x.decl ++ decls xs
end

mutual
/-- The supported blocks: where they are, the number of the block, the namespace, and whether it is deprecated. -/
def Item.blocks : Item → List (List Nat × Nat × Nat × Bool)
  | .leaf _ _ => []
  | .ns i c own ok d ch =>
      if own && ok then ([], i, c, d.isSome) :: (blocksL ch).map fun x => (c :: x.1, x.2) else []
def blocksL : List Item → List (List Nat × Nat × Nat × Bool)
  | [] => []
  | x :: xs => x.blocks ++ blocksL xs
end

mutual
/-- All blocks of the target, supported or not: number and namespace. -/
def Item.every : Item → List (Nat × Nat)
  | .leaf _ _ => []
  | .ns i c own _ _ ch => (if own then [(i, c)] else []) ++ everyL ch
def everyL : List Item → List (Nat × Nat)
  | [] => []
  | x :: xs => x.every ++ everyL xs
end

mutual
/-- The numbers of all declarations. -/
def Item.ids : Item → List Nat
  | .leaf i _ => [i]
  | .ns i _ _ _ _ ch => i :: idsL ch
def idsL : List Item → List Nat
  | [] => []
  | x :: xs => x.ids ++ idsL xs
end

mutual
/-- The declarations that are seen: not those in blocks of other targets and in unsupported blocks. -/
def Item.seen : Item → List Item
  | .leaf i own => [.leaf i own]
  | .ns i c own ok d ch => .ns i c own ok d ch :: (if own && ok then seenL ch else [])
def seenL : List Item → List Item
  | [] => []
  | x :: xs => x.seen ++ seenL xs
end

mutual
/-- No block is supported. -/
def Item.quiet : Item → Prop
  | .leaf _ _ => True
  | .ns _ _ _ ok _ ch => ok = false ∧ quietL ch
def quietL : List Item → Prop
  | [] => True
  | x :: xs => x.quiet ∧ quietL xs
end

/-- Generated Rust: a declaration, or a module for a namespace. -/
inductive Out where
  | item (id : Nat)
  | mod (canon : Nat) (deprecated : Bool) (items : List Out)

mutual
/-- The declarations in the generated code and the modules they are in. -/
def Out.leaves : Out → List (List Nat × Nat)
  | .item i => [([], i)]
  | .mod c _ os => (leavesL os).map fun x => (c :: x.1, x.2)
def leavesL : List Out → List (List Nat × Nat)
  | [] => []
  | o :: os => o.leaves ++ leavesL os
end

mutual
/-- The modules in the generated code, and whether they are deprecated. -/
def Out.mods : Out → List (List Nat × Bool)
  | .item _ => []
  | .mod c d os => ([c], d) :: (modsL os).map fun x => (c :: x.1, x.2)
def modsL : List Out → List (List Nat × Bool)
  | [] => []
  | o :: os => o.mods ++ modsL os
end

/-- The modules that are wanted: one for each namespace with supported blocks; and whether the block is deprecated. -/
def spaces (L : List Item) : List (List Nat × Bool) := (blocksL L).map fun b => (b.1 ++ [b.2.2.1], b.2.2.2)

/-- What is in the module `p`, in order. -/
def at' {α : Type} (p : List Nat) (l : List (List Nat × α)) : List (List Nat × α) := l.filter fun x => x.1 == p

/-- What is known of the declarations `tops` of a target, in an IR with other declarations before and after them: -/
structure Wf (pre tops post : List Item) : Prop where
  /-- numbers are different, -/
  ids : (idsL (pre ++ tops ++ post)).Nodup
  /-- all blocks of a namespace are in the same namespace, -/
  place : ∀ x ∈ blocksL tops, ∀ y ∈ blocksL tops, x.2.2.1 = y.2.2.1 → x.1 = y.1
  /-- blocks in unsupported blocks are unsupported, -/
  quiet : ∀ i c d ch, .ns i c true false d ch ∈ seenL tops → quietL ch
  /-- if one of the declarations that are seen has the number of a namespace, then it is a supported block of it, -/
  canon : ∀ x ∈ seenL tops, ∀ b ∈ blocksL tops, x.id = b.2.2.1 → ∃ d ch, x = .ns b.2.2.1 b.2.2.1 true true d ch
  /-- the last block of a namespace is among the supported ones. -/
  last : ∀ b ∈ blocksL tops, ∃ x ∈ blocksL tops, x.2.2.1 = b.2.2.1 ∧
    ((everyL (pre ++ tops ++ post)).filter fun e => e.2 == b.2.2.1).getLast? = some (x.2.1, b.2.2.1)

end Verif.Reopen

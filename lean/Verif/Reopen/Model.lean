import Verif.Reopen.Spec

/-
Model of rs_bindings_from_cc/generate_bindings/lib.rs (`generate_namespace`, `generate_item`, the loop over top-level
items), generate_bindings/database/code_snippet.rs (`ApiSnippets::append`, `GeneratedItem::merge`,
`generated_items_to_tokens`) and ir.rs (`make_ir`: numbers of reopened namespaces, `is_last_reopened_namespace`).

Simplified: everything but namespaces is a leaf; the text of modules is the number of the namespace (in the source the
name of the canonical block, which is the same for all blocks) and without the re-export of inline namespaces.
-/

namespace Verif.Reopen

/-- `GeneratedItem` -/
inductive GItem where
  | leaf
  | comment
  | nonCanonical
  | canonical (items : List Nat) (dep : Option String)

/-- `ApiSnippets::generated_items` -/
abbrev Snip := List (Nat × GItem)

def look (s : Snip) (k : Nat) : Option GItem :=
  match s with
  | [] => none
  | (k', g) :: s => if k' = k then some g else look s k

/-- `merge_deprecated_text` (code_snippet.rs:974-980) -/
def mergeText (a b : String) : String := if a = "" then b else if b = "" then a else a ++ ", " ++ b

/-- code_snippet.rs:990-999 -/
def mergeDep : Option String → Option String → Option String
  | some a, some b => if a ≠ b then some (mergeText a b) else some a
  | a, none => a
  | none, b => b

/-- `GeneratedItem::merge` (code_snippet.rs:973-1012); `none`: panic. Comments are merged if they have the same text:
here never, since numbers are different. -/
def merge : GItem → GItem → Option GItem
  | .canonical is d, .canonical is' d' => some (.canonical (is ++ is') (mergeDep d d'))
  | _, _ => none

/-- One entry of `append` (code_snippet.rs:68-76) -/
def put (s : Snip) (k : Nat) (g : GItem) : Option Snip :=
  match s with
  | [] => some [(k, g)]
  | (k', g') :: s =>
      if k' = k then (merge g' g).map fun m => (k', m) :: s
      else (put s k g).map fun t => (k', g') :: t

/-- `ApiSnippets::append` (code_snippet.rs:65-77) -/
def append (s : Snip) : Snip → Option Snip
  | [] => some s
  | (k, g) :: t =>
      match put s k g with
      | some s => append s t
      | none => none

/-- `HashMap::insert` -/
def insert (s : Snip) (k : Nat) (g : GItem) : Snip :=
  match s with
  | [] => [(k, g)]
  | (k', g') :: s => if k' = k then (k, g) :: s else (k', g') :: insert s k g

mutual
/-- `generate_item` (lib.rs:284-306) with `generate_namespace` (lib.rs:256-281): a namespace that has no bindings is
replaced by a comment. -/
def gen : Item → Option Snip
  | .leaf i own => if own then some [(i, .leaf)] else some []
  | .ns i c own ok d ch =>
      if own then
        match genL [] ch with
        | some s =>
            if ok then some (insert (insert s i .nonCanonical) c (.canonical (ch.map Item.id) d))
            else some [(i, .comment)]
        | none => none
      else some []
/-- The loop over children (lib.rs:263-265) or top-level items (lib.rs:479-481) -/
def genL (acc : Snip) : List Item → Option Snip
  | [] => some acc
  | x :: xs =>
      match gen x with
      | some s =>
          match append acc s with
          | some acc => genL acc xs
          | none => none
      | none => none
end

/-- The two maps of `make_ir` (ir.rs:243-244) -/
structure Counts where
  count : Nat → Nat
  idx : Nat → Option Nat

/-- ir.rs:270-278, for one block -/
def Counts.add (s : Counts) (b : Nat × Nat) : Counts where
  idx i := if i = b.1 then some (s.count b.2) else s.idx i
  count c := if c = b.2 then s.count b.2 + 1 else s.count c

def counts (bs : List (Nat × Nat)) : Counts := bs.foldl Counts.add ⟨fun _ => 0, fun _ => none⟩

/-- `is_last_reopened_namespace` (ir.rs:4403-4416); `none`: error. (A count of 0 is an absent entry.) -/
def isLast (K : Counts) (id canon : Nat) : Option Bool :=
  match K.idx id with
  | some i => if K.count canon = 0 then none else some (i == K.count canon - 1)
  | none => none

/-- `generated_items_to_tokens` (code_snippet.rs:556-…, namespaces: 776-842); `canonOf`: the namespace of a block; `fuel`:
depth of the recursion; `none`: panic. -/
def render (s : Snip) (K : Counts) (canonOf : Nat → Nat) : Nat → List Nat → Option (List Out)
  | _, [] => some []
  | 0, _ :: _ => none
  | f + 1, k :: ks =>
      match render s K canonOf (f + 1) ks with
      | none => none
      | some rest =>
          match look s k with
          | none => some rest
          | some .leaf => some (.item k :: rest)
          | some .comment => some (.item k :: rest)
          | some _ =>
              match isLast K k (canonOf k) with
              | none => none
              | some false => some rest
              | some true =>
                  match look s (canonOf k) with
                  | some (.canonical items d) =>
                      match render s K canonOf f items with
                      | some os => some (.mod (canonOf k) d.isSome os :: rest)
                      | none => none
                  | _ => none
termination_by f ks => (f, ks.length)

mutual
/-- `db.find_decl::<Rc<Namespace>>(id).canonical_namespace_id()` -/
def Item.canonOf (k : Nat) : Item → Option Nat
  | .leaf _ _ => none
  | .ns i c _ _ _ ch => if i = k then some c else canonOfL k ch
def canonOfL (k : Nat) : List Item → Option Nat
  | [] => none
  | x :: xs => (x.canonOf k).or (canonOfL k xs)
end

/-- Bindings of the top-level items (lib.rs:479-481, :581-584) of the target; the blocks are counted in the whole IR
(ir.rs:239-240). -/
def bindings (pre tops post : List Item) (fuel : Nat) : Option (List Out) :=
  match genL [] tops with
  | some s => render s (counts (everyL (pre ++ tops ++ post))) (fun k => (canonOfL k tops).getD 0) fuel (tops.map Item.id)
  | none => none

end Verif.Reopen

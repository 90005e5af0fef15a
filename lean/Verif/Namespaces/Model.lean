import Verif.Common.AMap
/-
Model of support/cc_import/merged_namespaces.rs (merging of the namespace hierarchies of all direct
dependencies) and of rs_bindings_from_cc/collect_namespaces.cc (producing the hierarchy of one
target).

Simplifications: `BTreeMap` / `absl::btree_map` are association lists in insertion order (their
contents as maps are modelled, not the sorted iteration order); `BTreeSet<Rc<str>>` is a list of
which only membership is used; JSON (de)serialization is not modelled.
-/
namespace Verif.Namespaces
open Verif

/-- `JsonNamespace`, merged_namespaces.rs lines 23-29; also `NamespaceNode`, collect_namespaces.h. -/
inductive Json
  | mk (name : String) (children : List Json)

def Json.name : Json → String | .mk n _ => n
def Json.children : Json → List Json | .mk _ c => c

/-- `JsonNamespaceHierarchy`, lines 14-21. -/
structure Hierarchy where
  label : String
  namespaces : List Json

/-- `MergedNamespace`, lines 40-49. -/
inductive Merged
  | mk (name : String) (children : List (String × Merged)) (labels : List String)

def Merged.name : Merged → String | .mk n _ _ => n
def Merged.children : Merged → List (String × Merged) | .mk _ c _ => c
def Merged.labels : Merged → List String | .mk _ _ l => l

mutual
/-- `MergedNamespace::from_json_namespace`, lines 53-66. -/
def fromJson (label : String) : Json → Merged
  | .mk n cs => .mk n (fromJsons label [] cs) [label]
/-- The loop of lines 55-60 (also of `from_json_namespace_hierarchy`, lines 103-110). -/
def fromJsons (label : String) (acc : List (String × Merged)) : List Json → List (String × Merged)
  | [] => acc
  | .mk n cs :: js => fromJsons label (AMap.insert acc n (fromJson label (.mk n cs))) js
end

mutual
/-- `MergedNamespace::add_child`, lines 84-97 (`self` is the first argument). -/
def addChild : Merged → Merged → Merged
  | .mk n ch ls, .mk n' ch' ls' =>
    .mk n
      (match AMap.get? ch n' with
        | some c => AMap.insert ch n' (addChildren c ch')
        | none => AMap.insert ch n' (.mk n' ch' ls'))
      (ls ++ ls')
/-- The loops `for child in children.into_values() { self.add_child(child) }`, lines 79-81, 89-91. -/
def addChildren : Merged → List (String × Merged) → Merged
  | s, [] => s
  | s, (_, c) :: cs => addChildren (addChild s c) cs
end

/-- `MergedNamespace::merge`, lines 69-82. `none` is the `assert!` panic. -/
def mergeNs (self other : Merged) : Option Merged :=
  if self.name = other.name then
    some (addChildren (.mk self.name self.children (self.labels ++ other.labels)) other.children)
  else none

/-- `MergedNamespaceHierarchy::from_json_namespace_hierarchy`, lines 102-111. -/
def fromHierarchy (h : Hierarchy) : List (String × Merged) := fromJsons h.label [] h.namespaces

/-- `MergedNamespaceHierarchy::merge`, lines 114-125. -/
def merge (self : List (String × Merged)) : List (String × Merged) → Option (List (String × Merged))
  | [] => some self
  | (name, ns) :: other =>
    match AMap.get? self name with
    | some child =>
      match mergeNs child ns with
      | none => none
      | some m => merge (AMap.insert self name m) other
    | none => merge (AMap.insert self name ns) other

/-- The `reduce` of `get_namespace_hierarchy`, cc_import_internal.rs lines 37-52: left to right. -/
def mergeRest (acc : List (String × Merged)) : List Hierarchy → Option (List (String × Merged))
  | [] => some acc
  | h :: hs =>
    match merge acc (fromHierarchy h) with
    | none => none
    | some acc => mergeRest acc hs

/-- `get_namespace_hierarchy` on the parsed files, lines 31-54; `none` is a panic (`unwrap` of an empty
reduction, or the assertion). -/
def mergeAll : List Hierarchy → Option (List (String × Merged))
  | [] => none
  | h :: hs => mergeRest (fromHierarchy h) hs

/-- Look up a namespace path in a merged hierarchy (what a user of the generated modules names). -/
def look (m : List (String × Merged)) : List String → Option Merged
  | [] => none
  | [k] => AMap.get? m k
  | k :: k' :: ks =>
    match AMap.get? m k with
    | none => none
    | some c => look c.children (k' :: ks)

/-! ### Producing the hierarchy of one target: collect_namespaces.cc -/

/-- An `ir_proto::Namespace` as far as `CollectNamespaces` looks at it: the name, and the ids of the
children items that are namespaces (`has_namespace_decl`). -/
structure IrNs where
  name : String
  owningTarget : String
  children : List Nat

/-- The IR: current target, id-to-namespace items, top level namespace ids of the current target. -/
structure IR where
  currentTarget : String
  namespaces : List (Nat × IrNs)
  topLevel : List Nat

/-- `NamespaceTrie::Node`, collect_namespaces.cc lines 43-49. -/
structure Node where
  name : String
  children : List (String × Nat)

/-- `NamespaceTrie`, lines 41-60. -/
structure Trie where
  nodes : List Node
  top : List (String × Nat)

/-- The map built at lines 149-156 (`flat_hash_map::insert` keeps the first entry of a key). -/
def idToNamespace (ir : IR) : Nat → Option IrNs := fun id =>
  AMap.get? (ir.namespaces.filter fun p => p.2.owningTarget = ir.currentTarget) id

/-- lines 64-77: the child of `parent` called `name`, created if missing. -/
def childIdx (t : Trie) (parent : Nat) (name : String) : Trie × Nat :=
  match t.nodes[parent]? with
  | none => (t, 0)
  | some p =>
    match AMap.get? p.children name with
    | none =>
      let idx := t.nodes.length
      (⟨t.nodes.set parent ⟨p.name, AMap.insert p.children name idx⟩ ++ [⟨name, []⟩], t.top⟩, idx)
    | some idx => (t, idx)

mutual
/-- `InsertNode`, lines 63-89. The recursion follows ids in the IR, so it carries fuel; `none` = out of
fuel (the real code overflows its stack on a cyclic IR). -/
def insertNode (ids : Nat → Option IrNs) : Nat → Trie → Nat → IrNs → Option Trie
  | 0, _, _, _ => none
  | fuel + 1, t, parent, ns =>
    let r := childIdx t parent ns.name
    insertNodes ids fuel r.1 r.2 ns.children
/-- The loop over child items, lines 79-88 and 121-129. -/
def insertNodes (ids : Nat → Option IrNs) (fuel : Nat) (t : Trie) (parent : Nat) : List Nat → Option Trie
  | [] => some t
  | id :: rest =>
    match ids id with
    | none => insertNodes ids fuel t parent rest
    | some ns =>
      match insertNode ids fuel t parent ns with
      | none => none
      | some t => insertNodes ids fuel t parent rest
end

/-- `InsertTopLevel`, lines 109-130. -/
def insertTopLevel (ids : Nat → Option IrNs) (fuel : Nat) (t : Trie) (ns : IrNs) : Option Trie :=
  match AMap.get? t.top ns.name with
  | some idx => insertNodes ids fuel t idx ns.children
  | none =>
    let idx := t.nodes.length
    insertNodes ids fuel ⟨t.nodes ++ [⟨ns.name, []⟩], AMap.insert t.top ns.name idx⟩ idx ns.children

/-- The loop at lines 161-169. -/
def insertAll (ids : Nat → Option IrNs) (fuel : Nat) (t : Trie) : List Nat → Option Trie
  | [] => some t
  | id :: rest =>
    match ids id with
    | none => insertAll ids fuel t rest
    | some ns =>
      match insertTopLevel ids fuel t ns with
      | none => none
      | some t => insertAll ids fuel t rest

mutual
/-- `NodeToNamespaceNode`, lines 92-99, with fuel (the trie is a tree; see the theorems). -/
def nodeToJson (t : Trie) : Nat → Nat → Json
  | 0, _ => .mk "" []
  | fuel + 1, idx =>
    match t.nodes[idx]? with
    | none => .mk "" []
    | some n => .mk n.name (nodesToJson t fuel n.children)
/-- The loops at lines 94-97 and 137-139. -/
def nodesToJson (t : Trie) (fuel : Nat) : List (String × Nat) → List Json
  | [] => []
  | (_, idx) :: rest => nodeToJson t fuel idx :: nodesToJson t fuel rest
end

/-- `CollectNamespaces`, lines 147-173. -/
def collect (ir : IR) (fuel : Nat) : Option Hierarchy :=
  match insertAll (idToNamespace ir) fuel ⟨[], []⟩ ir.topLevel with
  | none => none
  | some t => some ⟨ir.currentTarget, nodesToJson t t.nodes.length t.top⟩

end Verif.Namespaces

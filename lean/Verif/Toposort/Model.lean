import Verif.Common.AMap
/-
Model of cc_bindings_from_rs/toposort.rs (whole file, non-test part).
-/
namespace Verif.Toposort
open Verif

variable {α : Type} [DecidableEq α]

/-- cc_bindings_from_rs/toposort.rs:206-209 `struct Dependency`. -/
structure Dependency (α : Type) where
  predecessor : α
  successor : α
deriving DecidableEq, Repr

/-- cc_bindings_from_rs/toposort.rs:222-226 `struct GraphNode` (`usize` modelled by `Nat`). -/
structure GraphNode (α : Type) where
  count_of_predecessors : Nat
  successors : List α
  input_index : Nat
deriving Repr

/-- cc_bindings_from_rs/toposort.rs:238-245 `struct HeapNode`; `cmp_fn` is passed separately. -/
structure HeapNode (α : Type) where
  id : α
  input_index : Nat
deriving DecidableEq, Repr

/-- cc_bindings_from_rs/toposort.rs:247-264 `HeapNode::cmp`. -/
def HeapNode.cmp (cmp_fn : α → α → Ordering) (a b : HeapNode α) : Ordering :=
  let ord := cmp_fn a.id b.id
  if ord = Ordering.eq then compare b.input_index a.input_index else ord.swap

/-- Every place where `toposort` can panic (lines 138-152, 177, 179, 180). -/
inductive Panic where
  | unknownSuccessor
  | unknownPredecessor
  | removeUnwrap
  | succUnwrap
  | countAssert
deriving DecidableEq, Repr

/-- The standard-library behaviour `toposort` relies on:
* the order in which the two traversals of the `HashMap` (lines 163-171 and 196) enumerate it;
* `BinaryHeap::pop`, on the multiset of pushed nodes: it removes some element, and a greatest one
  if the element ordering is a total order (the documented contract; for an inconsistent ordering
  the documentation only promises memory safety). -/
structure Runtime (α : Type) (cmp_fn : α → α → Ordering) where
  enumReady : List (α × GraphNode α) → List (α × GraphNode α)
  enumReady_perm : ∀ g, (enumReady g).Perm g
  enumFailed : List (α × GraphNode α) → List (α × GraphNode α)
  enumFailed_perm : ∀ g, (enumFailed g).Perm g
  pop : List (HeapNode α) → Option (HeapNode α × List (HeapNode α))
  pop_none : ∀ h, pop h = none ↔ h = []
  pop_perm : ∀ h x r, pop h = some (x, r) → h.Perm (x :: r)
  pop_max : Std.TransCmp cmp_fn → ∀ h x r, pop h = some (x, r) →
    ∀ y ∈ h, HeapNode.cmp cmp_fn y x ≠ Ordering.gt

/-- Lines 131-135: `nodes.into_iter().enumerate().map(..).collect()`; a later duplicate overwrites. -/
def initGraph (nodes : List α) : List (α × GraphNode α) :=
  nodes.zipIdx.foldl
    (fun g p => AMap.insert g p.1 ⟨0, [], p.2⟩) []

/-- Lines 136-155: one iteration of the loop over `deps`. -/
def addDep (g : List (α × GraphNode α)) (d : Dependency α) :
    Except Panic (List (α × GraphNode α)) :=
  match AMap.get? g d.successor with
  | none => .error .unknownSuccessor
  | some s =>
    let g1 := AMap.insert g d.successor { s with count_of_predecessors := s.count_of_predecessors + 1 }
    match AMap.get? g1 d.predecessor with
    | none => .error .unknownPredecessor
    | some p =>
      .ok (AMap.insert g1 d.predecessor { p with successors := p.successors ++ [d.successor] })

/-- Lines 136-155: the loop over `deps`. -/
def addDeps : List (α × GraphNode α) → List (Dependency α) → Except Panic (List (α × GraphNode α))
  | g, [] => .ok g
  | g, d :: ds =>
    match addDep g d with
    | .error e => .error e
    | .ok g' => addDeps g' ds

/-- Lines 163-171: initial contents of the `ready` heap. -/
def initReady (enum : List (α × GraphNode α) → List (α × GraphNode α))
    (g : List (α × GraphNode α)) : List (HeapNode α) :=
  ((enum g).filter (fun p => p.2.count_of_predecessors == 0)).map
    (fun p => ⟨p.1, p.2.input_index⟩)

/-- Lines 178-189: the inner loop over the successors of the removed node. -/
def relax : List (α × GraphNode α) → List (HeapNode α) → List α →
    Except Panic (List (α × GraphNode α) × List (HeapNode α))
  | g, ready, [] => .ok (g, ready)
  | g, ready, s :: ss =>
    match AMap.get? g s with
    | none => .error .succUnwrap
    | some n =>
      if 0 < n.count_of_predecessors then
        let n' := { n with count_of_predecessors := n.count_of_predecessors - 1 }
        let g' := AMap.insert g s n'
        let ready' := if n'.count_of_predecessors = 0 then ⟨s, n'.input_index⟩ :: ready else ready
        relax g' ready' ss
      else .error .countAssert

theorem relax_length {g : List (α × GraphNode α)} {ready ss g' ready'}
    (h : relax g ready ss = .ok (g', ready')) : g'.length = g.length := by
  induction ss generalizing g ready with
  | nil => simp [relax] at h; simp [h]
  | cons s ss ih =>
    simp only [relax] at h
    split at h
    · simp at h
    · split at h
      · have := ih h
        rw [this]
        exact AMap.length_insert_of_mem _ _ _ ((AMap.mem_keys_iff _ _).2 ⟨_, ‹_›⟩)
      · simp at h

/-- Lines 176-191: the `while let Some(..) = ready.pop()` loop; returns the remaining graph and
the final `ordered`. -/
def loop (pop : List (HeapNode α) → Option (HeapNode α × List (HeapNode α)))
    (g : List (α × GraphNode α)) (ready : List (HeapNode α)) (ordered : List α) :
    Except Panic (List (α × GraphNode α) × List α) :=
  match pop ready with
  | none => .ok (g, ordered)
  | some (removed, ready1) =>
    match _hg : AMap.get? g removed.id with
    | none => .error .removeUnwrap
    | some node =>
      match _hr : relax (AMap.erase g removed.id) ready1 node.successors with
      | .error e => .error e
      | .ok (g2, ready2) => loop pop g2 ready2 (ordered ++ [removed.id])
termination_by g.length
decreasing_by
  have := relax_length _hr
  have := AMap.length_erase_lt g removed.id _hg
  omega

/-- cc_bindings_from_rs/toposort.rs:212-221 `struct TopoSortResult`. -/
structure TopoSortResult (α : Type) where
  ordered : List α
  failed : List α
deriving DecidableEq, Repr

/-- cc_bindings_from_rs/toposort.rs:120-200 `toposort`. `failed.sort_by` (line 197) is a stable
sort, modelled by the (stable) `List.mergeSort`. -/
def toposort {cmp_fn : α → α → Ordering} (rt : Runtime α cmp_fn)
    (nodes : List α) (deps : List (Dependency α)) : Except Panic (TopoSortResult α) :=
  match addDeps (initGraph nodes) deps with
  | .error e => .error e
  | .ok g =>
    match loop rt.pop g (initReady rt.enumReady g) [] with
    | .error e => .error e
    | .ok (g', ordered) =>
      .ok { ordered,
            failed := ((rt.enumFailed g').map Prod.fst).mergeSort (fun a b => (cmp_fn a b).isLE) }

end Verif.Toposort

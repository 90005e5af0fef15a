import Verif.Common.AMap
import Mathlib.Order.Defs.LinearOrder
/-
Model of nullability/inference/merge.{h,cc} (reducing evidence to conclusions) and of
`groupAndMergeEvidence` in nullability/inference/infer_tu.cc.

Simplifications: USRs and locations are elements of arbitrary linear orders `U` and `L` (strings in the
source). Evidence kinds are their numbers in inference.proto. Proto maps have unspecified iteration order:
the order used by each loop is a parameter (`Order`).
-/
namespace Verif.NullMerge

/-- Kind numbers, nullability/inference/inference.proto lines 57-166. -/
abbrev Kind := Nat
def ANNOTATED_UNKNOWN : Kind := 0
def ANNOTATED_NULLABLE : Kind := 1
def ANNOTATED_NONNULL : Kind := 2
def UNCHECKED_DEREFERENCE : Kind := 3
def NULLABLE_ARGUMENT : Kind := 4
def NONNULL_ARGUMENT : Kind := 5
def UNKNOWN_ARGUMENT : Kind := 6
def NULLABLE_RETURN : Kind := 7
def NONNULL_RETURN : Kind := 8
def UNKNOWN_RETURN : Kind := 9
def ASSIGNED_TO_NONNULL : Kind := 10
def ASSIGNED_TO_MUTABLE_NULLABLE : Kind := 11
def ABORT_IF_NULL : Kind := 12
def ASSIGNED_FROM_NULLABLE : Kind := 13
def ARITHMETIC : Kind := 14
def NULLPTR_DEFAULT_MEMBER_INITIALIZER : Kind := 15
def GCC_NONNULL_ATTRIBUTE : Kind := 16
def NULLABLE_REFERENCE_RETURN : Kind := 17
def NONNULL_REFERENCE_RETURN : Kind := 18
def UNKNOWN_REFERENCE_RETURN : Kind := 19
def NULLABLE_REFERENCE_ARGUMENT : Kind := 20
def NONNULL_REFERENCE_ARGUMENT : Kind := 21
def UNKNOWN_REFERENCE_ARGUMENT : Kind := 22
def ASSIGNED_FROM_NONNULL : Kind := 23
def ASSIGNED_FROM_UNKNOWN : Kind := 24
def ASSIGNED_TO_NONNULL_REFERENCE : Kind := 26
def NONNULL_REFERENCE_RETURN_AS_CONST : Kind := 27
def NONNULL_REFERENCE_ARGUMENT_AS_CONST : Kind := 28
def WELL_KNOWN_NONNULL : Kind := 29
def WELL_KNOWN_NULLABLE : Kind := 30
def ARRAY_SUBSCRIPT : Kind := 31
def LEFT_NOT_NULLABLE_BY_LATE_INITIALIZER : Kind := 32
def LEFT_NULLABLE_BY_CONSTRUCTOR : Kind := 33
def ASSIGNED_TO_OR_FROM_INVARIANT_NONNULL : Kind := 34
def ASSIGNED_TO_OR_FROM_INVARIANT_NULLABLE : Kind := 35

/-- `message Evidence`, inference.proto lines 44-55 (`propagated_from` is not used by merging). -/
structure Evidence (U L : Type) where
  usr : Option U
  slot : Option Nat
  kind : Kind
  location : Option L
  crossesFromTestToNontest : Bool
deriving DecidableEq

/-- `message SlotPartial`, inference.proto lines 197-209. -/
structure Partial (U L : Type) where
  kindCount : List (Kind × Nat)
  kindSamples : List (Kind × List (Evidence U L))

/-- `enum Nullability`, inference.proto lines 170-174. -/
inductive Nullability
  | UNKNOWN | NONNULL | NULLABLE
deriving DecidableEq, Repr

/-- `message SlotInference`, inference.proto lines 177-192; `none` = unset. -/
structure Inference (U L : Type) where
  nullability : Option Nullability
  conflict : Bool
  trivial : Bool
  samples : List (Evidence U L)

/-- `struct InferResult`, merge.h lines 31-35. -/
structure InferResult where
  nullability : Nullability
  conflict : Bool := false
  trivial : Bool := false
deriving DecidableEq, Repr

/-- The order in which proto map iteration visits the two maps. -/
structure Order (U L : Type) where
  counts : List (Kind × Nat) → List (Kind × Nat)
  samples : List (Kind × List (Evidence U L)) → List (Kind × List (Evidence U L))
  countsPerm : ∀ l, (counts l).Perm l
  samplesPerm : ∀ l, (samples l).Perm l

section
variable {U L : Type} [DecidableEq U] [DecidableEq L]

/-- One iteration of the loop of `mergeSampleEvidence`, merge.cc lines 28-32, and the rest of the loop.
`locs` is `LHSEvidenceLocations`, computed once before the loop. -/
def mergeSampleLoop (locs : List (Option L)) : List (Evidence U L) → List (Evidence U L) → List (Evidence U L)
  | lhs, [] => lhs
  | lhs, e :: rhs =>
    if lhs.length ≥ 3 then lhs
    else if locs.contains e.location then mergeSampleLoop locs lhs rhs
    else mergeSampleLoop locs (lhs ++ [e]) rhs

/-- `mergeSampleEvidence`, merge.cc lines 20-33. -/
def mergeSampleEvidence (lhs rhs : List (Evidence U L)) : List (Evidence U L) :=
  mergeSampleLoop (lhs.map (·.location)) lhs rhs

/-- `partialFromEvidence`, merge.cc lines 35-51. -/
def partialFromEvidence (e : Evidence U L) : Option (Partial U L) :=
  if e.crossesFromTestToNontest then none
  else some {
    kindCount := [(e.kind, 1)]
    kindSamples := if e.location.isSome then [(e.kind, [{ e with usr := none, slot := none }])] else [] }

/-- `(*LHS.mutable_kind_count())[Kind] += Count` (uint32 arithmetic), merge.cc lines 54-55. -/
def addCount (m : List (Kind × Nat)) (kc : Kind × Nat) : List (Kind × Nat) :=
  AMap.insert m kc.1 (((AMap.get? m kc.1).getD 0 + kc.2) % 2 ^ 32)

/-- `mergeSampleEvidence((*LHS.mutable_kind_samples())[Kind], Samples)`, merge.cc lines 56-57. -/
def addSamples (m : List (Kind × List (Evidence U L))) (ks : Kind × List (Evidence U L)) :
    List (Kind × List (Evidence U L)) :=
  AMap.insert m ks.1 (mergeSampleEvidence ((AMap.get? m ks.1).getD []) ks.2)

/-- `mergePartials`, merge.cc lines 53-58. -/
def mergePartials (o : Order U L) (lhs rhs : Partial U L) : Partial U L where
  kindCount := (o.counts rhs.kindCount).foldl addCount lhs.kindCount
  kindSamples := (o.samples rhs.kindSamples).foldl addSamples lhs.kindSamples

/-- `update`, merge.cc lines 86-95. -/
def update (r : Option InferResult) (n : Nullability) : Option InferResult :=
  match r with
  | none => some { nullability := n }
  | some r => if r.nullability ≠ n then some { r with conflict := true } else some r

/-- The `if (Counts[K]) update(Result, N)` sequence. -/
def rules (c : Kind → Bool) : List (Kind × Nullability) → Option InferResult → Option InferResult
  | [], r => r
  | (k, n) :: rs, r => rules c rs (if c k then update r n else r)

/-- `AnyAssignmentFromNullable`, merge.cc lines 112-115. -/
def anyAssignmentFromNullable (c : Kind → Bool) : Bool :=
  c ASSIGNED_FROM_NULLABLE || (c LEFT_NULLABLE_BY_CONSTRUCTOR && !c LEFT_NOT_NULLABLE_BY_LATE_INITIALIZER)

/-- The mandatory rules of `infer`, merge.cc lines 117-148. -/
def mandatoryRules (c : Kind → Bool) : Option InferResult :=
  let r := rules c [(UNCHECKED_DEREFERENCE, .NONNULL), (NULLABLE_ARGUMENT, .NULLABLE),
    (NULLABLE_REFERENCE_ARGUMENT, .NULLABLE), (NONNULL_REFERENCE_ARGUMENT, .NONNULL)] none
  let r := if anyAssignmentFromNullable c then update r .NULLABLE else r
  rules c [(NULLABLE_RETURN, .NULLABLE), (NULLABLE_REFERENCE_RETURN, .NULLABLE),
    (NONNULL_REFERENCE_RETURN, .NONNULL), (ASSIGNED_TO_NONNULL, .NONNULL),
    (ASSIGNED_TO_OR_FROM_INVARIANT_NONNULL, .NONNULL), (ASSIGNED_TO_OR_FROM_INVARIANT_NULLABLE, .NULLABLE),
    (ASSIGNED_TO_MUTABLE_NULLABLE, .NULLABLE), (ASSIGNED_TO_NONNULL_REFERENCE, .NONNULL),
    (ABORT_IF_NULL, .NONNULL), (ARITHMETIC, .NONNULL), (ARRAY_SUBSCRIPT, .NONNULL)] r

/-- The soft rules of `infer`, merge.cc lines 150-178. -/
def softRules (c : Kind → Bool) (soft : Bool) : Nullability :=
  if !soft then .UNKNOWN
  else if c WELL_KNOWN_NONNULL then .NONNULL
  else if c WELL_KNOWN_NULLABLE then .NULLABLE
  else if c GCC_NONNULL_ATTRIBUTE then .NONNULL
  else if !c NULLABLE_RETURN && !c UNKNOWN_RETURN && c NONNULL_RETURN then .NONNULL
  else if !c NULLABLE_ARGUMENT && !c UNKNOWN_ARGUMENT && c NONNULL_ARGUMENT then .NONNULL
  else if c NULLPTR_DEFAULT_MEMBER_INITIALIZER then .NULLABLE
  else if !anyAssignmentFromNullable c && !c ASSIGNED_FROM_UNKNOWN && c ASSIGNED_FROM_NONNULL then .NONNULL
  else if !c NULLABLE_REFERENCE_RETURN && !c UNKNOWN_REFERENCE_RETURN && !c NONNULL_REFERENCE_RETURN &&
    c NONNULL_REFERENCE_RETURN_AS_CONST then .NONNULL
  else if !c NULLABLE_REFERENCE_ARGUMENT && !c UNKNOWN_REFERENCE_ARGUMENT && !c NONNULL_REFERENCE_ARGUMENT &&
    c NONNULL_REFERENCE_ARGUMENT_AS_CONST then .NONNULL
  else .UNKNOWN

/-- `infer`, merge.cc lines 97-178. `Counts[K]` is used only as a boolean. -/
def infer (counts : Kind → Nat) (soft : Bool) : InferResult :=
  let c : Kind → Bool := fun k => counts k ≠ 0
  if c ANNOTATED_NONNULL && c ANNOTATED_NULLABLE then { nullability := .UNKNOWN, conflict := true }
  else if c ANNOTATED_NONNULL then { nullability := .NONNULL, conflict := false, trivial := true }
  else if c ANNOTATED_NULLABLE then { nullability := .NULLABLE, conflict := false, trivial := true }
  else
    match mandatoryRules c with
    | some r => r
    | none => { nullability := softRules c soft }

/-- `KindCounts[Kind] = Count` over the map, merge.cc lines 76-77. -/
def kindCounts (m : List (Kind × Nat)) : Kind → Nat :=
  m.foldl (fun f kc k => if k = kc.1 then kc.2 else f k) (fun _ => 0)

/-- `mergeEvidence` up to `finalize`, merge.h lines 51-62: the fold over the evidence. -/
def mergeLoop (o : Order U L) : Option (Partial U L) → List (Evidence U L) → Option (Partial U L)
  | p, [] => p
  | p, e :: es =>
    match partialFromEvidence e with
    | none => mergeLoop o p es
    | some next =>
      match p with
      | none => mergeLoop o (some next) es
      | some p => mergeLoop o (some (mergePartials o p next)) es
end

section
variable {U L : Type} [DecidableEq U] [LinearOrder L]

/-- The `operator<` of `(kind, location)`, merge.cc lines 70-74 (`location()` of an unset field cannot occur:
only evidence with a location becomes a sample; `none` sorts first here). -/
def sampleLe (l r : Evidence U L) : Bool :=
  l.kind < r.kind || (l.kind == r.kind && (match l.location, r.location with
    | some a, some b => decide (a ≤ b)
    | none, _ => true
    | some _, none => false))

/-- `finalize`, merge.cc lines 61-84. -/
def finalize (o : Order U L) (p : Partial U L) (soft : Bool) : Inference U L :=
  if p.kindCount.isEmpty then { nullability := none, conflict := false, trivial := false, samples := [] }
  else
    let r := infer (kindCounts (o.counts p.kindCount)) soft
    { nullability := some r.nullability, conflict := r.conflict, trivial := r.trivial
      samples := ((o.samples p.kindSamples).flatMap (·.2)).mergeSort sampleLe }

/-- `mergeEvidence`, merge.h lines 51-66. -/
def mergeEvidence (o : Order U L) (es : List (Evidence U L)) : Inference U L :=
  match mergeLoop o none es with
  | none => { nullability := none, conflict := false, trivial := false, samples := [] }
  | some p => finalize o p true

/-- Distributed merging (merge.h lines 8-14): partial results are combined in any grouping. -/
inductive Tree (U L : Type)
  | leaf (e : Evidence U L)
  | node (l r : Tree U L)

/-- Combining two partial results, either of which may have no evidence yet. -/
def combine (o : Order U L) : Option (Partial U L) → Option (Partial U L) → Option (Partial U L)
  | none, q => q
  | p, none => p
  | some p, some q => some (mergePartials o p q)

def Tree.eval (o : Order U L) : Tree U L → Option (Partial U L)
  | .leaf e => partialFromEvidence e
  | .node l r => combine o (l.eval o) (r.eval o)

def Tree.leaves : Tree U L → List (Evidence U L)
  | .leaf e => [e]
  | .node l r => l.leaves ++ r.leaves

/-- The conclusion of a tree: `finalize` of the final partial. -/
def Tree.conclude (o : Order U L) (t : Tree U L) (soft : Bool) : Inference U L :=
  match t.eval o with
  | none => { nullability := none, conflict := false, trivial := false, samples := [] }
  | some p => finalize o p soft

/-- The batches of `groupAndMergeEvidence`, infer_tu.cc lines 49-58: `take_while` on equal (usr, slot).
The fuel is the length. -/
def batches : Nat → List (Evidence U L) → List (List (Evidence U L))
  | 0, _ => []
  | _, [] => []
  | fuel + 1, e :: es =>
    (e :: es).takeWhile (fun x => x.usr == e.usr && x.slot == e.slot) ::
      batches fuel ((e :: es).dropWhile (fun x => x.usr == e.usr && x.slot == e.slot))

/-- `groupAndMergeEvidence`, infer_tu.cc lines 37-60, after `llvm::sort` (`sorted` is its result): the map
from (usr, slot) to the inference, last write wins. -/
def groupAndMerge (o : Order U L) (sorted : List (Evidence U L)) : List ((Option U × Option Nat) × Inference U L) :=
  (batches sorted.length sorted).foldl (fun m b =>
    match b with
    | [] => m
    | e :: _ => AMap.insert m (e.usr, e.slot) (mergeEvidence o b)) []

end
end Verif.NullMerge

import Verif.Infer.Model
import Mathlib.Data.String.Basic
/-
Model of the virtual-method index and of the propagation of evidence between virtual methods and their overrides,
nullability/inference/collect_evidence.cc, and of the rounds of inference, nullability/inference/infer_tu.cc.

A `Method` is what the AST walker sees of a `CXXMethodDecl`; the list of methods is in the order the walker visits them (redeclarations are
visited too). String sets are lists; nothing proved depends on their order.
-/
namespace Verif.Infer
open Verif.NullFlow (Solver)
open Verif.NullMerge (Nullability)

/-- `CXXMethodDecl`: USR, `isVirtual()`, `getInferableSlotIndices`, USRs of `overridden_methods()` (empty: could not be generated),
and whether it is in a test's main file. -/
structure Method where
  usr : String
  isVirtual : Bool := true
  slots : List Nat
  overridden : List String
  inTest : Bool := false

/-- `MethodSummary`, collect_evidence.h lines 60-78. -/
structure MethodSummary where
  slots : List Nat
  overriding : List String
deriving DecidableEq

/-- `VirtualMethodIndex`, collect_evidence.h lines 80-97. -/
structure VIndex where
  bases : List (String × List String)
  overrides : List (String × MethodSummary)
  inTest : List String

/-- `StringSet::insert`. -/
def insertSet (s : List String) (x : String) : List String := if s.contains x then s else s ++ [x]

/-- `getOverridden`, collect_evidence.cc lines 134-148. -/
def getOverridden (ix : VIndex) (m : Method) : List String :=
  m.overridden.foldl (fun acc b =>
    if b = "" then acc
    else ((AMap.get? ix.bases b).getD []).foldl insertSet (insertSet acc b)) []

/-- One step of the loop over `Overridden`, collect_evidence.cc lines 171-177. -/
def addOverride (usr : String) (slots : List Nat) (m : List (String × MethodSummary)) (o : String) : List (String × MethodSummary) :=
  AMap.insert m o ⟨slots, insertSet ((AMap.get? m o).map (·.overriding) |>.getD []) usr⟩

/-- `VisitCXXMethodDecl`, collect_evidence.cc lines 150-181. -/
def visit (ix : VIndex) (m : Method) : VIndex :=
  if !m.isVirtual then ix
  else if m.slots.isEmpty then ix
  else if m.usr = "" then ix
  else
    let ix := if m.inTest then { ix with inTest := insertSet ix.inTest m.usr } else ix
    let ov := getOverridden ix m
    if ov.isEmpty then ix
    else { ix with overrides := ov.foldl (addOverride m.usr m.slots) ix.overrides, bases := AMap.insert ix.bases m.usr ov }

/-- `getVirtualMethodIndex`, collect_evidence.cc lines 121-193. -/
def virtualIndex (ms : List Method) : VIndex := ms.foldl visit ⟨[], [], []⟩

/-- `VirtualMethodEvidenceFlowDirection`. -/
inductive Flow
  | baseToDerived | derivedToBase | both
deriving DecidableEq

/-- The kinds of the first group of `getFlowDirection`, collect_evidence.cc lines 215-234. -/
def nonnullPointing : List EKind :=
  [NullMerge.ANNOTATED_NONNULL, NullMerge.UNCHECKED_DEREFERENCE, NullMerge.NONNULL_ARGUMENT, NullMerge.NONNULL_RETURN,
   NullMerge.ASSIGNED_TO_NONNULL, NullMerge.ABORT_IF_NULL, NullMerge.ARITHMETIC, NullMerge.GCC_NONNULL_ATTRIBUTE,
   NullMerge.ASSIGNED_TO_NONNULL_REFERENCE, NullMerge.WELL_KNOWN_NONNULL, NullMerge.ARRAY_SUBSCRIPT,
   NullMerge.ANNOTATED_UNKNOWN, NullMerge.UNKNOWN_ARGUMENT, NullMerge.UNKNOWN_RETURN, NullMerge.ASSIGNED_FROM_NONNULL,
   NullMerge.ASSIGNED_FROM_UNKNOWN]

/-- The kinds of the second group, collect_evidence.cc lines 238-249. -/
def nullablePointing : List EKind :=
  [NullMerge.ANNOTATED_NULLABLE, NullMerge.NULLABLE_ARGUMENT, NullMerge.NULLABLE_RETURN, NullMerge.ASSIGNED_TO_MUTABLE_NULLABLE,
   NullMerge.ASSIGNED_FROM_NULLABLE, NullMerge.LEFT_NULLABLE_BY_CONSTRUCTOR, NullMerge.LEFT_NOT_NULLABLE_BY_LATE_INITIALIZER,
   NullMerge.NULLPTR_DEFAULT_MEMBER_INITIALIZER, NullMerge.WELL_KNOWN_NULLABLE]

/-- `getFlowDirection`, collect_evidence.cc lines 212-264; the remaining kinds flow both ways. -/
def flowDirection (k : EKind) (forReturn : Bool) : Flow :=
  if nonnullPointing.contains k then (if forReturn then .baseToDerived else .derivedToBase)
  else if nullablePointing.contains k then (if forReturn then .derivedToBase else .baseToDerived)
  else .both

/-- `AdditionalVirtualMethodTargets`, collect_evidence.cc lines 271-274. -/
structure Targets where
  notCrossing : List String
  crossing : List String

/-- `appendBaseUSRsWithCrossingTestBoundaryCategories`, collect_evidence.cc lines 279-296. -/
def baseTargets (usr : String) (inTest : List String) (bases : List String) (r : Targets) : Targets :=
  if !inTest.contains usr then { r with notCrossing := r.notCrossing ++ bases }
  else ⟨r.notCrossing ++ bases.filter (fun b => inTest.contains b), r.crossing ++ bases.filter (fun b => !inTest.contains b)⟩

/-- `getAdditionalTargetsForVirtualMethod`, collect_evidence.cc lines 298-328. -/
def additionalTargets (ix : VIndex) (usr : String) (k : EKind) (forReturn : Bool) : Targets :=
  let down : Targets := match AMap.get? ix.overrides usr with
    | some s => ⟨s.overriding, []⟩
    | none => ⟨[], []⟩
  let up (r : Targets) : Targets := match AMap.get? ix.bases usr with
    | some bs => baseTargets usr ix.inTest bs r
    | none => r
  match flowDirection k forReturn with
  | .baseToDerived => down
  | .derivedToBase => up ⟨[], []⟩
  | .both => up down

/-- `evidenceEmitterWithPropagation`, collect_evidence.cc lines 565-587: everything emitted for one piece of evidence. `SLOT_RETURN_TYPE` is
0, also the default of an unset slot. `propagated_from` is not modelled. -/
def propagate (ix : VIndex) (e : Evidence) : List Evidence :=
  let t := additionalTargets ix (e.usr.getD "") e.kind (e.slot.getD 0 = 0)
  e :: (t.notCrossing.map (fun u => { e with usr := some u }) ++
    t.crossing.map (fun u => { e with usr := some u, crossesFromTestToNontest := true }))

/-- `summarizeFromTUIndexIfPresent` and `saveCFGScopeVirtualMethodIndex`, collect_evidence.cc lines 3131-3170, and
`loadVirtualMethodsIndex`, lines 195-210: the part of the index for the functions of a definition: those it references, and itself. -/
def scopedIndex (tu : VIndex) (scope : List String) : VIndex :=
  scope.foldl (fun ix u =>
    match AMap.get? tu.bases u with
    | none => ix
    | some bs =>
      let ix := if tu.inTest.contains u then { ix with inTest := insertSet ix.inTest u } else ix
      { ix with bases := AMap.insert ix.bases u bs,
                inTest := bs.foldl (fun t b => if tu.inTest.contains b then insertSet t b else t) ix.inTest }) ⟨[], [], []⟩

/-- A definition of the translation unit, summarised: `CFGSummary` with the USRs of the functions it references (its own included). -/
structure Summarised where
  summary : CFGSummary
  scope : List String

/-- The previous inferences of a round, infer_tu.cc lines 143-165: inferences that are neither trivial nor in conflict. -/
def previousOf (fp : String → Nat → Nat) (r : List ((Option String × Option Nat) × NullMerge.Inference String String)) : Previous :=
  let usable := r.filter (fun x => !x.2.trivial && !x.2.conflict)
  ⟨(usable.filter (fun x => x.2.nullability.getD .UNKNOWN = .NULLABLE)).map (fun x => fp (x.1.1.getD "") (x.1.2.getD 0)),
   (usable.filter (fun x => x.2.nullability.getD .UNKNOWN = .NONNULL)).map (fun x => fp (x.1.1.getD "") (x.1.2.getD 0))⟩

/-- All evidence of `inferenceRound`, infer_tu.cc lines 102-123: that of declarations (`decls`), propagated when summarising with the index
of the translation unit (lines 79-84), and that of the summaries, propagated with the index of the summary and the overrides of the translation unit; a summary whose evidence could not be collected
completely contributes what was emitted before the error. -/
def roundEvidence (s : Solver) (limit : Nat → Nat → Bool) (fp : String → Nat → Nat) (tu : VIndex) (decls : List Evidence)
    (sums : List Summarised) (prev : Previous) : List Evidence :=
  decls.flatMap (propagate tu) ++ sums.zipIdx.flatMap (fun x =>
    (collectEvidenceFromSummary s fp prev (limit x.2) x.1.summary).1.flatMap
      (propagate { scopedIndex tu x.1.scope with overrides := tu.overrides }))

/-- `iterativelyInfer`, infer_tu.cc lines 124-169, after summarising: the inferences after `n` rounds. `sort` is `llvm::sort` of
`groupAndMergeEvidence` (lines 38-44); `results` are in any order. -/
def inferRounds (o : NullMerge.Order String String) (sort : List Evidence → List Evidence) (s : Solver) (limit : Nat → Nat → Nat → Bool)
    (fp : String → Nat → Nat) (tu : VIndex) (decls : List Evidence) (sums : List Summarised) :
    Nat → List ((Option String × Option Nat) × NullMerge.Inference String String)
  | 0 => []
  | n + 1 => NullMerge.groupAndMerge o (sort (roundEvidence s (limit n) fp tu decls sums
      (previousOf fp (inferRounds o sort s limit fp tu decls sums n))))

end Verif.Infer

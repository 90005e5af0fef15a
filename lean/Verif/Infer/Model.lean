import Verif.NullFlow.Model
import Verif.NullMerge.Model
/-
Model of the evidence collection of nullability inference, nullability/inference/collect_evidence.cc: what evidence a
nullability behaviour gives (`EvidenceCollector`), how behaviours are saved to a `CFGSummary`
(`SummaryCollector`, `save*`) and how evidence is collected from a saved summary
(`load*`, `SummaryEvidenceCollector`, `collectEvidenceFromSummary`).

Contracts of the dataflow framework (a dependency) are those of `Verif.NullFlow`: formulas, contexts, queries, solver.
`serializeFormula`/`parseFormula` (also the framework's): a saved formula is the formula with its atom numbers; parsing
reads it from left to right and maps atom numbers to atoms through `AtomMap`, making a new atom for an unseen number.
Not modelled: the AST visitor that decides which behaviours a statement has (`NullabilityBehaviorVisitor`), malformed
formula text. USRs and locations are strings; fingerprints are the values of an arbitrary function of USR and slot.
-/
namespace Verif.Infer
open Verif.NullFlow (Formula Ctx Solver NullState Source)
open Verif.NullMerge (Nullability)

local notation "Atom" => Nat

/-- `Evidence`, inference.proto lines 45-55. -/
abbrev Evidence := NullMerge.Evidence String String
/-- `Evidence::Kind`, inference.proto lines 57-167. -/
abbrev EKind := NullMerge.Kind

/-- `InferableSlot`, collect_evidence.cc lines 331-372; its symbolic nullability is the pair of atoms. -/
structure InferableSlot where
  nonnull : Atom
  nullable : Atom
  slot : Nat
  usr : String
  crosses : Bool
deriving DecidableEq

/-- `getSymbolicNullability`, collect_evidence.cc lines 354-356. -/
def InferableSlot.sym (i : InferableSlot) : Source := .symbolic i.nonnull i.nullable

/-- `PreviousInferences`, collect_evidence.h lines 154-159; the sorted vectors as lists (only `contains` is used). -/
structure Previous where
  nullable : List Nat
  nonnull : List Nat

/-- `getConstraintsOnInferableSlots`, collect_evidence.cc lines 406-423. -/
def slotConstraints (fp : String → Nat → Nat) (prev : Previous) (slots : List InferableSlot) : Formula :=
  slots.foldl (fun con i =>
    let nullable := if prev.nullable.contains (fp i.usr i.slot) then i.sym.isNullable else .not i.sym.isNullable
    let nonnull := if prev.nonnull.contains (fp i.usr i.slot) then i.sym.isNonnull else .not i.sym.isNonnull
    .and con (.and nullable nonnull)) (.lit true)

/-- `EvidenceTypeProperties`, collect_evidence.cc lines 477-483. -/
structure TyProps where
  isLValueRef : Bool
  isNonReferenceConst : Bool
deriving DecidableEq

/-- `getArgEvidenceKindFromNullability`, collect_evidence.cc lines 491-508. -/
def argKind (n : NullFlow.Kind) (t : TyProps) : EKind :=
  match n with
  | .Nullable => if t.isLValueRef then NullMerge.NULLABLE_REFERENCE_ARGUMENT else NullMerge.NULLABLE_ARGUMENT
  | .NonNull =>
    if t.isLValueRef then
      if t.isNonReferenceConst then NullMerge.NONNULL_REFERENCE_ARGUMENT_AS_CONST else NullMerge.NONNULL_REFERENCE_ARGUMENT
    else NullMerge.NONNULL_ARGUMENT
  | .Unspecified => if t.isLValueRef then NullMerge.UNKNOWN_REFERENCE_ARGUMENT else NullMerge.UNKNOWN_ARGUMENT

/-- The kinds of `collectReturn`, collect_evidence.cc lines 1027-1052. -/
def retKind (n : NullFlow.Kind) (t : TyProps) : EKind :=
  if t.isLValueRef then
    match n with
    | .Nullable => NullMerge.NULLABLE_REFERENCE_RETURN
    | .NonNull =>
      if t.isNonReferenceConst then NullMerge.NONNULL_REFERENCE_RETURN_AS_CONST else NullMerge.NONNULL_REFERENCE_RETURN
    | .Unspecified => NullMerge.UNKNOWN_REFERENCE_RETURN
  else
    match n with
    | .Nullable => NullMerge.NULLABLE_RETURN
    | .NonNull => NullMerge.NONNULL_RETURN
    | .Unspecified => NullMerge.UNKNOWN_RETURN

/-- `makeEvidence`, collect_evidence.cc lines 597-607. -/
def makeEvidence (usr : String) (slot : Nat) (kind : EKind) (crosses : Bool) (loc : String) : Evidence where
  usr := some usr
  slot := some slot
  kind := kind
  location := if loc = "" then none else some loc
  crossesFromTestToNontest := crosses

/-- `EvidenceCollector::emit`, collect_evidence.cc lines 803-807. -/
def emit (usr : String) (slot : Nat) (kind : EKind) (crosses : Bool) (loc : String) : List Evidence :=
  if usr = "" then [] else [makeEvidence usr slot kind crosses loc]

/-- Evidence for an inferable slot. -/
def emitSlot (i : InferableSlot) (kind : EKind) (loc : String) : List Evidence := emit i.usr i.slot kind i.crosses loc

/-- `Environment`: solver, context and flow-condition token. -/
structure Env where
  s : Solver
  c : Ctx
  T : Atom

def Env.proves (e : Env) (f : Formula) : Bool := NullFlow.proves e.s e.c e.T f
def Env.allows (e : Env) (f : Formula) : Bool := NullFlow.allows e.s e.c e.T f

/-- `DoesMarkingInferableSlotNonnullSatisfy`, collect_evidence.cc lines 817-840. -/
def nonnullHelps (e : Env) (f : Formula) (i : InferableSlot) : Bool :=
  e.allows i.sym.isNonnull && e.proves (.implies i.sym.isNonnull f)

/-- The first loop of `mustBeTrueByMarkingNonnull`, collect_evidence.cc lines 842-857: the slot found, and the
slots set aside. -/
def firstPass (helps : InferableSlot → Bool) :
    List InferableSlot → List InferableSlot → Option InferableSlot × List InferableSlot
  | [], fallback => (none, fallback)
  | i :: rest, fallback =>
    if i.crosses then firstPass helps rest (fallback ++ [i])
    else if helps i then (some i, fallback)
    else firstPass helps rest fallback

/-- `EvidenceCollector::mustBeTrueByMarkingNonnull`, collect_evidence.cc lines 809-865. -/
def mustBeTrueByMarkingNonnull (e : Env) (slots : List InferableSlot) (f : Formula) (loc : String) (kind : EKind) :
    List Evidence :=
  if e.proves f || e.proves (.not f) then []
  else match firstPass (nonnullHelps e f) slots [] with
    | (some i, _) => emitSlot i kind loc
    | (none, fallback) =>
      match fallback.find? (nonnullHelps e f) with
      | some i => emitSlot i kind loc
      | none => []

/-- The condition of the loop of `mustBeTrueByMarkingNullable`, collect_evidence.cc lines 875-882. -/
def nullableHelps (e : Env) (f : Formula) (i : InferableSlot) : Bool :=
  e.allows i.sym.isNullable && e.proves (.implies i.sym.isNullable f)

/-- `EvidenceCollector::mustBeTrueByMarkingNullable`, collect_evidence.cc lines 867-888. -/
def mustBeTrueByMarkingNullable (e : Env) (slots : List InferableSlot) (f : Formula) (loc : String) (kind : EKind) :
    List Evidence :=
  if e.proves f || e.proves (.not f) then []
  else slots.flatMap (fun i => if nullableHelps e f i then emitSlot i kind loc else [])

/-- `X.concrete() == NonNull || (X.isSymbolic() && Env.proves(Constraint => X.isNonnull))`,
collect_evidence.cc lines 904-907. -/
def knownNonnull (e : Env) (con : Formula) : Source → Bool
  | .concrete k => k = .NonNull
  | .symbolic n u => e.proves (.implies con (Source.symbolic n u).isNonnull)

/-- The same for Nullable, collect_evidence.cc lines 914-918. -/
def knownNullable (e : Env) (con : Formula) : Source → Bool
  | .concrete k => k = .Nullable
  | .symbolic n u => e.proves (.implies con (Source.symbolic n u).isNullable)

/-- The end of `collectAssignmentToType`, collect_evidence.cc lines 927-940. -/
def assignedToNonnull (e : Env) (slots : List InferableSlot) (con : Formula) (lhs : Source) (rhs : NullState)
    (loc : String) : List Evidence :=
  match rhs.isNull with
  | none => []
  | some nl =>
    if knownNonnull e con lhs then mustBeTrueByMarkingNonnull e slots (.not nl) loc NullMerge.ASSIGNED_TO_NONNULL else []

/-- `EvidenceCollector::collectAssignmentToType`, collect_evidence.cc lines 890-941. -/
def collectAssignmentToType (e : Env) (slots : List InferableSlot) (con : Formula) (lhsConst : Bool) (lhs : Source)
    (rhsType : Option Source) (rhs : NullState) (loc : String) : List Evidence :=
  match rhsType with
  | some rt =>
    if knownNonnull e con lhs then
      mustBeTrueByMarkingNonnull e slots rt.isNonnull loc NullMerge.ASSIGNED_TO_NONNULL_REFERENCE
    else if !lhsConst && knownNullable e con lhs then
      mustBeTrueByMarkingNullable e slots rt.isNullable loc NullMerge.ASSIGNED_TO_MUTABLE_NULLABLE
    else assignedToNonnull e slots con lhs rhs loc
  | none => assignedToNonnull e slots con lhs rhs loc

/-- `collectMustHaveInvariantTypeNullability` for a declaration, collect_evidence.cc lines 943-964. -/
def collectInvariantDecl (e : Env) (con : Formula) (usr : String) (slot : Nat) (crosses : Bool) (toMatch : Source)
    (loc : String) : List Evidence :=
  if knownNonnull e con toMatch then emit usr slot NullMerge.ASSIGNED_TO_OR_FROM_INVARIANT_NONNULL crosses loc
  else if knownNullable e con toMatch then emit usr slot NullMerge.ASSIGNED_TO_OR_FROM_INVARIANT_NULLABLE crosses loc
  else []

/-- `collectMustHaveInvariantTypeNullability` for an expression, collect_evidence.cc lines 966-987. -/
def collectInvariantExpr (e : Env) (slots : List InferableSlot) (con : Formula) (target toMatch : Source)
    (loc : String) : List Evidence :=
  if knownNonnull e con toMatch then
    mustBeTrueByMarkingNonnull e slots target.isNonnull loc NullMerge.ASSIGNED_TO_OR_FROM_INVARIANT_NONNULL
  else if knownNullable e con toMatch then
    mustBeTrueByMarkingNullable e slots target.isNullable loc NullMerge.ASSIGNED_TO_OR_FROM_INVARIANT_NULLABLE
  else []

/-- The nullability of a value that may be a `nullptr_t`, collect_evidence.cc lines 997-1000 and 1069-1072. -/
def valueKind (e : Env) (con : Formula) : Option NullState → NullFlow.Kind
  | some st => NullFlow.getNullability e.s e.c e.T st (some con)
  | none => NullFlow.getNullabilityForNullptrT e.s e.c e.T (some con)

/-- `EvidenceCollector::collectArgBinding`, collect_evidence.cc lines 989-1004. -/
def collectArgBinding (e : Env) (con : Formula) (usr : String) (slot : Nat) (t : TyProps) (crosses : Bool)
    (st : Option NullState) (loc : String) : List Evidence :=
  emit usr slot (argKind (valueKind e con st) t) crosses loc

/-- `EvidenceCollector::collectAbortIfEqual`, collect_evidence.cc lines 1006-1018. -/
def collectAbortIfEqual (e : Env) (slots : List InferableSlot) (f1 : Formula) (loc1 : String) (f2 : Formula)
    (loc2 : String) : List Evidence :=
  if e.proves f1 then mustBeTrueByMarkingNonnull e slots (.not f2) loc2 NullMerge.ABORT_IF_NULL
  else if e.proves f2 then mustBeTrueByMarkingNonnull e slots (.not f1) loc1 NullMerge.ABORT_IF_NULL
  else []

/-- `EvidenceCollector::collectReturn`, collect_evidence.cc lines 1020-1055; `SLOT_RETURN_TYPE` is 0. -/
def collectReturn (e : Env) (con : Formula) (usr : String) (t : TyProps) (st : NullState) (loc : String) :
    List Evidence :=
  emit usr 0 (retKind (NullFlow.getNullability e.s e.c e.T st (some con)) t) false loc

/-- The kinds of `collectAssignmentFromValue`, collect_evidence.cc lines 1088-1097. -/
def fromValueKind (n : NullFlow.Kind) (ifNullable : EKind) : EKind :=
  match n with
  | .Nullable => ifNullable
  | .NonNull => NullMerge.ASSIGNED_FROM_NONNULL
  | .Unspecified => NullMerge.ASSIGNED_FROM_UNKNOWN

/-- `EvidenceCollector::collectAssignmentFromValue`, collect_evidence.cc lines 1057-1103. The early return when the
solver has run out (line 1094) is not modelled: a run-out solver proves nothing, so it gives no evidence either way. -/
def collectAssignmentFromValue (e : Env) (slots : List InferableSlot) (con : Formula) (ty : Source)
    (st : Option NullState) (loc : String) (ifNullable : EKind) : List Evidence :=
  if e.proves ty.isNullable || !e.allows ty.isNullable then []
  else match slots.find? (fun i => e.proves (.implies i.sym.isNullable ty.isNullable)) with
    | some i => emitSlot i (fromValueKind (valueKind e con st) ifNullable) loc
    | none => []

/-- `collectConstructorExitBlock`, collect_evidence.cc lines 1107-1114. -/
def collectConstructorExit (e : Env) (con : Formula) (usr : String) (st : NullState) (loc : String) : List Evidence :=
  if NullFlow.isNullable e.s e.c e.T st (some con) then emit usr 0 NullMerge.LEFT_NULLABLE_BY_CONSTRUCTOR false loc else []

/-- `collectSupportedLateInitializerExitBlock`, collect_evidence.cc lines 1119-1126. -/
def collectLateInitExit (e : Env) (con : Formula) (usr : String) (st : NullState) (loc : String) : List Evidence :=
  if NullFlow.isNullable e.s e.c e.T st (some con) then []
  else emit usr 0 NullMerge.LEFT_NOT_NULLABLE_BY_LATE_INITIALIZER false loc

/-- The state of a field in the exit block. -/
structure InitOnExit where
  usr : String
  st : NullState
  loc : String

/-- What the visitor reports: the calls of `CollectorFromNullabilityBehavior`, collect_evidence.cc lines 632-788, and
the exit block, lines 2814-2902. -/
inductive Behavior
  | requires (nonnull : Bool) (f : Formula) (loc : String) (kind : EKind)
  | assignedToType (lhsConst : Bool) (lhs : Source) (lhsFp : Option Nat) (rhsType : Option Source) (rhs : NullState) (loc : String)
  | invariantDecl (usr : String) (slot : Nat) (crosses : Bool) (toMatch : Source) (loc : String)
  | invariantExpr (target toMatch : Source) (fp : Option Nat) (loc : String)
  | fromValue (ty : Source) (st : Option NullState) (loc : String) (ifNullable : EKind)
  | argBinding (usr : String) (slot : Nat) (t : TyProps) (crosses : Bool) (st : Option NullState) (loc : String)
  | abortIfEqual (f1 : Formula) (loc1 : String) (f2 : Formula) (loc2 : String)
  | returned (usr : String) (t : TyProps) (st : NullState) (loc : String)
  | onExit (ctor late : List InitOnExit)

/-- `getUsrBasedNullabilityOverlay`, collect_evidence.cc lines 2194-2212 (the map is a cache). -/
def overlay (prev : Previous) (fp : Nat) : Option Source :=
  if prev.nullable.contains fp then some (.concrete .Nullable)
  else if prev.nonnull.contains fp then some (.concrete .NonNull)
  else none

/-- A type's nullability, unless a previous inference overrides it, collect_evidence.cc lines 2559-2567. -/
def overridden (prev : Previous) (fp : Option Nat) (n : Source) : Source :=
  match fp with
  | none => n
  | some p => (overlay prev p).getD n

/-- The evidence of a behaviour observed in environment `e`: the `EvidenceCollector` function for each kind of
behaviour, collect_evidence.cc lines 809-1126, with previous inferences taken into account as in lines 2557-2592 and 2595-2646. -/
def collect (e : Env) (slots : List InferableSlot) (con : Formula) (prev : Previous) : Behavior → List Evidence
  | .requires true f loc k => mustBeTrueByMarkingNonnull e slots f loc k
  | .requires false f loc k => mustBeTrueByMarkingNullable e slots f loc k
  | .assignedToType lc lhs fp rt rhs loc => collectAssignmentToType e slots con lc (overridden prev fp lhs) rt rhs loc
  | .invariantDecl usr slot cr tm loc => collectInvariantDecl e con usr slot cr tm loc
  | .invariantExpr t tm fp loc => collectInvariantExpr e slots con t (overridden prev fp tm) loc
  | .fromValue ty st loc k => collectAssignmentFromValue e slots con ty st loc k
  | .argBinding usr slot t cr st loc => collectArgBinding e con usr slot t cr st loc
  | .abortIfEqual f1 l1 f2 l2 => collectAbortIfEqual e slots f1 l1 f2 l2
  | .returned usr t st loc => collectReturn e con usr t st loc
  | .onExit ctor late =>
    ctor.flatMap (fun i => collectConstructorExit e con i.usr i.st i.loc) ++
      late.flatMap (fun i => collectLateInitExit e con i.usr i.st i.loc)

/-! ### Summaries -/

/-- `message PointerTypeNullabilityProto`, inference.proto lines 265-274. -/
inductive PtnProto
  | concrete (n : Nullability)
  | symbolic (nonnull nullable : Nat)

/-- `message PointerNullStateProto`, inference.proto lines 277-281. -/
structure NullStateProto where
  fromNullable : Option Formula
  isNull : Option Formula

/-- `message InitOnExitSummary`, inference.proto lines 368-372. -/
structure InitOnExitProto where
  usr : String
  nullState : NullStateProto
  loc : String

/-- `message BindingSummary`, inference.proto lines 351-363. -/
structure BindingProto where
  usr : String
  slot : Nat
  isLValueRef : Bool
  isConst : Bool
  crosses : Bool
  nullState : Option NullStateProto
  loc : String

/-- `message TypeAssignedToInvariantTypeSummary`, inference.proto lines 296-315. -/
structure InvariantProto where
  toMatch : PtnProto
  fp : Option Nat
  target : Option PtnProto
  symbol : Option String
  slot : Option Nat
  crosses : Option Bool
  loc : String

/-- The `behavior` oneof of `message NullabilityBehaviorSummary`, inference.proto lines 381-395. -/
inductive BehaviorProto
  | requiresAnnotation (n : Nullability) (f : Formula) (loc : String) (kind : EKind)
  | valueAssigned (lhsConst : Bool) (lhs : PtnProto) (lhsFp : Option Nat) (rhsType : Option PtnProto) (rhs : NullStateProto) (loc : String)
  | assignmentFromValue (lhs : PtnProto) (rhs : Option NullStateProto) (loc : String) (ifNullable : EKind)
  | argumentBinding (b : BindingProto)
  | abortIfEqual (f1 : Formula) (loc1 : String) (f2 : Formula) (loc2 : String)
  | returned (b : BindingProto)
  | onExit (ctor late : List InitOnExitProto)
  | assignedToInvariantType (i : InvariantProto)

/-- `message NullabilityBehaviorSummary`; no behaviour: `BEHAVIOR_NOT_SET`. -/
structure BehaviorSummary where
  blockAtom : Nat
  behavior : Option BehaviorProto

/-- `message InferableSlotProto`, inference.proto lines 397-403. -/
structure SlotProto where
  nonnull : Nat
  nullable : Nat
  slot : Nat
  usr : String
  crosses : Bool

/-- `message LogicalContext`, inference.proto lines 406-421; the proto maps in any order. -/
structure LogicalContext where
  invariant : Option Formula
  defs : List (Nat × Formula)
  deps : List (Nat × List Nat)

/-- `message CFGSummary`, inference.proto lines 444-458 (the virtual method index is in Infer/Virtual.lean). -/
structure CFGSummary where
  slots : List SlotProto
  ctx : LogicalContext
  behaviors : List BehaviorSummary

/-- `toProtoNullability`, collect_evidence.cc lines 2106-2117. -/
def toProto : NullFlow.Kind → Nullability
  | .NonNull => .NONNULL
  | .Nullable => .NULLABLE
  | .Unspecified => .UNKNOWN

/-- `fromProtoNullability`, collect_evidence.cc lines 2119-2129. -/
def fromProto : Nullability → NullFlow.Kind
  | .NONNULL => .NonNull
  | .NULLABLE => .Nullable
  | .UNKNOWN => .Unspecified

/-- `savePointerTypeNullability`, collect_evidence.cc lines 2131-2145. -/
def savePtn : Source → PtnProto
  | .symbolic n u => .symbolic n u
  | .concrete k => .concrete (toProto k)

/-- `savePointerNullState`, collect_evidence.cc lines 2147-2155. -/
def saveState (st : NullState) : NullStateProto := ⟨st.fromNullable, st.isNull⟩

/-- `saveInferableSlot`, collect_evidence.cc lines 2157-2166. -/
def saveSlot (i : InferableSlot) : SlotProto := ⟨i.nonnull, i.nullable, i.slot, i.usr, i.crosses⟩

/-- The `InitOnExitSummary` made in collect_evidence.cc lines 2841-2846 and 2892-2900. -/
def saveInit (i : InitOnExit) : InitOnExitProto := ⟨i.usr, saveState i.st, i.loc⟩

/-- `SummaryCollector`, collect_evidence.cc lines 2302-2468. -/
def saveBehavior : Behavior → BehaviorProto
  | .requires true f loc k => .requiresAnnotation .NONNULL f loc k
  | .requires false f loc k => .requiresAnnotation .NULLABLE f loc k
  | .assignedToType lc lhs fp rt rhs loc => .valueAssigned lc (savePtn lhs) fp (rt.map savePtn) (saveState rhs) loc
  | .invariantDecl usr slot cr tm loc =>
    .assignedToInvariantType ⟨savePtn tm, none, none, some usr, some slot, some cr, loc⟩
  | .invariantExpr t tm fp loc => .assignedToInvariantType ⟨savePtn tm, fp, some (savePtn t), none, none, none, loc⟩
  | .fromValue ty st loc k => .assignmentFromValue (savePtn ty) (st.map saveState) loc k
  | .argBinding usr slot t cr st loc =>
    .argumentBinding ⟨usr, slot, t.isLValueRef, t.isNonReferenceConst, cr, st.map saveState, loc⟩
  | .abortIfEqual f1 l1 f2 l2 => .abortIfEqual f1 l1 f2 l2
  | .returned usr t st loc => .returned ⟨usr, 0, t.isLValueRef, t.isNonReferenceConst, false, some (saveState st), loc⟩
  | .onExit ctor late => .onExit (ctor.map saveInit) (late.map saveInit)

/-- `AddressedBehaviour`: the behaviours of a definition, each with the token of the environment it was seen in.
`summarizeDefinition`, collect_evidence.cc lines 3172-3282, given the exported logical context. -/
def summarize (slots : List InferableSlot) (lc : LogicalContext) (bs : List (Atom × Behavior)) : CFGSummary where
  slots := slots.map saveSlot
  ctx := lc
  behaviors := bs.map (fun b => ⟨b.1, some (saveBehavior b.2)⟩)

/-- The arena's next atom and `AtomMap`. -/
structure LoadSt where
  next : Nat
  map : List (Nat × Atom)

/-- `getAtom`, collect_evidence.cc lines 2215-2219; `Arena.makeAtom()` is an argument of `try_emplace`, so an atom is
made even if it is not used. -/
def getAtom (n : Nat) (st : LoadSt) : Atom × LoadSt :=
  match AMap.get? st.map n with
  | some a => (a, { st with next := st.next + 1 })
  | none => (st.next, { next := st.next + 1, map := AMap.insert st.map n st.next })

/-- `parseFormula` (contract). -/
def parse : Formula → LoadSt → Formula × LoadSt
  | .atom n, st => match AMap.get? st.map n with
    | some a => (.atom a, st)
    | none => (.atom st.next, { next := st.next + 1, map := AMap.insert st.map n st.next })
  | .lit b, st => (.lit b, st)
  | .not f, st => let r := parse f st; (.not r.1, r.2)
  | .and f g, st => let r := parse f st; let q := parse g r.2; (.and r.1 q.1, q.2)
  | .or f g, st => let r := parse f st; let q := parse g r.2; (.or r.1 q.1, q.2)
  | .implies f g, st => let r := parse f st; let q := parse g r.2; (.implies r.1 q.1, q.2)
  | .equals f g, st => let r := parse f st; let q := parse g r.2; (.equals r.1 q.1, q.2)

/-- An optional message field. -/
def loadOpt {α β : Type} (ld : α → LoadSt → β × LoadSt) : Option α → LoadSt → Option β × LoadSt
  | none, st => (none, st)
  | some a, st => let r := ld a st; (some r.1, r.2)

/-- A repeated field. -/
def loadList {α β : Type} (ld : α → LoadSt → β × LoadSt) : List α → LoadSt → List β × LoadSt
  | [], st => ([], st)
  | a :: as, st => let r := ld a st; let q := loadList ld as r.2; (r.1 :: q.1, q.2)

/-- `loadPointerTypeNullability`, collect_evidence.cc lines 2221-2230. C++ leaves the order of the two `getAtom` calls open; modelled from left
to right. -/
def loadPtn : PtnProto → LoadSt → Source × LoadSt
  | .symbolic n u, st => let r := getAtom n st; let q := getAtom u r.2; (.symbolic r.1 q.1, q.2)
  | .concrete n, st => (.concrete (fromProto n), st)

/-- `loadPointerNullState`, collect_evidence.cc lines 2232-2250. -/
def loadState (p : NullStateProto) (st : LoadSt) : NullState × LoadSt :=
  let r := loadOpt parse p.fromNullable st
  let q := loadOpt parse p.isNull r.2
  (⟨r.1, q.1⟩, q.2)

/-- One slot of `loadInferableSlots`, collect_evidence.cc lines 2252-2265. -/
def loadSlot (p : SlotProto) (st : LoadSt) : InferableSlot × LoadSt :=
  let r := getAtom p.nonnull st
  let q := getAtom p.nullable r.2
  (⟨r.1, q.1, p.slot, p.usr, p.crosses⟩, q.2)

/-- One entry of the loop over `atom_defs`, collect_evidence.cc lines 2281-2286: the value is read before the key. -/
def loadDef (p : Nat × Formula) (st : LoadSt) : (Atom × Formula) × LoadSt :=
  let f := parse p.2 st
  let a := getAtom p.1 f.2
  ((a.1, f.1), a.2)

/-- One entry of the loop over `atom_deps`, collect_evidence.cc lines 2288-2293. -/
def loadDep (p : Nat × List Nat) (st : LoadSt) : (Atom × List Atom) × LoadSt :=
  let d := loadList getAtom p.2 st
  let a := getAtom p.1 d.2
  ((a.1, d.1), a.2)

/-- `loadLogicalContext`, collect_evidence.cc lines 2267-2296, and `initLogicalContext`. Later entries overwrite earlier
ones. `next` and `tokens` of the context are not used by queries. -/
def loadCtx (lc : LogicalContext) (st : LoadSt) : Ctx × LoadSt :=
  let i := loadOpt parse lc.invariant st
  let d := loadList loadDef lc.defs i.2
  let p := loadList loadDep lc.deps d.2
  let defs := d.1.foldl (fun m kv => AMap.insert m kv.1 kv.2) []
  let deps := p.1.foldl (fun m kv => AMap.insert m kv.1 kv.2) []
  ({ next := p.2.next, tokens := [], inv := i.1.toList, fc := AMap.get? defs,
     deps := fun t => (AMap.get? deps t).getD [] }, p.2)

/-- The initialisation of a field, collect_evidence.cc lines 2716-2735. -/
def loadInit (p : InitOnExitProto) (st : LoadSt) : InitOnExit × LoadSt :=
  let r := loadState p.nullState st
  (⟨p.usr, r.1, p.loc⟩, r.2)

/-- The nullability to use: an override, else the loaded one (which is loaded only then),
collect_evidence.cc lines 2559-2567 and 2610-2618. -/
def loadOverridden (prev : Previous) (fp : Option Nat) (p : PtnProto) (st : LoadSt) : Source × LoadSt :=
  match fp with
  | none => loadPtn p st
  | some fp =>
    match overlay prev fp with
    | some o => (o, st)
    | none => loadPtn p st

/-- The check of `collectTypeAssignedToInvariantType`, collect_evidence.cc lines 2597-2608. -/
def invariantMalformed (i : InvariantProto) : Bool :=
  (i.target.isSome == (i.symbol.isSome && i.slot.isSome && i.crosses.isSome)) ||
    (i.symbol.isSome != i.slot.isSome || i.symbol.isSome != i.crosses.isSome)

/-- `SummaryEvidenceCollector::collectEvidenceFromBehaviorSummary` and its parts, collect_evidence.cc lines 2501-2736;
`none`: an error was returned. -/
def collectFromBehavior (e : Env) (slots : List InferableSlot) (con : Formula) (prev : Previous) (b : Option BehaviorProto)
    (st : LoadSt) : Option (List Evidence × LoadSt) :=
  match b with
  | none => none
  | some (.requiresAnnotation n f loc k) =>
    let r := parse f st
    match n with
    | .NONNULL => some (mustBeTrueByMarkingNonnull e slots r.1 loc k, r.2)
    | .NULLABLE => some (mustBeTrueByMarkingNullable e slots r.1 loc k, r.2)
    | .UNKNOWN => none
  | some (.valueAssigned lc lhs fp rt rhs loc) =>
    let l := loadOverridden prev fp lhs st
    let t := loadOpt loadPtn rt l.2
    let v := loadState rhs t.2
    some (collectAssignmentToType e slots con lc l.1 t.1 v.1 loc, v.2)
  | some (.assignmentFromValue lhs rhs loc k) =>
    let l := loadPtn lhs st
    let v := loadOpt loadState rhs l.2
    some (collectAssignmentFromValue e slots con l.1 v.1 loc k, v.2)
  | some (.argumentBinding b) =>
    let v := loadOpt loadState b.nullState st
    some (collectArgBinding e con b.usr b.slot ⟨b.isLValueRef, b.isConst⟩ b.crosses v.1 b.loc, v.2)
  | some (.abortIfEqual f1 l1 f2 l2) =>
    let r := parse f1 st
    let q := parse f2 r.2
    some (collectAbortIfEqual e slots r.1 l1 q.1 l2, q.2)
  | some (.returned b) =>
    let v := loadState (b.nullState.getD ⟨none, none⟩) st
    some (collectReturn e con b.usr ⟨b.isLValueRef, b.isConst⟩ v.1 b.loc, v.2)
  | some (.onExit ctor late) =>
    let r := loadList loadInit ctor st
    let q := loadList loadInit late r.2
    some (r.1.flatMap (fun i => collectConstructorExit e con i.usr i.st i.loc) ++
      q.1.flatMap (fun i => collectLateInitExit e con i.usr i.st i.loc), q.2)
  | some (.assignedToInvariantType i) =>
    if invariantMalformed i then none
    else
      let m := loadOverridden prev i.fp i.toMatch st
      match i.target with
      | some t =>
        let r := loadPtn t m.2
        some (collectInvariantExpr e slots con r.1 m.1 i.loc, r.2)
      | none => some (collectInvariantDecl e con (i.symbol.getD "") (i.slot.getD 0) (i.crosses.getD false) m.1 i.loc, m.2)

/-- The loop of `collectEvidenceFromSummary`, collect_evidence.cc lines 3310-3324: the evidence emitted, and whether it
ended without an error. `limit i`: the solver has run out after `i` more behaviours. -/
def collectLoop (s : Solver) (c : Ctx) (slots : List InferableSlot) (con : Formula) (prev : Previous) (limit : Nat → Bool) :
    List BehaviorSummary → LoadSt → List Evidence × Bool
  | [], _ => ([], true)
  | b :: bs, st =>
    let a := getAtom b.blockAtom st
    match collectFromBehavior ⟨s, c, a.1⟩ slots con prev b.behavior a.2 with
    | none => ([], false)
    | some (evs, st) =>
      if limit bs.length then (evs, false)
      else
        let r := collectLoop s c slots con prev limit bs st
        (evs ++ r.1, r.2)

/-- `collectEvidenceFromSummary`, collect_evidence.cc lines 3284-3327. -/
def collectEvidenceFromSummary (s : Solver) (fp : String → Nat → Nat) (prev : Previous) (limit : Nat → Bool) (m : CFGSummary) :
    List Evidence × Bool :=
  let c := loadCtx m.ctx ⟨0, []⟩
  let slots := loadList loadSlot m.slots c.2
  collectLoop s c.1 slots.1 (slotConstraints fp prev slots.1) prev limit m.behaviors slots.2

end Verif.Infer

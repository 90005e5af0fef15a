import Verif.Infer.Model
import Verif.NullFlow.Spec
/- Specification for C126-C130: what a saved logical context must contain, what is known about a slot, and when evidence is
called for, all in terms of the runs a program point stands for (`NullFlow.Run`). -/
namespace Verif.Infer
open Verif.NullFlow (Formula Ctx Solver NullState Source Run)

local notation "Atom" => Nat

/-- The evidence of the behaviours of a definition, as judged in the analysis that found them. -/
def collectDirect (s : Solver) (c : Ctx) (fp : String → Nat → Nat) (prev : Previous) (slots : List InferableSlot)
    (bs : List (Atom × Behavior)) : List Evidence :=
  bs.flatMap (fun b => collect ⟨s, c, b.1⟩ slots (slotConstraints fp prev slots) prev b.2)

/-- The conjunction of the invariant's parts. -/
def conj : List Formula → Option Formula
  | [] => none
  | f :: fs => some (fs.foldl .and f)

/-- `lc` is what `exportLogicalContext` (a dependency) makes of `c` for the tokens `used`: the invariant, and right
definitions and dependencies of at least all tokens that these tokens depend on. -/
structure Exported (c : Ctx) (used : List Atom) (lc : LogicalContext) : Prop where
  invariant : lc.invariant = conj c.inv
  defs_right : ∀ t C, (t, C) ∈ lc.defs → c.fc t = some C
  deps_right : ∀ t ds, (t, ds) ∈ lc.deps → ds = c.deps t
  defs_all : ∀ u ∈ used, ∀ t C, NullFlow.Reach c u t → c.fc t = some C → (t, C) ∈ lc.defs
  deps_all : ∀ u ∈ used, ∀ t, NullFlow.Reach c u t → c.deps t ≠ [] → (t, c.deps t) ∈ lc.deps

/-- `f` holds in some run that reaches the point. -/
def Possible (c : Ctx) (T : Atom) (f : Formula) : Prop := ∃ ρ, Run c T ρ ∧ f.eval ρ = true

/-- `f` holds in every run that reaches the point. -/
def Certain (c : Ctx) (T : Atom) (f : Formula) : Prop := ∀ ρ, Run c T ρ → f.eval ρ = true

/-- Marking the slot Nonnull is possible at the point and makes `f` hold there. -/
def NonnullSuffices (c : Ctx) (T : Atom) (f : Formula) (i : InferableSlot) : Prop :=
  (∃ ρ, Run c T ρ ∧ ρ i.nonnull = true) ∧ ∀ ρ, Run c T ρ → ρ i.nonnull = true → f.eval ρ = true

/-- Marking the slot Nullable is possible at the point and makes `f` hold there. -/
def NullableSuffices (c : Ctx) (T : Atom) (f : Formula) (i : InferableSlot) : Prop :=
  (∃ ρ, Run c T ρ ∧ ρ i.nullable = true) ∧ ∀ ρ, Run c T ρ → ρ i.nullable = true → f.eval ρ = true

/-- `ρ` gives every slot exactly the annotation inferred for it before. -/
def AsInferred (fp : String → Nat → Nat) (prev : Previous) (slots : List InferableSlot) (ρ : Atom → Bool) : Prop :=
  ∀ i ∈ slots, (ρ i.nullable = true ↔ fp i.usr i.slot ∈ prev.nullable) ∧
    (ρ i.nonnull = true ↔ fp i.usr i.slot ∈ prev.nonnull)

/-- The type is known to be Nonnull, given the annotations `A` allows: it says so, or it has a symbol that stands for Nonnull in every
run. -/
def TypeNonnull (c : Ctx) (T : Atom) (A : (Atom → Bool) → Prop) : Source → Prop
  | .concrete k => k = .NonNull
  | .symbolic n _ => ∀ ρ, Run c T ρ → A ρ → ρ n = true

/-- The type is known to be Nullable. -/
def TypeNullable (c : Ctx) (T : Atom) (A : (Atom → Bool) → Prop) : Source → Prop
  | .concrete k => k = .Nullable
  | .symbolic _ u => ∀ ρ, Run c T ρ → A ρ → ρ u = true

/-- A declared type (of the symbol and slot with fingerprint `fp`, if any) counts as Nonnull: an earlier round concluded so, or it
concluded nothing and the type is known to be. -/
def LhsNonnull (c : Ctx) (T : Atom) (A : (Atom → Bool) → Prop) (prev : Previous) (fp : Option Nat) (t : Source) : Prop :=
  match fp with
  | none => TypeNonnull c T A t
  | some p => p ∉ prev.nullable ∧ (p ∈ prev.nonnull ∨ TypeNonnull c T A t)

/-- It counts as Nullable: an earlier round concluded so, or it concluded nothing and the type is known to be. -/
def LhsNullable (c : Ctx) (T : Atom) (A : (Atom → Bool) → Prop) (prev : Previous) (fp : Option Nat) (t : Source) : Prop :=
  match fp with
  | none => TypeNullable c T A t
  | some p => p ∈ prev.nullable ∨ (p ∉ prev.nonnull ∧ TypeNullable c T A t)

/-- No run (with annotations `A`) that reaches the point has the value null. -/
def ValueNonnull (c : Ctx) (T : Atom) (A : (Atom → Bool) → Prop) (st : NullState) : Prop :=
  ∃ nl, st.isNull = some nl ∧ ∀ ρ, Run c T ρ → A ρ → nl.eval ρ = false

/-- The point is reachable and the value null in every run, or some run has it null and from a nullable source. -/
def MayBeNull (c : Ctx) (T : Atom) (A : (Atom → Bool) → Prop) (st : NullState) : Prop :=
  ((∃ nl, st.isNull = some nl ∧ ∀ ρ, Run c T ρ → A ρ → nl.eval ρ = true) ∧ ∃ ρ, Run c T ρ) ∨
    ∃ ρ, Run c T ρ ∧ A ρ ∧ (∀ f, st.fromNullable = some f → f.eval ρ = true) ∧ ∀ f, st.isNull = some f → f.eval ρ = true

/-- What is known about a value: `none` is a `nullptr_t`, which is null wherever it is reached. -/
def ValueIs (c : Ctx) (T : Atom) (A : (Atom → Bool) → Prop) : Option NullState → NullFlow.Kind → Prop
  | some st, .NonNull => ValueNonnull c T A st
  | some st, .Nullable => ¬ ValueNonnull c T A st ∧ MayBeNull c T A st
  | some st, .Unspecified => ¬ ValueNonnull c T A st ∧ ¬ MayBeNull c T A st
  | none, .NonNull => False
  | none, .Nullable => ∃ ρ, Run c T ρ
  | none, .Unspecified => ¬ ∃ ρ, Run c T ρ

/-- `Needs … b nonnull f loc kind`: for the code of behaviour `b` to be null-safe, `f` must hold at the point, and it is to be made so
by marking something Nonnull (or Nullable); evidence is to have the location and kind. -/
inductive Needs (c : Ctx) (T : Atom) (A : (Atom → Bool) → Prop) (prev : Previous) :
    Behavior → Bool → Formula → String → EKind → Prop
  | requires (b f loc k) : Needs c T A prev (.requires b f loc k) b f loc k
  /-- A reference to a Nonnull pointer: the type of the value must be Nonnull. -/
  | nonnullReference (lc lhs fp rt rhs loc) : LhsNonnull c T A prev fp lhs →
      Needs c T A prev (.assignedToType lc lhs fp (some rt) rhs loc) true rt.isNonnull loc NullMerge.ASSIGNED_TO_NONNULL_REFERENCE
  /-- A reference through which null can be stored: the type of the value must be Nullable. -/
  | mutableNullable (lhs fp rt rhs loc) : ¬ LhsNonnull c T A prev fp lhs → LhsNullable c T A prev fp lhs →
      Needs c T A prev (.assignedToType false lhs fp (some rt) rhs loc) false rt.isNullable loc NullMerge.ASSIGNED_TO_MUTABLE_NULLABLE
  /-- A value stored in a Nonnull pointer must not be null. -/
  | nonnullValue (lc lhs fp rhs loc nl) : LhsNonnull c T A prev fp lhs → rhs.isNull = some nl →
      Needs c T A prev (.assignedToType lc lhs fp none rhs loc) true (.not nl) loc NullMerge.ASSIGNED_TO_NONNULL
  | invariantNonnull (t tm fp loc) : LhsNonnull c T A prev fp tm →
      Needs c T A prev (.invariantExpr t tm fp loc) true t.isNonnull loc NullMerge.ASSIGNED_TO_OR_FROM_INVARIANT_NONNULL
  | invariantNullable (t tm fp loc) : ¬ LhsNonnull c T A prev fp tm → LhsNullable c T A prev fp tm →
      Needs c T A prev (.invariantExpr t tm fp loc) false t.isNullable loc NullMerge.ASSIGNED_TO_OR_FROM_INVARIANT_NULLABLE
  /-- The program aborts unless a value differs from null. -/
  | abortSecond (f1 l1 f2 l2) : Certain c T f1 →
      Needs c T A prev (.abortIfEqual f1 l1 f2 l2) true (.not f2) l2 NullMerge.ABORT_IF_NULL
  | abortFirst (f1 l1 f2 l2) : ¬ Certain c T f1 → Certain c T f2 →
      Needs c T A prev (.abortIfEqual f1 l1 f2 l2) true (.not f1) l1 NullMerge.ABORT_IF_NULL

/-- Whether the requirement holds is not settled yet. -/
def Open (c : Ctx) (T : Atom) (f : Formula) : Prop := ¬ Certain c T f ∧ ¬ Certain c T (.not f)

/-- The slot to blame: of the slots with `P`, the first one not reached across a test boundary, or else the first one. -/
def FirstChoice (slots : List InferableSlot) (P : InferableSlot → Prop) (i : InferableSlot) : Prop :=
  ∃ before after, slots = before ++ i :: after ∧ P i ∧ (∀ j ∈ before, j.crosses = i.crosses → ¬ P j) ∧
    (i.crosses = true → ∀ j ∈ slots, j.crosses = false → ¬ P j)

/-- The first slot with `P`. -/
def First (slots : List InferableSlot) (P : InferableSlot → Prop) (i : InferableSlot) : Prop :=
  ∃ before after, slots = before ++ i :: after ∧ P i ∧ ∀ j ∈ before, ¬ P j

/-- The piece of evidence about a slot of a symbol. -/
def evidenceOf (usr : String) (slot : Nat) (crosses : Bool) (k : EKind) (loc : String) : Evidence where
  usr := some usr
  slot := some slot
  kind := k
  location := if loc = "" then none else some loc
  crossesFromTestToNontest := crosses

/-- Evidence `ev` is the way to meet a requirement: the slot chosen for Nonnull, or any slot that suffices for Nullable. -/
def Meets (c : Ctx) (T : Atom) (slots : List InferableSlot) (nonnull : Bool) (f : Formula) (loc : String) (k : EKind) (ev : Evidence) : Prop :=
  Open c T f ∧ ∃ i, (if nonnull then FirstChoice slots (NonnullSuffices c T f) i else i ∈ slots ∧ NullableSuffices c T f i) ∧
    i.usr ≠ "" ∧ ev = evidenceOf i.usr i.slot i.crosses k loc

/-- The kind for a value passed as an argument, by what is known of the value and the parameter's type. -/
def ArgEvidence : NullFlow.Kind → (reference const : Bool) → EKind → Prop
  | .Nullable, false, _, k => k = NullMerge.NULLABLE_ARGUMENT
  | .Nullable, true, _, k => k = NullMerge.NULLABLE_REFERENCE_ARGUMENT
  | .NonNull, false, _, k => k = NullMerge.NONNULL_ARGUMENT
  | .NonNull, true, false, k => k = NullMerge.NONNULL_REFERENCE_ARGUMENT
  | .NonNull, true, true, k => k = NullMerge.NONNULL_REFERENCE_ARGUMENT_AS_CONST
  | .Unspecified, false, _, k => k = NullMerge.UNKNOWN_ARGUMENT
  | .Unspecified, true, _, k => k = NullMerge.UNKNOWN_REFERENCE_ARGUMENT

/-- The kind for a returned value. -/
def RetEvidence : NullFlow.Kind → (reference const : Bool) → EKind → Prop
  | .Nullable, false, _, k => k = NullMerge.NULLABLE_RETURN
  | .Nullable, true, _, k => k = NullMerge.NULLABLE_REFERENCE_RETURN
  | .NonNull, false, _, k => k = NullMerge.NONNULL_RETURN
  | .NonNull, true, false, k => k = NullMerge.NONNULL_REFERENCE_RETURN
  | .NonNull, true, true, k => k = NullMerge.NONNULL_REFERENCE_RETURN_AS_CONST
  | .Unspecified, false, _, k => k = NullMerge.UNKNOWN_RETURN
  | .Unspecified, true, _, k => k = NullMerge.UNKNOWN_REFERENCE_RETURN

/-- The kind for a value assigned. -/
def FromEvidence (ifNullable : EKind) : NullFlow.Kind → EKind → Prop
  | .Nullable, k => k = ifNullable
  | .NonNull, k => k = NullMerge.ASSIGNED_FROM_NONNULL
  | .Unspecified, k => k = NullMerge.ASSIGNED_FROM_UNKNOWN

/-- `Tells … b ev`: the evidence `ev` that the values seen in behaviour `b` give. -/
inductive Tells (c : Ctx) (T : Atom) (A : (Atom → Bool) → Prop) (slots : List InferableSlot) : Behavior → Evidence → Prop
  | argument (usr slot t cr st loc v k) : usr ≠ "" → ValueIs c T A st v → ArgEvidence v t.isLValueRef t.isNonReferenceConst k →
      Tells c T A slots (.argBinding usr slot t cr st loc) (evidenceOf usr slot cr k loc)
  | returned (usr t st loc v k) : usr ≠ "" → ValueIs c T A (some st) v → RetEvidence v t.isLValueRef t.isNonReferenceConst k →
      Tells c T A slots (.returned usr t st loc) (evidenceOf usr 0 false k loc)
  /-- Whether the type is Nullable is open, and the first slot whose being Nullable makes it so is blamed. -/
  | assigned (ty st loc ifn i v k) : ¬ Certain c T ty.isNullable → Possible c T ty.isNullable →
      First slots (fun i => ∀ ρ, Run c T ρ → ρ i.nullable = true → ty.isNullable.eval ρ = true) i → i.usr ≠ "" →
      ValueIs c T A st v → FromEvidence ifn v k →
      Tells c T A slots (.fromValue ty st loc ifn) (evidenceOf i.usr i.slot i.crosses k loc)
  | invariantNonnull (usr slot cr tm loc) : usr ≠ "" → TypeNonnull c T A tm →
      Tells c T A slots (.invariantDecl usr slot cr tm loc)
        (evidenceOf usr slot cr NullMerge.ASSIGNED_TO_OR_FROM_INVARIANT_NONNULL loc)
  | invariantNullable (usr slot cr tm loc) : usr ≠ "" → ¬ TypeNonnull c T A tm → TypeNullable c T A tm →
      Tells c T A slots (.invariantDecl usr slot cr tm loc)
        (evidenceOf usr slot cr NullMerge.ASSIGNED_TO_OR_FROM_INVARIANT_NULLABLE loc)
  /-- The constructor leaves the field possibly null. -/
  | ctorExit (ctor late i) : i ∈ ctor → i.usr ≠ "" → MayBeNull c T A i.st →
      Tells c T A slots (.onExit ctor late) (evidenceOf i.usr 0 false NullMerge.LEFT_NULLABLE_BY_CONSTRUCTOR i.loc)
  /-- The late initializer does not. -/
  | lateExit (ctor late i) : i ∈ late → i.usr ≠ "" → ¬ MayBeNull c T A i.st →
      Tells c T A slots (.onExit ctor late) (evidenceOf i.usr 0 false NullMerge.LEFT_NOT_NULLABLE_BY_LATE_INITIALIZER i.loc)

end Verif.Infer

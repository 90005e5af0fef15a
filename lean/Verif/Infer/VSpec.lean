import Verif.Infer.Virtual
import Verif.NullMerge.Spec
import Mathlib.Logic.Relation
/- Specification for C129-C131: overriding as a relation, and which way demands go between a method and its overrides. -/
namespace Verif.Infer

/-- The methods that matter: virtual, with pointers to infer for, and nameable. -/
def Method.Relevant (m : Method) : Prop := m.isVirtual = true ∧ m.slots ≠ [] ∧ m.usr ≠ ""

/-- `d` directly overrides `b`. -/
def Direct (ms : List Method) (d b : String) : Prop := ∃ m ∈ ms, m.Relevant ∧ m.usr = d ∧ b ∈ m.overridden ∧ b ≠ ""

/-- `d` overrides `b`, directly or not. -/
def Overrides (ms : List Method) : String → String → Prop := Relation.TransGen (Direct ms)

/-- The walker sees what a method overrides before the method. -/
def BasesFirst (ms : List Method) : Prop := ∀ pre m post, ms = pre ++ m :: post → m.Relevant → ∀ b ∈ m.overridden,
  (∃ m' ∈ ms, m'.Relevant ∧ m'.usr = b) → ∃ m' ∈ pre, m'.Relevant ∧ m'.usr = b

/-- Redeclarations of a method agree on what it overrides. -/
def Consistent (ms : List Method) : Prop := ∀ m ∈ ms, ∀ m' ∈ ms, m.Relevant → m'.Relevant → m.usr = m'.usr →
  ∀ b, b ∈ m.overridden ↔ b ∈ m'.overridden

/-- The method is defined in a test. -/
def InTest (ms : List Method) (u : String) : Prop := ∃ m ∈ ms, m.Relevant ∧ m.usr = u ∧ m.inTest = true

/-- The index says exactly which methods override which. -/
structure IndexOf (ms : List Method) (ix : VIndex) : Prop where
  bases : ∀ u b, b ∈ (AMap.get? ix.bases u).getD [] ↔ Overrides ms u b
  overrides : ∀ b u, u ∈ ((AMap.get? ix.overrides b).map (·.overriding)).getD [] ↔ Overrides ms u b
  inTest : ∀ u, u ∈ ix.inTest ↔ InTest ms u

/-- The evidence for one slot of one symbol. -/
def about (u : String) (slot : Nat) (es : List Evidence) : List Evidence :=
  es.filter (fun e => decide (e.usr = some u ∧ e.slot = some slot))

/-- Kinds that make a slot demand or suggest Nonnull (or prevent it), and are not about references, which are invariant. -/
def towardsNonnull : List EKind :=
  [NullMerge.UNCHECKED_DEREFERENCE, NullMerge.ASSIGNED_TO_NONNULL, NullMerge.ASSIGNED_TO_NONNULL_REFERENCE, NullMerge.ABORT_IF_NULL,
   NullMerge.ARITHMETIC, NullMerge.ARRAY_SUBSCRIPT, NullMerge.ANNOTATED_NONNULL, NullMerge.GCC_NONNULL_ATTRIBUTE,
   NullMerge.WELL_KNOWN_NONNULL, NullMerge.NONNULL_ARGUMENT, NullMerge.NONNULL_RETURN, NullMerge.UNKNOWN_ARGUMENT, NullMerge.UNKNOWN_RETURN]

/-- Kinds that make a slot demand or suggest Nullable. -/
def towardsNullable : List EKind :=
  [NullMerge.NULLABLE_ARGUMENT, NullMerge.NULLABLE_RETURN, NullMerge.ASSIGNED_FROM_NULLABLE, NullMerge.ASSIGNED_TO_MUTABLE_NULLABLE,
   NullMerge.ANNOTATED_NULLABLE, NullMerge.WELL_KNOWN_NULLABLE]

/-- Kinds about references and template arguments: what holds of the method must hold of what it overrides, and conversely. -/
def invariantKinds : List EKind :=
  [NullMerge.NULLABLE_REFERENCE_RETURN, NullMerge.NONNULL_REFERENCE_RETURN, NullMerge.NONNULL_REFERENCE_RETURN_AS_CONST,
   NullMerge.UNKNOWN_REFERENCE_RETURN, NullMerge.NULLABLE_REFERENCE_ARGUMENT, NullMerge.NONNULL_REFERENCE_ARGUMENT,
   NullMerge.NONNULL_REFERENCE_ARGUMENT_AS_CONST, NullMerge.UNKNOWN_REFERENCE_ARGUMENT,
   NullMerge.ASSIGNED_TO_OR_FROM_INVARIANT_NONNULL, NullMerge.ASSIGNED_TO_OR_FROM_INVARIANT_NULLABLE]

/-- The kinds that constrain the overrides of a method: parameters may only become more permissive, results only less. -/
def Downward (slot : Nat) (k : EKind) : Prop := if slot = 0 then k ∈ towardsNonnull else k ∈ towardsNullable

/-- The kinds that constrain what a method overrides. -/
def Upward (slot : Nat) (k : EKind) : Prop := if slot = 0 then k ∈ towardsNullable else k ∈ towardsNonnull

end Verif.Infer

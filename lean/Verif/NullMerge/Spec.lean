import Verif.NullMerge.Model
/- Specification for C38-C39: what a conclusion may depend on, and the decision rule. -/
namespace Verif.NullMerge

/-- The verdict of an inference, without the debugging samples. -/
def Inference.verdict {U L : Type} (i : Inference U L) : Option Nullability × Bool × Bool := (i.nullability, i.conflict, i.trivial)

section
variable {U L : Type}

/-- The evidence that counts: not collected across a test boundary. -/
def relevant (es : List (Evidence U L)) : List (Evidence U L) := es.filter (fun e => !e.crossesFromTestToNontest)

/-- Some relevant evidence of this kind was seen. -/
def Has (es : List (Evidence U L)) (k : Kind) : Prop := ∃ e ∈ relevant es, e.kind = k

/-- Evidence that forces a pointer to be Nonnull for the code to be safe. -/
def demandsNonnull : List Kind :=
  [UNCHECKED_DEREFERENCE, NONNULL_REFERENCE_ARGUMENT, NONNULL_REFERENCE_RETURN, ASSIGNED_TO_NONNULL,
   ASSIGNED_TO_OR_FROM_INVARIANT_NONNULL, ASSIGNED_TO_NONNULL_REFERENCE, ABORT_IF_NULL, ARITHMETIC, ARRAY_SUBSCRIPT]

/-- Evidence that forces a pointer to be Nullable. -/
def demandsNullable : List Kind :=
  [NULLABLE_ARGUMENT, NULLABLE_REFERENCE_ARGUMENT, ASSIGNED_FROM_NULLABLE, NULLABLE_RETURN, NULLABLE_REFERENCE_RETURN,
   ASSIGNED_TO_OR_FROM_INVARIANT_NULLABLE, ASSIGNED_TO_MUTABLE_NULLABLE]

def MustBeNonnull (es : List (Evidence U L)) : Prop := ∃ k ∈ demandsNonnull, Has es k

/-- A constructor that leaves the pointer null counts unless a late initializer fills it in. -/
def MustBeNullable (es : List (Evidence U L)) : Prop :=
  (∃ k ∈ demandsNullable, Has es k) ∨
  (Has es LEFT_NULLABLE_BY_CONSTRUCTOR ∧ ¬ Has es LEFT_NOT_NULLABLE_BY_LATE_INITIALIZER)

end
end Verif.NullMerge

import Verif.TypeVis.All

/-!
# Visibility of bindings: examples, and what the code does not ensure
-/

namespace Verif.TypeVis.Example

/-- Targets 1 and 2 have the features of ordinary targets, targets 3 and 4 also `wrapper`. -/
def F : Features := fun t f => match f with
  | .types => true
  | .wrapper => t == 3 || t == 4
  | _ => false

def cls (t : Target) : Kind := .record ⟨t, true, false⟩ []
/-- An instantiation in target `t`. -/
def inst (t : Target) : Kind := .record ⟨t, false, false⟩ []
/-- `std::vector<k>` -/
def vec (k : Kind) : Kind := .record ⟨0, false, true⟩ [k]
/-- A pointer to a bridged type such as `std::string`. -/
def bridgedPtr : Kind := .ptr (.error none 7)
/-- A pointer to a protocol buffer message. -/
def protoPtr : Kind := .ptr (.error (some .pub) 7)

/-- `fn(*mut cls) -> inst` in the target of the instantiation and elsewhere. -/
example : functionVisibility F 1 [.ptr (cls 2)] (inst 1) = some .pubCrate ∧
    functionVisibility F 2 [.ptr (cls 2)] (inst 1) = none ∧
    functionVisibility F 2 [.ptr (cls 2), .alias 2 (.fnPtr true [cls 1] .prim)] .prim = some .pub ∧
    typeVisibility F 1 (.fnPtr true [inst 1, .ptr (inst 2)] .prim) = none ∧
    typeVisibility F 1 (.pair bridgedPtr .prim) = some .pubCrate := by
  refine ⟨?_, ?_, ?_, ?_, ?_⟩ <;> decide +kernel

/-- The hypotheses of `uses_accessible` are met by an alias of target 1 in a type of target 1. -/
example : typeVisibility F 1 (.ptr (.alias 1 (.optional (inst 1)))) = some .pubCrate ∧
    itemVisibility F (.alias 1 (.optional (inst 1))) = some (1, some .pubCrate) := by
  refine ⟨?_, ?_⟩ <;> decide +kernel

example : missingOfType 1 (F 1) (.fnPtr false [.incomplete, .ref (inst 1)] .prim) =
      [.callingConvention, .forwardDeclared, .references, .template] ∧
    missingOfType 3 (F 3) (.ptr .incomplete) = [] := by
  refine ⟨?_, ?_⟩ <;> decide +kernel

/-- **Disagreement.** The arguments of generic Rust types are not visited: `std::vector<T<int>>` is public although
the struct for `T<int>` is `pub(crate)`, also in another target, where it cannot be used at all. -/
theorem vector_of_private : typeVisibility F 2 (vec (inst 3)) = some .pub ∧ missingOfType 2 (F 2) (vec (inst 3)) = [] ∧
    Mentions (vec (inst 3)) (inst 3) ∧ itemVisibility F (inst 3) = some (3, some .pubCrate) ∧
    missingOfType 3 (F 3) (inst 3) = [] := by
  refine ⟨by decide +kernel, by decide +kernel, .arg (by simp [Kind.args, vec]) (.self _), by decide +kernel,
    by decide +kernel⟩

/-- **Disagreement.** Nor are they checked for features: `std::vector<Incomplete*>` needs no `wrapper`. -/
theorem vector_of_incomplete : missingOfType 1 (F 1) (vec (.ptr .incomplete)) = [] ∧
    missingOfType 1 (F 1) (.ptr (.ptr .incomplete)) = [.forwardDeclared] := by
  refine ⟨?_, ?_⟩ <;> decide +kernel

/-- **Disagreement.** The first type without bindings decides: a pointer to a protocol buffer message makes public
what a pointer to another bridged type would make `pub(crate)`, and the order matters. -/
theorem first_error_decides : typeVisibility F 3 (.pair protoPtr bridgedPtr) = some .pub ∧
    typeVisibility F 3 (.pair bridgedPtr protoPtr) = some .pubCrate := by
  refine ⟨?_, ?_⟩ <;> decide +kernel

/-- **Disagreement.** An alias, in target 3, for a pointer to a bridged type is `pub(crate)` there; a function of
target 4 that uses the alias gets bindings, which name the alias. -/
theorem alias_of_error : itemVisibility F (.alias 3 bridgedPtr) = some (3, some .pubCrate) ∧
    functionVisibility F 4 [.alias 3 bridgedPtr] .prim = some .pubCrate ∧
    missingOfSignature F [4] [.alias 3 bridgedPtr] .prim = [] := by
  refine ⟨?_, ?_, ?_⟩ <;> decide +kernel

end Verif.TypeVis.Example

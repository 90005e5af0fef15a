import Verif.Annot.Main

/-!
# Examples: the hypotheses of the theorems are met
-/

namespace Verif.Annot.Example
open Spec

deriving instance DecidableEq for Except

def bridge : Str := ['b']
def other : Str := ['o']

/-- A string literal; types 0 and 1 stand for arrays of one and of two characters. -/
def lit (s : Str) : Arg := ⟨s.length - 1, some (.str s)⟩

/-- Three declarations: one without the annotation, two that agree. -/
def decls : List Decl :=
  [[⟨other, []⟩], [⟨other, [lit ['z']]⟩, ⟨bridge, [lit ['x'], lit ['y', 'y']]⟩],
   [⟨bridge, [lit ['x'], lit ['y', 'y']]⟩]]

example : stringArgs bridge decls = .ok (some [['x'], ['y', 'y']]) := by decide +kernel
example : readArgs ['q'] decls = .ok none := by decide +kernel
example : (∀ d ∈ decls, AtMostOnce bridge d) ∧ (marks bridge decls).length = 2 := by
  refine ⟨?_, by decide +kernel⟩
  intro d hd
  rw [atMostOnce_iff]
  revert d
  decide +kernel
example : ∃ args, readArgs bridge decls.reverse = .ok (some args) ∧
    Agree [lit ['x'], lit ['y', 'y']] args :=
  order_free (ds := decls) (List.reverse_perm _).symm (by decide +kernel)

/-- Declarations that do not agree, an annotation that is there twice, one with an
argument that cannot be used. -/
example : readArgs bridge (decls ++ [[⟨bridge, [lit ['x']]⟩]]) = .error .inconsistent := by
  decide +kernel
example : readArgs bridge [[⟨bridge, []⟩, ⟨bridge, []⟩]] = .error .twice := by decide +kernel
example : readArgs bridge [[⟨bridge, [⟨0, some (.lvalue 3)⟩]⟩]] = .error .badKind := by
  decide +kernel

/-- The annotation is there twice on one declaration, though they agree: refused; on two
declarations, accepted. -/
example : hasFlag bridge [[⟨bridge, []⟩], [⟨bridge, []⟩]] = .ok true ∧
    hasFlag bridge [[⟨bridge, [lit ['x']]⟩]] = .error .unexpectedArgs := by decide +kernel

example : stringArg bridge [[⟨bridge, [lit ['x']]⟩]] = .ok (some ['x']) ∧
    stringArg bridge decls = .error .notSingle := by decide +kernel

example : typeAttr bridge none [none, some ⟨other, []⟩, some ⟨bridge, []⟩] = .ok (some ⟨bridge, []⟩) := by
  decide +kernel

end Verif.Annot.Example

import Verif.Annot.Model

/-!
# Spec: reading annotations
-/

namespace Verif.Annot.Spec

/-- The annotations of a name on the declarations, in order. -/
def marks (name : Str) (ds : List Decl) : List Attr :=
  ds.flatMap fun d => d.filter (·.name = name)

/-- A declaration has the annotation at most once. -/
def AtMostOnce (name : Str) (d : Decl) : Prop :=
  ∀ x a y b z, d = x ++ a :: y ++ b :: z → a.name = name → b.name = name → False

/-- Two arguments are the same number of the same type, the same string literal, or
objects of the same class. -/
def SameArg (a b : Arg) : Prop :=
  a.type = b.type ∧
    ((∃ n, a.value = some (.int n) ∧ b.value = some (.int n)) ∨
     (∃ s, a.value = some (.str s) ∧ b.value = some (.str s)) ∨
     ∃ m n, a.value = some (.struct m) ∧ b.value = some (.struct n))

/-- Two lists of arguments agree, one by one. -/
def Agree (as bs : List Arg) : Prop :=
  as.length = bs.length ∧ ∀ i (h : i < as.length) (h' : i < bs.length), SameArg as[i] bs[i]

/-- The arguments are these string literals. -/
def AreStrings (args : List Arg) (ss : List Str) : Prop :=
  args.map Arg.value = ss.map fun s => some (.str s)

end Verif.Annot.Spec

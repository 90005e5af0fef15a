import Mathlib.Logic.Relation
import Verif.Toposort.Model
/-
Specification vocabulary for `toposort`; mentions only the inputs, not the algorithm's state.
-/
namespace Verif.Toposort

variable {α : Type}

/-- `p` has to come before `s`. -/
def Dep (deps : List (Dependency α)) (p s : α) : Prop := (⟨p, s⟩ : Dependency α) ∈ deps

/-- `c` lies on a dependency cycle. -/
def OnCycle (deps : List (Dependency α)) (c : α) : Prop := Relation.TransGen (Dep deps) c c

/-- `k` is on, or (transitively) depends on, a dependency cycle. -/
def Doomed (deps : List (Dependency α)) (k : α) : Prop :=
  ∃ c, OnCycle deps c ∧ Relation.ReflTransGen (Dep deps) c k

/-- All dependencies mention input nodes only. -/
def Valid (nodes : List α) (deps : List (Dependency α)) : Prop :=
  ∀ d ∈ deps, d.predecessor ∈ nodes ∧ d.successor ∈ nodes

/-- `i` is the position of the last occurrence of `x` in `nodes`. -/
def IsLastIdx (nodes : List α) (x : α) (i : Nat) : Prop :=
  nodes[i]? = some x ∧ ∀ j, i < j → nodes[j]? ≠ some x

/-- `x` is preferred to `y`: smaller in the preferred order, ties broken by input position. -/
def Prefer (cmp : α → α → Ordering) (nodes : List α) (x y : α) : Prop :=
  cmp x y = .lt ∨
    (cmp x y = .eq ∧ ∃ i j, IsLastIdx nodes x i ∧ IsLastIdx nodes y j ∧ i < j)

/-- After emitting `done`, `x` could be emitted next. -/
def Available (nodes : List α) (deps : List (Dependency α)) (done : List α) (x : α) : Prop :=
  x ∈ nodes ∧ x ∉ done ∧ ∀ p, Dep deps p x → p ∈ done

/-- `out` is what one gets by repeatedly emitting the most preferred available node until no node
is available. -/
def GreedyOrder (cmp : α → α → Ordering) (nodes : List α) (deps : List (Dependency α))
    (out : List α) : Prop :=
  (∀ a x b, out = a ++ x :: b →
    Available nodes deps a x ∧ ∀ y, Available nodes deps a y → y ≠ x → Prefer cmp nodes x y) ∧
  ∀ x, ¬ Available nodes deps out x

end Verif.Toposort

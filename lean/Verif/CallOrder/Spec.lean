/-!
# Lifetime analysis of a call graph: specification

Functions are numbers.  What is known about a program, and what the analysis of a single function does, are inputs.
-/

namespace Verif.CallOrder

/-- The result of the analysis of a function: lifetimes or an error. -/
inductive Res (L E : Type) where
  | ok (l : L)
  | err (e : E)

/-- A program. -/
structure Prog (L E : Type) where
  builtin : Nat → Bool
  /-- has a body, or is defaulted -/
  defined : Nat → Bool
  /-- the functions that a function calls or mentions; `.err`: cannot tell -/
  callees : Nat → Res (List Nat) E
  numParams : Nat → Nat
  /-- the lifetimes annotated on a declaration without definition -/
  annotated : Nat → Res L E
  /-- lifetimes for a function, all different -/
  fresh : Nat → Res L E
  /-- the analysis of the body of a function, given the results for other functions -/
  single : Nat → (Nat → Option (Res L E)) → Res L E
  /-- the lifetimes are the same up to names -/
  iso : L → L → Bool
  tooManyIterations : Nat → E

/-- `f` calls `g`: directly, and both are functions that the analysis looks at. -/
def Prog.Calls (p : Prog L E) (f g : Nat) : Prop :=
  p.builtin f = false ∧ p.defined f = true ∧ (∃ cs, p.callees f = .ok cs ∧ g ∈ cs) ∧ p.builtin g = false

/-- `f` calls `g` directly or indirectly. -/
inductive Prog.Reaches (p : Prog L E) : Nat → Nat → Prop where
  | one {f g} : p.Calls f g → Reaches p f g
  | step {f g h} : p.Calls f g → Reaches p g h → Reaches p f h

/-- The analysis of a body looks only at the results for the functions called in it. -/
def Prog.Local (p : Prog L E) : Prop :=
  ∀ f cs A B, p.callees f = .ok cs → (∀ g ∈ cs, A g = B g) → p.single f A = p.single f B

/-- `univ` contains every function called by a function in it. -/
def Prog.Closed (p : Prog L E) (univ : List Nat) : Prop :=
  ∀ f ∈ univ, ∀ g, p.Calls f g → g ∈ univ

/-- What was done, in order: a function was given its annotations, or the error of its callees, or it was analysed
alone, or with others as a recursive group. -/
inductive Event where
  | declared (f : Nat)
  | noCallees (f : Nat)
  | alone (f : Nat)
  | group (fs : List Nat)

/-- The functions that an event gives results to. -/
def Event.members : Event → List Nat
  | .declared f => [f]
  | .noCallees f => [f]
  | .alone f => [f]
  | .group fs => fs

/-- The functions that have got a result, in order. -/
def handled (log : List Event) : List Nat := log.flatMap Event.members

/-- The results of a group: stable, or the same error for all. -/
def Settled (p : Prog L E) (a : Nat → Option (Res L E)) (fs : List Nat) : Prop :=
  (∀ f ∈ fs, ∃ l l', a f = some (.ok l) ∧ p.single f a = .ok l' ∧ (p.iso l l' = true)) ∨
  (∃ e, ∀ f ∈ fs, a f = some (.err e))

/-- The results of an event are what the analysis of the functions gives, with all the other results. -/
def Event.Sound (p : Prog L E) (a : Nat → Option (Res L E)) : Event → Prop
  | .declared f => p.defined f = false ∧ a f = some (p.annotated f)
  | .noCallees f => p.defined f = true ∧ ∃ e, p.callees f = .err e ∧ a f = some (.err e)
  | .alone f => p.defined f = true ∧ (∃ cs, p.callees f = .ok cs) ∧ a f = some (p.single f a)
  | .group fs => (∀ f ∈ fs, p.defined f = true ∧ ∃ cs, p.callees f = .ok cs) ∧ Settled p a fs

/-- The callees of the functions of an event were handled before, or with them in a group. -/
def Event.After (p : Prog L E) (before : List Event) (e : Event) : Prop :=
  ∀ f ∈ e.members, ∀ g, p.Calls f g → g ∈ handled before ∨ ∃ fs, e = .group fs ∧ g ∈ fs

/-- The first function of a group is recursive. -/
def Event.Cyclic (p : Prog L E) : Event → Prop
  | .group fs => ∃ f, fs.head? = some f ∧ p.Reaches f f
  | _ => True

end Verif.CallOrder

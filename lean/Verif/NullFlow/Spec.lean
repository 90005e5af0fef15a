import Verif.NullFlow.Model
/- Specification for C40-C43: the runs a flow condition stands for, and what a verdict means in terms of them. -/
namespace Verif.NullFlow
local notation "Atom" => Nat

/-- `ρ` describes a run that reaches the program point with flow-condition token `T`: the invariant holds, every flow
condition that `T` depends on is what its constraints say, and `T` holds. -/
structure Run (c : Ctx) (T : Atom) (ρ : Atom → Bool) : Prop where
  inv : ∀ g ∈ c.inv, g.eval ρ = true
  free : ∀ T', Reach c T T' → c.fc T' = none → ρ T' = true
  defined : ∀ T' C, Reach c T T' → c.fc T' = some C → ρ T' = C.eval ρ
  here : ρ T = true

/-- The solver never gives up. -/
def Solver.Complete (s : Solver) : Prop := ∀ Q, s.solve Q ≠ .timedOut

/-- The additional constraints hold (no constraints: always). -/
def Ac (ac : Option Formula) (ρ : Atom → Bool) : Prop := ∀ a, ac = some a → a.eval ρ = true

/-- The property may hold in `ρ`: it does, or nothing is known about it ("top"). -/
def May (p : Option Formula) (ρ : Atom → Bool) : Prop := ∀ f, p = some f → f.eval ρ = true

/-- The pointer is known to be non-null. -/
def KnownNonnull (c : Ctx) (T : Atom) (st : NullState) (ac : Option Formula) : Prop :=
  ∃ nl, st.isNull = some nl ∧ ∀ ρ, Run c T ρ → Ac ac ρ → nl.eval ρ = false

/-- The pointer is known to be null. -/
def KnownNull (c : Ctx) (T : Atom) (st : NullState) (ac : Option Formula) : Prop :=
  ∃ nl, st.isNull = some nl ∧ ∀ ρ, Run c T ρ → Ac ac ρ → nl.eval ρ = true

/-- Some run reaches the point with the pointer coming from a nullable source and being null. -/
def FromNullableAndMaybeNull (c : Ctx) (T : Atom) (st : NullState) (ac : Option Formula) : Prop :=
  ∃ ρ, Run c T ρ ∧ Ac ac ρ ∧ May st.fromNullable ρ ∧ May st.isNull ρ

/-- The point is reachable. -/
def Reachable (c : Ctx) (T : Atom) : Prop := ∃ ρ, Run c T ρ

/-- The atoms of a formula. -/
def Formula.atoms : Formula → List Atom
  | .atom a => [a]
  | .lit _ => []
  | .not f => f.atoms
  | .and f g => f.atoms ++ g.atoms
  | .or f g => f.atoms ++ g.atoms
  | .implies f g => f.atoms ++ g.atoms
  | .equals f g => f.atoms ++ g.atoms

/-- A formula over atoms made so far, none of which is a flow-condition token. -/
def Plain (c : Ctx) (f : Formula) : Prop := ∀ a ∈ f.atoms, a < c.next ∧ a ∉ c.tokens

/-- A context as the framework builds it: tokens depend on earlier tokens only, constraints mention only atoms made
so far, and of the tokens only those they depend on; the invariant mentions no tokens. -/
structure WF (c : Ctx) : Prop where
  tok_lt : ∀ T ∈ c.tokens, T < c.next
  fc_tok : ∀ T C, c.fc T = some C → T ∈ c.tokens
  dep_tok : ∀ T d, d ∈ c.deps T → d ∈ c.tokens ∧ T ∈ c.tokens ∧ d < T
  fc_atoms : ∀ T C, c.fc T = some C → ∀ a ∈ C.atoms, a < c.next ∧ (a ∈ c.tokens → a ∈ c.deps T)
  inv_plain : ∀ g ∈ c.inv, Plain c g

end Verif.NullFlow

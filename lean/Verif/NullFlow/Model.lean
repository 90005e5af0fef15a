/-
Model of nullability/pointer_nullability.cc (null state of a pointer, verdicts) and of `join`, `compare` and
`widen` in nullability/pointer_nullability_analysis.cc.

The clang dataflow framework is a dependency, modelled by its contract: formulas over boolean atoms;
a context holding an invariant and, per flow-condition token, the conjunction of its constraints and the tokens it
depends on; a query conjoins the invariant, `T' <=> constraints` for every token reachable through dependencies
(`T'` itself if it has no constraints), the token asked about and the formula. The solver may time out.
Formulas are compared structurally (the arena hash-conses them).
-/
namespace Verif.NullFlow

/-- `clang::dataflow::Atom`. -/
local notation "Atom" => Nat

/-- `clang::dataflow::Formula`. -/
inductive Formula
  | atom (a : Atom)
  | lit (b : Bool)
  | not (f : Formula)
  | and (f g : Formula)
  | or (f g : Formula)
  | implies (f g : Formula)
  | equals (f g : Formula)
deriving DecidableEq

/-- The value of a formula. -/
def Formula.eval (ρ : Atom → Bool) : Formula → Bool
  | .atom a => ρ a
  | .lit b => b
  | .not f => !f.eval ρ
  | .and f g => f.eval ρ && g.eval ρ
  | .or f g => f.eval ρ || g.eval ρ
  | .implies f g => !f.eval ρ || g.eval ρ
  | .equals f g => f.eval ρ == g.eval ρ

/-- `DataflowAnalysisContext` (contract). `tokens` are the atoms that are flow-condition tokens. -/
structure Ctx where
  next : Nat
  tokens : List Atom
  inv : List Formula
  fc : Atom → Option Formula
  deps : Atom → List Atom

/-- The tokens a query about `T` considers. -/
inductive Reach (c : Ctx) : Atom → Atom → Prop
  | refl (T) : Reach c T T
  | step {T T' T''} : Reach c T T' → T'' ∈ c.deps T' → Reach c T T''

/-- The formulas a query about token `T` conjoins (contract of `addTransitiveFlowConditionConstraints`),
together with the token and the formula asked about. -/
inductive Query (c : Ctx) (T : Atom) (f : Formula) : Formula → Prop
  | asked : Query c T f f
  | token : Query c T f (.atom T)
  | invariant {g} : g ∈ c.inv → Query c T f g
  | free {T'} : Reach c T T' → c.fc T' = none → Query c T f (.atom T')
  | defined {T' C} : Reach c T T' → c.fc T' = some C → Query c T f (.equals (.atom T') C)

/-- `Solver::Result::Status`. -/
inductive Status
  | satisfiable | unsatisfiable | timedOut
deriving DecidableEq

/-- `Solver` (contract): right when it answers. -/
structure Solver where
  solve : (Formula → Prop) → Status
  sat_sound : ∀ Q, solve Q = .satisfiable → ∃ ρ, ∀ f, Q f → f.eval ρ = true
  unsat_sound : ∀ Q, solve Q = .unsatisfiable → ¬ ∃ ρ, ∀ f, Q f → f.eval ρ = true

/-- `Environment::proves` (contract). -/
def proves (s : Solver) (c : Ctx) (T : Atom) (f : Formula) : Bool := s.solve (Query c T (.not f)) = .unsatisfiable

/-- `Environment::allows` (contract). -/
def allows (s : Solver) (c : Ctx) (T : Atom) (f : Formula) : Bool := s.solve (Query c T f) = .satisfiable

/-- `Arena::makeAtom` (contract). -/
def makeAtom (c : Ctx) : Atom × Ctx := (c.next, { c with next := c.next + 1 })

/-- `addFlowConditionConstraint` = `Environment::assume` (contract). -/
def assume (c : Ctx) (T : Atom) (f : Formula) : Ctx :=
  { c with fc := fun t => if t = T then some (match c.fc T with | none => f | some C => .and C f) else c.fc t }

/-- `addInvariant` (contract). -/
def addInvariant (c : Ctx) (f : Formula) : Ctx := { c with inv := c.inv ++ [f] }

/-- `joinFlowConditions` (contract). -/
def joinFC (c : Ctx) (T1 T2 : Atom) : Atom × Ctx :=
  let (T, c) := makeAtom c
  (T, assume { c with tokens := c.tokens ++ [T], deps := fun t => if t = T then [T1, T2] else c.deps t } T (.or (.atom T1) (.atom T2)))

/-- `forkFlowCondition` (contract). -/
def forkFC (c : Ctx) (T : Atom) : Atom × Ctx :=
  let (T', c) := makeAtom c
  (T', assume { c with tokens := c.tokens ++ [T'], deps := fun t => if t = T' then [T] else c.deps t } T' (.atom T))

/-- `NullabilityKind`, the three values used. -/
inductive Kind
  | NonNull | Nullable | Unspecified
deriving DecidableEq

/-- `PointerTypeNullability`, nullability/type_nullability.h lines 88-150. -/
inductive Source
  | concrete (k : Kind)
  | symbolic (nonnull nullable : Atom)
deriving DecidableEq

/-- `PointerTypeNullability::isNonnull`, type_nullability.h lines 131-134. -/
def Source.isNonnull : Source → Formula
  | .symbolic n _ => .atom n
  | .concrete k => .lit (k = .NonNull)

/-- `PointerTypeNullability::isNullable`, type_nullability.h lines 137-140. -/
def Source.isNullable : Source → Formula
  | .symbolic _ n => .atom n
  | .concrete k => .lit (k = .Nullable)

/-- `PointerNullState`, nullability/pointer_nullability.h lines 92-98; `none` is the null pointer, "top". -/
structure NullState where
  fromNullable : Option Formula
  isNull : Option Formula
deriving DecidableEq

/-- A `PointerValue`: its pointee location (with the location's type) and its null state, `none` if
`hasPointerNullState` is false, pointer_nullability.cc lines 87-90. -/
structure Ptr where
  loc : Nat
  state : Option NullState
deriving DecidableEq

/-- `tryCreatePointerNullState`, pointer_nullability.cc lines 108-118. -/
def tryCreate (c : Ctx) (p : Ptr) (fn nl : Option Formula) : Bool × Ptr × Ctx :=
  if p.state.isSome then (false, p, c)
  else
    let (fn, c) := match fn with
      | some f => (f, c)
      | none => let (a, c) := makeAtom c; (.atom a, c)
    let (nl, c) := match nl with
      | some f => (f, c)
      | none => let (a, c) := makeAtom c; (.atom a, c)
    (true, { p with state := some ⟨some fn, some nl⟩ }, c)

/-- `initPointerNullState` from a source, pointer_nullability.cc lines 120-138. -/
def initFromSource (c : Ctx) (p : Ptr) (src : Option Source) : Ptr × Ctx :=
  let (created, p, c) := tryCreate c p (src.map Source.isNullable)
    (if src = some (.concrete .NonNull) then some (.lit false) else none)
  if created then
    match src, p.state with
    | some (.symbolic n u), some ⟨_, some nl⟩ => (p, addInvariant c (.implies (Source.isNonnull (.symbolic n u)) (.not nl)))
    | _, _ => (p, c)
  else (p, c)

/-- `initNullPointer`, pointer_nullability.cc lines 157-161. -/
def initNullPointer (c : Ctx) (p : Ptr) : Ptr × Ctx :=
  let (_, p, c) := tryCreate c p (some (.lit true)) (some (.lit true))
  (p, c)

/-- `isNullable`, pointer_nullability.cc lines 169-209. -/
def isNullable (s : Solver) (c : Ctx) (T : Atom) (st : NullState) (ac : Option Formula) : Bool :=
  let provable := match st.isNull with
    | none => none
    | some nl =>
      if ac = none ∧ nl = Formula.lit false then some false
      else
        let pn : Formula := match ac with
          | none => nl
          | some a => .implies a nl
        if proves s c T pn then
          if proves s c T (.lit false) then some false else some true
        else none
  match provable with
  | some b => b
  | none =>
    let f := Formula.lit true
    let f : Formula := match st.fromNullable with | some g => .and f g | none => f
    let f : Formula := match st.isNull with | some g => .and f g | none => f
    let f : Formula := match ac with | some g => .and f g | none => f
    allows s c T f

/-- `isReachableNullptrLiteral`, pointer_nullability.cc lines 217-224. -/
def isReachableNullptrLiteral (s : Solver) (c : Ctx) (T : Atom) (ac : Option Formula) : Bool :=
  isNullable s c T ⟨some (.lit true), some (.lit true)⟩ ac

/-- `getNullability`, pointer_nullability.cc lines 226-237. -/
def getNullability (s : Solver) (c : Ctx) (T : Atom) (st : NullState) (ac : Option Formula) : Kind :=
  let nonNull := match st.isNull with
    | none => false
    | some nl =>
      let nl := match ac with
        | none => nl
        | some a => .and a nl
      proves s c T (.not nl)
  if nonNull then .NonNull
  else if isNullable s c T st ac then .Nullable else .Unspecified

/-- `getNullabilityForNullptrT`, pointer_nullability.cc lines 253-259. -/
def getNullabilityForNullptrT (s : Solver) (c : Ctx) (T : Atom) (ac : Option Formula) : Kind :=
  if isReachableNullptrLiteral s c T ac then .Nullable else .Unspecified

/-- `mergeFormulas`, pointer_nullability_analysis.cc lines 113-144. -/
def mergeFormulas (s : Solver) (c : Ctx) (T1 T2 T : Atom) (b1 b2 : Option Formula) : Option Formula × Ctx :=
  if b1 = b2 then (b1, c)
  else match b1, b2 with
    | some f1, some f2 =>
      let rest :=
        let (m, c) := makeAtom c
        (some (Formula.atom m), assume c T (.or (.and (.atom T1) (.equals (.atom m) f1)) (.and (.atom T2) (.equals (.atom m) f2))))
      if proves s c T1 f1 then
        if proves s c T2 f2 then (some (.lit true), c) else rest
      else if proves s c T1 (.not f1) && proves s c T2 (.not f2) then (some (.lit false), c)
      else rest
    | _, _ => (none, c)

/-- The null-state part of `join`, pointer_nullability_analysis.cc lines 146-177; `T` is the token of `MergedEnv`. -/
def joinState (s : Solver) (c : Ctx) (T1 T2 T : Atom) (st1 st2 : Option NullState) : Option NullState × Ctx :=
  match st1, st2 with
  | some n1, some n2 =>
    let (fn, c) := mergeFormulas s c T1 T2 T n1.fromNullable n2.fromNullable
    let (nl, c) := mergeFormulas s c T1 T2 T n1.isNull n2.isNull
    (some ⟨fn, nl⟩, c)
  | _, _ => (none, c)

/-- Joining two environments and the null state of one pointer in them: the framework joins the flow conditions,
then calls `join`. -/
def joinEnv (s : Solver) (c : Ctx) (T1 T2 : Atom) (st1 st2 : Option NullState) : Atom × Option NullState × Ctx :=
  let (T, c) := joinFC c T1 T2
  let (st, c) := joinState s c T1 T2 T st1 st2
  (T, st, c)

/-- `compare` on pointers, pointer_nullability_analysis.cc lines 179-207 (`true` = Same). -/
def compare (p1 p2 : Ptr) : Bool :=
  if p1.loc ≠ p2.loc then false
  else if p1.state.isSome ≠ p2.state.isSome then false
  else match p1.state, p2.state with
    | some n1, some n2 => n1.fromNullable = n2.fromNullable ∧ n1.isNull = n2.isNull
    | _, _ => true

/-- An environment: context and token. -/
structure Env where
  ctx : Ctx
  token : Atom

/-- `LatticeEffect`. -/
inductive Effect
  | unchanged | changed
deriving DecidableEq

/-- `widenNullabilityProperty`, pointer_nullability_analysis.cc lines 216-239. The context is shared, so the current
one is used for both queries. -/
def widenProperty (s : Solver) (c : Ctx) (prevT curT : Atom) (prev cur : Option Formula) : Option Formula × Effect :=
  if prev = cur then (cur, .unchanged)
  else match prev, cur with
    | none, _ => (none, .unchanged)
    | _, none => (none, .changed)
    | some p, some q =>
      if (proves s c prevT p && proves s c curT q) || (proves s c prevT (.not p) && proves s c curT (.not q)) then (cur, .unchanged)
      else (none, .changed)

/-- `widen`, pointer_nullability_analysis.cc lines 241-287; `top` is the top location of the pointee type
(`getTopStorageLocation`, lines 289-294). -/
def widen (s : Solver) (c : Ctx) (top : Nat) (prevT curT : Atom) (prev cur : Ptr) : Option (Ptr × Effect) :=
  match prev.state, cur.state with
  | some ps, some cs =>
    let locUnchanged := prev.loc = cur.loc
    let (fn, e1) := widenProperty s c prevT curT ps.fromNullable cs.fromNullable
    let (nl, e2) := widenProperty s c prevT curT ps.isNull cs.isNull
    if locUnchanged ∧ e1 = .unchanged ∧ e2 = .unchanged then some (cur, .unchanged)
    else
      let loc := if locUnchanged then cur.loc else top
      some (⟨loc, some ⟨fn, nl⟩⟩,
        if loc = prev.loc ∧ e1 = .unchanged ∧ e2 = .unchanged then .unchanged else .changed)
  | _, _ => none

end Verif.NullFlow

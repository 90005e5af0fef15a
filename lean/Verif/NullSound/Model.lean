import Verif.NullFlow.Model
import Verif.NullSound.Spec
/-
Model of the nullability checker on the functions of Spec.lean: the value transfer functions
(nullability/value_transferer.cc), the join and widening of pointer_nullability_analysis.cc, the diagnosis
(nullability/pointer_nullability_diagnosis.cc).

The clang dataflow framework is a dependency, modelled by its contract. Formulas and the solver are those of
Verif.NullFlow. A flow-condition token stands for its constraints (every token is equivalent to them), so here an
environment holds the constraints themselves; Verif.NullFlow has the version with tokens. Atoms and storage
locations are numbered from one counter. All pointers have one pointee type. Structural equality of formulas and
pointer values stands for identity. A variable gets its null state from its type at entry, not at its first mention
(the value and the type are the same then).
-/
namespace Verif.NullSound
open NullFlow (Formula Solver Status)

/-- A `PointerValue`: pointee location, and the null state (pointer_nullability.h lines 94-100; `none` is "top"). -/
structure PVal where
  loc : Nat
  fn : Option Formula
  nl : Option Formula
deriving DecidableEq

/-- `Environment` (contract): flow condition and the value of every variable (for a smart pointer, of its `PtrField`). -/
structure Env where
  fc : Formula
  vals : List PVal

/-- The state a transfer function works on: next unused number, environment, diagnostics so far. -/
structure St where
  n : Nat
  env : Env
  ds : List Fault

/-- `createNullPointer`, pointer_nullability.cc lines 161-165: one null pointer value (location 0), known to be null
and from a nullable source. -/
def nullVal : PVal := ⟨0, some (.lit true), some (.lit true)⟩

/-- `getTopStorageLocation`, pointer_nullability_analysis.cc lines 288-293 (one pointee type). -/
def topLoc : Nat := 1

/-- `Environment::assume` (contract). -/
def Env.assume (e : Env) (f : Formula) : Env := { e with fc := .and e.fc f }

/-- `Environment::getValue` of a variable (contract). -/
def Env.get (e : Env) (x : Nat) : PVal := e.vals.getD x nullVal

/-- `Environment::setValue` of a variable (contract). -/
def Env.set (e : Env) (x : Nat) (v : PVal) : Env := { e with vals := e.vals.set x v }

/-- `Environment::proves` (contract). -/
def proves (s : Solver) (e : Env) (f : Formula) : Bool := s.solve (fun g => g = e.fc ∨ g = .not f) = .unsatisfiable

/-- `Environment::allows` (contract). -/
def allows (s : Solver) (e : Env) (f : Formula) : Bool := s.solve (fun g => g = e.fc ∨ g = f) = .satisfiable

/-- `NullableAndMaybeNull`, pointer_nullability.cc lines 196-205. -/
def mayBeNull (v : PVal) : Formula :=
  let f : Formula := match v.fn with | some g => .and (.lit true) g | none => .lit true
  match v.nl with | some g => .and f g | none => f

/-- `isNullable`, pointer_nullability.cc lines 167-206 (no additional constraints). -/
def isNullable (s : Solver) (e : Env) (v : PVal) : Bool :=
  let provable : Option Bool := match v.nl with
    | none => none
    | some nl =>
      if nl = .lit false then some false
      else if proves s e nl then some (!proves s e (.lit false))
      else none
  match provable with
  | some b => b
  | none => allows s e (mayBeNull v)

/-- Adds a diagnostic. -/
def St.report (st : St) (b : Bool) (w : Fault) : St := if b then { st with ds := st.ds ++ [w] } else st

/-- `Environment::assume` on the state. -/
def St.assume (st : St) (f : Formula) : St := { st with env := st.env.assume f }

/-- A new pointer value with the null state of its declared nullability: `initPointerNullState`,
pointer_nullability.cc lines 119-136; `initPointerFromTypeNullability`, value_transferer.cc lines 97-121;
`setToPointerWithNullability`, value_transferer.cc lines 153-158. -/
def St.fromKind (st : St) : Kind → PVal × St
  | .nonnull => (⟨st.n, some (.lit false), some (.lit false)⟩, { st with n := st.n + 1 })
  | .nullable => (⟨st.n, some (.lit true), some (.atom st.n)⟩, { st with n := st.n + 1 })
  | .unspecified => (⟨st.n, some (.lit false), some (.atom st.n)⟩, { st with n := st.n + 1 })

/-- A property, or a fresh atom for "top". -/
def freshIfTop : Option Formula → Nat → Formula × Nat
  | some f, n => (f, n)
  | none, n => (.atom n, n + 1)

/-- `unpackPointerValue`, value_transferer.cc lines 130-151, on the value of variable `x`. -/
def St.unpack (st : St) (x : Nat) : PVal × St :=
  let v := st.env.get x
  if v.fn.isSome && v.nl.isSome then (v, st)
  else
    let (fn, n) := freshIfTop v.fn st.n
    let (nl, n) := freshIfTop v.nl n
    let v' : PVal := ⟨v.loc, some fn, some nl⟩
    (v', { st with n := n, env := st.env.set x v' })

/-- Evaluating an operand: `transferPointer` on the read of a variable, value_transferer.cc lines 742-785, or
`ensureSmartPointerInitialized`, lines 1574-1589, followed by `diagnoseMovedFromNonnullSmartPointer`,
pointer_nullability_diagnosis.cc lines 996-1020; `transferNullPointer`, value_transferer.cc lines 183-189; `transferNotNullPointer`,
lines 221-228. -/
def operand (s : Solver) (d : Decls) (st : St) : Operand → PVal × St
  | .var x =>
    let (v, st) := st.unpack x
    (v, st.report (d.smart x && decide (d.kind x = .nonnull) && isNullable s st.env v) .movedFrom)
  | .null => (nullVal, st)
  | .obj => st.fromKind .nonnull

/-- The arguments of a call that are pointers passed by value, with the nullability of their parameters. -/
def argVals (s : Solver) (d : Decls) (st : St) : List Arg → List (PVal × Kind) × St
  | [] => ([], st)
  | .val o k :: as =>
    let (v, st) := operand s d st o
    let (vs, st) := argVals s d st as
    ((v, k) :: vs, st)
  | .out _ _ :: as => argVals s d st as

/-- `diagnoseArgumentCompatibility`, pointer_nullability_diagnosis.cc lines 508-539, with `diagnoseAssignmentLike`,
lines 318-415, for each argument. -/
def reportArgs (s : Solver) (st : St) : List (PVal × Kind) → St
  | [] => st
  | (v, k) :: vs => reportArgs s (st.report (decide (k = .nonnull) && isNullable s st.env v) .arg) vs

/-- `initializeOutputParameter`, value_transferer.cc lines 883-938, for a parameter that is a pointer to a raw
pointer: nothing happens if the inner pointer type is annotated. -/
def outParams (st : St) : List Arg → St
  | [] => st
  | .val _ _ :: as => outParams st as
  | .out x k :: as =>
    if k = .unspecified then
      let (v, st) := st.fromKind .unspecified
      outParams { st with env := st.env.set x v } as
    else outParams st as

/-- `processPointerComparison`, value_transferer.cc lines 791-831. The first component is the returned value, `none`
if the formula passed in is to be used. A "top" result stands for a fresh atom. -/
def processPointerComparison (st : St) (cf : Formula) (l r : Option Formula) (neg : Bool) : Option Formula × St :=
  match l, r with
  | some l, some r =>
    if l = .lit true then (some (if neg then .not r else r), st)
    else if r = .lit true then (some (if neg then .not l else l), st)
    else
      let eq : Formula := if neg then .not cf else cf
      let ne : Formula := if neg then cf else .not cf
      (none, ((st.assume (.implies (.and l r) eq)).assume (.implies (.and l (.not r)) ne)).assume (.implies (.and (.not l) r) ne))
  | _, _ => (some (.atom st.n), { st with n := st.n + 1 })

/-- One property of the result of `value_or`, value_transferer.cc lines 1414-1443: a fresh atom that equals one
property or the other, depending on `ok`. -/
def eitherProp (st : St) (ok : Formula) (f g : Option Formula) : Option Formula × St :=
  match f, g with
  | some f, some g =>
    let m := Formula.atom st.n
    (some m, (({ st with n := st.n + 1 } : St).assume (.implies ok (.equals m f))).assume (.implies (.not ok) (.equals m g)))
  | _, _ => (none, st)

/-- The null state of the argument of `value_or`, value_transferer.cc lines 1374-1401. -/
def valueOrArg (s : Solver) (st : St) (o : Operand) (a : PVal) : PVal × St :=
  if o = .null then
    if isNullable s st.env nullVal then (nullVal, st)
    else (⟨st.n, some (.lit false), some (.atom st.n)⟩, { st with n := st.n + 1 })
  else (a, st)

/-- Evaluating a pointer-valued expression. `use`: assignment and initialization read the value. `call`:
`transferCallExpr`, value_transferer.cc lines 1056-1142, `diagnoseCallExpr`, pointer_nullability_diagnosis.cc lines
823-911. `cast`: `transferPointer`, value_transferer.cc lines 748-769. `offset`: `transferBinaryOperator`,
type_transferer.cc lines 686-711 (the result is Nonnull), `diagnoseAddSubtract`, pointer_nullability_diagnosis.cc lines
633-643 (not for a literal zero). `release`: value_transferer.cc lines 383-405. `spCast`: `transferSharedPtrCastCall`,
lines 630-695 (overload taking an lvalue). `valueOr`: `transferStatusOrValueOrCall`, lines 1340-1452 (the facts that
are added as invariants are added to the flow condition). `checkNe`: `modelCheckNE`, lines 994-1044. -/
def rhs (s : Solver) (d : Decls) (st : St) : Rhs → PVal × St
  | .use o => operand s d st o
  | .call as k =>
    let (vs, st) := argVals s d st as
    let st := reportArgs s st vs
    let (v, st) := st.fromKind k
    (v, outParams st as)
  | .cast o =>
    let (v, st) := operand s d st o
    (⟨st.n, v.fn, v.nl⟩, { st with n := st.n + 1 })
  | .offset o zero =>
    let (v, st) := operand s d st o
    let st := st.report (!zero && isNullable s st.env v) .arith
    st.fromKind .nonnull
  | .release x =>
    let (v, st) := operand s d st (.var x)
    (v, { st with env := st.env.set x nullVal })
  | .spCast x dyn =>
    let (v, st) := operand s d st (.var x)
    let fn := Formula.atom st.n
    let nl := Formula.atom (st.n + 1)
    let r : PVal := ⟨st.n, some fn, some nl⟩
    let st : St := { st with n := st.n + 2 }
    if dyn then
      let st := match v.nl with | some f => st.assume (.implies f nl) | none => st
      (r, st.assume fn)
    else
      let st := match v.nl with | some f => st.assume (.equals f nl) | none => st
      let st := match v.fn with | some f => st.assume (.equals f fn) | none => st
      (r, st)
  | .valueOr k o =>
    let (a, st) := operand s d st o
    let (r, st) := st.fromKind k
    let (a, st) := valueOrArg s st o a
    let ok := Formula.atom st.n
    let st : St := { st with n := st.n + 1 }
    let (fn, st) := eitherProp st ok r.fn a.fn
    let (nl, st) := eitherProp st ok r.nl a.nl
    (⟨r.loc, fn, nl⟩, st)
  | .checkNe o1 o2 =>
    let (v1, st) := operand s d st o1
    let (v2, st) := operand s d st o2
    let nl := Formula.atom st.n
    let (r, st) := st.fromKind .nullable
    let (res, st) := processPointerComparison st nl v1.nl v2.nl true
    (r, match res with | some f => st.assume (.equals f nl) | none => st)

/-- `mergeFormulas`, pointer_nullability_analysis.cc lines 112-143; `fc` is the flow condition of `MergedEnv`. -/
def mergeFormulas (s : Solver) (e1 e2 : Env) (n : Nat) (fc : Formula) (b1 b2 : Option Formula) : Option Formula × Nat × Formula :=
  if b1 = b2 then (b1, n, fc)
  else match b1, b2 with
    | some f1, some f2 =>
      let rest : Option Formula × Nat × Formula := (some (.atom n), n + 1,
        .and fc (.or (.and e1.fc (.equals (.atom n) f1)) (.and e2.fc (.equals (.atom n) f2))))
      if proves s e1 f1 then
        if proves s e2 f2 then (some (.lit true), n, fc) else rest
      else if proves s e1 (.not f1) && proves s e2 (.not f2) then (some (.lit false), n, fc)
      else rest
    | _, _ => (none, n, fc)

/-- `join` on the value of one variable, pointer_nullability_analysis.cc lines 145-174; the framework calls it on
distinct values only, with a new pointer value (contract). -/
def joinVal (s : Solver) (e1 e2 : Env) (n : Nat) (fc : Formula) (v1 v2 : PVal) : PVal × Nat × Formula :=
  if v1 = v2 then (v1, n, fc)
  else
    let (fn, n1, fc) := mergeFormulas s e1 e2 (n + 1) fc v1.fn v2.fn
    let (nl, n2, fc) := mergeFormulas s e1 e2 n1 fc v1.nl v2.nl
    (⟨n, fn, nl⟩, n2, fc)

/-- `joinVal` on every variable. -/
def joinVals (s : Solver) (e1 e2 : Env) : List PVal → List PVal → Nat → Formula → List PVal × Nat × Formula
  | v1 :: vs1, v2 :: vs2, n, fc =>
    let (v, n, fc) := joinVal s e1 e2 n fc v1 v2
    let (vs, n, fc) := joinVals s e1 e2 vs1 vs2 n fc
    (v :: vs, n, fc)
  | _, _, n, fc => ([], n, fc)

/-- `Environment::join` (contract): the flow condition is that of either environment. -/
def join (s : Solver) (n : Nat) (e1 e2 : Env) : Nat × Env :=
  let (vs, n, fc) := joinVals s e1 e2 e1.vals e2.vals n (.or e1.fc e2.fc)
  (n, ⟨fc, vs⟩)

/-- `widenNullabilityProperty`, pointer_nullability_analysis.cc lines 206-234; the second component says "changed". -/
def widenProperty (s : Solver) (prevE curE : Env) (prev cur : Option Formula) : Option Formula × Bool :=
  if prev = cur then (cur, false)
  else match prev, cur with
    | none, _ => (none, false)
    | _, none => (none, true)
    | some p, some q =>
      if (proves s prevE p && proves s curE q) || (proves s prevE (.not p) && proves s curE (.not q)) then (cur, false)
      else (none, true)

/-- `widen` on the value of one variable, pointer_nullability_analysis.cc lines 236-286; the framework calls it on
distinct values only (contract). -/
def widenVal (s : Solver) (prevE curE : Env) (p q : PVal) : PVal × Bool :=
  if p = q then (q, false)
  else
    let (fn, c1) := widenProperty s prevE curE p.fn q.fn
    let (nl, c2) := widenProperty s prevE curE p.nl q.nl
    if p.loc = q.loc ∧ c1 = false ∧ c2 = false then (q, false)
    else
      let loc := if p.loc = q.loc then q.loc else topLoc
      (⟨loc, fn, nl⟩, !(decide (loc = p.loc) && !c1 && !c2))

/-- `widenVal` on every variable. -/
def widenVals (s : Solver) (prevE curE : Env) : List PVal → List PVal → List PVal × Bool
  | p :: ps, q :: qs =>
    let (v, c) := widenVal s prevE curE p q
    let (vs, cs) := widenVals s prevE curE ps qs
    (v :: vs, c || cs)
  | _, _ => ([], false)

/-- `Environment::widen` (contract): the flow condition is the current one. -/
def widen (s : Solver) (prev cur : Env) : Env × Bool :=
  let (vs, c) := widenVals s prev cur prev.vals cur.vals
  (⟨cur.fc, vs⟩, c)

/-- Both ways out of a condition. -/
structure Br where
  n : Nat
  t : Env
  f : Env
  ds : List Fault

/-- The framework branches on the value of a condition (contract). -/
def St.split (st : St) (g : Formula) : Br := ⟨st.n, st.env.assume g, st.env.assume (.not g), st.ds⟩

/-- Branching on a condition. `nz`, `isz`: `transferNullCheckImplicitCastPtrToBool`, value_transferer.cc lines 859-881,
`transferSmartPointerBoolConversionCall`, lines 486-495. `eq`: `transferNullCheckComparison`, lines 833-857, on the
value the framework gives the comparison: true if the pointers have the same pointee location, a fresh atom otherwise
(contract). `eqSmart`: `transferSmartPointerComparisonOpCall`, lines 589-628. `and`, `or`: the control flow graph
evaluates the second operand in its own block (contract; the framework assumes the conjunction of both operands there,
but the first is already part of the flow condition). -/
def branch (s : Solver) (d : Decls) : Cond → St → Br
  | .nz o, st =>
    let (v, st) := operand s d st o
    match v.nl with
    | some f => st.split (.not f)
    | none => ({ st with n := st.n + 1 } : St).split (.atom st.n)
  | .isz o, st =>
    let (v, st) := operand s d st o
    match v.nl with
    | some f => st.split f
    | none => ({ st with n := st.n + 1 } : St).split (.atom st.n)
  | .eq neg o1 o2, st =>
    let (v1, st) := operand s d st o1
    let (v2, st) := operand s d st o2
    let base : Formula := if v1.loc = v2.loc then .lit true else .atom st.n
    let st : St := { st with n := st.n + 1 }
    let cf : Formula := if neg then .not base else base
    let (res, st) := processPointerComparison st cf v1.nl v2.nl neg
    st.split (res.getD cf)
  | .eqSmart neg x y, st =>
    let (v1, st) := operand s d st (.var x)
    let (v2, st) := operand s d st (.var y)
    let base : Formula := .lit (decide (v1.loc = v2.loc))
    st.split (if neg then .not base else base)
  | .other, st => ({ st with n := st.n + 1 } : St).split (.atom st.n)
  | .and a b, st =>
    let A := branch s d a st
    let B := branch s d b ⟨A.n, A.t, A.ds⟩
    let (n, f) := join s B.n A.f B.f
    ⟨n, B.t, f, B.ds⟩
  | .or a b, st =>
    let A := branch s d a st
    let B := branch s d b ⟨A.n, A.f, A.ds⟩
    let (n, t) := join s B.n A.t B.t
    ⟨n, t, B.f, B.ds⟩

/-- The result of analysing a statement: the environment behind it, `none` if control does not get there. -/
structure SR where
  n : Nat
  env : Option Env
  ds : List Fault

/-- One pass over a loop: the environment of the block that jumps back (`none` if control does not get there), the
environment behind the loop, the diagnostics. -/
structure Pass where
  n : Nat
  back : Option Env
  exit : Env
  ds : List Fault

/-- The fixpoint iteration over a loop (contract of `runTypeErasedDataflowAnalysis`; an inner loop starts
afresh in every pass over an outer one, the framework keeps its states): the environment of the block that
jumps back is widened with its previous one; if that changes nothing, or the head of the loop gets the same values as
before, the iteration stops, and the diagnostics are those of the last pass. `MaxBlockVisits`
(pointer_nullability_diagnosis.cc lines 1639-1642) is the fuel; running out of it is an error. -/
def loop (s : Solver) (pass : Nat → Env → Option Pass) (entry : Env) : Nat → Nat → Env → Option Env → Option Pass
  | 0, _, _, _ => none
  | fuel + 1, n, head, old =>
    match pass n head with
    | none => none
    | some p =>
      match p.back with
      | none => some p
      | some b =>
        let (w, changed) := match old with
          | none => (b, true)
          | some o => widen s o b
        if changed then
          let (n', head') := join s p.n entry w
          if head'.vals = head.vals then some { p with n := n' }
          else loop s pass entry fuel n' head' (some w)
        else some p

/-- Analysis and diagnosis of a statement; `none` if the iteration over a loop does not converge. `assign`:
`diagnoseAssignment`, `diagnoseDeclStmt`, pointer_nullability_diagnosis.cc lines 451-461, 981-994. `deref`:
`diagnoseDereference`, `diagnoseSmartPointerDereference`, `diagnoseSubscript`, `diagnoseArrow`, lines 417-449. `bump`:
`transferPointerIncOrDec`, `transferPointerAddOrSubAssign`, value_transferer.cc lines 191-219,
`diagnoseIncrementDecrement`, `diagnoseAddSubtractAssign`, pointer_nullability_diagnosis.cc lines 626-650. `reset`:
`transferSmartPointerResetCall`, value_transferer.cc lines 407-432, `diagnoseSmartPointerReset`,
pointer_nullability_diagnosis.cc lines 475-503 (overload without arguments). `move`: `transferSmartPointerAssignment`,
value_transferer.cc lines 339-381, `diagnoseSmartPointerAssignment`, pointer_nullability_diagnosis.cc lines 463-473.
`swap`: `swapSmartPointers`, value_transferer.cc lines 434-453. `ret`: `diagnoseReturn`,
pointer_nullability_diagnosis.cc lines 913-930. -/
def stmt (s : Solver) (d : Decls) (fuel : Nat) : Stmt → St → Option SR
  | .skip, st => some ⟨st.n, some st.env, st.ds⟩
  | .seq a b, st =>
    match stmt s d fuel a st with
    | none => none
    | some r =>
      match r.env with
      | none => some r
      | some e => stmt s d fuel b ⟨r.n, e, r.ds⟩
  | .assign x r, st =>
    let (v, st) := rhs s d st r
    let st := st.report (decide (d.kind x = .nonnull) && isNullable s st.env v) .store
    some ⟨st.n, some (st.env.set x v), st.ds⟩
  | .deref o, st =>
    let (v, st) := operand s d st o
    let st := st.report (isNullable s st.env v) .deref
    some ⟨st.n, some st.env, st.ds⟩
  | .bump x zero, st =>
    let st := st.report (!zero && isNullable s st.env (st.env.get x)) .arith
    let (v, st) := st.fromKind .nonnull
    some ⟨st.n, some (st.env.set x v), st.ds⟩
  | .reset x, st =>
    let st := st.report (decide (d.kind x = .nonnull)) .store
    some ⟨st.n, some (st.env.set x nullVal), st.ds⟩
  | .move x y, st =>
    let (v, st) := operand s d st (.var y)
    let st := st.report (decide (d.kind x = .nonnull) && isNullable s st.env v) .store
    some ⟨st.n, some ((st.env.set x v).set y nullVal), st.ds⟩
  | .swap x y, st =>
    let (v, st) := operand s d st (.var x)
    let (w, st) := operand s d st (.var y)
    some ⟨st.n, some ((st.env.set x w).set y v), st.ds⟩
  | .ite c a b, st =>
    let B := branch s d c st
    match stmt s d fuel a ⟨B.n, B.t, B.ds⟩ with
    | none => none
    | some r1 =>
      match stmt s d fuel b ⟨r1.n, B.f, r1.ds⟩ with
      | none => none
      | some r2 =>
        match r1.env, r2.env with
        | some e1, some e2 =>
          let (n, e) := join s r2.n e1 e2
          some ⟨n, some e, r2.ds⟩
        | some e1, none => some ⟨r2.n, some e1, r2.ds⟩
        | none, some e2 => some ⟨r2.n, some e2, r2.ds⟩
        | none, none => some ⟨r2.n, none, r2.ds⟩
  | .while c b, st =>
    let pass : Nat → Env → Option Pass := fun n head =>
      let B := branch s d c ⟨n, head, []⟩
      match stmt s d fuel b ⟨B.n, B.t, B.ds⟩ with
      | none => none
      | some r => some ⟨r.n, r.env, B.f, r.ds⟩
    match loop s pass st.env fuel st.n st.env none with
    | none => none
    | some p => some ⟨p.n, some p.exit, st.ds ++ p.ds⟩
  | .ret o, st =>
    let (v, st) := operand s d st o
    let st := st.report (decide (d.ret = .nonnull) && isNullable s st.env v) .ret
    some ⟨st.n, none, st.ds⟩
  | .abort, st => some ⟨st.n, none, st.ds⟩

/-- The values of the variables `x`, `x+1`, ... at entry: from their types. -/
def initVals (d : Decls) : Nat → Nat → St → St
  | 0, _, st => st
  | m + 1, x, st =>
    let (v, st) := st.fromKind (d.kind x)
    initVals d m (x + 1) { st with env := { st.env with vals := st.env.vals ++ [v] } }

/-- `diagnosePointerNullability`, pointer_nullability_diagnosis.cc lines 1634-1736, for a function with `m` variables:
the diagnostics, or `none` for an error. The checks of declarations are not part of it. -/
def diagnose (s : Solver) (d : Decls) (fuel m : Nat) (body : Stmt) : Option (List Fault) :=
  (stmt s d fuel body (initVals d m 0 ⟨2, ⟨.lit true, []⟩, []⟩)).map SR.ds

end Verif.NullSound

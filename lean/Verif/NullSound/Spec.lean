/-
Specification for C121-C125: a C++ function over raw and smart pointer variables, what its executions are, and what
it means for an execution to break the nullability contract. Nothing here mentions the checker.

Expressions are in three-address form (a nested expression is a sequence of assignments to unannotated temporaries).
Pointees, fields and address-taken variables other than output arguments are outside the language.
-/
namespace Verif.NullSound

/-- The nullability a pointer type is annotated with. -/
inductive Kind
  | nonnull | nullable | unspecified
deriving DecidableEq, Repr

/-- An operand: a variable, `nullptr`, or the address of an object (`&o`, `this`, `new T`). -/
inductive Operand
  | var (x : Nat)
  | null
  | obj
deriving DecidableEq, Repr

/-- An argument of a call: a pointer passed by value for a parameter annotated `k`, or `&x` for an output parameter
`T* k *`. -/
inductive Arg
  | val (o : Operand) (k : Kind)
  | out (x : Nat) (k : Kind)
deriving DecidableEq, Repr

/-- A pointer-valued expression. `offset o true` is `o + 0` with a literal zero; `release x` is `x.release()`;
`spCast x dyn` is `static_pointer_cast` / `dynamic_pointer_cast` of a `shared_ptr`; `valueOr k o` is
`StatusOr<T* k>::value_or(o)`; `checkNe` is the call inside `CHECK_NE`, null if the two pointers differ. -/
inductive Rhs
  | use (o : Operand)
  | call (args : List Arg) (ret : Kind)
  | cast (o : Operand)
  | offset (o : Operand) (zero : Bool)
  | release (x : Nat)
  | spCast (x : Nat) (dyn : Bool)
  | valueOr (k : Kind) (o : Operand)
  | checkNe (o1 o2 : Operand)
deriving DecidableEq, Repr

/-- A condition: `o`, `!o`, `o1 == o2` / `o1 != o2`, the same on two smart pointers, a condition that does not involve
pointers, and the short-circuit operators. -/
inductive Cond
  | nz (o : Operand)
  | isz (o : Operand)
  | eq (neg : Bool) (o1 o2 : Operand)
  | eqSmart (neg : Bool) (x y : Nat)
  | other
  | and (a b : Cond)
  | or (a b : Cond)
deriving DecidableEq, Repr

/-- A statement. `bump x true` is `x += 0`, `bump x false` is `++x`, `x += n` and so on; `reset x` is `x.reset()`;
`move x y` is `x = std::move(y)`; `abort` is a call that does not return. -/
inductive Stmt
  | skip
  | seq (s t : Stmt)
  | assign (x : Nat) (r : Rhs)
  | deref (o : Operand)
  | bump (x : Nat) (zero : Bool)
  | reset (x : Nat)
  | move (x y : Nat)
  | swap (x y : Nat)
  | ite (c : Cond) (s t : Stmt)
  | while (c : Cond) (s : Stmt)
  | ret (o : Operand)
  | abort
deriving DecidableEq, Repr

/-- The declarations: the annotation of every variable's type, which variables are smart pointers, the annotation of
the return type. -/
structure Decls where
  kind : Nat → Kind
  smart : Nat → Bool
  ret : Kind

/-- A pointer at run time: its address (`none` is null) and, a ghost, whether it comes from a source the annotations
speak about (`false`: from an unannotated one). -/
structure Val where
  addr : Option Nat
  known : Bool
deriving DecidableEq, Repr

/-- What a pointer from a source annotated `k` may be. -/
def FromKind : Kind → Val → Prop
  | .nonnull, v => v.addr ≠ none
  | .nullable, v => v.known = true
  | .unspecified, v => v.known = false

/-- A null pointer that comes from an annotated source or a null literal. -/
def KnownNull (v : Val) : Prop := v.addr = none ∧ v.known = true

/-- Any null pointer. -/
def AnyNull (v : Val) : Prop := v.addr = none

/-- The ways to break the contract with a null pointer: dereference it, compute with it, pass it for a Nonnull
parameter, return it as a Nonnull result, store it in a Nonnull variable, use a Nonnull smart pointer that holds it. -/
inductive Fault
  | deref | arith | arg | ret | store | movedFrom
deriving DecidableEq, Repr

/-- The store. -/
abbrev State := List Val

/-- How a piece of a program ends: normally, by leaving the function, by a fault. -/
inductive Out
  | norm (σ : State)
  | left
  | fault (w : Fault)

/-- Variable `x` may be used: a Nonnull smart pointer must not hold a `bad` pointer. -/
def Usable (bad : Val → Prop) (d : Decls) (x : Nat) (v : Val) : Prop :=
  ¬ (d.smart x = true ∧ d.kind x = .nonnull ∧ bad v)

/-- The value of an operand. -/
inductive OpVal (bad : Val → Prop) (d : Decls) (σ : State) : Operand → Val → Prop
  | var {x v} : σ[x]? = some v → Usable bad d x v → OpVal bad d σ (.var x) v
  | null : OpVal bad d σ .null ⟨none, true⟩
  | obj {v} : v.addr ≠ none → OpVal bad d σ .obj v

/-- Evaluating the operand faults. -/
inductive OpFault (bad : Val → Prop) (d : Decls) (σ : State) : Operand → Prop
  | var {x v} : σ[x]? = some v → ¬ Usable bad d x v → OpFault bad d σ (.var x)

/-- Evaluating the arguments of a call, left to right, gives these values. -/
inductive ArgVals (bad : Val → Prop) (d : Decls) (σ : State) : List Arg → List (Val × Kind) → Prop
  | nil : ArgVals bad d σ [] []
  | val {o k as v vs} : OpVal bad d σ o v → ArgVals bad d σ as vs → ArgVals bad d σ (.val o k :: as) ((v, k) :: vs)
  | out {x k as vs} : ArgVals bad d σ as vs → ArgVals bad d σ (.out x k :: as) vs

/-- What the callee does to the output arguments: each holds, afterwards, a pointer from a source with the annotation
of the parameter. -/
inductive Outs : List Arg → State → State → Prop
  | nil {σ} : Outs [] σ σ
  | val {o k as σ σ'} : Outs as σ σ' → Outs (.val o k :: as) σ σ'
  | out {x k as σ σ'} {v : Val} : FromKind k v → Outs as (σ.set x v) σ' → Outs (.out x k :: as) σ σ'

/-- The result of an expression. -/
inductive Res
  | ok (σ : State) (v : Val)
  | fault (w : Fault)

/-- The operands an expression reads. -/
def Rhs.reads : Rhs → List Operand
  | .use o => [o]
  | .call as _ => as.filterMap fun | .val o _ => some o | .out _ _ => none
  | .cast o => [o]
  | .offset o _ => [o]
  | .release x => [.var x]
  | .spCast x _ => [.var x]
  | .valueOr _ o => [o]
  | .checkNe o1 o2 => [o1, o2]

/-- Evaluation of an expression; `bad` says which pointers must not be used where a non-null pointer is needed. -/
inductive Eval (bad : Val → Prop) (d : Decls) : Rhs → State → Res → Prop
  | moved {r σ o} : o ∈ r.reads → OpFault bad d σ o → Eval bad d r σ (.fault .movedFrom)
  | use {o σ v} : OpVal bad d σ o v → Eval bad d (.use o) σ (.ok σ v)
  | callFault {as k σ vs v} : ArgVals bad d σ as vs → (v, Kind.nonnull) ∈ vs → bad v → Eval bad d (.call as k) σ (.fault .arg)
  | call {as k σ vs σ' v} : ArgVals bad d σ as vs → (∀ v, (v, Kind.nonnull) ∈ vs → ¬ bad v) → Outs as σ σ' →
      FromKind k v → Eval bad d (.call as k) σ (.ok σ' v)
  | cast {o σ v} : OpVal bad d σ o v → Eval bad d (.cast o) σ (.ok σ v)
  | offsetFault {o σ v} : OpVal bad d σ o v → bad v → Eval bad d (.offset o false) σ (.fault .arith)
  | offset {o σ v v'} : OpVal bad d σ o v → ¬ bad v → v'.addr ≠ none → Eval bad d (.offset o false) σ (.ok σ v')
  | offsetZero {o σ v} : OpVal bad d σ o v → Eval bad d (.offset o true) σ (.ok σ v)
  | release {x σ v} : OpVal bad d σ (.var x) v → Eval bad d (.release x) σ (.ok (σ.set x ⟨none, true⟩) v)
  | spCast {x dyn σ v} : OpVal bad d σ (.var x) v → Eval bad d (.spCast x dyn) σ (.ok σ v)
  | spCastFails {x σ v} : OpVal bad d σ (.var x) v → Eval bad d (.spCast x true) σ (.ok σ ⟨none, true⟩)
  | valueOrOk {k o σ v w} : OpVal bad d σ o w → FromKind k v → Eval bad d (.valueOr k o) σ (.ok σ v)
  | valueOrElse {k o σ v} : OpVal bad d σ o v → Eval bad d (.valueOr k o) σ (.ok σ v)
  | checkNe {o1 o2 σ v1 v2 v} : OpVal bad d σ o1 v1 → OpVal bad d σ o2 v2 → (v.addr = none ↔ v1.addr ≠ v2.addr) →
      Eval bad d (.checkNe o1 o2) σ (.ok σ v)

/-- Evaluation of a condition: to a truth value, or (`none`) to a fault. -/
inductive Holds (bad : Val → Prop) (d : Decls) (σ : State) : Cond → Option Bool → Prop
  | nzFault {o} : OpFault bad d σ o → Holds bad d σ (.nz o) none
  | nz {o v} : OpVal bad d σ o v → Holds bad d σ (.nz o) (some v.addr.isSome)
  | iszFault {o} : OpFault bad d σ o → Holds bad d σ (.isz o) none
  | isz {o v} : OpVal bad d σ o v → Holds bad d σ (.isz o) (some v.addr.isNone)
  | eqFault {neg o1 o2 o} : o ∈ [o1, o2] → OpFault bad d σ o → Holds bad d σ (.eq neg o1 o2) none
  | eq {neg o1 o2 v1 v2} : OpVal bad d σ o1 v1 → OpVal bad d σ o2 v2 →
      Holds bad d σ (.eq neg o1 o2) (some (decide (v1.addr = v2.addr) != neg))
  | eqSmartFault {neg x y z} : z ∈ [x, y] → OpFault bad d σ (.var z) → Holds bad d σ (.eqSmart neg x y) none
  | eqSmart {neg x y v1 v2} : OpVal bad d σ (.var x) v1 → OpVal bad d σ (.var y) v2 →
      Holds bad d σ (.eqSmart neg x y) (some (decide (v1.addr = v2.addr) != neg))
  | other {b} : Holds bad d σ .other (some b)
  | andFault {a b} : Holds bad d σ a none → Holds bad d σ (.and a b) none
  | andFalse {a b} : Holds bad d σ a (some false) → Holds bad d σ (.and a b) (some false)
  | andTrue {a b r} : Holds bad d σ a (some true) → Holds bad d σ b r → Holds bad d σ (.and a b) r
  | orFault {a b} : Holds bad d σ a none → Holds bad d σ (.or a b) none
  | orTrue {a b} : Holds bad d σ a (some true) → Holds bad d σ (.or a b) (some true)
  | orFalse {a b r} : Holds bad d σ a (some false) → Holds bad d σ b r → Holds bad d σ (.or a b) r

/-- Execution of a statement, up to a normal end, leaving the function, or the first fault. Executions that never end
do all their faults after finitely many steps, so they are covered by their prefixes. -/
inductive Exec (bad : Val → Prop) (d : Decls) : Stmt → State → Out → Prop
  | skip {σ} : Exec bad d .skip σ (.norm σ)
  | seq {s t σ σ' r} : Exec bad d s σ (.norm σ') → Exec bad d t σ' r → Exec bad d (.seq s t) σ r
  | seqLeft {s t σ} : Exec bad d s σ .left → Exec bad d (.seq s t) σ .left
  | seqFault {s t σ w} : Exec bad d s σ (.fault w) → Exec bad d (.seq s t) σ (.fault w)
  | assignFault {x r σ w} : Eval bad d r σ (.fault w) → Exec bad d (.assign x r) σ (.fault w)
  | assignBad {x r σ σ' v} : Eval bad d r σ (.ok σ' v) → d.kind x = .nonnull → bad v → Exec bad d (.assign x r) σ (.fault .store)
  | assign {x r σ σ' v} : Eval bad d r σ (.ok σ' v) → ¬ (d.kind x = .nonnull ∧ bad v) →
      Exec bad d (.assign x r) σ (.norm (σ'.set x v))
  | derefMoved {o σ} : OpFault bad d σ o → Exec bad d (.deref o) σ (.fault .movedFrom)
  | derefBad {o σ v} : OpVal bad d σ o v → bad v → Exec bad d (.deref o) σ (.fault .deref)
  | deref {o σ v} : OpVal bad d σ o v → ¬ bad v → Exec bad d (.deref o) σ (.norm σ)
  | bumpBad {x σ v} : σ[x]? = some v → bad v → Exec bad d (.bump x false) σ (.fault .arith)
  | bump {x σ v v'} : σ[x]? = some v → ¬ bad v → v'.addr ≠ none → Exec bad d (.bump x false) σ (.norm (σ.set x v'))
  | bumpZero {x σ} : Exec bad d (.bump x true) σ (.norm σ)
  | resetBad {x σ} : d.kind x = .nonnull → Exec bad d (.reset x) σ (.fault .store)
  | reset {x σ} : d.kind x ≠ .nonnull → Exec bad d (.reset x) σ (.norm (σ.set x ⟨none, true⟩))
  | moveMoved {x y σ} : OpFault bad d σ (.var y) → Exec bad d (.move x y) σ (.fault .movedFrom)
  | moveBad {x y σ v} : OpVal bad d σ (.var y) v → d.kind x = .nonnull → bad v → Exec bad d (.move x y) σ (.fault .store)
  | move {x y σ v} : x ≠ y → OpVal bad d σ (.var y) v → ¬ (d.kind x = .nonnull ∧ bad v) →
      Exec bad d (.move x y) σ (.norm ((σ.set x v).set y ⟨none, true⟩))
  | moveSelf {x σ v} : OpVal bad d σ (.var x) v → ¬ (d.kind x = .nonnull ∧ bad v) → Exec bad d (.move x x) σ (.norm σ)
  | swapMoved {x y z σ} : z ∈ [x, y] → OpFault bad d σ (.var z) → Exec bad d (.swap x y) σ (.fault .movedFrom)
  | swap {x y σ v w} : OpVal bad d σ (.var x) v → OpVal bad d σ (.var y) w →
      Exec bad d (.swap x y) σ (.norm ((σ.set x w).set y v))
  | iteFault {c s t σ} : Holds bad d σ c none → Exec bad d (.ite c s t) σ (.fault .movedFrom)
  | iteTrue {c s t σ r} : Holds bad d σ c (some true) → Exec bad d s σ r → Exec bad d (.ite c s t) σ r
  | iteFalse {c s t σ r} : Holds bad d σ c (some false) → Exec bad d t σ r → Exec bad d (.ite c s t) σ r
  | whileFault {c s σ} : Holds bad d σ c none → Exec bad d (.while c s) σ (.fault .movedFrom)
  | whileFalse {c s σ} : Holds bad d σ c (some false) → Exec bad d (.while c s) σ (.norm σ)
  | whileLeft {c s σ} : Holds bad d σ c (some true) → Exec bad d s σ .left → Exec bad d (.while c s) σ .left
  | whileBad {c s σ w} : Holds bad d σ c (some true) → Exec bad d s σ (.fault w) → Exec bad d (.while c s) σ (.fault w)
  | whileTrue {c s σ σ' r} : Holds bad d σ c (some true) → Exec bad d s σ (.norm σ') → Exec bad d (.while c s) σ' r →
      Exec bad d (.while c s) σ r
  | retMoved {o σ} : OpFault bad d σ o → Exec bad d (.ret o) σ (.fault .movedFrom)
  | retBad {o σ v} : OpVal bad d σ o v → d.ret = .nonnull → bad v → Exec bad d (.ret o) σ (.fault .ret)
  | ret {o σ v} : OpVal bad d σ o v → ¬ (d.ret = .nonnull ∧ bad v) → Exec bad d (.ret o) σ .left
  | abort {σ} : Exec bad d .abort σ .left

/-- A store a caller may start the function in: every parameter (and every variable read before it is assigned, as
uninitialised memory) is what its annotation says. -/
def Starts (d : Decls) (σ : State) : Prop := ∀ x v, σ[x]? = some v → FromKind (d.kind x) v

/-! ### The programs the soundness theorem is about -/

/-- No output argument whose inner pointer type is annotated. -/
def Rhs.plainOuts : Rhs → Prop
  | .call as _ => ∀ x k, Arg.out x k ∈ as → k = .unspecified
  | .offset _ zero => zero = false
  | _ => True

/-- No comparison of two smart pointers. -/
def Cond.plain : Cond → Prop
  | .eqSmart _ _ _ => False
  | .and a b => a.plain ∧ b.plain
  | .or a b => a.plain ∧ b.plain
  | _ => True

/-- The programs covered: without the five constructs the checker does not handle soundly: output arguments with an annotated inner pointer,
`p + 0`, `p += 0`, comparisons of two smart pointers, self-moves. -/
def Stmt.plain : Stmt → Prop
  | .seq s t => s.plain ∧ t.plain
  | .assign _ r => r.plainOuts
  | .bump _ zero => zero = false
  | .move x y => x ≠ y
  | .ite c s t => c.plain ∧ s.plain ∧ t.plain
  | .while c s => c.plain ∧ s.plain
  | _ => True

/-- Every callee is annotated. -/
def Rhs.annotated : Rhs → Prop
  | .call as k => k ≠ .unspecified ∧ ∀ x k, Arg.out x k ∈ as → k ≠ .unspecified
  | .valueOr k _ => k ≠ .unspecified
  | _ => True

/-- Every callee is annotated. -/
def Stmt.annotated : Stmt → Prop
  | .seq s t => s.annotated ∧ t.annotated
  | .assign _ r => r.annotated
  | .ite _ s t => s.annotated ∧ t.annotated
  | .while _ s => s.annotated
  | _ => True

/-- A store to start a fully annotated function in: variables without an annotation (locals) hold uninitialised, non-null,
garbage. -/
def StartsAnnotated (d : Decls) (σ : State) : Prop :=
  ∀ x v, σ[x]? = some v → (d.kind x = .nonnull → v.addr ≠ none) ∧ (d.kind x = .unspecified → v.addr ≠ none)

/-! ### Null checks -/

/-- `c` evaluating to `b` means that `x` is not null. -/
inductive Guards (x : Nat) : Bool → Cond → Prop
  | nz : Guards x true (.nz (.var x))
  | isz : Guards x false (.isz (.var x))
  | ne1 : Guards x true (.eq true (.var x) .null)
  | ne2 : Guards x true (.eq true .null (.var x))
  | eq1 : Guards x false (.eq false (.var x) .null)
  | eq2 : Guards x false (.eq false .null (.var x))
  | and1 {a b} : Guards x true a → Guards x true (.and a b)
  | and2 {a b} : Guards x true b → Guards x true (.and a b)
  | or1 {a b} : Guards x false a → Guards x false (.or a b)
  | or2 {a b} : Guards x false b → Guards x false (.or a b)

/-- Statements that use `x`, and no other pointer, where a non-null pointer is needed. -/
inductive Uses (d : Decls) (x : Nat) : Stmt → Prop
  | skip : Uses d x .skip
  | seq {s t} : Uses d x s → Uses d x t → Uses d x (.seq s t)
  | deref : Uses d x (.deref (.var x))
  | copy {y} : Uses d x (.assign y (.use (.var x)))
  | cast {y} : Uses d x (.assign y (.cast (.var x)))
  | offset {y} : Uses d x (.assign y (.offset (.var x) false))
  | call {y k k'} : k' = .nonnull ∨ d.kind y ≠ .nonnull ∧ y ≠ x → Uses d x (.assign y (.call [.val (.var x) k] k'))
  | bump : Uses d x (.bump x false)
  | ret : Uses d x (.ret (.var x))

end Verif.NullSound

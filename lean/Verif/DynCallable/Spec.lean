import Mathlib.Logic.Function.Basic
import Mathlib.Data.List.Basic

/-!
# What a user of `rs_std::DynCallable` expects (specification)

A C++ variable of type `rs_std::DynCallable<Sig>` is either empty, owns one Rust closure
(`Box<dyn Fn…>`), or -- for `Sig = R(P...) &&` only -- has been called and is spent.
Client programs are finite sequences of the operations of the class; what can be
observed is the sequence of events below.  Nothing here mentions managers, invokers,
storage bits or temporaries.
-/

namespace Verif.DynCallable

/-- The qualifier of the signature: `R(P...) const`, `R(P...)`, `R(P...) &&`. -/
inductive Qual | const | nonconst | rvalue
  deriving DecidableEq, Repr

/-- Client operations.  Variables and closures are named by numbers. -/
inductive Op
  /-- Rust passes closure `b` to C++, which receives it in the new variable `o`. -/
  | recv (b o : Nat)
  /-- `DynCallable o;` or `DynCallable o(nullptr);` -/
  | default (o : Nat)
  /-- `DynCallable d(std::move(s));` -/
  | moveCtor (d s : Nat)
  /-- `d = std::move(s);` -/
  | moveAssign (d s : Nat)
  /-- `a.swap(b)`, `swap(a, b)` -/
  | swap (a b : Nat)
  /-- `o(args...)`, or `std::move(o)(args...)` for a `&&` signature -/
  | call (o : Nat)
  /-- `bool(o)`, `o != nullptr` -/
  | hasValue (o : Nat)
  /-- `o` is moved into Rust (`Box<dyn Fn…>` return value or argument). -/
  | toRust (o : Nat)
  /-- `absl::AnyInvocable<Sig>(std::move(o))` -/
  | toAny (o : Nat)
  /-- the end of the lifetime of `o` -/
  | destroy (o : Nat)
  deriving DecidableEq, Repr

/-- The invoker an `absl::AnyInvocable` is left with. -/
inductive Callee | none | terminates | closure
  deriving DecidableEq, Repr

/-- Observable events. -/
inductive Ev
  /-- C++ became the owner of `b`. -/
  | recv (b : Nat)
  /-- `b` was called through a shared reference. -/
  | call (b : Nat)
  /-- `b` was called by value (`FnOnce`). -/
  | consume (b : Nat)
  /-- the destructor of `b` was run. -/
  | drop (b : Nat)
  /-- Rust became the owner of the closure (`none`: of the panicking fallback). -/
  | toRust (b : Option Nat)
  /-- an `absl::AnyInvocable` became the owner. -/
  | toAny (c : Callee) (b : Option Nat)
  /-- the answer of `bool(o)`. -/
  | bool (o : Nat) (v : Bool)
  deriving DecidableEq, Repr

/-- What an observer learns from a program run.  After undefined behaviour nothing. -/
inductive Result
  /-- the program completed -/
  | done (log : List Ev)
  /-- `std::terminate` -/
  | terminated (log : List Ev)
  /-- undefined behaviour -/
  | ub
  /-- not a program: a name used outside its lifetime, or a closure Rust does not own -/
  | ill
  deriving DecidableEq, Repr

namespace Spec

/-- What a variable holds. -/
inductive Cell
  | empty
  | holds (b : Nat)
  | spent
  deriving DecidableEq, Repr

structure State where
  /-- the variables alive, and what they hold -/
  cells : Nat → Option Cell
  /-- the closures owned by Rust -/
  atRust : Nat → Bool
  log : List Ev

/-- At the start there are no variables, and Rust owns all closures. -/
def init : State := { cells := fun _ => none, atRust := fun _ => true, log := [] }

inductive Out
  | ok (s : State)
  | terminated (log : List Ev)
  | ub
  | ill

/-- Destroying what a variable holds. -/
def dropOf : Cell → List Ev
  | .holds b => [.drop b]
  | _ => []

def step (q : Qual) (s : State) : Op → Out
  | .recv b o =>
    match s.cells o, s.atRust b with
    | none, true => .ok { s with
        cells := Function.update s.cells o (some (.holds b)),
        atRust := Function.update s.atRust b false, log := s.log ++ [.recv b] }
    | _, _ => .ill
  | .default o =>
    match s.cells o with
    | none => .ok { s with cells := Function.update s.cells o (some .empty) }
    | some _ => .ill
  | .moveCtor d s' =>
    match s.cells d, s.cells s' with
    | none, some c => .ok { s with
        cells := Function.update (Function.update s.cells d (some c)) s' (some .empty) }
    | _, _ => .ill
  | .moveAssign d s' =>
    match s.cells d, s.cells s' with
    | some old, some c =>
      if d = s' then
        match old with
        | .holds _ => .ub
        | _ => .ok { s with cells := Function.update s.cells d (some .empty) }
      else .ok { s with
        cells := Function.update (Function.update s.cells d (some c)) s' (some .empty),
        log := s.log ++ dropOf old }
    | _, _ => .ill
  | .swap a b =>
    match s.cells a, s.cells b with
    | some ca, some cb => .ok { s with
        cells := Function.update (Function.update s.cells a (some cb)) b (some ca) }
    | _, _ => .ill
  | .call o =>
    match s.cells o, q with
    | none, _ => .ill
    | some .empty, _ => .ub
    | some .spent, _ => .terminated s.log
    | some (.holds b), .rvalue => .ok { s with
        cells := Function.update s.cells o (some .spent), log := s.log ++ [.consume b] }
    | some (.holds b), _ => .ok { s with log := s.log ++ [.call b] }
  | .hasValue o =>
    match s.cells o with
    | none => .ill
    | some c => .ok { s with log := s.log ++ [.bool o (decide (c ≠ .empty))] }
  | .toRust o =>
    match s.cells o with
    | none => .ill
    | some .empty => .ok { s with log := s.log ++ [.toRust none] }
    | some (.holds b) => .ok { s with
        cells := Function.update s.cells o (some .empty),
        atRust := Function.update s.atRust b true, log := s.log ++ [.toRust (some b)] }
    | some .spent => .ub
  | .toAny o =>
    match s.cells o with
    | none => .ill
    | some c => .ok { s with
        cells := Function.update s.cells o (some .empty),
        log := s.log ++ [match c with
          | .empty => .toAny .none none
          | .holds b => .toAny .closure (some b)
          | .spent => .toAny .terminates none] }
  | .destroy o =>
    match s.cells o with
    | none => .ill
    | some c => .ok { s with
        cells := Function.update s.cells o none, log := s.log ++ dropOf c }

def runFrom (q : Qual) : State → List Op → Out
  | s, [] => .ok s
  | s, op :: ops =>
    match step q s op with
    | .ok s' => runFrom q s' ops
    | r => r

def observe : Out → Result
  | .ok s => .done s.log
  | .terminated l => .terminated l
  | .ub => .ub
  | .ill => .ill

/-- The behaviour a client program should have. -/
def behaviour (q : Qual) (p : List Op) : Result := observe (runFrom q init p)

end Spec

/-! ### Ownership accounting on a log -/

/-- Ownership of `b` was received by C++. -/
def Ev.acquires (b : Nat) : Ev → Bool
  | .recv b' => b' == b
  | _ => false

/-- Ownership of `b` ended in `DynCallable`: dropped, called by value, or handed over. -/
def Ev.releases (b : Nat) : Ev → Bool
  | .consume b' => b' == b
  | .drop b' => b' == b
  | .toRust (some b') => b' == b
  | .toAny _ (some b') => b' == b
  | _ => false

/-- The event runs code of, or hands over, `b`. -/
def Ev.touches (b : Nat) (e : Ev) : Bool := e.releases b || e == .call b

/-- `b` is owned by C++ after the events of `l`. -/
def owned (b : Nat) (l : List Ev) : Prop :=
  l.countP (Ev.acquires b) = l.countP (Ev.releases b) + 1

/-- `b` is not owned by C++ after the events of `l`. -/
def unowned (b : Nat) (l : List Ev) : Prop :=
  l.countP (Ev.acquires b) = l.countP (Ev.releases b)

/-- Every closure is touched only while C++ owns it, and received only while it does not. -/
structure WellOwned (l : List Ev) : Prop where
  touch : ∀ pre e post b, l = pre ++ e :: post → e.touches b = true → owned b pre
  recv : ∀ pre e post b, l = pre ++ e :: post → e.acquires b = true → unowned b pre

end Verif.DynCallable

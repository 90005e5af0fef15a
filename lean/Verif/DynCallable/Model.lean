import Verif.DynCallable.Spec

/-!
# Model of `support/rs_std/dyn_callable.h` and `support/rs_std/dyn_callable.rs`

Objects are located in memory (`Loc`), so that aliasing of `*this` and `other` is
modelled.  Temporaries of `std::swap` and of passing by value have their own locations.
-/

namespace Verif.DynCallable.Impl

/-- Memory locations: named variables, and temporaries.  (Model device.) -/
inductive Loc
  | var (n : Nat)
  | tmp (n : Nat)
  deriving DecidableEq, Repr

/-- `TypeErasedState storage_` (dyn_callable.h:73): the bits of a `Box<dyn F>`.  `stub` is the
zero-sized closure that the invoker of an `FnOnce` leaves behind (generate_bindings/lib.rs
1504–1517). -/
inductive Slot
  | uninit
  | closure (b : Nat)
  | stub
  deriving DecidableEq, Repr

/-- `ManagerType* manager_` (dyn_callable.h:74): absl's `EmptyManager` (does nothing) or the
generated `#manager_ident` that forwards to `dyn_callable_rs::manager`. -/
inductive Mgr | empty | rust
  deriving DecidableEq, Repr

/-- `InvokerType* invoker_` (dyn_callable.h:138): null, `InvokedAfterMove` (89–94), or the
generated lambda. -/
inductive Inv | null | afterMove | rust
  deriving DecidableEq, Repr

/-- The data members (dyn_callable.h:73–74, 138). -/
structure Obj where
  storage : Slot
  manager : Mgr
  invoker : Inv
  deriving DecidableEq, Repr

/-- Where a closure is, from the point of view of the Rust allocator: owned by Rust code,
reachable only through bits in C++ memory, dropped or consumed, or owned by an
`absl::AnyInvocable`. -/
inductive Place | rust | cpp | gone | any
  deriving DecidableEq, Repr

structure State where
  mem : Loc → Option Obj
  place : Nat → Place
  log : List Ev

def init : State := { mem := fun _ => none, place := fun _ => .rust, log := [] }

inductive Out (α : Type)
  | ok (a : α) (s : State)
  | terminated (log : List Ev)
  | ub
  | ill

/-- Programs over the memory. -/
def M (α : Type) : Type := State → Out α

def M.bind (m : M α) (f : α → M β) : M β := fun s =>
  match m s with
  | .ok a s' => f a s'
  | .terminated l => .terminated l
  | .ub => .ub
  | .ill => .ill

instance : Monad M where
  pure a := fun s => .ok a s
  bind := M.bind

def ub : M α := fun _ => .ub
def ill : M α := fun _ => .ill
def terminate : M α := fun s => .terminated s.log

/-- Access to a member of a live object. -/
def read (l : Loc) : M Obj := fun s =>
  match s.mem l with
  | some o => .ok o s
  | none => .ill

/-- Update of the members of a live object. -/
def modify (l : Loc) (f : Obj → Obj) : M Unit := fun s =>
  match s.mem l with
  | some o => .ok () { s with mem := Function.update s.mem l (some (f o)) }
  | none => .ill

/-- Begin the lifetime of an object at a free location. -/
def create (l : Loc) (o : Obj) : M Unit := fun s =>
  match s.mem l with
  | none => .ok () { s with mem := Function.update s.mem l (some o) }
  | some _ => .ill

/-- End the lifetime of an object (after its destructor body). -/
def free (l : Loc) : M Unit := fun s =>
  match s.mem l with
  | some _ => .ok () { s with mem := Function.update s.mem l none }
  | none => .ill

def emit (e : Ev) : M Unit := fun s => .ok () { s with log := s.log ++ [e] }

/-- Run code of, or otherwise use, the `Box` for closure `b` that C++ has the bits of, and
record its new place.  Using a `Box` that is gone, or that somebody else owns, is undefined. -/
def useBox (b : Nat) (p : Place) : M Unit := fun s =>
  match s.place b with
  | .cpp => .ok () { s with place := Function.update s.place b p }
  | _ => .ub

/-- `manager(Dispose, from, _)` (dyn_callable.rs:78–81): `drop_in_place`.  Dropping the
zero-sized stub does nothing observable. -/
def managerDispose : Mgr → Loc → M Unit
  | .empty, _ => pure ()
  | .rust, l => do
    let o ← read l
    match o.storage with
    | .uninit => ub
    | .stub => pure ()
    | .closure b => do useBox b .gone; emit (.drop b)

/-- `manager(RelocateFromTo, from, to)` (dyn_callable.rs:82–86): `copy_nonoverlapping`, which
is undefined when the regions overlap. -/
def managerRelocate : Mgr → Loc → Loc → M Unit
  | .empty, _, _ => pure ()
  | .rust, src, dst =>
    if src = dst then ub else do
    let o ← read src
    modify dst (fun d => { d with storage := o.storage })

/-- `ManagedCallable()` and `Impl() = default` (dyn_callable.h:46, 108, 138). -/
def defaultObj : Obj := { storage := .uninit, manager := .empty, invoker := .null }

/-- `ManagedCallable::operator=(ManagedCallable&&)` (dyn_callable.h:59–71). -/
def managedAssign (this other : Loc) : M Unit := do
  let t ← read this
  managerDispose t.manager this
  let o ← read other
  managerRelocate o.manager other this
  let o ← read other
  modify this (fun t => { t with manager := o.manager })
  modify other (fun o => { o with manager := .empty })

/-- `Impl::operator=(Impl&&)` (dyn_callable.h:112–117). -/
def implAssign (this other : Loc) : M Unit := do
  managedAssign this other
  let o ← read other
  modify this (fun t => { t with invoker := o.invoker })
  modify other (fun o => { o with invoker := .null })

/-- `Impl(Impl&&)` (dyn_callable.h:111): default-construct the members, then assign. -/
def implMoveCtor (this other : Loc) : M Unit := do
  let _ ← read other
  create this defaultObj
  implAssign this other

/-- `~DynCallable` (dyn_callable.h:48–50, 249). -/
def destructor (this : Loc) : M Unit := do
  let t ← read this
  managerDispose t.manager this
  free this

/-- `Impl::HasValue` (dyn_callable.h:135). -/
def hasValue (this : Loc) : M Bool := do
  let t ← read this
  pure (decide (t.invoker ≠ .null))

/-- The generated `#invoker_ident` with the unwrapper for the Rust trait
(generate_bindings/lib.rs 1498–1522, 1584–1593).  `&` and `const` signatures use `Fn`
(rs_snippet.rs 1003–1011), so the closure is called through `&*f`; `FnOnce` swaps a stub into
the slot and calls the closure by value.  Arguments and results are not modelled. -/
def rustInvoker (q : Qual) (l : Loc) : M Unit := do
  let o ← read l
  match o.storage, q with
  | .uninit, _ => ub
  | .stub, _ => terminate  -- `unreachable!` in an `extern "C"` function: abort
  | .closure b, .rvalue => do
    modify l (fun o => { o with storage := .stub })
    useBox b .gone
    emit (.consume b)
  | .closure b, _ => do
    useBox b .cpp
    emit (.call b)

/-- `Impl::operator()` (dyn_callable.h:119–133). -/
def callOperator (q : Qual) (this : Loc) : M Unit := do
  let t ← read this
  let invokerCopy := t.invoker
  match q with
  | .rvalue => modify this (fun t => { t with invoker := .afterMove, manager := .empty })
  | _ => pure ()
  match invokerCopy with
  | .null => ub
  | .afterMove => terminate
  | .rust => rustInvoker q this

/-- `std::swap` (`DynCallable::swap`, dyn_callable.h:254). -/
def swap (a b : Loc) : M Unit := do
  let _ ← read a
  let _ ← read b
  implMoveCtor (.tmp 0) a
  implAssign a b
  implAssign b (.tmp 0)
  destructor (.tmp 0)

/-- The wire format of C++ → Rust (dyn_callable.h:146–152): presence flag and box bits. -/
structure Wire where
  present : Bool
  box : Slot
  deriving DecidableEq

/-- `DynCallableAbi::Encode(Value value, …)` body (dyn_callable.h:159–169).  When the value is
absent the box bytes of the buffer are left uninitialised. -/
def encode (value : Loc) : M Wire := do
  let hv ← hasValue value
  let v ← read value
  modify value (fun v => { v with manager := .empty })
  pure { present := hv, box := if hv then v.storage else .uninit }

/-- `DynCallableAbi::decode` in Rust (dyn_callable.rs:41–53); the fallback closure that panics
is not tracked. -/
def rustDecode (w : Wire) : M Unit :=
  if w.present then
    match w.box with
    | .closure b => do useBox b .rust; emit (.toRust (some b))
    | _ => ub
  else emit (.toRust none)

/-- `crubit::internal::Encode(abi, buf, std::move(o))` (bridge.h:346–350) followed by the
decoding in Rust: the value is moved into the parameter, moved into the parameter of
`DynCallableAbi::Encode`, encoded; both parameters are destroyed. -/
def toRust (o : Loc) : M Unit := do
  implMoveCtor (.tmp 0) o
  implMoveCtor (.tmp 1) (.tmp 0)
  let w ← encode (.tmp 1)
  destructor (.tmp 1)
  destructor (.tmp 0)
  rustDecode w

/-- `DynCallableAbi::encode` in Rust (dyn_callable.rs:37–39) and `DynCallableAbi::Decode`
(dyn_callable.h:171–174): the variable is initialised in place (guaranteed elision). -/
def recv (b : Nat) (o : Loc) : M Unit := fun s =>
  match s.place b with
  | .rust =>
    (do create o { storage := .closure b, manager := .rust, invoker := .rust }
        emit (.recv b)) { s with place := Function.update s.place b .cpp }
  | _ => .ill

/-- `operator absl::AnyInvocable<Sig>() &&` (dyn_callable.h:266–272).  absl's constructor (not
in the repository) relocates the storage with the given manager and keeps both pointers. -/
def toAny (this : Loc) : M Unit := do
  let t ← read this
  modify this (fun t => { t with manager := .empty })
  modify this (fun t => { t with invoker := .null })
  let callee := match t.invoker with
    | .null => Callee.none
    | .afterMove => Callee.terminates
    | .rust => Callee.closure
  match t.manager with
  | .empty => emit (.toAny callee none)
  | .rust =>
    match t.storage with
    | .uninit => ub
    | .stub => emit (.toAny callee none)
    | .closure b => do useBox b .any; emit (.toAny callee (some b))

/-- One client operation. -/
def step (q : Qual) : Op → M Unit
  | .recv b o => recv b (.var o)
  | .default o => create (.var o) defaultObj
  | .moveCtor d s => implMoveCtor (.var d) (.var s)
  | .moveAssign d s => do
    let _ ← read (.var d)
    let _ ← read (.var s)
    implAssign (.var d) (.var s)
  | .swap a b => swap (.var a) (.var b)
  | .call o => callOperator q (.var o)
  | .hasValue o => do let v ← hasValue (.var o); emit (.bool o v)
  | .toRust o => toRust (.var o)
  | .toAny o => toAny (.var o)
  | .destroy o => destructor (.var o)

def run (q : Qual) : List Op → M Unit
  | [] => pure ()
  | op :: ops => do step q op; run q ops

def observe : Out Unit → Result
  | .ok _ s => .done s.log
  | .terminated l => .terminated l
  | .ub => .ub
  | .ill => .ill

/-- The behaviour of a client program. -/
def behaviour (q : Qual) (p : List Op) : Result := observe (run q p init)

end Verif.DynCallable.Impl

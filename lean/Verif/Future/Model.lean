import Verif.Future.Spec

/-!
# Rust futures polled from C++: the code

Sources: `support/rs_std/dyn_erased_future.{h,rs}`, `dyn_future.rs`, `erased_future.rs`,
`waker.{h,cc}`, `cpp_waker.{h,cc}`.
-/

namespace Verif.Future

/-! ## Wakers -/

/-- `waker.cc:9–21` and `cpp_waker.cc:9–21`: the `extern "C"` functions, by API. -/
def externClone (api : Api) (p r : Nat) : Ev := .call api (.clone p r)
/-- See `externClone`. -/
def externWakeAndDestroy (api : Api) (p : Nat) : Ev := .call api (.wakeAndDestroy p)
/-- See `externClone`. -/
def externWakeByRef (api : Api) (p : Nat) : Ev := .call api (.wakeByRef p)
/-- See `externClone`. -/
def externDrop (api : Api) (p : Nat) : Ev := .call api (.destroy p)

/-- The name of a static `RawWakerVTable`: `RS_STD_WAKER_VTABLE` or `RS_STD_CPP_WAKER_VTABLE`. -/
abbrev VtName := Api

/-- `core::task::RawWaker`: a data pointer and a virtual table. -/
structure RawWaker where
  data : Nat
  vt : VtName
deriving DecidableEq, Repr

/-- `core::task::RawWakerVTable`, in the order of the arguments of `new`.  `clone` takes what C++
returns. -/
structure VTable where
  clone : Nat → Nat → RawWaker × Ev
  wake : Nat → Ev
  wakeByRef : Nat → Ev
  drop : Nat → Ev

/-- `dyn_erased_future.rs:127–155` and `dyn_future.rs:74–101`: the wrappers and the two tables. -/
def vtable : VtName → VTable
  | .erased =>
      ⟨fun p r => (⟨r, .erased⟩, externClone .erased p r), externWakeAndDestroy .erased,
        externWakeByRef .erased, externDrop .erased⟩
  | .dyn =>
      ⟨fun p r => (⟨r, .dyn⟩, externClone .dyn p r), externWakeAndDestroy .dyn,
        externWakeByRef .dyn, externDrop .dyn⟩

/-! ## Memory -/

/-- A boxed future: a user's, or `future::pending::<()>()`. -/
inductive Fut where
  | user (f : Nat) (done : Bool)
  | pending
deriving DecidableEq, Repr

/-- A variable: the storage of a C++ `DynErasedFuture` (the box it points to), or a Rust `DynFuture`. -/
inductive Var where
  | erased (b : Nat)
  | dyn (o : Option Nat)
deriving DecidableEq, Repr

/-- The state.  `heap`: boxes.  A poll under way has built a context with a waker. -/
structure St where
  heap : Nat → Option Fut
  next : Nat
  vars : Nat → Option Var
  polls : Nat → Option (RawWaker × Nat)
  wakers : Nat → Option RawWaker
  log : List Ev

/-- The beginning. -/
def St.init : St := ⟨fun _ => none, 0, fun _ => none, fun _ => none, fun _ => none, []⟩

/-- Record events. -/
def St.emit (s : St) (es : List Ev) : St := { s with log := s.log ++ es }

/-- `Box::pin(…)`. -/
def St.alloc (s : St) (f : Fut) : Nat × St :=
  (s.next, { s with
    heap := upd s.heap s.next (some f)
    next := s.next + 1 })

/-- Drop a box: the future is dropped, the memory freed. -/
def St.free (s : St) (b : Nat) : Option St :=
  match s.heap b with
  | some (.user f _) => some ({ s with heap := upd s.heap b none }.emit [.dropped f])
  | some .pending => some { s with heap := upd s.heap b none }
  | none => none

/-! ## `DynErasedFuture` -/

/-- `dyn_erased_future.rs:52–54` (`DynErasedFuture::new`), written into the storage by the generated
thunk (`cc_bindings_from_rs/generate_bindings/generate_function_thunk.rs:612–628`). -/
def create (s : St) (x f : Nat) : St :=
  let (b, s1) := s.alloc (.user f false)
  { s1 with vars := upd s1.vars x (some (.erased b)) }

/-- `dyn_erased_future.rs:66–69` (`rs_std_dyn_erased_future_init`). -/
def rsInit (s : St) (x : Nat) : St :=
  let (b, s1) := s.alloc .pending
  { s1 with vars := upd s1.vars x (some (.erased b)) }

/-- `dyn_erased_future.h:50–53`: the move constructor copies the bytes, and gives the other object a
new future. -/
def moveTo (s : St) (y x b : Nat) : St :=
  rsInit { s with vars := upd s.vars y (some (.erased b)) } x

/-- `[[clang::trivial_abi]]` (`dyn_erased_future.h:46`): the bytes are copied, and the old object is
gone without being destroyed. -/
def relocate (s : St) (y x b : Nat) : St :=
  { s with vars := upd (upd s.vars y (some (.erased b))) x none }

/-- `dyn_erased_future.h:58–60`, `dyn_erased_future.rs:81–84`. -/
def destroyErased (s : St) (x b : Nat) : Option St :=
  s.free b |>.map fun s' => { s' with vars := upd s'.vars x none }

/-- `dyn_erased_future.rs:102–118`, up to the call of the future: a waker for the C++ pointer, wrapped
in `ManuallyDrop`, and a context. -/
def beginErased (s : St) (x w out b : Nat) : Option St :=
  match s.heap b with
  | some (.user _ true) => none
  | some (.user f false) =>
      some ({ s with polls := upd s.polls x (some (⟨w, .erased⟩, out)) }.emit [.polled f])
  | some .pending =>
      some ({ s with polls := upd s.polls x (some (⟨w, .erased⟩, out)) }.emit [.idle])
  | none => none

/-- `erased_future.rs:40–50` (`poll_erased`) and the end of `rs_std_dyn_erased_future_poll`: the value
is written if the type has a size; `is_ready()` is returned; the waker is not dropped.  (A future that
has returned `Ready` stays in its box.)  `pending()` never becomes ready. -/
def finishErased (s : St) (x out b : Nat) (r : Option (Option Nat)) : Option St :=
  match r, s.heap b with
  | none, some _ => some ({ s with polls := upd s.polls x none }.emit [.returned false])
  | some v, some (.user f _) =>
      let s1 := s.emit (match v with | some v => [.wrote out v] | none => [])
      some ({ s1 with
        heap := upd s1.heap b (some (.user f true))
        polls := upd s1.polls x none }.emit [.returned true])
  | _, _ => none

/-! ## `DynFuture` -/

/-- `dyn_future.rs:42–51`. -/
def beginDyn (s : St) (x w out : Nat) (o : Option Nat) : Option St :=
  match o with
  | none => some (s.emit [.panicked])
  | some b =>
      match s.heap b with
      | some (.user f _) =>
          some ({ s with polls := upd s.polls x (some (⟨w, .dyn⟩, out)) }.emit [.polled f])
      | _ => none

/-- `dyn_future.rs:52–58`: when ready, `self.0 = None` drops the future. -/
def finishDyn (s : St) (x : Nat) (o : Option Nat) (r : Option (Option Nat)) : Option St :=
  match r, o with
  | none, some _ => some ({ s with polls := upd s.polls x none }.emit [.returned false])
  | some none, some b =>
      (s.free b).map fun s' =>
        { s' with
          vars := upd s'.vars x (some (.dyn none))
          polls := upd s'.polls x none }.emit [.returned true]
  | _, _ => none

/-- Dropping an `Option<Pin<Box<…>>>`. -/
def freeOpt (s : St) (o : Option Nat) : Option St :=
  match o with
  | none => some s
  | some b => s.free b

/-- The user's future in a box. -/
def St.userOf (s : St) : Option Nat → Option Nat
  | none => none
  | some b =>
      match s.heap b with
      | some (.user f _) => some f
      | _ => none

/-- The future that a poll of a variable runs. -/
def St.boxed (s : St) (x : Nat) : Option Fut :=
  match s.vars x with
  | some (.erased b) => s.heap b
  | some (.dyn (some b)) => s.heap b
  | _ => none

/-! ## Steps -/

/-- One step of a schedule.  A future that runs can use the context's waker: `cx.waker().clone()` and
`cx.waker().wake_by_ref()`; `core::task::Waker::wake` calls the table's `wake` and forgets the waker,
`Drop` calls `drop`. -/
def St.step (s : St) : Act → Option St
  | .create x f => match s.vars x with
      | none => some (create s x f)
      | some _ => none
  | .moveTo y x => match s.vars y, s.vars x, s.polls x with
      | none, some (.erased b), none => some (moveTo s y x b)
      | _, _, _ => none
  | .relocate y x => match s.vars y, s.vars x, s.polls x with
      | none, some (.erased b), none => some (relocate s y x b)
      | _, _, _ => none
  | .destroy x => match s.vars x, s.polls x with
      | some (.erased b), none => destroyErased s x b
      | _, _ => none
  | .begin x w out => match s.vars x, s.polls x with
      | some (.erased b), none => beginErased s x w out b
      | some (.dyn o), none => beginDyn s x w out o
      | _, _ => none
  | .finish x r => match s.vars x, s.polls x with
      | some (.erased b), some (_, out) => finishErased s x out b r
      | some (.dyn o), some _ => finishDyn s x o r
      | _, _ => none
  | .ctxClone x r i => match s.boxed x,
        s.polls x, s.wakers i with
      | some (.user _ _), some (wk, _), none =>
          let c := (vtable wk.vt).clone wk.data r
          some ({ s with wakers := upd s.wakers i (some c.1) }.emit [c.2])
      | _, _, _ => none
  | .ctxWake x => match s.boxed x,
        s.polls x with
      | some (.user _ _), some (wk, _) => some (s.emit [(vtable wk.vt).wakeByRef wk.data])
      | _, _ => none
  | .clone i r j => match s.wakers i, s.wakers j with
      | some wk, none =>
          let c := (vtable wk.vt).clone wk.data r
          some ({ s with wakers := upd s.wakers j (some c.1) }.emit [c.2])
      | _, _ => none
  | .wake i => match s.wakers i with
      | some wk =>
          some ({ s with wakers := upd s.wakers i none }.emit [(vtable wk.vt).wake wk.data])
      | none => none
  | .wakeByRef i => match s.wakers i with
      | some wk => some (s.emit [(vtable wk.vt).wakeByRef wk.data])
      | none => none
  | .drop i => match s.wakers i with
      | some wk =>
          some ({ s with wakers := upd s.wakers i none }.emit [(vtable wk.vt).drop wk.data])
      | none => none
  | .dynNew x f => match s.vars x with
      | none =>
          let a := s.alloc (.user f false)
          some { a.2 with vars := upd a.2.vars x (some (.dyn (some a.1))) }
      | some _ => none
  | .dynDefault x => match s.vars x with
      | none => some { s with vars := upd s.vars x (some (.dyn none)) }
      | some _ => none
  | .dynDiscard x => match s.vars x, s.polls x with
      | some (.dyn o), none =>
          (freeOpt s o).map fun s' => { s' with vars := upd s'.vars x (some (.dyn none)) }
      | _, _ => none
  | .dynAsk x => match s.vars x, s.polls x with
      | some (.dyn o), none => some (s.emit [.answer o.isNone])
      | _, _ => none
  | .dynInto x => match s.vars x, s.polls x with
      | some (.dyn o), none =>
          some ({ s with
            vars := upd s.vars x none
            heap := match o with | some b => upd s.heap b none | none => s.heap }.emit
              [.handed (s.userOf o)])
      | _, _ => none
  | .dynDrop x => match s.vars x, s.polls x with
      | some (.dyn o), none =>
          (freeOpt s o).map fun s' => { s' with vars := upd s'.vars x none }
      | _, _ => none

/-- A schedule. -/
def St.run (s : St) : List Act → Option St
  | [] => some s
  | a :: as => (s.step a).bind fun s' => s'.run as

end Verif.Future

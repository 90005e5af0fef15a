/-!
# Rust futures polled from C++: specification

C++ holds a Rust future as a `crubit::DynErasedFuture<T>` (the result of a Rust `async fn`) or as a
`DynFuture`, and polls it with a waker of its own.  The future, and every thread it has handed a waker
to, may clone, wake and drop wakers at any time.

A *schedule* is any interleaving of what C++ does to futures, of what running futures do, and of what
any thread does to the wakers it holds.  The specification machine below has no boxes, no pointers to
storage and no virtual tables: a variable holds a future, or nothing; a waker stands for a C++ waker
object.
-/

namespace Verif.Future

/-- The two APIs: `DynErasedFuture` with `rs_std::Waker`, and `DynFuture` with `rs_std::CppWaker`. -/
inductive Api where
  | erased
  | dyn
deriving DecidableEq, Repr

/-- Virtual calls that C++ waker objects receive; `p` is the object.  `clone p r`: `Clone()` was called
and returned `r`. -/
inductive VCall where
  | clone (p r : Nat)
  | wakeAndDestroy (p : Nat)
  | wakeByRef (p : Nat)
  | destroy (p : Nat)
deriving DecidableEq, Repr

/-- What can be observed.  Futures are named by the program that created them. -/
inductive Ev where
  | polled (f : Nat)
  | idle
  | returned (ready : Bool)
  | wrote (out v : Nat)
  | dropped (f : Nat)
  | handed (f : Option Nat)
  | answer (b : Bool)
  | panicked
  | call (api : Api) (c : VCall)
deriving DecidableEq, Repr

/-- One step of a schedule.  `x`, `y` are C++ variables, `i`, `j` Rust wakers, `f` futures, `w` C++
waker objects, `r` what C++'s `Clone()` happens to return.

* `create x f`: the binding of an `async fn` initialises `x`.  `moveTo y x`: C++ move construction.
  `relocate y x`: `x` is passed on in registers, as `trivial_abi` allows.  `destroy x`.
* `begin x w out`: C++ calls `Poll`.  Until `finish x r` (`none`: pending; `some v`: ready, where `v` is
  the value unless the type is zero-sized), the future is running, and may use `x`'s context waker
  (`ctxClone`, `ctxWake`) as often as it likes.
* `clone`, `wake`, `wakeByRef`, `drop`: a thread uses a Rust waker that it holds.
* `dynNew`, `dynDefault`, `dynDiscard`, `dynAsk` (`is_completed_or_discarded`), `dynInto`, `dynDrop`. -/
inductive Act where
  | create (x f : Nat)
  | moveTo (y x : Nat)
  | relocate (y x : Nat)
  | destroy (x : Nat)
  | begin (x w out : Nat)
  | finish (x : Nat) (r : Option (Option Nat))
  | ctxClone (x r i : Nat)
  | ctxWake (x : Nat)
  | clone (i r j : Nat)
  | wake (i : Nat)
  | wakeByRef (i : Nat)
  | drop (i : Nat)
  | dynNew (x f : Nat)
  | dynDefault (x : Nat)
  | dynDiscard (x : Nat)
  | dynAsk (x : Nat)
  | dynInto (x : Nat)
  | dynDrop (x : Nat)
deriving DecidableEq, Repr

/-- Change a function at one point. -/
def upd {α : Type} (f : Nat → α) (n : Nat) (v : α) : Nat → α := fun m => if m = n then v else f m

/-- What a variable holds: a future that has not finished, a finished future, or nothing (moved from,
completed, discarded). -/
inductive Held where
  | running (f : Nat)
  | finished (f : Nat)
  | nothing
deriving DecidableEq, Repr

/-- The state of the specification machine.  `polls x`: the waker and the output slot of the poll of
`x` that is under way. -/
structure SSt where
  vars : Nat → Option (Api × Held)
  polls : Nat → Option (Nat × Nat)
  wakers : Nat → Option (Api × Nat)
  log : List Ev

/-- The beginning. -/
def SSt.init : SSt := ⟨fun _ => none, fun _ => none, fun _ => none, []⟩

/-- Record an event. -/
def SSt.emit (s : SSt) (es : List Ev) : SSt := { s with log := s.log ++ es }

/-- The future that dies with a variable. -/
def Held.drops : Held → List Ev
  | .running f => [.dropped f]
  | .finished f => [.dropped f]
  | .nothing => []

/-- One step of the specification; `none`: the step breaks a documented requirement (of `Poll`, or of
C++ or Rust). -/
def SSt.step (s : SSt) : Act → Option SSt
  | .create x f =>
      match s.vars x with
      | none => some { s with vars := upd s.vars x (some (.erased, .running f)) }
      | some _ => none
  | .moveTo y x =>
      match s.vars y, s.vars x, s.polls x with
      | none, some (.erased, h), none =>
          some { s with vars := upd (upd s.vars y (some (.erased, h))) x (some (.erased, .nothing)) }
      | _, _, _ => none
  | .relocate y x =>
      match s.vars y, s.vars x, s.polls x with
      | none, some (.erased, h), none =>
          some { s with vars := upd (upd s.vars y (some (.erased, h))) x none }
      | _, _, _ => none
  | .destroy x =>
      match s.vars x, s.polls x with
      | some (.erased, h), none => some ({ s with vars := upd s.vars x none }.emit h.drops)
      | _, _ => none
  | .begin x w out =>
      match s.vars x, s.polls x with
      | some (.erased, .finished _), _ => none
      | some (.dyn, .nothing), none => some (s.emit [.panicked])
      | some (_, .running f), none =>
          some ({ s with polls := upd s.polls x (some (w, out)) }.emit [.polled f])
      | some (.erased, .nothing), none =>
          some ({ s with polls := upd s.polls x (some (w, out)) }.emit [.idle])
      | _, _ => none
  | .finish x none =>
      match s.vars x, s.polls x with
      | some _, some _ => some ({ s with polls := upd s.polls x none }.emit [.returned false])
      | _, _ => none
  | .finish x (some v) =>
      match s.vars x, s.polls x with
      | some (.erased, .running f), some (_, out) =>
          some ({ s with
            polls := upd s.polls x none
            vars := upd s.vars x (some (.erased, .finished f)) }.emit
              ((v.toList.map fun v => Ev.wrote out v) ++ [Ev.returned true]))
      | some (.dyn, .running f), some _ =>
          match v with
          | none =>
              some ({ s with
                polls := upd s.polls x none
                vars := upd s.vars x (some (.dyn, .nothing)) }.emit [.dropped f, .returned true])
          | some _ => none
      | _, _ => none
  | .ctxClone x r i =>
      match s.vars x, s.polls x, s.wakers i with
      | some (api, .running _), some (w, _), none =>
          some ({ s with wakers := upd s.wakers i (some (api, r)) }.emit [.call api (.clone w r)])
      | _, _, _ => none
  | .ctxWake x =>
      match s.vars x, s.polls x with
      | some (api, .running _), some (w, _) => some (s.emit [.call api (.wakeByRef w)])
      | _, _ => none
  | .clone i r j =>
      match s.wakers i, s.wakers j with
      | some (api, p), none =>
          some ({ s with wakers := upd s.wakers j (some (api, r)) }.emit [.call api (.clone p r)])
      | _, _ => none
  | .wake i =>
      match s.wakers i with
      | some (api, p) =>
          some ({ s with wakers := upd s.wakers i none }.emit [.call api (.wakeAndDestroy p)])
      | none => none
  | .wakeByRef i =>
      match s.wakers i with
      | some (api, p) => some (s.emit [.call api (.wakeByRef p)])
      | none => none
  | .drop i =>
      match s.wakers i with
      | some (api, p) =>
          some ({ s with wakers := upd s.wakers i none }.emit [.call api (.destroy p)])
      | none => none
  | .dynNew x f =>
      match s.vars x with
      | none => some { s with vars := upd s.vars x (some (.dyn, .running f)) }
      | some _ => none
  | .dynDefault x =>
      match s.vars x with
      | none => some { s with vars := upd s.vars x (some (.dyn, .nothing)) }
      | some _ => none
  | .dynDiscard x =>
      match s.vars x, s.polls x with
      | some (.dyn, h), none =>
          some ({ s with vars := upd s.vars x (some (.dyn, .nothing)) }.emit h.drops)
      | _, _ => none
  | .dynAsk x =>
      match s.vars x, s.polls x with
      | some (.dyn, h), none => some (s.emit [.answer (decide (h = .nothing))])
      | _, _ => none
  | .dynInto x =>
      match s.vars x, s.polls x with
      | some (.dyn, h), none =>
          some ({ s with vars := upd s.vars x none }.emit
            [.handed (match h with | .running f => some f | .finished f => some f | .nothing => none)])
      | _, _ => none
  | .dynDrop x =>
      match s.vars x, s.polls x with
      | some (.dyn, h), none => some ({ s with vars := upd s.vars x none }.emit h.drops)
      | _, _ => none

/-- A schedule. -/
def SSt.run (s : SSt) : List Act → Option SSt
  | [] => some s
  | a :: as => (s.step a).bind fun s' => s'.run as

/-! ## Accounts kept by looking at the events alone -/

/-- How many times `Clone()` gave out the object `p`. -/
def given (api : Api) (p : Nat) (l : List Ev) : Nat :=
  l.countP fun
    | .call api' (.clone _ r) => api' = api && r = p
    | _ => false

/-- How many times the object `p` was given back: `Destroy()` or `WakeAndDestroy()`. -/
def givenBack (api : Api) (p : Nat) (l : List Ev) : Nat :=
  l.countP fun
    | .call api' (.destroy q) => api' = api && q = p
    | .call api' (.wakeAndDestroy q) => api' = api && q = p
    | _ => false

/-- How many times the future `f` ended: dropped, or given to Rust as a box. -/
def ended (f : Nat) (l : List Ev) : Nat :=
  l.countP fun
    | .dropped g => g = f
    | .handed (some g) => g = f
    | _ => false

/-- How many times a schedule makes the future `f`. -/
def made (f : Nat) (as : List Act) : Nat :=
  as.countP fun
    | .create _ g => g = f
    | .dynNew _ g => g = f
    | _ => false

/-- `n` indices satisfy `P`. -/
def Count {α : Type} (f : Nat → α) (P : α → Prop) (n : Nat) : Prop :=
  ∃ ids : List Nat, ids.Nodup ∧ (∀ i, i ∈ ids ↔ P (f i)) ∧ ids.length = n

/-- The object a virtual call is made on. -/
def VCall.object : VCall → Nat
  | .clone p _ => p
  | .wakeAndDestroy p => p
  | .wakeByRef p => p
  | .destroy p => p

/-- Does the call give the object back? -/
def VCall.givesBack : VCall → Bool
  | .wakeAndDestroy _ => true
  | .destroy _ => true
  | _ => false

end Verif.Future

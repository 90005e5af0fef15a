import Verif.Common.AMap
/-
C68-C70: in-place construction of pinned values, support/ctor.rs.
Addresses are paths: allocation `x` is `[x]`, field `i` of the object at `p` is `p ++ [i]`. Elements are the values whose drop
matters; each has a number. Running code appends events to a log. Errors are numbers. Closures given to combinators only return or
panic; they do not act on the value.
-/
namespace Verif.Ctor
open Verif

inductive Ev
  /-- A Rust-movable value comes to exist outside. -/
  | make (e : Nat)
  /-- A value outside, or owned by a `Ctor` that is not run, is dropped. -/
  | dropHand (e : Nat)
  /-- `dest.write(value)`. -/
  | put (e : Nat) (p : List Nat)
  /-- A value is constructed in place: a C++ constructor ran, or the last field of a struct is initialized. -/
  | new (e : Nat) (p : List Nat)
  /-- `drop_in_place`. -/
  | drop (e : Nat) (p : List Nat)
  /-- A `ManuallyDrop` goes away. -/
  | forget (e : Nat) (p : List Nat)
  /-- Memory is freed, or the stack frame left. -/
  | free (x : Nat)
deriving DecidableEq

/-- What a closure does. -/
inductive Ret
  | ok
  | err (k : Nat)
  | panic
deriving DecidableEq

mutual
/-- Values of types that implement `Ctor`. -/
inductive Ctor
  /-- `FnCtor` around a C++ constructor, lines 617-642; `Copy`, `RvalueReference`, `ByValue`, `ConstRvalueReference` with their `CtorNew`
  (lines 656-667, 735-746, 800-812, 840-851). -/
  | make
  /-- A constructor that panics; `UnreachableCtor`, lines 951-968. -/
  | panics
  /-- `SelfCtor` and `RustMoveCtor`, lines 896-928: owns the value. -/
  | move (e : Nat)
  /-- `ctor_error`, lines 500-519. -/
  | error (k : Nat)
  /-- `ctor_then`. -/
  | andThen (c : Ctor) (f : Ret)
  /-- `ctor_map_err`, `ctor_err_into`, `ctor_make_fallible`; `none`: the closure panics. -/
  | mapErr (c : Ctor) (f : Nat → Option Nat)
  /-- `ctor_or_else`; the closure owns `d` and returns it. -/
  | orElse (c d : Ctor)
  /-- `ctor_expect`, `ctor_unwrap`. -/
  | expect (c : Ctor)
  /-- `ctor_unwrap_or_default`; `d` is `ctor_new(())`. -/
  | unwrapOrDefault (c d : Ctor)
  /-- `ctor!(T { .. })`. -/
  | struct (cs : Ctors)
  /-- `Slot::uninit()`. -/
  | slotUninit
  /-- `Slot::new(c)`. -/
  | slotNew (c : Ctor)
  /-- `ManuallyDropCtor::new(c)`. -/
  | manuallyDrop (c : Ctor)
inductive Ctors
  | nil
  | cons (c : Ctor) (cs : Ctors)
end

mutual
/-- The values they construct. `struct e vs`: `e` stands for the `Drop` (`PinnedDrop`) of the struct itself. -/
inductive Val
  | leaf (e : Nat)
  | struct (e : Nat) (vs : Vals)
  | slotNone
  | slotSome (v : Val)
  | manual (v : Val)
inductive Vals
  | nil
  | cons (v : Val) (vs : Vals)
end

def Vals.snoc : Vals → Val → Vals
  | .nil, v => .cons v .nil
  | .cons u vs, v => .cons u (vs.snoc v)

mutual
/-- The values a `Ctor` owns, in the order in which Rust drops them if it is not run. -/
def Ctor.owned : Ctor → List Nat
  | .make | .panics | .error _ | .slotUninit => []
  | .move e => [e]
  | .andThen c _ | .mapErr c _ | .expect c | .slotNew c | .manuallyDrop c => c.owned
  | .orElse c d => c.owned ++ d.owned
  | .unwrapOrDefault c _ => c.owned
  | .struct cs => cs.owned
def Ctors.owned : Ctors → List Nat
  | .nil => []
  | .cons c cs => c.owned ++ cs.owned
end

/-- Dropping values outside. -/
def dropOwned (es : List Nat) : List Ev := es.map .dropHand

mutual
/-- `drop_in_place` of the value at `p`; `ManuallyDrop` does nothing, its content is only forgotten. `Slot`: lines 1087-1091, 1107-1119. -/
def Val.drop (p : List Nat) : Val → List Ev
  | .leaf e => [.drop e p]
  | .struct e vs => .drop e p :: vs.drop p 0
  | .slotNone => []
  | .slotSome v => v.drop (p ++ [0])
  | .manual v => v.forget p
/-- The fields from number `i` on. -/
def Vals.drop (p : List Nat) (i : Nat) : Vals → List Ev
  | .nil => []
  | .cons v vs => v.drop (p ++ [i]) ++ vs.drop p (i + 1)
/-- The content of a `ManuallyDrop`. -/
def Val.forget (p : List Nat) : Val → List Ev
  | .leaf e => [.forget e p]
  | .struct e vs => .forget e p :: vs.forget p 0
  | .slotNone => []
  | .slotSome v => v.forget (p ++ [0])
  | .manual v => v.forget p
def Vals.forget (p : List Nat) (i : Nat) : Vals → List Ev
  | .nil => []
  | .cons v vs => v.forget (p ++ [i]) ++ vs.forget p (i + 1)
end

/-- What `ctor` returns; the value is then at the destination. -/
inductive Out (α : Type)
  | ok (v : α)
  | err (k : Nat)
  | panic

mutual
/-- `Ctor::ctor(self, dest)`: next element number, events, result. -/
def Ctor.run (n : Nat) (p : List Nat) : Ctor → Nat × List Ev × Out Val
  -- lines 633-642
  | .make => (n + 1, [.new n p], .ok (.leaf n))
  | .panics => (n, [], .panic)
  -- lines 896-904, 920-928
  | .move e => (n, [.put e p], .ok (.leaf e))
  -- lines 506-512
  | .error k => (n, [], .err k)
  -- lines 313-320
  | .andThen c f => match c.run n p with
    | (n, l, .ok v) => match f with
      | .ok => (n, l, .ok v)
      | .err k => (n, l, .err k)
      | .panic => (n, l, .panic)
    | r => r
  -- lines 346-348, 289-291, 260-262
  | .mapErr c f => match c.run n p with
    | (n, l, .err k) => match f k with
      | some k => (n, l, .err k)
      | none => (n, l, .panic)
    | r => r
  -- lines 379-384
  | .orElse c d => match c.run n p with
    | (n, l, .err _) => let (n, l', o) := d.run n p
      (n, l ++ l', o)
    | (n, l, o) => (n, l ++ dropOwned d.owned, o)
  -- lines 405-410, 430-440
  | .expect c => match c.run n p with
    | (n, l, .err _) => (n, l, .panic)
    | r => r
  -- lines 466-473
  | .unwrapOrDefault c d => match c.run n p with
    | (n, l, .err _) => let (n, l', o) := d.run n p
      (n, l ++ l', o)
    | r => r
  -- lines 1501-1572
  | .struct cs => match cs.run n p 0 .nil with
    | (n, l, some vs) => (n + 1, l ++ [.new n p], .ok (.struct n vs))
    | (n, l, none) => (n, l, .panic)
  -- lines 1096-1098
  | .slotUninit => (n, [], .ok .slotNone)
  -- lines 1100-1105, with `try_replace`, lines 1130-1146, of a slot that is not initialized
  | .slotNew c => match c.run n (p ++ [0]) with
    | (n, l, .ok v) => (n, l, .ok (.slotSome v))
    | (n, l, .err k) => (n, l, .err k)
    | (n, l, .panic) => (n, l, .panic)
  -- lines 1788-1796
  | .manuallyDrop c => match c.run n p with
    | (n, l, .ok v) => (n, l, .ok (.manual v))
    | r => r
/-- The fields from number `i` on; `done` are the fields already initialized, which have a drop guard. If `init_field` panics or gets an
error (lines 1266-1276), the constructors left in `capture` are dropped, then the guards. -/
def Ctors.run (n : Nat) (p : List Nat) (i : Nat) (done : Vals) : Ctors → Nat × List Ev × Option Vals
  | .nil => (n, [], some done)
  | .cons c cs => match c.run n (p ++ [i]) with
    | (n, l, .ok v) => let (n, l', o) := cs.run n p (i + 1) (done.snoc v)
      (n, l ++ l', o)
    | (n, l, _) => (n, l ++ (dropOwned cs.owned ++ done.drop p 0), none)
end

/-! ### Programs -/

structure State where
  next : Nat
  hand : List Nat
  nextRoot : Nat
  /-- Pinned boxes and slots on the stack. -/
  roots : List (Nat × Val)
  log : List Ev
  aborted : Bool

def State.init : State := ⟨0, [], 0, [], [], false⟩

/-- Values move from outside into a `Ctor`. -/
def takeAll (hand : List Nat) : List Nat → Option (List Nat)
  | [] => some hand
  | e :: es => if e ∈ hand then takeAll (hand.erase e) es else none

inductive Op
  | make
  | dropHand (e : Nat)
  /-- `Box::try_emplace(c)`, `Rc::try_emplace(c)`, `Arc::try_emplace(c)`, `emplace`. -/
  | box (c : Ctor)
  /-- `emplace!(c)`, `try_emplace!(c)`. -/
  | emplace (c : Ctor)
  /-- `slot.try_replace(c)`, `slot.replace(c)`. -/
  | replace (x : Nat) (c : Ctor)
  /-- `slot.clear()`; `panics`: dropping the value panics. -/
  | clear (x : Nat) (panics : Bool)
  /-- `reconstruct(p, c)`. -/
  | reconstruct (x : Nat) (c : Ctor)
  | drop (x : Nat)

/-- Lines 550-583: a new allocation; an uninitialized box is freed without drop. -/
def execBox (s : State) (hand : List Nat) (c : Ctor) : State := match c.run s.next [s.nextRoot] with
  | (n, l, .ok v) => { s with next := n, hand := hand, nextRoot := s.nextRoot + 1, roots := (s.nextRoot, v) :: s.roots, log := s.log ++ l }
  | (n, l, _) => { s with next := n, hand := hand, nextRoot := s.nextRoot + 1, log := s.log ++ (l ++ [.free s.nextRoot]) }

/-- Lines 1010-1039, 1192-1211: a slot on the stack. -/
def execEmplace (s : State) (hand : List Nat) (c : Ctor) : State := match c.run s.next [s.nextRoot, 0] with
  | (n, l, .ok v) => { s with next := n, hand := hand, nextRoot := s.nextRoot + 1, roots := (s.nextRoot, .slotSome v) :: s.roots, log := s.log ++ l }
  | (n, l, _) => { s with next := n, hand := hand, nextRoot := s.nextRoot + 1, log := s.log ++ (l ++ [.free s.nextRoot]) }

/-- Lines 1130-1146, after `clear`: events `l0`. -/
def execReplace (s : State) (hand : List Nat) (x : Nat) (l0 : List Ev) (c : Ctor) : State := match c.run s.next [x, 0] with
  | (n, l, .ok v) => { s with next := n, hand := hand, roots := AMap.insert s.roots x (.slotSome v), log := s.log ++ (l0 ++ l) }
  | (n, l, _) => { s with next := n, hand := hand, roots := AMap.insert s.roots x .slotNone, log := s.log ++ (l0 ++ l) }

/-- Lines 1620-1628, 1634-1670, for the value `v` at `p` in allocation `x`, and the way to put the new value there. -/
def execReconstruct (s : State) (hand : List Nat) (x : Nat) (p : List Nat) (v : Val) (f : Val → Val) (c : Ctor) : State :=
  match c.run s.next p with
  | (n, l, .ok u) => { s with next := n, hand := hand, roots := AMap.insert s.roots x (f u), log := s.log ++ (v.drop p ++ l) }
  | (n, l, _) => { s with next := n, hand := hand, roots := AMap.erase s.roots x, log := s.log ++ (v.drop p ++ l), aborted := true }

/-- One operation; `none`: Rust does not accept the program, or it was aborted. -/
def exec (s : State) (op : Op) : Option State := if s.aborted then none else match op with
  | .make => some { s with next := s.next + 1, hand := s.next :: s.hand, log := s.log ++ [.make s.next] }
  | .dropHand e => if e ∈ s.hand then some { s with hand := s.hand.erase e, log := s.log ++ [.dropHand e] } else none
  | .box c => do
    let hand ← takeAll s.hand c.owned
    return execBox s hand c
  | .emplace c => do
    let hand ← takeAll s.hand c.owned
    return execEmplace s hand c
  | .replace x c => do
    let hand ← takeAll s.hand c.owned
    match ← AMap.get? s.roots x with
    | .slotNone => return execReplace s hand x [] c
    | .slotSome v => return execReplace s hand x (v.drop [x, 0]) c
    | _ => none
  | .clear x panics => do
    match ← AMap.get? s.roots x with
    | .slotNone => return s
    -- lines 1107-1119: the flag is reset after the drop
    | .slotSome v => return { s with roots := if panics then s.roots else AMap.insert s.roots x .slotNone, log := s.log ++ v.drop [x, 0] }
    | _ => none
  | .reconstruct x c => do
    let hand ← takeAll s.hand c.owned
    match ← AMap.get? s.roots x with
    | .slotSome v => return execReconstruct s hand x [x, 0] v .slotSome c
    | v => return execReconstruct s hand x [x] v id c
  | .drop x => do
    let v ← AMap.get? s.roots x
    return { s with roots := AMap.erase s.roots x, log := s.log ++ (v.drop [x] ++ [.free x]) }

def run (s : State) : List Op → Option State
  | [] => some s
  | op :: ops => do
    let s ← exec s op
    run s ops

end Verif.Ctor

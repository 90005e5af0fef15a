/-
Model of support/movable.h (`rs::Movable<T>`) and support/internal/slot.h (`crubit::Slot<T>`).

Raw storage is explicit: every `Movable` or `Slot` has a storage cell that holds a live `T` object or none.
Each `T` object has an identity, so that destroying an object twice, destroying or reading an object that
is not there, or constructing over a live object are visible: those make the operation fail (`none`).

Simplifications: constructors of `T` do not throw (the class has no exception handling either); `T`'s value
is an element of `V`, its C++ move constructor leaves `husk v` behind; objects are named by numbers.
-/
namespace Verif.Movable

/-- Where a `T` can live: in the `value_` of a `Movable` or of a `Slot`. -/
inductive Place
  | mov (n : Nat)
  | slot (n : Nat)
deriving DecidableEq, Repr

/-- How `T` behaves. `relocatable`: `T(UnsafeRelocateTag, T&&)` exists. -/
structure Ty (V : Type) where
  relocatable : Bool
  husk : V → V
  dflt : V

/-- The state of the program: storage cells, the `valueless_after_move_` flag of each existing `Movable`
(movable.h line 151), which slots exist, and the ghost bookkeeping of object identities: the next fresh
identity, those destroyed (most recent first) and those abandoned in a destructed slot. -/
structure St (V : Type) where
  cell : Place → Option (Nat × V)
  flag : Nat → Option Bool
  slots : Nat → Bool
  next : Nat
  dropped : List Nat
  leaked : List Nat

def St.init {V : Type} : St V := ⟨fun _ => none, fun _ => none, fun _ => false, 0, [], []⟩

/-- Function update. -/
def upd {α β : Type} [DecidableEq α] (f : α → β) (a : α) (b : β) : α → β := fun x => if x = a then b else f x

/-- `new (&value_) T(...)`. Fails over a live object. -/
def construct {V : Type} (p : Place) (v : V) (s : St V) : Option (St V) :=
  match s.cell p with
  | some _ => none
  | none => some { s with cell := upd s.cell p (some (s.next, v)), next := s.next + 1 }

/-- `value_.~T()`. Fails if there is no object. -/
def destroy {V : Type} (p : Place) (s : St V) : Option (St V) :=
  match s.cell p with
  | none => none
  | some (id, _) => some { s with cell := upd s.cell p none, dropped := id :: s.dropped }

/-- Reading `value_` (e.g. by the copy constructor of `T`). -/
def read {V : Type} (p : Place) (s : St V) : Option V := (s.cell p).map (·.2)

/-- `T`'s assignment operator, and any other mutation of a live object. -/
def write {V : Type} (p : Place) (v : V) (s : St V) : Option (St V) :=
  match s.cell p with
  | none => none
  | some (id, _) => some { s with cell := upd s.cell p (some (id, v)) }

/-- `internal::Relocate(dest, src)`, movable.h lines 17-27. -/
def relocate {V : Type} (t : Ty V) (dst src : Place) (s : St V) : Option (St V) :=
  if t.relocatable then
    -- `new (dest) T(UnsafeRelocateTag{}, std::move(*src))`: the object changes place
    match s.cell dst, s.cell src with
    | none, some o => some { s with cell := upd (upd s.cell src none) dst (some o) }
    | _, _ => none
  else do
    -- `new (dest) T(std::move(*src)); std::destroy_at(src);`
    let v ← read src s
    let s ← construct dst v s
    let s ← write src (t.husk v) s
    destroy src s

/-- Set the flag of an existing `Movable`. -/
def setFlag {V : Type} (m : Nat) (b : Bool) (s : St V) : St V := { s with flag := upd s.flag m (some b) }

/-- Creating a `Movable`: the name must be free. -/
def fresh {V : Type} (m : Nat) (s : St V) : Option Unit := if (s.flag m).isSome then none else some ()

/-- The operations a program can perform. -/
inductive Op (V : Type)
  | default (m : Nat)              -- `Movable<T> m;`
  | emplace (m : Nat) (v : V)      -- `Movable<T> m(x)` and `Movable<T> m(std::in_place, ...)`
  | takeFromSlot (m : Nat) (k : Nat) -- `Movable<T>::TakeFromSlot(std::move(k))`
  | destruct (m : Nat)             -- end of scope of `m`
  | moveCtor (m o : Nat)           -- `Movable<T> m(std::move(o))`
  | moveAssign (m o : Nat)         -- `m = std::move(o)`
  | copyCtor (m o : Nat)           -- `Movable<T> m(o)`
  | copyAssign (m o : Nat)         -- `m = o`
  | mutate (m : Nat) (v : V)       -- `*m = v`
  | newSlot (k : Nat)              -- `Slot<T> k;`
  | fill (k : Nat) (v : V)         -- Rust writes its return value through `k.Get()`
  | take (k : Nat)                 -- `std::move(k).AssumeInitAndTakeValue()`, the result being a temporary
  | dropSlot (k : Nat)             -- end of scope of `k`
  | moveSlot (k l : Nat)           -- `Slot<T> k(std::move(l))`

/-- One operation of the C++ program; `none` means undefined behaviour or a leak by overwriting. -/
def step {V : Type} (t : Ty V) (op : Op V) (s : St V) : Option (St V) :=
  match op with
  | .default m => do -- movable.h lines 36-41
    fresh m s
    let s ← construct (.mov m) t.dflt s
    some (setFlag m false s)
  | .emplace m v => do -- lines 46-60
    fresh m s
    let s ← construct (.mov m) v s
    some (setFlag m false s)
  | .takeFromSlot m k => do -- lines 63-65 and 143-146
    fresh m s
    if s.slots k then
      let s ← relocate t (.mov m) (.slot k) s
      some (setFlag m false s)
    else none
  | .destruct m => do -- lines 67-71
    let b ← s.flag m
    (if b then some s else destroy (.mov m) s).bind fun s =>
    some { s with flag := upd s.flag m none }
  | .moveCtor m o => do -- lines 73-81
    fresh m s
    let b ← s.flag o
    if b then some (setFlag m true s)
    else do
      let s ← relocate t (.mov m) (.mov o) s
      some (setFlag o true (setFlag m false s))
  | .moveAssign m o => do -- lines 83-95
    let bm ← s.flag m
    let bo ← s.flag o
    if m = o then some s
    else do
      (if bm then some s else (destroy (.mov m) s).map (setFlag m true)).bind fun s =>
      if bo then some s
      else do
        let s ← relocate t (.mov m) (.mov o) s
        some (setFlag o true (setFlag m false s))
  | .copyCtor m o => do -- lines 98-107
    fresh m s
    let b ← s.flag o
    if b then some (setFlag m true s)
    else do
      let v ← read (.mov o) s
      let s ← construct (.mov m) v s
      some (setFlag m false s)
  | .copyAssign m o => do -- lines 115-129
    let bm ← s.flag m
    let bo ← s.flag o
    if m = o then some s
    else if !bm && !bo then do
      let v ← read (.mov o) s
      write (.mov m) v s
    else if !bm && bo then (destroy (.mov m) s).map (setFlag m true)
    else if bm && !bo then do
      let v ← read (.mov o) s
      let s ← construct (.mov m) v s
      some (setFlag m false s)
    else some s
  | .mutate m v => do -- lines 135-136
    let _ ← s.flag m
    write (.mov m) v s
  | .newSlot k => -- slot.h lines 75-77
    if s.slots k then none else some { s with slots := upd s.slots k true }
  | .fill k v => if s.slots k then construct (.slot k) v s else none -- slot.h line 92
  | .take k => do -- slot.h lines 100-108; the returned temporary (same object, or a moved-to one) is then destroyed
    if s.slots k then
      let v ← read (.slot k) s
      if t.relocatable then destroy (.slot k) s
      else do
        -- the moved-to temporary: constructed, and destroyed by its owner
        let s ← write (.slot k) (t.husk v) s
        let s := { s with next := s.next + 1, dropped := s.next :: s.dropped }
        destroy (.slot k) s
    else none
  | .dropSlot k => -- slot.h lines 120-122
    if s.slots k then
      some { s with slots := upd s.slots k false, cell := upd s.cell (.slot k) none,
                    leaked := (match s.cell (.slot k) with | some (id, _) => [id] | none => []) ++ s.leaked }
    else none
  | .moveSlot k l => do -- slot.h line 112: an *assignment* to the uninitialized `value_`
    if s.slots k then none
    else if s.slots l then
      let v ← read (.slot l) s
      let s ← write (.slot k) v { s with slots := upd s.slots k true }
      write (.slot l) (t.husk v) s
    else none

/-- A whole history. -/
def run {V : Type} (t : Ty V) : List (Op V) → St V → Option (St V)
  | [], s => some s
  | op :: ops, s => (step t op s).bind (run t ops)

/-- `operator*` / `valueless_after_move` of an existing `Movable`, movable.h lines 135-143: `none` if there
is no such object, `some none` if it is valueless, otherwise the value read. -/
def observe {V : Type} (s : St V) (m : Nat) : Option (Option V) :=
  (s.flag m).map (fun b => if b then none else read (.mov m) s)

end Verif.Movable

import Verif.Common.AMap
/-
C64-C67: `vector<T>`, the Rust view of `std::vector<T>`.
Model of support/cc_std_impl/vector.rs, in the layout with three pointers (lines 45-50), and of the parts of
`Vec<T, StdAllocator>` (alloc::vec, not in the repository) that it uses, with memory that may be freed, out of bounds, uninitialized
or poisoned for ASan (lines 238-290). `T` has a size (`offset_from` panics for zero-sized types); memory is counted in elements, not
bytes, so that the granularity of ASan is not modelled. `none` stands for undefined behaviour, an ASan report or a panic in this file.
-/
namespace Verif.Vector
open Verif

/-- Pointers: null, `NonNull::dangling()`, or the place of element `i` of an allocation. -/
inductive Ptr
  | null
  | dangling
  | mem (b i : Nat)
deriving DecidableEq

/-- `ptr::add`. -/
def Ptr.add : Ptr → Nat → Option Ptr
  | .mem b i, n => some (.mem b (i + n))
  | p, 0 => some p
  | _, _ => none

/-- `ptr::offset_from`, then `try_into().unwrap()`. -/
def Ptr.offsetFrom : Ptr → Ptr → Option Nat
  | .mem b j, .mem b' i => if b = b' ∧ i ≤ j then some (j - i) else none
  | .null, .null => some 0
  | .dangling, .dangling => some 0
  | _, _ => none

/-- An allocation made by `StdAllocator` or by C++: room for `cap` elements. A place keeps its bytes when its element is moved out. -/
structure Buf where
  cap : Nat
  cell : Nat → Option Nat
  poisoned : Nat → Bool

/-- What happens to elements. -/
inductive Ev
  | made (e : Nat)
  | dropped (e : Nat)
deriving DecidableEq

/-- The rest of the program: elements it owns outside containers, and the history of elements (newest first). -/
structure World where
  next : Nat
  hand : List Nat
  log : List Ev
deriving DecidableEq

def World.make (w : World) : World := { w with next := w.next + 1, hand := w.next :: w.hand, log := .made w.next :: w.log }
def World.drop (w : World) (e : Nat) : World := { w with log := .dropped e :: w.log }
def World.dropAll (w : World) : List Nat → World
  | [] => w
  | e :: es => (w.drop e).dropAll es

structure Mem where
  next : Nat
  heap : Nat → Option Buf
  w : World

def Mem.setBuf (m : Mem) (b : Nat) (k : Option Buf) : Mem := { m with heap := fun x => if x = b then k else m.heap x }

/-- May places `i .. i + n` of the allocation be accessed? -/
def Buf.ok (k : Buf) (i n : Nat) : Bool := decide (i + n ≤ k.cap) && (List.range n).all fun x => !k.poisoned (i + x)

/-- Read the element at `p + i`. -/
def Mem.get (m : Mem) (p : Ptr) (i : Nat) : Option Nat := match p with
  | .mem b o => do
    let k ← m.heap b
    if k.ok (o + i) 1 then k.cell (o + i) else none
  | _ => none

/-- Write the element at `p + i`. -/
def Mem.set (m : Mem) (p : Ptr) (i e : Nat) : Option Mem := match p with
  | .mem b o => do
    let k ← m.heap b
    if k.ok (o + i) 1 then some (m.setBuf b (some { k with cell := fun x => if x = o + i then some e else k.cell x })) else none
  | _ => none

/-- `copy_nonoverlapping` of `n` places, initialized or not. -/
def Mem.copy (m : Mem) (src : Ptr) (i : Nat) (dst : Ptr) (j n : Nat) : Option Mem :=
  if n = 0 then some m else match src, dst with
  | .mem b o, .mem c q => do
    let k ← m.heap b
    let l ← m.heap c
    if k.ok (o + i) n && l.ok (q + j) n && decide (b ≠ c) then
      some (m.setBuf c (some { l with cell := fun x => if q + j ≤ x ∧ x < q + j + n then k.cell (o + i + (x - (q + j))) else l.cell x }))
    else none
  | _, _ => none

/-- The elements at `p + i .. p + i + n`. -/
def Mem.read (m : Mem) (p : Ptr) (i : Nat) : Nat → Option (List Nat)
  | 0 => some []
  | n + 1 => do
    let e ← m.get p i
    let es ← m.read p (i + 1) n
    return e :: es

/-- Drop the elements at `p + i .. p + i + n` in place. -/
def Mem.dropRange (m : Mem) (p : Ptr) (i : Nat) : Nat → Option Mem
  | 0 => some m
  | n + 1 => do
    let e ← m.get p i
    { m with w := m.w.drop e }.dropRange p (i + 1) n

/-! ### `Vec<T, StdAllocator>` -/

/-- `Vec<T, StdAllocator>`. -/
structure RVec where
  ptr : Ptr
  len : Nat
  cap : Nat

/-- cpp_std_allocator.rs lines 20-25; `Vec` does not allocate for capacity 0. -/
def Mem.alloc (m : Mem) (cap : Nat) : Mem × Ptr :=
  if cap = 0 then (m, .dangling)
  else ({ m with next := m.next + 1, heap := fun x => if x = m.next then some ⟨cap, fun _ => none, fun _ => false⟩ else m.heap x }, .mem m.next 0)

/-- cpp_std_allocator.rs lines 27-32: sized delete of the start of an allocation, that must not be poisoned. -/
def Mem.dealloc (m : Mem) (p : Ptr) (cap : Nat) : Option Mem :=
  if cap = 0 then some m else match p with
  | .mem b 0 => do
    let k ← m.heap b
    if k.cap = cap ∧ k.ok 0 cap = true then some (m.setBuf b none) else none
  | _ => none

/-- `Vec` growing or shrinking: `StdAllocator` does not implement `grow` and `shrink`, so that the default implementation allocates, copies
all bytes of the smaller allocation and deallocates. -/
def Mem.realloc (m : Mem) (v : RVec) (cap : Nat) : Option (Mem × RVec) :=
  if v.len ≤ cap then do
    let (m, p) := m.alloc cap
    let m ← m.copy v.ptr 0 p 0 (min v.cap cap)
    let m ← m.dealloc v.ptr v.cap
    return (m, ⟨p, v.len, cap⟩)
  else none

/-- `Vec::drop`. -/
def RVec.drop (m : Mem) (v : RVec) : Option Mem := do
  let m ← m.dropRange v.ptr 0 v.len
  m.dealloc v.ptr v.cap

/-- What methods of `Vec` do, in steps. -/
inductive Prim
  /-- Change the capacity. -/
  | realloc (cap : Nat)
  /-- Move an element in at the end. -/
  | write (e : Nat)
  /-- Move the last element out. -/
  | take
  /-- Drop the last element. -/
  | dropLast
  | swap (i j : Nat)
  /-- User code (predicates, `clone`, `eq`) looks at an element. -/
  | look (i : Nat)
  /-- User code (`clone`, iterators, closures) makes an element. -/
  | make
  /-- An element outside is dropped. -/
  | dropHand (e : Nat)
deriving DecidableEq

def Prim.exec (m : Mem) (v : RVec) : Prim → Option (Mem × RVec)
  | .realloc cap => m.realloc v cap
  | .write e =>
    if e ∈ m.w.hand ∧ v.len < v.cap then do
      let m ← m.set v.ptr v.len e
      return ({ m with w := { m.w with hand := m.w.hand.erase e } }, { v with len := v.len + 1 })
    else none
  | .take =>
    if v.len = 0 then none else do
      let e ← m.get v.ptr (v.len - 1)
      return ({ m with w := { m.w with hand := e :: m.w.hand } }, { v with len := v.len - 1 })
  | .dropLast =>
    if v.len = 0 then none else do
      let e ← m.get v.ptr (v.len - 1)
      return ({ m with w := m.w.drop e }, { v with len := v.len - 1 })
  | .swap i j =>
    if i < v.len ∧ j < v.len then do
      let a ← m.get v.ptr i
      let b ← m.get v.ptr j
      let m ← m.set v.ptr i b
      let m ← m.set v.ptr j a
      return (m, v)
    else none
  | .look i => if i < v.len then do
      let _ ← m.get v.ptr i
      return (m, v)
    else none
  | .make => some ({ m with w := m.w.make }, v)
  | .dropHand e => if e ∈ m.w.hand then some ({ m with w := { m.w with hand := m.w.hand.erase e }.drop e }, v) else none

def runPrims (m : Mem) (v : RVec) : List Prim → Option (Mem × RVec)
  | [] => some (m, v)
  | p :: ps => do
    let (m, v) ← p.exec m v
    runPrims m v ps

/-- `Vec::reserve`, given the capacity after it. -/
def Mem.reserve (m : Mem) (v : RVec) (cap : Nat) : Option (Mem × RVec) := if cap = v.cap then some (m, v) else m.realloc v cap

/-- `Vec::append`: reserve (`cap` is the capacity after it), copy, empty the other. -/
def RVec.append (m : Mem) (v o : RVec) (cap : Nat) : Option (Mem × RVec × RVec) :=
  if v.len + o.len ≤ cap then do
    let (m, v) ← m.reserve v cap
    let m ← m.copy o.ptr 0 v.ptr v.len o.len
    return (m, { v with len := v.len + o.len }, { o with len := 0 })
  else none

/-- `Vec::split_off`. -/
def RVec.splitOff (m : Mem) (v : RVec) (i : Nat) : Option (Mem × RVec × RVec) :=
  if i ≤ v.len then do
    let (m, p) := m.alloc (v.len - i)
    let m ← m.copy v.ptr i p 0 (v.len - i)
    return (m, { v with len := i }, ⟨p, v.len - i, v.len - i⟩)
  else none

/-- The loop of `Vec::clone`: `n` more elements. `T::clone` makes a new element. -/
def RVec.cloneLoop (m : Mem) (src dst : Ptr) (i : Nat) : Nat → Option Mem
  | 0 => some m
  | n + 1 => do
    let _ ← m.get src i
    let e := m.w.next
    let m := { m with w := { m.w.make with hand := m.w.hand } }
    let m ← m.set dst i e
    cloneLoop m src dst (i + 1) n

/-- `Vec::clone`. -/
def RVec.clone (m : Mem) (v : RVec) : Option (Mem × RVec) := do
  let (m, p) := m.alloc v.len
  let m ← cloneLoop m v.ptr p 0 v.len
  return (m, ⟨p, v.len, v.len⟩)

/-! ### `vector<T>` -/

/-- Lines 45-50. -/
structure Vector where
  begin_ : Ptr
  end_ : Ptr
  capEnd : Ptr
deriving DecidableEq

/-- Lines 72-86. -/
def Vector.new : Vector := ⟨.null, .null, .null⟩
/-- Lines 88-103. -/
def Vector.len (v : Vector) : Option Nat := v.end_.offsetFrom v.begin_
/-- Lines 109-123. -/
def Vector.cap (v : Vector) : Option Nat := v.capEnd.offsetFrom v.begin_

/-- Lines 173-190. -/
def setBeginLenCapacity (begin_ : Ptr) (len cap : Nat) : Option Vector := do
  let begin_ := if cap = 0 then .null else begin_
  return ⟨begin_, ← begin_.add len, ← begin_.add cap⟩

/-- `__sanitizer_annotate_contiguous_container` (compiler-rt): poisons or unpoisons what is between the old and the new middle. -/
def annotate (m : Mem) (beg fin oldMid newMid : Ptr) : Option Mem :=
  if beg = fin then some m else match beg, fin, oldMid, newMid with
  | .mem b 0, .mem b1 c, .mem b2 i, .mem b3 j => do
    let k ← m.heap b
    if b1 = b ∧ b2 = b ∧ b3 = b ∧ c = k.cap ∧ i ≤ c ∧ j ≤ c then
      some (m.setBuf b (some { k with poisoned := fun x => if i ≤ x ∧ x < j then false else if j ≤ x ∧ x < i then true else k.poisoned x }))
    else none
  | _, _, _, _ => none

/-- Lines 238-276. -/
def poisonTail (m : Mem) (v : Vector) : Option Mem := annotate m v.begin_ v.capEnd v.capEnd v.end_
/-- Lines 278-290. -/
def unpoisonTail (m : Mem) (v : Vector) : Option Mem := annotate m v.begin_ v.capEnd v.end_ v.capEnd

/-- Lines 194-196. -/
def prepareToWriteIntoTail (m : Mem) (v : Vector) : Option Mem := unpoisonTail m v

/-- Lines 216-226. -/
def setLen (m : Mem) (v : Vector) (len : Nat) : Option (Mem × Vector) := do
  let v := { v with end_ := ← v.begin_.add len }
  return (← poisonTail m v, v)

/-- Lines 671-682. -/
def createVecFromRawParts (begin_ : Ptr) (len cap : Nat) : RVec := if begin_ = .null then ⟨.dangling, 0, 0⟩ else ⟨begin_, len, cap⟩

/-- A closure returns or panics. -/
inductive Out (α : Type)
  | ret (a : α)
  | panic

/-- Lines 295-312. If the closure panics, the `ManuallyDrop` is not dropped and the rest of the function is not run. -/
def mutateSelfAsVec {α : Type} (m : Mem) (v : Vector) (f : Mem → RVec → Option (Mem × RVec × Out α)) : Option (Mem × Vector × Out α) := do
  let m ← unpoisonTail m v
  let (m, r, out) ← f m (createVecFromRawParts v.begin_ (← v.len) (← v.cap))
  match out with
  | .panic => return (m, v, .panic)
  | .ret a =>
    let v ← setBeginLenCapacity r.ptr r.len r.cap
    return (← poisonTail m v, v, .ret a)

/-- The methods that call a method of `Vec`, lines 314-404, 447-484, 607-615: the steps of the method, and whether it then panics. -/
def mutate (m : Mem) (v : Vector) (ps : List Prim) (panics : Bool) : Option (Mem × Vector) := do
  let (m, v, _) ← mutateSelfAsVec m v fun m r => do
    let (m, r) ← runPrims m r ps
    return (m, r, if panics then Out.panic else Out.ret ())
  return (m, v)

/-- Lines 351-353. -/
def append (m : Mem) (v other : Vector) (cap : Nat) : Option (Mem × Vector × Vector) := do
  let (m, v, out) ← mutateSelfAsVec m v fun m r => do
    let (m, other, out) ← mutateSelfAsVec m other fun m o => do
      let (m, r, o) ← RVec.append m r o cap
      return (m, o, Out.ret r)
    match out with
    | .ret r => return (m, r, Out.ret other)
    | .panic => return (m, r, Out.panic)
  match out with
  | .ret other => return (m, v, other)
  | .panic => none

/-- `From<Vec<T, StdAllocator>>`, lines 831-846. -/
def fromStdVec (m : Mem) (r : RVec) : Option (Mem × Vector) := do
  let v ← setBeginLenCapacity r.ptr r.len r.cap
  return (← poisonTail m v, v)

/-- Lines 406-408. -/
def splitOff (m : Mem) (v : Vector) (i : Nat) : Option (Mem × Vector × Vector) := do
  let (m, v, out) ← mutateSelfAsVec m v fun m r => do
    let (m, r, o) ← RVec.splitOff m r i
    return (m, r, Out.ret o)
  match out with
  | .ret o =>
    let (m, other) ← fromStdVec m o
    return (m, v, other)
  | .panic => none

/-- `Drop`, lines 535-549. -/
def drop (m : Mem) (v : Vector) : Option Mem :=
  if v.begin_ = .null then some m else do
    let m ← unpoisonTail m v
    RVec.drop m ⟨v.begin_, ← v.len, ← v.cap⟩

/-- Lines 411-423; the `Vec<T>` it returns uses the allocator of Rust, and is modelled by its elements. -/
def intoVec (m : Mem) (v : Vector) : Option (Mem × List Nat) := do
  let es ← m.read v.begin_ 0 (← v.len)
  let m ← unpoisonTail m v
  let (m, v) ← setLen m v 0
  return (← drop m v, es)

/-- Lines 433-442. -/
def asSlice (m : Mem) (v : Vector) : Option (List Nat) := if v.begin_ = .null then some [] else do m.read v.begin_ 0 (← v.len)

/-- Lines 565-574. -/
def deref (m : Mem) (v : Vector) : Option (List Nat) := do
  let n ← v.len
  if n = 0 then return [] else m.read v.begin_ 0 n

/-- Lines 595-605. -/
def clone (m : Mem) (v : Vector) : Option (Mem × Vector) := do
  let (m, r) ← RVec.clone m (createVecFromRawParts v.begin_ (← v.len) (← v.cap))
  fromStdVec m r

/-- The steps of `extend` with the elements of a `Vec<T>`, after `reserve`. -/
def extendPrims (es : List Nat) : List Prim := es.map .write

/-- `From<Vec<T>>`, lines 816-829, with `with_capacity`, lines 337-341 (`cap` is the capacity after `reserve`). The elements are taken from
outside. -/
def fromVec (m : Mem) (es : List Nat) (cap : Nat) : Option (Mem × Vector) := do
  let (m, v) ← mutate m .new (if es.length = 0 then [] else [.realloc cap]) false
  mutate m v (extendPrims es) false

/-- The use of the tail documented in lines 198-215: `prepare_to_write_into_tail`, writes, `set_len`. -/
def writeTail (m : Mem) (v : Vector) (es : List Nat) : Option (Mem × Vector) := do
  let m ← prepareToWriteIntoTail m v
  let n ← v.len
  let m ← es.zipIdx.foldlM (fun m (e, i) =>
    if e ∈ m.w.hand then ({ m with w := { m.w with hand := m.w.hand.erase e } } : Mem).set v.begin_ (n + i) e else none) m
  setLen m v (n + es.length)

/-- `VectorIntoIter`, lines 685-770, around `alloc::vec::IntoIter`: the elements `i .. j` are still there. -/
structure IntoIter where
  ptr : Ptr
  cap : Nat
  i : Nat
  j : Nat

/-- Lines 773-787. -/
def intoIter (m : Mem) (v : Vector) : Option (Mem × IntoIter) := do
  let m ← unpoisonTail m v
  let r := createVecFromRawParts v.begin_ (← v.len) (← v.cap)
  return (m, ⟨r.ptr, r.cap, 0, r.len⟩)

/-- Lines 715-718. -/
def IntoIter.next (m : Mem) (it : IntoIter) : Option (Mem × IntoIter × Option Nat) :=
  if it.i = it.j then some (m, it, none) else do
    let e ← m.get it.ptr it.i
    return ({ m with w := { m.w with hand := e :: m.w.hand } }, { it with i := it.i + 1 }, some e)

/-- Lines 749-752. -/
def IntoIter.nextBack (m : Mem) (it : IntoIter) : Option (Mem × IntoIter × Option Nat) :=
  if it.i = it.j then some (m, it, none) else do
    let e ← m.get it.ptr (it.j - 1)
    return ({ m with w := { m.w with hand := e :: m.w.hand } }, { it with j := it.j - 1 }, some e)

/-- Drop of `alloc::vec::IntoIter`. -/
def IntoIter.drop (m : Mem) (it : IntoIter) : Option Mem := do
  let m ← m.dropRange it.ptr it.i (it.j - it.i)
  m.dealloc it.ptr it.cap

/-! ### Programs -/

/-- Values owned by the program. -/
inductive Obj
  | vec (v : Vector)
  | iter (it : IntoIter)
  /-- A `Vec<T>` with the allocator of Rust. -/
  | rvec (es : List Nat)

structure State where
  mem : Mem
  next : Nat
  objs : List (Nat × Obj)

def State.init : State := ⟨⟨0, fun _ => none, ⟨0, [], []⟩⟩, 0, []⟩

inductive Op
  | make
  | dropElem (e : Nat)
  | new
  | mutate (x : Nat) (ps : List Prim) (panics : Bool)
  | append (x y cap : Nat)
  | splitOff (x i : Nat)
  | clone (x : Nat)
  /-- A `Vec<T>` with elements from outside. -/
  | mkVec (es : List Nat)
  | dropVec (x : Nat)
  | fromVec (x cap : Nat)
  | intoVec (x : Nat)
  | intoIter (x : Nat)
  | next (x : Nat)
  | nextBack (x : Nat)
  | dropIter (x : Nat)
  | prepare (x : Nat)
  | writeTail (x : Nat) (es : List Nat)
  | drop (x : Nat)
  /-- A C++ function returns a vector with some elements and capacity. -/
  | cpp (es : List Nat) (cap : Nat)

/-- Elements leave the hand. -/
def World.take (w : World) : List Nat → Option World
  | [] => some w
  | e :: es => if e ∈ w.hand then { w with hand := w.hand.erase e }.take es else none

def State.vec (s : State) (x : Nat) : Option Vector := match AMap.get? s.objs x with
  | some (.vec v) => some v
  | _ => none
def State.rvec (s : State) (x : Nat) : Option (List Nat) := match AMap.get? s.objs x with
  | some (.rvec v) => some v
  | _ => none
def State.iter (s : State) (x : Nat) : Option IntoIter := match AMap.get? s.objs x with
  | some (.iter v) => some v
  | _ => none
def State.add (s : State) (o : Obj) : State := { s with next := s.next + 1, objs := (s.next, o) :: s.objs }

/-- A vector made by libc++: null without capacity, tail poisoned. -/
def cppVec (m : Mem) (es : List Nat) (cap : Nat) : Option (Mem × Vector) :=
  if es.length ≤ cap then
    if cap = 0 then some (m, .new)
    else some ({ m with next := m.next + 1, heap := fun x => if x = m.next then some ⟨cap, fun i => es[i]?, fun i => decide (es.length ≤ i)⟩ else m.heap x },
      ⟨.mem m.next 0, .mem m.next es.length, .mem m.next cap⟩)
  else none

def exec (s : State) : Op → Option State
  | .make => some { s with mem := { s.mem with w := s.mem.w.make } }
  | .dropElem e => do
    let w ← s.mem.w.take [e]
    return { s with mem := { s.mem with w := w.drop e } }
  | .new => some (s.add (.vec .new))
  | .mutate x ps panics => do
    let (m, v) ← mutate s.mem (← s.vec x) ps panics
    return { s with mem := m, objs := AMap.insert s.objs x (.vec v) }
  | .append x y cap => if x = y then none else do
    let (m, v, o) ← append s.mem (← s.vec x) (← s.vec y) cap
    return { s with mem := m, objs := AMap.insert (AMap.insert s.objs x (.vec v)) y (.vec o) }
  | .splitOff x i => do
    let (m, v, o) ← splitOff s.mem (← s.vec x) i
    return { s with mem := m, objs := AMap.insert s.objs x (.vec v) }.add (.vec o)
  | .clone x => do
    let (m, v) ← clone s.mem (← s.vec x)
    return { s with mem := m }.add (.vec v)
  | .mkVec es => do
    let w ← s.mem.w.take es
    return { s with mem := { s.mem with w := w } }.add (.rvec es)
  | .dropVec x => do
    let es ← s.rvec x
    return { s with mem := { s.mem with w := s.mem.w.dropAll es }, objs := AMap.erase s.objs x }
  | .fromVec x cap => do
    let es ← s.rvec x
    let m := { s.mem with w := { s.mem.w with hand := es ++ s.mem.w.hand } }
    let (m, v) ← fromVec m es cap
    return { s with mem := m, objs := AMap.insert s.objs x (.vec v) }
  | .intoVec x => do
    let (m, es) ← intoVec s.mem (← s.vec x)
    return { s with mem := m, objs := AMap.insert s.objs x (.rvec es) }
  | .intoIter x => do
    let (m, it) ← intoIter s.mem (← s.vec x)
    return { s with mem := m, objs := AMap.insert s.objs x (.iter it) }
  | .next x => do
    let (m, it, _) ← (← s.iter x).next s.mem
    return { s with mem := m, objs := AMap.insert s.objs x (.iter it) }
  | .nextBack x => do
    let (m, it, _) ← (← s.iter x).nextBack s.mem
    return { s with mem := m, objs := AMap.insert s.objs x (.iter it) }
  | .dropIter x => do
    let m ← (← s.iter x).drop s.mem
    return { s with mem := m, objs := AMap.erase s.objs x }
  | .prepare x => do
    let m ← prepareToWriteIntoTail s.mem (← s.vec x)
    return { s with mem := m }
  | .writeTail x es => do
    let (m, v) ← writeTail s.mem (← s.vec x) es
    return { s with mem := m, objs := AMap.insert s.objs x (.vec v) }
  | .drop x => do
    let m ← drop s.mem (← s.vec x)
    return { s with mem := m, objs := AMap.erase s.objs x }
  | .cpp es cap => do
    let w ← s.mem.w.take es
    let (m, v) ← cppVec { s.mem with w := w } es cap
    return { s with mem := m }.add (.vec v)

def run (s : State) : List Op → Option State
  | [] => some s
  | op :: ops => do
    let s ← exec s op
    run s ops

end Verif.Vector

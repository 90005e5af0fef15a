import Verif.Vector.Model
/-
C64-C67: what users of `vector<T>` see. A vector is a list of elements with a capacity; values are owned by names; methods of `vector`
do what the methods of `Vec` do. There is no memory here.
-/
namespace Verif.Vector
open Verif

/-- The steps of methods of `Vec` on a list with a capacity. -/
def Prim.spec (w : World) (es : List Nat) (cap : Nat) : Prim → Option (World × List Nat × Nat)
  | .realloc c => if es.length ≤ c then some (w, es, c) else none
  | .write e => if e ∈ w.hand ∧ es.length < cap then some ({ w with hand := w.hand.erase e }, es ++ [e], cap) else none
  | .take => do
    let e ← es.getLast?
    return ({ w with hand := e :: w.hand }, es.dropLast, cap)
  | .dropLast => do
    let e ← es.getLast?
    return (w.drop e, es.dropLast, cap)
  | .swap i j => do
    let a ← es[i]?
    let b ← es[j]?
    return (w, (es.set i b).set j a, cap)
  | .look i => if i < es.length then some (w, es, cap) else none
  | .make => some (w.make, es, cap)
  | .dropHand e => if e ∈ w.hand then some ({ w with hand := w.hand.erase e }.drop e, es, cap) else none

def specPrims (w : World) (es : List Nat) (cap : Nat) : List Prim → Option (World × List Nat × Nat)
  | [] => some (w, es, cap)
  | p :: ps => do
    let (w, es, cap) ← p.spec w es cap
    specPrims w es cap ps

/-- Steps after which a panic is harmless: the elements stay, in the same memory. -/
def Prim.harmless : Prim → Bool
  | .realloc _ | .take | .dropLast => false
  | _ => true

inductive AObj
  /-- `closed`: the tail is poisoned for ASan. -/
  | vec (es : List Nat) (cap : Nat) (closed : Bool)
  | iter (es : List Nat)
  | rvec (es : List Nat)

/-- The elements a value owns. -/
def AObj.elems : AObj → List Nat
  | .vec es _ _ | .iter es | .rvec es => es

structure AState where
  w : World
  next : Nat
  objs : List (Nat × AObj)
  /-- Elements nobody owns any more, because of a panic in `extend`, `resize`, ... . -/
  leaked : List Nat

def AState.init : AState := ⟨⟨0, [], []⟩, 0, [], []⟩

def AState.vec (s : AState) (x : Nat) : Option (List Nat × Nat) := match AMap.get? s.objs x with
  | some (.vec es cap _) => some (es, cap)
  | _ => none
def AState.rvec (s : AState) (x : Nat) : Option (List Nat) := match AMap.get? s.objs x with
  | some (.rvec es) => some es
  | _ => none
def AState.iter (s : AState) (x : Nat) : Option (List Nat) := match AMap.get? s.objs x with
  | some (.iter es) => some es
  | _ => none
def AState.add (s : AState) (o : AObj) : AState := { s with next := s.next + 1, objs := (s.next, o) :: s.objs }
def AState.put (s : AState) (x : Nat) (o : AObj) : AState := { s with objs := AMap.insert s.objs x o }

/-- `n` new elements. -/
def World.makeN (w : World) : Nat → World
  | 0 => w
  | n + 1 => { w.make with hand := w.hand }.makeN n

/-- What each operation means; `none`: the program may not do this. -/
def Op.spec (s : AState) : Op → Option AState
  | .make => some { s with w := s.w.make }
  | .dropElem e => do
    let w ← s.w.take [e]
    return { s with w := w.drop e }
  | .new => some (s.add (.vec [] 0 true))
  | .mutate x ps panics => do
    let (es, cap) ← s.vec x
    let (w, fs, c) ← specPrims s.w es cap ps
    if panics then
      if ps.all Prim.harmless then
        return { s with w := w, leaked := fs.drop es.length ++ s.leaked }.put x (.vec (fs.take es.length) cap false)
      else none
    else return { s with w := w }.put x (.vec fs c true)
  | .append x y cap => do
    let (es, _) ← s.vec x
    let (fs, d) ← s.vec y
    if x ≠ y ∧ es.length + fs.length ≤ cap then return (s.put x (.vec (es ++ fs) cap true)).put y (.vec [] d true)
    else none
  | .splitOff x i => do
    let (es, cap) ← s.vec x
    if i ≤ es.length then return (s.put x (.vec (es.take i) cap true)).add (.vec (es.drop i) (es.length - i) true) else none
  | .clone x => do
    let (es, _) ← s.vec x
    return { s with w := s.w.makeN es.length }.add (.vec (List.range' s.w.next es.length) es.length true)
  | .mkVec es => do
    let w ← s.w.take es
    return { s with w := w }.add (.rvec es)
  | .dropVec x => do
    let es ← s.rvec x
    return { s with w := s.w.dropAll es, objs := AMap.erase s.objs x }
  | .fromVec x cap => do
    let es ← s.rvec x
    if es = [] then return s.put x (.vec [] 0 true) else
    if es.length ≤ cap then return s.put x (.vec es cap true) else none
  | .intoVec x => do
    let (es, _) ← s.vec x
    return s.put x (.rvec es)
  | .intoIter x => do
    let (es, _) ← s.vec x
    return s.put x (.iter es)
  | .next x => do
    match ← s.iter x with
    | [] => return s
    | e :: es => return { s with w := { s.w with hand := e :: s.w.hand } }.put x (.iter es)
  | .nextBack x => do
    let es ← s.iter x
    match es.getLast? with
    | none => return s
    | some e => return { s with w := { s.w with hand := e :: s.w.hand } }.put x (.iter es.dropLast)
  | .dropIter x => do
    let es ← s.iter x
    return { s with w := s.w.dropAll es, objs := AMap.erase s.objs x }
  | .prepare x => do
    let (es, cap) ← s.vec x
    return s.put x (.vec es cap false)
  | .writeTail x fs => do
    let (es, cap) ← s.vec x
    let w ← s.w.take fs
    if es.length + fs.length ≤ cap then return { s with w := w }.put x (.vec (es ++ fs) cap true) else none
  | .drop x => do
    let (es, _) ← s.vec x
    return { s with w := s.w.dropAll es, objs := AMap.erase s.objs x }
  | .cpp es cap => do
    let w ← s.w.take es
    if es.length ≤ cap then return { s with w := w }.add (.vec es cap true) else none

def specRun (s : AState) : List Op → Option AState
  | [] => some s
  | op :: ops => do
    let s ← op.spec s
    specRun s ops

/-! ### What C++ expects of a `std::vector` -/

/-- Allocation `b` has room for `cap` elements, `es` are in it from place `i` on, and the places before `bound` are accessible, the others
poisoned. -/
def Region (heap : Nat → Option Buf) (b cap i : Nat) (es : List Nat) (bound : Nat) : Prop :=
  ∃ k, heap b = some k ∧ k.cap = cap ∧ 0 < cap ∧ i + es.length ≤ cap ∧ (∀ x, x < es.length → k.cell (i + x) = es[x]?) ∧
    ∀ x, x < cap → k.poisoned x = decide (bound ≤ x)

/-- The representation of libc++: three null pointers without capacity; otherwise they point to the start, the end of the elements and
the end of an allocation, and ASan knows which elements exist. -/
def IsVector (m : Mem) (v : Vector) (es : List Nat) (cap : Nat) (closed : Bool) : Prop :=
  (cap = 0 ∧ es = [] ∧ v = ⟨.null, .null, .null⟩) ∨
  ∃ b, v = ⟨.mem b 0, .mem b es.length, .mem b cap⟩ ∧ Region m.heap b cap 0 es (if closed then es.length else cap)

/-- The remaining elements of an iterator are in its allocation. -/
def IsIter (m : Mem) (it : IntoIter) (es : List Nat) : Prop :=
  it.j = it.i + es.length ∧
  ((it.cap = 0 ∧ es = [] ∧ it.ptr = .dangling) ∨ ∃ b, it.ptr = .mem b 0 ∧ Region m.heap b it.cap it.i es it.cap)

def IsObj (m : Mem) : Obj → AObj → Prop
  | .vec v, .vec es cap closed => IsVector m v es cap closed
  | .iter it, .iter es => IsIter m it es
  | .rvec es, .rvec fs => es = fs
  | _, _ => False

/-- The allocation a pointer points to. -/
def Ptr.buf : Ptr → List Nat
  | .mem b _ => [b]
  | _ => []

/-- The allocation a value owns. -/
def Obj.buf : Obj → List Nat
  | .vec v => v.begin_.buf
  | .iter it => it.ptr.buf
  | .rvec _ => []

end Verif.Vector

import Verif.Bridge.Model
/-
Model of common/interner.rs (`Interner<'arena, str>` / `Interner<'arena, [u8]>`; `Interner<T>` is the case
of fixed-length values). Values are byte strings; memory is a function from addresses to bytes.
Simplifications: element types other than bytes are identified with their object representation (so `Eq`
is bytewise); the `HashSet<&T>` is a list searched by dereferencing, as `Hash`/`Eq` of `&T` do.
-/
namespace Verif.Interner
open Verif.Bridge (Mem)

/-- interner.rs:14 `Interned(&'arena T)`: a fat pointer. -/
structure Handle where
  addr : Nat
  len : Nat
deriving DecidableEq, Repr

/-- interner.rs:26-28, 43-48 `inner` / `Deref`. -/
def Handle.deref (m : Mem) (h : Handle) : List UInt8 := m.read h.addr h.len

/-- interner.rs:51-55 `PartialEq::eq`: compares `ptr()` = the *thin* pointer (31-34). -/
def Handle.eq (a b : Handle) : Bool := a.addr == b.addr

/-- interner.rs:65-69 `Ord::cmp` on the thin pointers. -/
def Handle.cmp (a b : Handle) : Ordering := compare a.addr b.addr

/-- The bump arena: given the (address, size) ranges handed out so far and a size, an address for the new
range. Contract: non-empty ranges are disjoint. Nothing is promised about empty ranges. -/
structure Arena where
  alloc : List (Nat × Nat) → Nat → Nat
  disjoint : ∀ ranges n, 0 < n → ∀ r ∈ ranges, 0 < r.2 →
    alloc ranges n + n ≤ r.1 ∨ r.1 + r.2 ≤ alloc ranges n

/-- interner.rs:81-84, plus the arena's memory and the ranges allocated so far. -/
structure St where
  mem : Mem
  ranges : List (Nat × Nat)
  map : List Handle

/-- interner.rs:88-90 `new` (the arena may already contain anything in `mem`). -/
def St.new (mem : Mem) (ranges : List (Nat × Nat)) : St := ⟨mem, ranges, []⟩

/-- interner.rs:99-107 / 112-120 / 125-133 `intern`, `intern_slice`, `intern_str`. -/
def intern (ar : Arena) (s : St) (v : List UInt8) : Handle × St :=
  match s.map.find? (fun h => h.deref s.mem == v) with
  | some h => (h, s)
  | none =>
    let a := ar.alloc s.ranges v.length
    let h : Handle := ⟨a, v.length⟩
    (h, ⟨s.mem.write a v, (a, v.length) :: s.ranges, h :: s.map⟩)

/-- A sequence of intern calls: all handles returned, and the final state. -/
def internAll (ar : Arena) : St → List (List UInt8) → List Handle × St
  | s, [] => ([], s)
  | s, v :: vs =>
    let (h, s) := intern ar s v
    let (hs, s) := internAll ar s vs
    (h :: hs, s)

/-- bumpalo 3's bump allocator within one chunk of bytes (align 1): the pointer moves down by the size; an
empty allocation returns the current pointer, i.e. the address of the latest allocation. `top` is the end
of the chunk (chunk exhaustion is not modelled: the address space is the model's `Nat`, so allocation goes
upwards past `top` instead once the chunk is full). -/
def bumpDown (top : Nat) (ranges : List (Nat × Nat)) (n : Nat) : Nat :=
  let cur := ranges.foldr (fun r a => min r.1 a) top
  if n ≤ cur then cur - n else ranges.foldr (fun r a => max (r.1 + r.2) a) top

end Verif.Interner

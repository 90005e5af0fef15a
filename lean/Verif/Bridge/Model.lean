import Verif.Common.AMap
/-
Model of the bridge ABI:
* Rust side: support/crubit_bridge_rust/src/bridge.rs (and BoxedCppStringAbi from
  support/cc_std_impl/string.rs:272-292 for boxed values),
* C++ side: support/bridge.h.
Simplifications: a value of a transmuted type `T` is its `size_of::<T>()`-byte object representation
(both sides copy exactly those bytes); memory is a function from addresses to bytes; C++ objects put
in a `BoxedAbi` box are opaque values of a type `O`.
-/
namespace Verif.Bridge
open Verif

/-- `sizeof(void*)` on the supported 64-bit targets. -/
def ptrSize : Nat := 8

mutual
/-- ABI schemas: `TransmuteAbi<T>` (with `size_of T`), tuples (`(A1,..,An)` in Rust, `TupleAbi<..>` in
C++), pairs (`(A, B)` in Rust, `PairAbi<A, B>` in C++; common/crubit_abi_type.rs:166-170, 274-281),
`OptionAbi<A>`, and boxed C++ objects (`BoxedCppStringAbi` in Rust, `BoxedAbi<T>` in C++). -/
inductive Abi where
  | transmute (size : Nat)
  | tuple (as : Abis)
  | pair (a b : Abi)
  | option (a : Abi)
  | boxed
inductive Abis where
  | nil
  | cons (a : Abi) (as : Abis)
end

mutual
/-- `CrubitAbi::Value` / `Abi::Value`; `P` is the representation of a boxed object (the owning
pointer in Rust, the object itself in C++). -/
@[reducible] def Abi.Val (P : Type) : Abi → Type
  | .transmute n => { l : List UInt8 // l.length = n }
  | .tuple as => as.Vals P
  | .pair a b => a.Val P × b.Val P
  | .option a => Option (a.Val P)
  | .boxed => P
@[reducible] def Abis.Vals (P : Type) : Abis → Type
  | .nil => Unit
  | .cons a as => a.Val P × as.Vals P
end

mutual
/-- bridge.rs:247 `SIZE` (transmute), :282 (tuples), :337 (option), string.rs:277 (boxed string). -/
def Abi.size : Abi → Nat
  | .transmute n => n
  | .tuple as => as.size
  | .pair a b => 0 + a.size + b.size
  | .option a => 1 + a.size
  | .boxed => ptrSize
def Abis.size : Abis → Nat
  | .nil => 0
  | .cons a as => a.size + as.size
end

mutual
/-- bridge.h:241, 264 (fold `(0 + ... + Abis::kSize)`), 293, 312, 335 `kSize`. -/
def Abi.kSize : Abi → Nat
  | .transmute n => n
  | .tuple as => 0 + as.kSize
  | .pair a b => a.kSize + b.kSize
  | .option a => 1 + a.kSize
  | .boxed => ptrSize
def Abis.kSize : Abis → Nat
  | .nil => 0
  | .cons a as => a.kSize + as.kSize
end

inductive Err where
  /-- `remaining_bytes -= SIZE` underflows: a panic in Rust debug builds, an out-of-bounds access
  (undefined behaviour) in Rust release builds and in C++. -/
  | underflow
  /-- a `bool` is read from a byte that is neither 0 nor 1 (undefined behaviour). -/
  | invalidBool
  /-- string.rs:289 `expect("Boxing a std::string shouldn't fail")` -/
  | nullBox
  /-- `operator new` throws. -/
  | badAlloc
  /-- dereference / delete of a pointer that is not a live allocation (undefined behaviour). -/
  | badPointer
deriving DecidableEq, Repr

abbrev Mem := Nat → UInt8

def Mem.write (m : Mem) (addr : Nat) (bytes : List UInt8) : Mem :=
  fun i => if addr ≤ i then (bytes[i - addr]?).getD (m i) else m i

def Mem.read (m : Mem) (addr n : Nat) : List UInt8 := (List.range n).map (fun i => m (addr + i))

/-- bridge.rs:205-219 `Encoder`/`Decoder`, bridge.h:193-235 (same two fields in all four). -/
structure Cursor where
  remaining : Nat
  buf : Nat
deriving DecidableEq, Repr

/-- `remaining_bytes -= size` (bridge.rs:252, 263) / `Next(size)` (bridge.h:203-206, 225-228). -/
def Cursor.next (c : Cursor) (size : Nat) : Except Err Cursor :=
  if size ≤ c.remaining then .ok { c with remaining := c.remaining - size } else .error .underflow

/-! ### Rust side -/

/-- bridge.rs:249-258 `TransmuteAbi::encode`. -/
def putBytes (bytes : List UInt8) (c : Cursor) (m : Mem) : Except Err (Cursor × Mem) := do
  let c ← c.next bytes.length
  return (c, m.write (c.buf + c.remaining) bytes)

/-- bridge.rs:260-267 `TransmuteAbi::decode`. -/
def getBytes (n : Nat) (c : Cursor) (m : Mem) : Except Err (List UInt8 × Cursor) := do
  let c ← c.next n
  return (m.read (c.buf + c.remaining) n, c)

/-- `transmute_abi().encode(b, encoder)` for `bool`. -/
def putBool (b : Bool) (c : Cursor) (m : Mem) : Except Err (Cursor × Mem) :=
  putBytes [if b then 1 else 0] c m

/-- `transmute_abi::<bool>().decode(decoder)`. -/
def getBool (c : Cursor) (m : Mem) : Except Err (Bool × Cursor) := do
  let (l, c) ← getBytes 1 c m
  match l with
  | [0] => return (false, c)
  | [1] => return (true, c)
  | _ => throw .invalidBool

/-- A non-null pointer (`NonNull<c_void>`), as its object representation. -/
abbrev Ptr := { l : List UInt8 // l.length = ptrSize ∧ l ≠ List.replicate ptrSize 0 }

mutual
/-- bridge.rs:244-258 (transmute), 284-291 (tuples), 339-346 (option), string.rs:279-281 (boxed). -/
def rustEncode : (a : Abi) → a.Val Ptr → Cursor → Mem → Except Err (Cursor × Mem)
  | .transmute _, v, c, m => putBytes v.1 c m
  | .tuple as, v, c, m => rustEncodes as v c m
  | .pair a b, (x, y), c, m => do
      let (c, m) ← rustEncode a x c m
      rustEncode b y c m
  | .option a, some v, c, m => do
      let (c, m) ← putBool true c m
      rustEncode a v c m
  | .option _, none, c, m => putBool false c m
  | .boxed, p, c, m => putBytes p.1 c m
def rustEncodes : (as : Abis) → as.Vals Ptr → Cursor → Mem → Except Err (Cursor × Mem)
  | .nil, _, c, m => .ok (c, m)
  | .cons a as, (x, xs), c, m => do
      let (c, m) ← rustEncode a x c m
      rustEncodes as xs c m
end

/-- string.rs:283-291 `BoxedCppStringAbi::decode`. -/
def toPtr (l : List UInt8) : Except Err Ptr :=
  if h : l.length = ptrSize ∧ l ≠ List.replicate ptrSize 0 then .ok ⟨l, h⟩ else .error .nullBox

/-- The `n` bytes read as a value of a transmuted type. -/
def toRaw (n : Nat) (l : List UInt8) : Except Err { l : List UInt8 // l.length = n } :=
  if h : l.length = n then .ok ⟨l, h⟩ else .error .underflow

mutual
/-- bridge.rs:260-267 (transmute), 293-306 (tuples), 348-358 (option), string.rs:283-291 (boxed). -/
def rustDecode : (a : Abi) → Cursor → Mem → Except Err (a.Val Ptr × Cursor)
  | .transmute n, c, m => do
      let (l, c) ← getBytes n c m
      let v ← toRaw n l
      return (v, c)
  | .tuple as, c, m => rustDecodes as c m
  | .pair a b, c, m => do
      let (x, c) ← rustDecode a c m
      let (y, c) ← rustDecode b c m
      return ((x, y), c)
  | .option a, c, m => do
      let (b, c) ← getBool c m
      if b then
        let (x, c) ← rustDecode a c m
        return (some x, c)
      else return (none, c)
  | .boxed, c, m => do
      let (l, c) ← getBytes ptrSize c m
      let p ← toPtr l
      return (p, c)
def rustDecodes : (as : Abis) → Cursor → Mem → Except Err (as.Vals Ptr × Cursor)
  | .nil, c, _ => .ok ((), c)
  | .cons a as, c, m => do
      let (x, c) ← rustDecode a c m
      let (xs, c) ← rustDecodes as c m
      return ((x, xs), c)
end

/-- bridge.rs:374-376 `internal::encode`. -/
def rustEncodeTop (a : Abi) (v : a.Val Ptr) (buf : Nat) (m : Mem) : Except Err Mem := do
  let (_, m) ← rustEncode a v ⟨a.size, buf⟩ m
  return m

/-- bridge.rs:386-389 `internal::decode`. -/
def rustDecodeTop (a : Abi) (buf : Nat) (m : Mem) : Except Err (a.Val Ptr) := do
  let (v, _) ← rustDecode a ⟨a.size, buf⟩ m
  return v

/-! ### C++ side -/

/-- Live C++ heap cells created by `new Value(..)`. -/
abbrev Heap (O : Type) := List (Ptr × O)

structure St (O : Type) where
  mem : Mem
  heap : Heap O

/-- `operator new`: it may throw; when it does not, it returns a non-null pointer to a cell that is
not live. -/
structure Allocator (O : Type) where
  alloc : Heap O → Option Ptr
  fresh : ∀ h p, alloc h = some p → p ∉ AMap.keys h

/-- Order in which the compiler evaluates the arguments `std::move(abis).Decode(decoder)...` of the
`std::make_tuple` call at bridge.h:278 (unspecified by C++; bridge.h is only enabled for clang, which
evaluates left to right on Itanium-ABI targets). -/
inductive ArgOrder where
  | leftToRight
  | rightToLeft
deriving DecidableEq

mutual
/-- bridge.h:242-245 (transmute), 265-275 (tuple), 294-297 (pair), 313-320 (option), 336-339 (boxed). -/
def cppEncode {O : Type} (al : Allocator O) :
    (a : Abi) → a.Val O → Cursor → St O → Except Err (Cursor × St O)
  | .transmute _, v, c, s => do
      let (c, m) ← putBytes v.1 c s.mem
      return (c, { s with mem := m })
  | .tuple as, v, c, s => cppEncodes al as v c s
  | .pair a b, (x, y), c, s => do
      let (c, s) ← cppEncode al a x c s
      cppEncode al b y c s
  | .option a, some v, c, s => do
      let (c, m) ← putBool true c s.mem
      cppEncode al a v c { s with mem := m }
  | .option _, none, c, s => do
      let (c, m) ← putBool false c s.mem
      return (c, { s with mem := m })
  | .boxed, o, c, s =>
      match al.alloc s.heap with
      | none => .error .badAlloc
      | some p => do
        let (c, m) ← putBytes p.1 c s.mem
        return (c, ⟨m, (p, o) :: s.heap⟩)
def cppEncodes {O : Type} (al : Allocator O) :
    (as : Abis) → as.Vals O → Cursor → St O → Except Err (Cursor × St O)
  | .nil, _, c, s => .ok (c, s)
  | .cons a as, (x, xs), c, s => do
      let (c, s) ← cppEncode al a x c s
      cppEncodes al as xs c s
end

mutual
/-- bridge.h:246-250 (transmute), 276-281 (tuple), 298-303 (pair; braced initialisers are sequenced
left to right), 321-326 (option), 340-346 (boxed: move out of the box, then `delete box`). -/
def cppDecode {O : Type} (ord : ArgOrder) :
    (a : Abi) → Cursor → St O → Except Err (a.Val O × Cursor × St O)
  | .transmute n, c, s => do
      let (l, c) ← getBytes n c s.mem
      let v ← toRaw n l
      return (v, c, s)
  | .tuple as, c, s => cppDecodes ord as c s
  | .pair a b, c, s => do
      let (x, c, s) ← cppDecode ord a c s
      let (y, c, s) ← cppDecode ord b c s
      return ((x, y), c, s)
  | .option a, c, s => do
      let (b, c) ← getBool c s.mem
      if b then
        let (x, c, s) ← cppDecode ord a c s
        return (some x, c, s)
      else return (none, c, s)
  | .boxed, c, s => do
      let (l, c) ← getBytes ptrSize c s.mem
      match toPtr l with
      | .error _ => throw .badPointer
      | .ok p =>
        match AMap.get? s.heap p with
        | none => throw .badPointer
        | some o => return (o, c, { s with heap := AMap.erase s.heap p })
def cppDecodes {O : Type} (ord : ArgOrder) :
    (as : Abis) → Cursor → St O → Except Err (as.Vals O × Cursor × St O)
  | .nil, c, s => .ok ((), c, s)
  | .cons a as, c, s =>
    match ord with
    | .leftToRight => do
      let (x, c, s) ← cppDecode ord a c s
      let (xs, c, s) ← cppDecodes ord as c s
      return ((x, xs), c, s)
    | .rightToLeft => do
      let (xs, c, s) ← cppDecodes ord as c s
      let (x, c, s) ← cppDecode ord a c s
      return ((x, xs), c, s)
end

/-- bridge.h:351-356 `internal::Encode`. -/
def cppEncodeTop {O : Type} (al : Allocator O) (a : Abi) (v : a.Val O) (buf : Nat) (s : St O) :
    Except Err (St O) := do
  let (_, s) ← cppEncode al a v ⟨a.kSize, buf⟩ s
  return s

/-- bridge.h:358-363 `internal::Decode`. -/
def cppDecodeTop {O : Type} (ord : ArgOrder) (a : Abi) (buf : Nat) (s : St O) :
    Except Err (a.Val O × St O) := do
  let (v, _, s) ← cppDecode ord a ⟨a.kSize, buf⟩ s
  return (v, s)

end Verif.Bridge

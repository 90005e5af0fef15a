import Verif.Bridge.Model
/-
Specification vocabulary for the bridge: which C++ value a Rust value stands for. The two sides of the
bridge hold the same data except that a boxed C++ object is, on the Rust side, the pointer owning it.
-/
namespace Verif.Bridge
open Verif

mutual
/-- The owning pointers inside a Rust-side value, in encoding order. -/
def boxes : (a : Abi) → a.Val Ptr → List Ptr
  | .transmute _, _ => []
  | .tuple as, v => boxess as v
  | .pair a b, (x, y) => boxes a x ++ boxes b y
  | .option a, some v => boxes a v
  | .option _, none => []
  | .boxed, p => [p]
def boxess : (as : Abis) → as.Vals Ptr → List Ptr
  | .nil, _ => []
  | .cons a as, (x, xs) => boxes a x ++ boxess as xs
end

mutual
/-- The C++ value obtained from the Rust-side value by following every owning pointer in `h`. -/
def deref {O : Type} (h : Heap O) : (a : Abi) → a.Val Ptr → Option (a.Val O)
  | .transmute _, v => some v
  | .tuple as, v => derefs h as v
  | .pair a b, (x, y) => do return (← deref h a x, ← deref h b y)
  | .option a, some v => do return some (← deref h a v)
  | .option _, none => some none
  | .boxed, p => AMap.get? h p
def derefs {O : Type} (h : Heap O) : (as : Abis) → as.Vals Ptr → Option (as.Vals O)
  | .nil, _ => some ()
  | .cons a as, (x, xs) => do return (← deref h a x, ← derefs h as xs)
end

mutual
/-- The boxed C++ objects inside a C++ value, left to right. -/
def objs {O : Type} : (a : Abi) → a.Val O → List O
  | .transmute _, _ => []
  | .tuple as, v => objss as v
  | .pair a b, (x, y) => objs a x ++ objs b y
  | .option a, some v => objs a v
  | .option _, none => []
  | .boxed, o => [o]
def objss {O : Type} : (as : Abis) → as.Vals O → List O
  | .nil, _ => []
  | .cons a as, (x, xs) => objs a x ++ objss as xs
end

/-- Two memories hold the same bytes at addresses `buf .. buf + n - 1`. -/
def AgreeOn (buf n : Nat) (m m' : Mem) : Prop := ∀ i, buf ≤ i → i < buf + n → m i = m' i

/-- Two memories hold the same bytes everywhere except at `buf .. buf + n - 1`. -/
def AgreeOff (buf n : Nat) (m m' : Mem) : Prop := ∀ i, (i < buf ∨ buf + n ≤ i) → m i = m' i

end Verif.Bridge

/-
Specification vocabulary for Rust iterators used from C++ (C173).
-/

namespace Verif.Iter

/-- A Rust iterator: what `next()` returns and the new state. -/
abbrev Next (σ α : Type) := σ → Option α × σ

/-- The state after `k` calls of `next()` -/
def after {σ α : Type} (next : Next σ α) (s : σ) : Nat → σ
  | 0 => s
  | k + 1 => (next (after next s k)).2

/-- What call number `k` of `next()` returns, from 0 -/
def nth {σ α : Type} (next : Next σ α) (s : σ) (k : Nat) : Option α := (next (after next s k)).1

/-- `for x in it { … }` in Rust without `break`: the body runs for the elements of `l`, in order. -/
inductive RustFor {σ α : Type} (next : Next σ α) : σ → List α → σ → Prop where
  | done {s s' : σ} : next s = (none, s') → RustFor next s [] s'
  | step {s s1 s' : σ} {a : α} {l : List α} : next s = (some a, s1) → RustFor next s1 l s' → RustFor next s (a :: l) s'

/-- What C++ code does with the iterator. -/
inductive Op where
  | inc
  | deref
  | take
  | isEnd
deriving DecidableEq

/-- What it sees: the element is there, or was there and has been moved out, or there is none (reading it is an error). -/
inductive Obs (α : Type) where
  | val (a : α)
  | got (a : α)
  | moved
  | error
  | isEnd (b : Bool)
  | none
deriving DecidableEq

/-- What is to be seen, by the results of `next()` alone; `n`: number of increments; `t`: the element has been moved out. -/
def expected {σ α : Type} (next : Next σ α) (s : σ) : Nat → Bool → List Op → List (Obs α)
  | _, _, [] => []
  | n, _, .inc :: ops => .none :: expected next s (n + 1) false ops
  | n, t, .deref :: ops =>
      (match nth next s n with
        | some a => if t then .moved else .val a
        | none => .error) :: expected next s n t ops
  | n, t, .take :: ops =>
      (match nth next s n with
        | some a => if t then .moved else .got a
        | none => .error) :: expected next s n true ops
  | n, t, .isEnd :: ops => .isEnd (nth next s n).isNone :: expected next s n t ops

def incs (ops : List Op) : Nat := (ops.filter (· = .inc)).length

end Verif.Iter

import Verif.Common.AMap
/-
Model of common/memoized.rs: `query_group!` databases and `internal_memoized_call`.

A database is a family of memoised functions. A key `K` is a (function, argument tuple) pair; all the
per-function tables of the database are therefore one table indexed by `K` (the per-function tables
never interact except through the shared `__unwinding_cycles` counter). Memoised functions are pure
(documented requirement, memoized.rs:123-125), so a body is a decision tree that asks for other queries.
Simplifications: `__unwinding_cycles` is a natural number (the code: `u32`); clones are identities;
the return values of all functions share one type `V`; after a panic the database is not used again.
The fields `runs` and `hits` are ghost logs (bodies started, cycle defaults returned): no code reads them.
-/
namespace Verif.Memo
open Verif

/-- A pure function body with access to the database: memoized.rs:123-125, 251-253. -/
inductive Prog (K V : Type) where
  | ret (v : V)
  | ask (k : K) (cont : V → Prog K V)

/-- The functions registered in the database. `onCycle k = some d` for
`#[break_cycles_with = d]` functions (memoized.rs:247-255), `none` for the others, which panic
(memoized.rs:266-276). -/
structure Sys (K V : Type) where
  body : K → Prog K V
  onCycle : K → Option V

/-- memoized.rs:206-226 (tables + counter), 387-394 (`memoized`, `active`).
`active k = some true` is `FoundCycle::Yes`. -/
structure St (K V : Type) where
  memo : List (K × V)
  active : List (K × Bool)
  unwinding : Nat
  runs : List K
  hits : List K

/-- memoized.rs:293-317 `new`. -/
def St.init {K V : Type} : St K V := ⟨[], [], 0, [], []⟩

inductive Out (α : Type) where
  /-- not enough fuel: the call has not returned yet -/
  | more
  /-- memoized.rs:275 "Cycle detected" -/
  | cyclePanic
  /-- memoized.rs:436 `expect("Internal error: ..")` -/
  | internalPanic
  /-- memoized.rs:445 `unwinding_cycles - 1` underflows -/
  | underflow
  | ok (a : α)

variable {K V : Type} [DecidableEq K]

/-- Execution of a body whose queries go through `call` (memoized.rs:435). -/
def run (call : K → St K V → Out (V × St K V)) : Prog K V → St K V → Out (V × St K V)
  | .ret v, s => .ok (v, s)
  | .ask k c, s =>
    match call k s with
    | .ok (v, s) => run call (c v) s
    | .more => .more
    | .cyclePanic => .cyclePanic
    | .internalPanic => .internalPanic
    | .underflow => .underflow

/-- memoized.rs:436-452: after the body returned. -/
def finish (k : K) (v : V) (s : St K V) : Out (V × St K V) :=
  match AMap.get? s.active k with
  | none => .internalPanic
  | some found =>
    let s := { s with active := AMap.erase s.active k }
    if found && s.unwinding == 0 then .underflow
    else
      let s := if found then { s with unwinding := s.unwinding - 1 } else s
      let s := if s.unwinding = 0 then { s with memo := AMap.insert s.memo k v } else s
      .ok (v, s)

/-- memoized.rs:425-433 and the `unwrap_or`/`unwrap_or_else` at 255 / 274-276. -/
def hitCycle (sys : Sys K V) (k : K) (found : Bool) (s : St K V) : Out (V × St K V) :=
  let s := if found then s else { s with unwinding := s.unwinding + 1 }
  let s := { s with active := AMap.insert s.active k true, hits := k :: s.hits }
  match sys.onCycle k with
  | some d => .ok (d, s)
  | none => .cyclePanic

/-- memoized.rs:413-453 `internal_memoized_call` as used by the generated methods. The fuel bounds the
depth of nested calls; every theorem quantifies over it. -/
def call (sys : Sys K V) : Nat → K → St K V → Out (V × St K V)
  | 0, _, _ => .more
  | n + 1, k, s =>
    match AMap.get? s.memo k with
    | some v => .ok (v, s)
    | none =>
      match AMap.get? s.active k with
      | some found => hitCycle sys k found s
      | none =>
        match run (call sys n) (sys.body k)
            { s with active := AMap.insert s.active k false, runs := k :: s.runs } with
        | .ok (v, s) => finish k v s
        | .more => .more
        | .cyclePanic => .cyclePanic
        | .internalPanic => .internalPanic
        | .underflow => .underflow

end Verif.Memo

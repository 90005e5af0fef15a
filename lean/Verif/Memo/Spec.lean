import Verif.Memo.Model
import Mathlib.Logic.Relation
/- Specification vocabulary for the memoised database: the plain (unmemoised) recursive functions, and
the states a database can be in. -/
namespace Verif.Memo
open Verif
variable {K V : Type} [DecidableEq K]

/-- Plain recursion, no cache: running the body `p` returns `v`. -/
inductive Eval (body : K → Prog K V) : Prog K V → V → Prop
  | ret (v : V) : Eval body (.ret v) v
  | ask {k : K} {c : V → Prog K V} {w v : V} :
      Eval body (body k) w → Eval body (c w) v → Eval body (.ask k c) v

/-- The plain recursive query `k` terminates and returns `v` (so `k` depends on no cycle). -/
def Denotes (sys : Sys K V) (k : K) (v : V) : Prop := Eval sys.body (sys.body k) v

/-- States between two top-level calls: any history of successful calls on a fresh database. -/
inductive Between (sys : Sys K V) : St K V → Prop
  | init : Between sys .init
  | call {s : St K V} {n : Nat} {k : K} {v : V} {s' : St K V} :
      Between sys s → call sys n k s = .ok (v, s') → Between sys s'

/-- Running body `p` from state `s` arrives at a query for `k` in state `s'`. -/
inductive Arrives (sys : Sys K V) : Prog K V → St K V → K → St K V → Prop
  | here {k : K} {c : V → Prog K V} {s : St K V} : Arrives sys (.ask k c) s k s
  | later {k : K} {c : V → Prog K V} {s : St K V} {n : Nat} {v : V} {s1 : St K V} {k' : K} {s2 : St K V} :
      call sys n k s = .ok (v, s1) → Arrives sys (c v) s1 k' s2 → Arrives sys (.ask k c) s k' s2

/-- `Mid sys s k`: at some moment of some history, a call to `k` is made in state `s`, either from the top
level or from inside the body of a call that is still in progress. -/
inductive Mid (sys : Sys K V) : St K V → K → Prop
  | top {s : St K V} {k : K} : Between sys s → Mid sys s k
  | sub {s : St K V} {j : K} {k : K} {s' : St K V} : Mid sys s j →
      AMap.get? s.memo j = none → AMap.get? s.active j = none →
      Arrives sys (sys.body j) { s with active := AMap.insert s.active j false, runs := j :: s.runs } k s' →
      Mid sys s' k

/-- The queries in progress. -/
def InProgress (s : St K V) (k : K) : Prop := k ∈ AMap.keys s.active

/-- The cached value of a query. -/
def Cached (s : St K V) (k : K) (v : V) : Prop := AMap.get? s.memo k = some v

end Verif.Memo

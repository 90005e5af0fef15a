import Verif.CallOrder.Spec

/-!
# Lifetime analysis of a call graph: the code

Source: `lifetime_analysis/analyze.cc` (lines given at each definition), without virtual methods
(`in_overrides_traversal` is then always false).  The order of callees is that of the enumeration of a
`llvm::DenseSet`, that is, any order.
-/

namespace Verif.CallOrder

variable {L E : Type}

/-- The map `analyzed`. -/
abbrev Results (L E : Type) := Nat → Option (Res L E)

def Results.set (a : Results L E) (f : Nat) (r : Res L E) : Results L E := fun g => if g = f then some r else a g

/-- `VisitedCallStackEntry`. -/
structure Entry where
  func : Nat
  inCycle : Bool

/-- `FindAndMarkCycleWithFunc`, `:879–901`; the newest entry is first in the list. -/
def mark (f : Nat) : List Entry → Option (List Entry)
  | [] => none
  | e :: v => if e.func = f then some (⟨e.func, true⟩ :: v) else (mark f v).map fun v' => ⟨e.func, true⟩ :: v'

/-- The arguments and results of `AnalyzeFunctionRecursive`; `log` is not in the code. -/
structure St (L E : Type) where
  analyzed : Results L E
  visited : List Entry
  log : List Event

/-- One pass over the functions of a group, `:1055–1085`: the results, and has one changed? -/
def pass (p : Prog L E) : List Nat → Results L E → Bool → Except E (Results L E × Bool)
  | [], a, ch => .ok (a, ch)
  | f :: fs, a, ch => match p.single f a with
      | .err e => .error e
      | .ok l => match a f with
          | some (.ok l0) => if p.iso l0 l then pass p fs a ch else pass p fs (a.set f (.ok l)) true
          | _ => pass p fs a ch

/-- The passes, `:1043–1087`; the first argument counts down. -/
def passes (p : Prog L E) (expected : Nat) (fs : List Nat) : Nat → Results L E → Except E (Results L E)
  | 0, _ => .error (p.tooManyIterations expected)
  | n + 1, a => match pass p fs a false with
      | .error e => .error e
      | .ok (a', ch) => if ch then passes p expected fs n a' else .ok a'

/-- The initial results, `:1014–1029`. -/
def initial (p : Prog L E) : List Nat → Results L E → Except E (Results L E)
  | [], a => .ok a
  | f :: fs, a => match p.fresh f with
      | .err e => .error e
      | .ok l => initial p fs (a.set f (.ok l))

/-- `expected_iterations`, `:1031–1038`. -/
def expectedIterations (p : Prog L E) (fs : List Nat) : Nat := fs.foldl (fun n f => max n (p.numParams f)) 0 + 1

/-- `AnalyzeRecursiveFunctions`, `:1010–1091`. -/
def analyzeRecursiveFunctions (p : Prog L E) (fs : List Nat) (a : Results L E) : Except E (Results L E) :=
  match initial p fs a with
  | .error e => .error e
  | .ok a' => passes p (expectedIterations p fs) fs (expectedIterations p fs + 1) a'

/-- The end of case 3, `:1284–1295`: an error is the result of every function of the group. -/
def analyzeGroup (p : Prog L E) (fs : List Nat) (a : Results L E) : Results L E :=
  match analyzeRecursiveFunctions p fs a with
  | .ok a' => a'
  | .error e => fs.foldl (fun a f => a.set f (.err e)) a

/-- `AnalyzeFunctionRecursive` after the callees, `:1228–1309`; `k` is `func_in_visited`. -/
def finish (p : Prog L E) (k f : Nat) (s : St L E) : St L E :=
  let seg := s.visited.take (s.visited.length - k)
  let base := s.visited.drop (s.visited.length - k)
  let inCycle := (seg.getLast?.map (·.inCycle)).getD false
  if 0 < k ∧ inCycle = true ∧ (base.head?.map (·.inCycle)).getD false = true then s
  else if inCycle = false then
    { analyzed := s.analyzed.set f (p.single f s.analyzed), visited := base, log := s.log ++ [.alone f] }
  else
    let fs := seg.reverse.map (·.func)
    { analyzed := analyzeGroup p fs s.analyzed, visited := base, log := s.log ++ [.group fs] }

/-- `AnalyzeFunctionRecursive`, `:1111–1310`; `none`: out of fuel. -/
def go (p : Prog L E) : Nat → St L E → Nat → Option (St L E)
  | 0, _, _ => none
  | n + 1, s, f =>
      if p.builtin f then some s
      else if p.defined f = false ∧ (s.analyzed f).isNone then
        some { s with analyzed := s.analyzed.set f (p.annotated f), log := s.log ++ [.declared f] }
      else if (s.analyzed f).isSome then some s
      else match mark f s.visited with
        | some v => some { s with visited := v }
        | none => match p.callees f with
            | .err e => some { s with analyzed := s.analyzed.set f (.err e), log := s.log ++ [.noCallees f] }
            | .ok cs =>
                (cs.foldlM (fun (s : St L E) c => if (s.analyzed c).isSome then some s else go p n s c)
                    { s with visited := ⟨f, false⟩ :: s.visited }).map
                  (finish p s.visited.length f)

/-- The loop of `AnalyzeTranslationUnitAndCollectTemplates` (`:1321–1349`) over the functions that are not
templates. -/
def analyzeAll (p : Prog L E) (fuel : Nat) (fs : List Nat) : Option (St L E) :=
  fs.foldlM (fun s f => go p fuel s f) ⟨fun _ => none, [], []⟩

end Verif.CallOrder

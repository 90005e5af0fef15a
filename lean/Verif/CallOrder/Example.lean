import Verif.CallOrder.Unique

/-!
# Lifetime analysis of a call graph: examples
-/

namespace Verif.CallOrder.Example

/-- Lifetimes: is the returned pointer that of the parameter?  The analysis of a body combines the results of the
callees. -/
def prog (n : Nat) (cs : Nat → List Nat) (comb : Nat → List (Option (Res Bool Nat)) → Res Bool Nat) : Prog Bool Nat where
  builtin f := decide (100 ≤ f)
  defined f := decide (f < n)
  callees f := .ok (cs f)
  numParams _ := 1
  annotated _ := .ok true
  fresh _ := .ok false
  single f a := comb f ((cs f).map a)
  iso a b := a == b
  tooManyIterations k := 1000 + k

theorem prog_local (n : Nat) (cs : Nat → List Nat) (comb) : (prog n cs comb).Local := by
  intro f ds A B h hab
  simp only [prog, Res.ok.injEq] at h ⊢
  subst h
  rw [List.map_congr_left hab]

/-- What can be seen of the results. -/
def show' : Option (Res Bool Nat) → Option (Bool ⊕ Nat)
  | none => none
  | some (.ok b) => some (.inl b)
  | some (.err e) => some (.inr e)

def showLog : List Event → List (Nat × List Nat)
  | [] => []
  | .declared f :: l => (0, [f]) :: showLog l
  | .noCallees f :: l => (1, [f]) :: showLog l
  | .alone f :: l => (2, [f]) :: showLog l
  | .group fs :: l => (3, fs) :: showLog l

def view (p : Prog Bool Nat) (fs : List Nat) : Option (List (Nat × List Nat) × List (Option (Bool ⊕ Nat))) :=
  (analyzeAll p 20 fs).map fun s => (showLog s.log, (List.range 6).map fun f => show' (s.analyzed f))

/-- Joins the results of callees; an error stays. -/
def join : List (Option (Res Bool Nat)) → Res Bool Nat
  | [] => .ok false
  | some (.err e) :: _ => .err e
  | some (.ok true) :: l => match join l with
      | .err e => .err e
      | .ok _ => .ok true
  | _ :: l => join l

def isTrue : Option (Res Bool Nat) → Bool
  | some (.ok true) => true
  | _ => false

def anyTrue (l : List (Option (Res Bool Nat))) : Res Bool Nat := .ok (l.any isTrue)

/-! 0 calls 1, 2 and a builtin; 1 calls 2 and 3; 3 is only declared. -/

def dag : Prog Bool Nat := prog 3 (fun f => match f with | 0 => [1, 2, 100] | 1 => [3, 2] | _ => []) (fun _ => anyTrue)
def dag' : Prog Bool Nat := prog 3 (fun f => match f with | 0 => [2, 100, 1, 1] | 1 => [2, 3] | _ => []) (fun _ => anyTrue)

example : view dag [0, 1, 2] =
    some ([(0, [3]), (2, [2]), (2, [1]), (2, [0])],
      [some (.inl true), some (.inl true), some (.inl false), some (.inl true), none, none]) := by decide +kernel
example : view dag' [2, 0, 1] =
    some ([(2, [2]), (0, [3]), (2, [1]), (2, [0])],
      [some (.inl true), some (.inl true), some (.inl false), some (.inl true), none, none]) := by decide +kernel

/-- The functions of the first program. -/
theorem dag_closed : dag.Closed [0, 1, 2, 3] := by
  rintro f hf g ⟨_, _, ⟨cs, hcs, hg⟩, hb⟩
  simp only [dag, prog, Res.ok.injEq] at hcs hb
  subst hcs
  simp only [List.mem_cons, List.not_mem_nil, or_false] at hf
  rcases hf with rfl | rfl | rfl | rfl <;> simp at hg <;> (try rcases hg with rfl | rfl | rfl) <;> simp_all

example : ∃ s, analyzeAll dag 5 [0, 1] = some s ∧ ∀ m, 5 ≤ m → analyzeAll dag m [0, 1] = some s :=
  analyzeAll_ends (prog_local _ _ _) dag_closed (by simp) (by simp)

/-- The first program has no recursion: callees have larger numbers, or come after 2. -/
def rank : Nat → Nat
  | 0 => 2
  | 1 => 1
  | _ => 0

theorem dag_calls {f g : Nat} (h : dag.Calls f g) : rank g < rank f := by
  obtain ⟨_, _, ⟨cs, hcs, hg⟩, hb⟩ := h
  simp only [dag, prog, Res.ok.injEq] at hcs hb
  subst hcs
  rcases f with _ | _ | f
  · simp at hg; rcases hg with rfl | rfl | rfl <;> simp [rank]
  · simp at hg; rcases hg with rfl | rfl <;> simp [rank]
  · simp at hg

theorem dag_reaches {f g : Nat} (h : dag.Reaches f g) : rank g < rank f := by
  induction h with
  | one h => exact dag_calls h
  | step h _ ih => exact Nat.lt_trans ih (dag_calls h)

theorem dag_not_recursive (f : Nat) : ¬ dag.Reaches f f := fun h => Nat.lt_irrefl _ (dag_reaches h)

/-- Two runs over the same functions in other orders. -/
theorem dag_reordered : Reordered dag dag' where
  builtin := rfl
  defined := rfl
  annotated := rfl
  single := by
    funext f a
    rcases f with _ | _ | f
    · show anyTrue [a 2, a 100, a 1, a 1] = anyTrue [a 1, a 2, a 100]
      simp only [anyTrue, List.any_cons, List.any_nil]
      cases isTrue (a 1) <;> cases isTrue (a 2) <;> cases isTrue (a 100) <;> rfl
    · show anyTrue [a 2, a 3] = anyTrue [a 3, a 2]
      simp only [anyTrue, List.any_cons, List.any_nil]
      cases isTrue (a 2) <;> cases isTrue (a 3) <;> rfl
    · rfl
  ok f cs h := by
    simp only [dag, dag', prog, Res.ok.injEq] at h ⊢
    subst h
    refine ⟨_, rfl, fun g => ?_⟩
    rcases f with _ | _ | f
    · simp; omega
    · simp; omega
    · simp
  err f e h := by simp [dag, prog] at h

example {s t : St Bool Nat} (hs : analyzeAll dag 20 [0, 1, 2] = some s) (ht : analyzeAll dag' 20 [2, 0, 1] = some t) :
    t.analyzed = s.analyzed :=
  order_irrelevant (prog_local _ _ _) dag_reordered hs ht (by intro f; simp; omega) (fun f _ => dag_not_recursive f)

/-! Two functions that call each other, and a third that calls them. -/

def loop : Prog Bool Nat := prog 3 (fun f => match f with | 0 => [1] | 1 => [0, 2] | _ => [])
  (fun f l => if f = 2 then .ok true else join l)

theorem loop_view : view loop [0] = some ([(2, [2]), (3, [0, 1])],
    [some (.inl true), some (.inl true), some (.inl true), none, none, none]) := by decide +kernel

example : loop.Reaches 0 1 ∧ loop.Reaches 1 0 :=
  ⟨.one ⟨rfl, rfl, ⟨[1], rfl, by simp⟩, rfl⟩, .one ⟨rfl, rfl, ⟨[0, 2], rfl, by simp⟩, rfl⟩⟩

/-! ## Groups depend on the order of the callees

0 and 1 call themselves, and 0 calls 1; the analysis of 0 fails, that of 1 does not. -/

def fails : Nat → List (Option (Res Bool Nat)) → Res Bool Nat := fun f l => if f = 0 then .err 7 else join l
def first : Prog Bool Nat := prog 2 (fun f => match f with | 0 => [0, 1] | 1 => [1] | _ => []) fails
def second : Prog Bool Nat := prog 2 (fun f => match f with | 0 => [1, 0] | 1 => [1] | _ => []) fails

/-- 1 gets the error of 0, … -/
theorem error_of_caller : view first [0] = some ([(3, [0, 1])], [some (.inr 7), some (.inr 7), none, none, none, none]) := by
  decide +kernel
/-- … but not if the callees of 0 are listed in the other order, … -/
theorem other_callee_order : view second [0] = some ([(3, [1]), (3, [0])], [some (.inr 7), some (.inl false), none, none, none, none]) := by
  decide +kernel
/-- … nor if 1 comes first. -/
theorem other_function_order : view first [1, 0] = some ([(3, [1]), (3, [0])], [some (.inr 7), some (.inl false), none, none, none, none]) := by
  decide +kernel

/-- A function that is not recursive in a group: 0 calls itself, 1 and 2; 1 calls itself; 2 calls 1. -/
def third : Prog Bool Nat := prog 3 (fun f => match f with | 0 => [0, 1, 2] | 1 => [1] | 2 => [1] | _ => []) (fun _ => join)
theorem nonrecursive_in_group : view third [0] = some ([(3, [0, 1, 2])],
    [some (.inl false), some (.inl false), some (.inl false), none, none, none]) := by decide +kernel

/-! ## The number of passes is too small

0 calls 1, 1 calls 2, 2 calls 0 or returns its parameter.  The results that are stable exist, but four passes are
needed. -/

def ring : Prog Bool Nat := prog 3 (fun f => match f with | 0 => [1] | 1 => [2] | 2 => [0] | _ => [])
  (fun f l => if f = 2 then .ok true else join l)

theorem too_few_passes : view ring [0] = some ([(3, [0, 1, 2])],
    [some (.inr 1002), some (.inr 1002), some (.inr 1002), none, none, none]) := by decide +kernel
/-- The same functions, visited in another order. -/
theorem enough_passes : view ring [2] = some ([(3, [2, 0, 1])],
    [some (.inl true), some (.inl true), some (.inl true), none, none, none]) := by decide +kernel
theorem ring_settled : Settled ring (fun _ => some (.ok true)) [0, 1, 2] := by
  left
  intro f hf
  simp only [List.mem_cons, List.not_mem_nil, or_false] at hf
  rcases hf with rfl | rfl | rfl <;> exact ⟨true, true, rfl, rfl, rfl⟩

end Verif.CallOrder.Example

import Verif.Errs.Spec

namespace Verif.Errs

variable {α β : Type}

theorem answers (c : Call α β) (s : Errors α) : Answers s.list c (call c s).1 := by
  cases c with
  | add e => exact .add e
  | isEmpty => exact .empty _ (by simp [isEmpty])
  | consumeError r =>
    cases r with
    | ok b => exact .consumeOk b
    | error e => exact .consumeErr e
  | consolidate =>
    by_cases h : s.list = []
    · simpa [call, consolidate, h] using Answers.consolidateOk h
    · have : s.list.isEmpty = false := by simpa using h
      simpa [call, consolidate, this] using Answers.consolidateErr (β := β) h
  | consolidateOnErr r =>
    cases r with
    | ok b => exact .onOk b
    | error e =>
      have : (s.list ++ [e]).isEmpty = false := by simp
      simpa [call, consolidateOnErr, consolidate, add, this] using Answers.onErr (β := β) (l := s.list) e
  | discard => exact .discard

/-- An answer is determined. -/
theorem answers_unique (l : List α) (c : Call α β) (r q : Ret α β) (h : Answers l c r)
    (h' : Answers l c q) : r = q := by
  cases h <;> cases h' <;> first | rfl | contradiction | skip
  next b h1 d h2 =>
    congr 1
    cases b <;> cases d <;> simp_all

theorem next (c : Call α β) (s : Errors α) :
    (c.Empties → (call c s).2.list = []) ∧
      (¬ c.Empties → (call c s).2.list = s.list ++ c.given) := by
  cases c with
  | add e => simp [Call.Empties, call, add, Call.given]
  | isEmpty => simp [Call.Empties, call, Call.given]
  | consumeError r => cases r <;> simp [Call.Empties, call, consumeError, add, Call.given]
  | consolidate => simp [Call.Empties, call, consolidate]; split <;> rfl
  | consolidateOnErr r =>
    cases r <;> simp [Call.Empties, call, consolidateOnErr, consolidate, add, Call.given]
  | discard => simp [Call.Empties, call, discard]

theorem calls_append (bs cs : List (Call α β)) (s : Errors α) :
    calls (bs ++ cs) s = ((calls bs s).1 ++ (calls cs (calls bs s).2).1, (calls cs (calls bs s).2).2) := by
  induction bs generalizing s with
  | nil => simp [calls]
  | cons b bs ih => simp [calls, ih]

theorem calls_quiet (cs : List (Call α β)) (s : Errors α) (h : ∀ c ∈ cs, ¬ c.Empties) :
    (calls cs s).2.list = s.list ++ given cs := by
  induction cs generalizing s with
  | nil => simp [calls, given]
  | cons c cs ih =>
    simp only [calls]
    rw [ih _ fun d hd => h d (by simp [hd]), (next c s).2 (h c (by simp))]
    simp [given]

theorem calls_pending (cs : List (Call α β)) (l : List α) (h : Pending cs l) :
    (calls cs new).2.list = l := by
  cases h with
  | start _ h => rw [calls_quiet cs new h]; simp [new]
  | after bs c cs hc h =>
    rw [calls_append]
    simp only [calls]
    rw [calls_quiet cs _ h, (next c _).1 hc]
    simp

/-- There are always pending errors in one way (perhaps none). -/
theorem pending_exists (cs : List (Call α β)) : ∃ l, Pending cs l := by
  have : ∀ (n : Nat) (cs : List (Call α β)), cs.length = n →
      (∀ c ∈ cs, ¬ c.Empties) ∨ ∃ bs c ds, cs = bs ++ c :: ds ∧ c.Empties ∧ ∀ c ∈ ds, ¬ c.Empties := by
    intro n
    induction n with
    | zero => intro cs h; left; rw [List.length_eq_zero_iff] at h; subst h; simp
    | succ n ih =>
      intro cs h
      cases cs with
      | nil => simp at h
      | cons c cs =>
        rcases ih cs (by simpa using h) with h1 | ⟨bs, d, ds, rfl, h2, h3⟩
        · by_cases hc : c.Empties
          · exact .inr ⟨[], c, cs, rfl, hc, h1⟩
          · left; intro d hd; rcases List.mem_cons.mp hd with rfl | hd
            · exact hc
            · exact h1 d hd
        · exact .inr ⟨c :: bs, d, ds, rfl, h2, h3⟩
  rcases this _ cs rfl with h | ⟨bs, c, ds, rfl, h1, h2⟩
  · exact ⟨_, .start cs h⟩
  · exact ⟨_, .after bs c ds h1 h2⟩

theorem pending_unique (cs : List (Call α β)) (l m : List α) (h : Pending cs l)
    (h' : Pending cs m) : l = m := by
  rw [← calls_pending cs l h, ← calls_pending cs m h']

theorem length_calls (cs : List (Call α β)) (s : Errors α) : (calls cs s).1.length = cs.length := by
  induction cs generalizing s with
  | nil => rfl
  | cons c cs ih => simp [calls, ih]

/-- At any point of any history a call is answered by the errors pending there: those given
since they were last handed out or thrown away, in order. -/
theorem history (bs cs : List (Call α β)) (c : Call α β) (l : List α) (h : Pending bs l) :
    ∃ r, (life (bs ++ c :: cs)).1[bs.length]? = some r ∧ Answers l c r := by
  refine ⟨(call c (calls bs new).2).1, ?_, ?_⟩
  · simp only [life, calls_append, calls]
    rw [List.getElem?_append_right (by rw [length_calls]; exact Nat.le_refl _), length_calls]
    simp
  · have := answers c (calls bs new).2
    rwa [calls_pending bs l h] at this

theorem length_life (cs : List (Call α β)) : (life cs).1.length = cs.length :=
  length_calls cs new

/-- No call panics. -/
theorem no_panic (cs : List (Call α β)) : Ret.panic ∉ (life cs).1 := by
  simp only [life]
  generalize (new : Errors α) = s
  induction cs generalizing s with
  | nil => simp [calls]
  | cons c cs ih =>
    simp only [calls, List.mem_cons, not_or]
    refine ⟨fun h => ?_, ih _⟩
    have := answers c s
    rw [← h] at this
    cases this

/-- The end panics exactly if errors are pending, and names all of them. -/
theorem drop_panics (cs : List (Call α β)) (l : List α) (h : Pending cs l) :
    (life cs).2 = if l = [] then none else some l := by
  simp only [life, drop]
  rw [calls_pending cs l h]
  cases l <;> simp

/-- If nothing is thrown away, all errors given are handed out or named by the panic at the end,
each once and in order. -/
theorem nothing_lost (cs : List (Call α β)) (h : ∀ c ∈ cs, c ≠ .discard) :
    (life cs).1.flatMap Ret.errors ++ ((life cs).2.getD []) = given cs := by
  have : ∀ (s : Errors α), (calls cs s).1.flatMap Ret.errors ++ (calls cs s).2.list
      = s.list ++ given cs := by
    induction cs with
    | nil => intro s; simp [calls, given]
    | cons c cs ih =>
      intro s
      have ih := ih (fun d hd => h d (by simp [hd])) (call c s).2
      simp only [calls, List.flatMap_cons, List.append_assoc]
      rw [ih]
      have key : (call c s).1.errors ++ (call c s).2.list = s.list ++ c.given := by
        cases c with
        | add e => simp [call, add, Ret.errors, Call.given]
        | isEmpty => simp [call, Ret.errors, Call.given]
        | consumeError r => cases r <;> simp [call, consumeError, add, Ret.errors, Call.given]
        | consolidate =>
          by_cases hs : s.list.isEmpty = true
          · have : s.list = [] := by simpa using hs
            simp [call, consolidate, this, Ret.errors, Call.given]
          · have : s.list.isEmpty = false := by simpa using hs
            simp [call, consolidate, this, Ret.errors, Call.given]
        | consolidateOnErr r =>
          cases r <;> simp [call, consolidateOnErr, consolidate, add, Ret.errors, Call.given]
        | discard => exact absurd rfl (h .discard (by simp))
      rw [← List.append_assoc, key]
      simp [given]
  have := this new
  simp only [life, drop]
  rw [show given cs = (new : Errors α).list ++ given cs from by simp [new], ← this]
  congr 1
  split <;> simp_all

/-! Concrete cases -/

example : (life (β := Nat) [.add 1, .consumeError (.error 2), .consumeError (.ok 5), .consolidate,
    .add 3, .consolidateOnErr (.error 4), .consolidate, .add 6]).2 = some [6] := by decide
example : (life (β := Nat) [.add 1, .consumeError (.error 2), .consolidate]).1
    = [.unit, .option none, .result (.error [1, 2])] := rfl
example : Pending (β := Nat) [.add 1, .discard, .add 2, .isEmpty] [2] :=
  .after [.add 1] .discard [.add 2, .isEmpty] trivial (by simp [Call.Empties])

end Verif.Errs

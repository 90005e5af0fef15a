import Verif.DynCallable.Refine
import Verif.DynCallable.Ownership

/-!
# `rs_std::DynCallable`: the theorems
-/

namespace Verif.DynCallable

open Impl (Sim Rel)

/-- Every client program -- any operations, in any order, on any number of variables and
closures, for each of the three kinds of signature -- behaves exactly as specified: same
events, same answers of `bool(f)`, same terminations, and undefined behaviour exactly where
the specification says so (calling an empty callable, self-move of a non-empty one, sending a
spent one to Rust). -/
theorem behaviour_eq (q : Qual) (p : List Op) : Impl.behaviour q p = Spec.behaviour q p := by
  have h := Impl.sim_run q p Impl.rel_init
  simp only [Impl.behaviour, Spec.behaviour]
  revert h
  cases Spec.runFrom q Spec.init p with
  | ok a => rintro ⟨c, h1, h2⟩; rw [h1]; simp [Impl.observe, Spec.observe, h2.log]
  | terminated l => intro h; rw [h]; rfl
  | ub => intro h; rw [h]; rfl
  | ill => intro h; rw [h]; rfl

/-- In every run, finished or terminated, each Rust closure is called, dropped, consumed or
handed over only while C++ owns it. -/
theorem well_owned (q : Qual) (p : List Op) (l : List Ev)
    (h : Impl.behaviour q p = .done l ∨ Impl.behaviour q p = .terminated l) : WellOwned l := by
  rw [behaviour_eq] at h
  have hi := Spec.inv_run (q := q) p Spec.inv_init
  simp only [Spec.behaviour] at h
  cases hr : Spec.runFrom q Spec.init p with
  | ok a => simp [hr, Spec.observe] at h; rw [← h]; exact (hi.1 a hr).log
  | terminated l' => simp [hr, Spec.observe] at h; rw [← h]; exact hi.2 _ hr
  | ub => simp [hr, Spec.observe] at h
  | ill => simp [hr, Spec.observe] at h

/-- Once all variables are gone, every closure that C++ received has been released exactly as
often as it was received: nothing leaks and nothing is released twice.  No temporary survives. -/
theorem all_released (q : Qual) (p : List Op) (s : Impl.State)
    (h : Impl.run q p Impl.init = .ok () s) (hv : ∀ n, s.mem (.var n) = none) :
    (∀ b, unowned b s.log) ∧ ∀ n, s.mem (.tmp n) = none := by
  have h1 := Impl.sim_run q p Impl.rel_init
  have hi := Spec.inv_run (q := q) p Spec.inv_init
  rw [h] at h1
  cases hr : Spec.runFrom q Spec.init p with
  | ok a =>
    rw [hr] at h1
    obtain ⟨c, h2, h3⟩ := h1
    cases h2
    refine ⟨fun b => ?_, h3.tmp⟩
    rw [h3.log]
    refine (hi.1 a hr).free b (fun n hn => ?_)
    obtain ⟨o, h4, -⟩ := h3.alive _ _ hn
    simp [hv n] at h4
  | terminated l => rw [hr] at h1; simp [Sim] at h1
  | ub => rw [hr] at h1; simp [Sim] at h1
  | ill => rw [hr] at h1; simp [Sim] at h1

theorem spec_run_snoc (q : Qual) (p : List Op) (op : Op) : ∀ a, Spec.runFrom q a (p ++ [op]) =
    match Spec.runFrom q a p with
    | .ok a' => Spec.step q a' op
    | r => r := by
  induction p with
  | nil =>
    intro a
    simp only [List.nil_append, Spec.runFrom]
    cases Spec.step q a op <;> rfl
  | cons o p ih =>
    intro a
    simp only [List.cons_append, Spec.runFrom]
    cases Spec.step q a o with
    | ok a' => exact ih a'
    | _ => rfl

/-- No cell is spent unless the signature is `&&`. -/
theorem no_spent {q : Qual} (hq : q ≠ .rvalue) (p : List Op) : ∀ a, (∀ n, a.cells n ≠ some .spent) →
    ∀ a', Spec.runFrom q a p = .ok a' → ∀ n, a'.cells n ≠ some .spent := by
  induction p with
  | nil => intro a h a' h'; cases h'; exact h
  | cons op p ih =>
    intro a h a' h'
    simp only [Spec.runFrom] at h'
    cases hs : Spec.step q a op with
    | ok a1 =>
      rw [hs] at h'
      refine ih a1 ?_ a' h'
      intro n
      have hu : ∀ (f : Nat → Option Spec.Cell) (d : Nat) (k : Option Spec.Cell), f n ≠ some .spent →
          k ≠ some .spent → Function.update f d k n ≠ some .spent := by
        intro f d k h1 h2
        by_cases e : n = d
        · subst e; simpa using h2
        · simpa [Function.update_apply, e] using h1
      have hk : ∀ m k, a.cells m = some k → some k ≠ some Spec.Cell.spent :=
        fun m k hm => hm ▸ h m
      cases op <;> simp only [Spec.step] at hs <;> (repeat' split at hs) <;> cases hs
      all_goals
        first
        | exact absurd rfl hq
        | exact h n
        | (refine hu _ _ _ (h n) ?_; intro h; cases h; done)
        | (apply hu _ _ _ (hu _ _ _ (h n) _) _ <;> apply hk <;> assumption)
        | (apply hu _ _ _ (hu _ _ _ (h n) _) _
           · apply hk; assumption
           · intro h; cases h)
    | terminated l => simp [hs] at h'
    | ub => simp [hs] at h'
    | ill => simp [hs] at h'

/-- For `R(P...) const` and `R(P...)` signatures, the check `if (f)` is all a client needs: after
any completed program, the next operation is well defined unless it moves a variable to itself or
calls a variable that `bool(f)` reports as empty. -/
theorem checked_use_is_defined (q : Qual) (hq : q ≠ .rvalue) (p : List Op) (l : List Ev) (op : Op)
    (hp : Impl.behaviour q p = .done l)
    (hself : ∀ d, op ≠ .moveAssign d d)
    (hcall : ∀ o, op = .call o → Impl.behaviour q (p ++ [.hasValue o]) = .done (l ++ [.bool o true])) :
    Impl.behaviour q (p ++ [op]) = .ill ∨ ∃ l', Impl.behaviour q (p ++ [op]) = .done (l ++ l') := by
  rw [behaviour_eq] at hp ⊢
  simp only [Spec.behaviour] at hp ⊢
  rw [spec_run_snoc]
  cases hr : Spec.runFrom q Spec.init p with
  | terminated l => simp [hr, Spec.observe] at hp
  | ub => simp [hr, Spec.observe] at hp
  | ill => simp [hr, Spec.observe] at hp
  | ok a =>
    simp [hr, Spec.observe] at hp
    subst hp
    have hns := no_spent hq p _ (by simp [Spec.init]) a hr
    cases op with
    | call o =>
      have := hcall o rfl
      rw [behaviour_eq] at this
      simp only [Spec.behaviour, spec_run_snoc, hr, Spec.step] at this
      simp only [Spec.step]
      cases hc : a.cells o with
      | none => simp [Spec.observe]
      | some k =>
        rw [hc] at this
        cases k with
        | empty => simp [Spec.observe] at this
        | spent => exact absurd hc (hns o)
        | holds b => cases q <;> simp [Spec.observe] at hq ⊢
    | toRust o =>
      simp only [Spec.step]
      cases hc : a.cells o with
      | none => simp [Spec.observe]
      | some k =>
        cases k with
        | spent => exact absurd hc (hns o)
        | _ => simp [Spec.observe]
    | moveAssign d r =>
      have hne : d ≠ r := by rintro rfl; exact hself d rfl
      simp only [Spec.step]
      cases hc : a.cells d with
      | none => simp [Spec.observe]
      | some k =>
        cases hc2 : a.cells r with
        | none => simp [Spec.observe]
        | some k2 => simp [Spec.observe, hne]
    | _ =>
      simp only [Spec.step]
      repeat' split
      all_goals simp [Spec.observe]
      all_goals (try exact ⟨[], by simp⟩)

/-! ### The hypotheses are met; what goes wrong outside of them -/

/-- A program with moves, a swap, a call and both kinds of hand-over. -/
example : Impl.behaviour .nonconst
    [.recv 7 0, .recv 8 1, .default 2, .moveAssign 2 0, .swap 1 2, .call 1, .hasValue 0, .toRust 1,
      .moveCtor 3 2, .toAny 3, .recv 7 4, .destroy 4] =
    .done [.recv 7, .recv 8, .call 7, .bool 0 false, .toRust (some 7), .toAny .closure (some 8),
      .recv 7, .drop 7] := by decide +kernel

/-- An assignment drops the closure it overwrites. -/
example : Impl.behaviour .const [.recv 1 0, .recv 2 1, .moveAssign 0 1, .destroy 1, .destroy 0] =
    .done [.recv 1, .recv 2, .drop 1, .drop 2] := by decide +kernel

/-- An `FnOnce` callable can be called once; the second call terminates. -/
example : Impl.behaviour .rvalue [.recv 1 0, .call 0, .call 0] =
    .terminated [.recv 1, .consume 1] := by decide +kernel

/-- After its only call an `FnOnce` callable still answers `true` to `bool(f)` … -/
theorem spent_reports_value : Impl.behaviour .rvalue [.recv 1 0, .call 0, .hasValue 0] =
    .done [.recv 1, .consume 1, .bool 0 true] := by decide +kernel

/-- … and sending it back to Rust is undefined behaviour: the presence flag is set, but the box
bits are those of an uninitialised temporary.  So the hypothesis `q ≠ .rvalue` of
`checked_use_is_defined` cannot be removed. -/
theorem spent_to_rust_is_ub : Impl.behaviour .rvalue [.recv 1 0, .call 0, .toRust 0] = .ub := by
  decide +kernel

/-- Moving a non-empty variable to itself is undefined (`copy_nonoverlapping` on one slot). -/
theorem self_move_is_ub (q : Qual) : Impl.behaviour q [.recv 1 0, .moveAssign 0 0] = .ub := by
  cases q <;> decide +kernel

end Verif.DynCallable

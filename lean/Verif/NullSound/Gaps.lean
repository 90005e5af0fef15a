import Verif.NullFlow.Checks
import Verif.NullSound.All
import Verif.NullSound.Precise
/- C125: the constructs that `Stmt.plain` excludes hide faults; and what the theorems C121-C123 say about some functions. -/
namespace Verif.NullSound
open NullFlow (Formula Solver Status)

/-- The checker is silent about a function with a fault: whatever the solver (as long as it answers) and the limit on
the iterations. -/
def Missed (d : Decls) (m : Nat) (body : Stmt) (w : Fault) : Prop :=
  (∀ s : Solver, NullFlow.Solver.Complete s → ∀ fuel, diagnose s d fuel m body = some []) ∧
  ∃ σ : State, σ.length = m ∧ Starts d σ ∧ Exec KnownNull d body σ (.fault w)

theorem isNullable_nonnull (s : Solver) (e : Env) (n : Nat) (f : Option Formula) : isNullable s e ⟨n, f, some (.lit false)⟩ = false := by
  simp [isNullable]

theorem isNullable_dead (s : Solver) (hs : NullFlow.Solver.Complete s) {e : Env} (h : ∀ ρ, e.fc.eval ρ = false) (v : PVal) : isNullable s e v = false := by
  have ha : allows s e (mayBeNull v) = false := allows_false s fun ρ hρ => by rw [h ρ] at hρ; cases hρ
  have hp : proves s e (.lit false) = true := proves_true s hs fun ρ hρ => by rw [h ρ] at hρ; cases hρ
  unfold isNullable
  cases hn : v.nl with
  | none => simp [ha]
  | some f =>
    by_cases hl : f = .lit false
    · simp [hl]
    · by_cases hq : proves s e f = true
      · simp [hl, hq, hp]
      · simp [hl, hq, ha]

/-- Every variable is an `absl_nullable T*`. -/
def rawNullable : Decls := ⟨fun _ => .nullable, fun _ => false, .unspecified⟩
/-- Every variable is an `absl_nullable std::unique_ptr<T>`. -/
def smartNullable : Decls := ⟨fun _ => .nullable, fun _ => true, .unspecified⟩

/-- A null pointer from an annotated source. -/
def knownNull : Val := ⟨none, true⟩
/-- A non-null pointer. -/
def someObj : Val := ⟨some 7, true⟩

theorem knownNull_bad : KnownNull knownNull := ⟨rfl, rfl⟩

theorem starts_nullable {d : Decls} (hd : ∀ x, d.kind x = .nullable) {σ : State} (h : ∀ v ∈ σ, v.known = true) : Starts d σ := by
  intro x v hv
  rw [hd]
  exact h v (List.mem_of_getElem? hv)

/-- C125: `q = p + 0; *q;` with a Nullable `p`. -/
theorem offset_zero_missed : Missed rawNullable 2 (.seq (.assign 1 (.offset (.var 0) true)) (.deref (.var 1))) .deref := by
  refine ⟨fun s hs fuel => ?_, [knownNull, someObj], rfl, starts_nullable (fun _ => rfl) (by decide), ?_⟩
  · simp [diagnose, initVals, St.fromKind, rawNullable, stmt, rhs, operand, St.unpack, Env.get, Env.set, St.report, isNullable_nonnull]
  · refine .seq (.assign (.offsetZero (v := knownNull) (.var rfl ?_)) ?_) (.derefBad (v := knownNull) (.var rfl ?_) knownNull_bad) <;> simp [Usable, rawNullable]

/-- C125: `p += 0; *p;` with a Nullable `p`. -/
theorem add_zero_missed : Missed rawNullable 1 (.seq (.bump 0 true) (.deref (.var 0))) .deref := by
  refine ⟨fun s hs fuel => ?_, [knownNull], rfl, starts_nullable (fun _ => rfl) (by decide), ?_⟩
  · simp [diagnose, initVals, St.fromKind, rawNullable, stmt, operand, St.unpack, Env.get, Env.set, St.report, isNullable_nonnull]
  · refine .seq .bumpZero (.derefBad (v := knownNull) (.var rfl ?_) knownNull_bad)
    simp [Usable, rawNullable]

/-- C125: `if (x == y) *x;` with two Nullable smart pointers. -/
theorem smart_compare_missed : Missed smartNullable 2 (.ite (.eqSmart false 0 1) (.deref (.var 0)) .skip) .deref := by
  refine ⟨fun s hs fuel => ?_, [knownNull, knownNull], rfl, starts_nullable (fun _ => rfl) (by decide), ?_⟩
  · have hd : ∀ v, isNullable s ((⟨.lit true, [⟨2, some (.lit true), some (.atom 2)⟩, ⟨3, some (.lit true), some (.atom 3)⟩]⟩ : Env).assume (.lit false)) v = false :=
      isNullable_dead s hs fun ρ => by simp [Env.assume, NullFlow.Formula.eval]
    simp [diagnose, initVals, St.fromKind, smartNullable, stmt, branch, operand, St.unpack, Env.get, St.report, St.split, hd]
    simp [Env.assume] at hd ⊢
    simp [hd]
  · refine .iteTrue (.eqSmart (v1 := knownNull) (v2 := knownNull) (.var rfl ?_) (.var rfl ?_)) (.derefBad (v := knownNull) (.var rfl ?_) knownNull_bad) <;>
      simp [Usable, smartNullable]

/-- C125: `p = &o; f(&p); *p;` where `f` takes a `T* absl_nullable *`. -/
theorem annotated_output_missed :
    Missed rawNullable 2 (.seq (.assign 0 (.use .obj)) (.seq (.assign 1 (.call [.out 0 .nullable] .nonnull)) (.deref (.var 0)))) .deref := by
  refine ⟨fun s hs fuel => ?_, [knownNull, knownNull], rfl, starts_nullable (fun _ => rfl) (by decide), ?_⟩
  · simp [diagnose, initVals, St.fromKind, rawNullable, stmt, rhs, argVals, reportArgs, outParams, operand, St.unpack, Env.get, Env.set, St.report, isNullable_nonnull]
  · refine .seq (.assign (v := someObj) (.use (.obj (by decide))) ?_) (.seq (.assign (v := someObj) (.call (vs := []) (.out .nil) (by simp)
      (.out (v := knownNull) rfl .nil) (by show someObj.addr ≠ none; decide)) ?_) (.derefBad (v := knownNull) (.var rfl ?_) knownNull_bad)) <;> simp [rawNullable, Usable]

/-- C125: `x = std::move(x); if (x) *y;` with Nullable smart pointers. -/
theorem self_move_missed : Missed smartNullable 2 (.seq (.move 0 0) (.ite (.nz (.var 0)) (.deref (.var 1)) .skip)) .deref := by
  refine ⟨fun s hs fuel => ?_, [someObj, knownNull], rfl, starts_nullable (fun _ => rfl) (by decide), ?_⟩
  · have hd : ∀ v, isNullable s ((⟨.lit true, [nullVal, ⟨3, some (.lit true), some (.atom 3)⟩]⟩ : Env).assume (.not (.lit true))) v = false :=
      isNullable_dead s hs fun ρ => by simp [Env.assume, NullFlow.Formula.eval]
    simp [diagnose, initVals, St.fromKind, smartNullable, stmt, branch, operand, St.unpack, Env.get, Env.set, St.report, St.split, nullVal] at hd ⊢
    simp [Env.assume] at hd ⊢
    simp [hd]
  · refine .seq (.moveSelf (v := someObj) (.var rfl ?_) ?_) (.iteTrue (.nz (v := someObj) (.var rfl ?_)) (.derefBad (v := knownNull) (.var rfl ?_) knownNull_bad)) <;>
      simp [Usable, smartNullable]

/-- C125: widening does not keep "top": with the location unchanged, what the last pass forgot is known again (the comment
on the function says the opposite), so the values do not get steadily less precise, and C124 needs a different argument. -/
theorem widen_regains (s : Solver) (prev cur : Env) (l : Nat) (f g : Formula) :
    widenVal s prev cur ⟨l, none, none⟩ ⟨l, some f, some g⟩ = (⟨l, some f, some g⟩, false) := by
  simp [widenVal, widenProperty]

/-! ### Examples -/

/-- `if (p) *p;` is not reported, ... -/
example : diagnose NullFlow.idealSolver rawNullable 1 1 (.ite (.nz (.var 0)) (.deref (.var 0)) .skip) = some [] :=
  (checked_use_not_reported NullFlow.idealSolver NullFlow.idealSolver_complete rawNullable 1 .nz .deref _ (by decide)).trans (by
    simp [diagnostics, initVals, St.fromKind, rawNullable, stmt, branch, operand, St.unpack, Env.get, St.report, St.split])

/-- ... so it has no fault in any execution. -/
example (σ : State) (hσ : σ.length = 1) (h : Starts rawNullable σ) (w : Fault) :
    ¬ Exec KnownNull rawNullable (.ite (.nz (.var 0)) (.deref (.var 0)) .skip) σ (.fault w) := by
  refine no_warnings_no_fault NullFlow.idealSolver NullFlow.idealSolver_complete rawNullable (fuel := 1) ?_ (by simp [Stmt.plain, Cond.plain]) hσ h w
  exact (checked_use_not_reported NullFlow.idealSolver NullFlow.idealSolver_complete rawNullable 1 .nz .deref _ (by decide)).trans (by
    simp [diagnostics, initVals, St.fromKind, rawNullable, stmt, branch, operand, St.unpack, Env.get, St.report, St.split])

/-- `*p;` has a fault, so it is reported. -/
example (ds : List Fault) (h : diagnose NullFlow.idealSolver rawNullable 1 1 (.deref (.var 0)) = some ds) : Fault.deref ∈ ds :=
  fault_reported NullFlow.idealSolver NullFlow.idealSolver_complete rawNullable h trivial (σ := [knownNull]) rfl
    (starts_nullable (fun _ => rfl) (by decide)) (.derefBad (v := knownNull) (.var rfl (by simp [Usable, rawNullable])) knownNull_bad)

/-- `while (other) { *p; p = q; }` with a Nonnull `p` (in Nullable clothes after one round) has a fault in the second round. -/
example : Exec KnownNull rawNullable (.while .other (.seq (.deref (.var 0)) (.assign 0 (.use (.var 1))))) [someObj, knownNull] (.fault .deref) := by
  refine .whileTrue .other (.seq (.deref (v := someObj) (.var rfl ?_) ?_) (.assign (v := knownNull) (.use (.var rfl ?_)) ?_))
    (.whileBad .other (.seqFault (.derefBad (v := knownNull) (.var rfl ?_) knownNull_bad))) <;> simp [Usable, rawNullable, KnownNull, someObj]

/-- In a function whose callees are annotated, `*f()` with an unannotated `f` is not allowed, `*f()` with a Nonnull `f` is fine. -/
example : (Stmt.seq (.assign 0 (.call [] .nonnull)) (.deref (.var 0))).annotated ∧ ¬ (Stmt.assign 0 (.call [] .unspecified)).annotated := by
  simp [Stmt.annotated, Rhs.annotated]

example : StartsAnnotated rawNullable [knownNull, someObj] := by
  intro x v _; simp [rawNullable]

end Verif.NullSound

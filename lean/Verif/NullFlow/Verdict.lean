import Verif.NullFlow.Spec
import Mathlib.Tactic.Tauto
/- C40: the nullability verdict at a program point is exact. -/
namespace Verif.NullFlow
local notation "Atom" => Nat

theorem query_iff (c : Ctx) (T : Atom) (f : Formula) (ρ : Atom → Bool) :
    (∀ g, Query c T f g → g.eval ρ = true) ↔ Run c T ρ ∧ f.eval ρ = true := by
  constructor
  · intro h
    refine ⟨⟨fun g hg => h g (.invariant hg), fun T' hr hf => h _ (.free hr hf), fun T' C hr hf => ?_, h _ .token⟩, h f .asked⟩
    have := h _ (.defined hr hf)
    simpa [Formula.eval] using this
  · rintro ⟨hr, hf⟩ g hg
    cases hg with
    | asked => exact hf
    | token => exact hr.here
    | invariant h => exact hr.inv _ h
    | free h1 h2 => exact hr.free _ h1 h2
    | defined h1 h2 => simp [Formula.eval, hr.defined _ _ h1 h2]

theorem proves_sound (s : Solver) {c : Ctx} {T : Atom} {f : Formula} (h : proves s c T f = true) :
    ∀ ρ, Run c T ρ → f.eval ρ = true := by
  intro ρ hr
  have h' := s.unsat_sound _ (of_decide_eq_true h)
  cases hf : f.eval ρ with
  | true => rfl
  | false => exact absurd ⟨ρ, (query_iff c T (.not f) ρ).mpr ⟨hr, by simp [Formula.eval, hf]⟩⟩ h'

theorem proves_iff (s : Solver) (hs : s.Complete) (c : Ctx) (T : Atom) (f : Formula) :
    proves s c T f = true ↔ ∀ ρ, Run c T ρ → f.eval ρ = true := by
  refine ⟨proves_sound s, fun h => ?_⟩
  unfold proves
  cases hq : s.solve (Query c T (.not f)) with
  | unsatisfiable => rfl
  | timedOut => exact absurd hq (hs _)
  | satisfiable =>
    obtain ⟨ρ, hρ⟩ := s.sat_sound _ hq
    obtain ⟨hr, hf⟩ := (query_iff c T (.not f) ρ).mp hρ
    simp [Formula.eval, h ρ hr] at hf

theorem allows_sound (s : Solver) {c : Ctx} {T : Atom} {f : Formula} (h : allows s c T f = true) :
    ∃ ρ, Run c T ρ ∧ f.eval ρ = true := by
  obtain ⟨ρ, hρ⟩ := s.sat_sound _ (of_decide_eq_true h)
  exact ⟨ρ, (query_iff c T f ρ).mp hρ⟩

theorem allows_iff (s : Solver) (hs : s.Complete) (c : Ctx) (T : Atom) (f : Formula) :
    allows s c T f = true ↔ ∃ ρ, Run c T ρ ∧ f.eval ρ = true := by
  refine ⟨allows_sound s, fun ⟨ρ, h⟩ => ?_⟩
  unfold allows
  cases hq : s.solve (Query c T f) with
  | satisfiable => rfl
  | timedOut => exact absurd hq (hs _)
  | unsatisfiable => exact absurd ⟨ρ, (query_iff c T f ρ).mpr h⟩ (s.unsat_sound _ hq)

/-- The formula of the final query of `isNullable`. -/
def mayFormula (st : NullState) (ac : Option Formula) : Formula :=
  let f := Formula.lit true
  let f : Formula := match st.fromNullable with | some g => .and f g | none => f
  let f : Formula := match st.isNull with | some g => .and f g | none => f
  match ac with | some g => .and f g | none => f

theorem mayFormula_eval (st : NullState) (ac : Option Formula) (ρ : Atom → Bool) :
    (mayFormula st ac).eval ρ = true ↔ Ac ac ρ ∧ May st.fromNullable ρ ∧ May st.isNull ρ := by
  unfold mayFormula Ac May
  cases st.fromNullable <;> cases st.isNull <;> cases ac <;> simp [Formula.eval] <;> tauto

/-- The formula of the first query of `isNullable`. -/
def impFormula (nl : Formula) (ac : Option Formula) : Formula :=
  match ac with
  | none => nl
  | some a => .implies a nl

theorem impFormula_eval (nl : Formula) (ac : Option Formula) (ρ : Atom → Bool) :
    (impFormula nl ac).eval ρ = true ↔ (Ac ac ρ → nl.eval ρ = true) := by
  unfold impFormula Ac
  cases ac with
  | none => simp
  | some a => cases h : a.eval ρ <;> simp [Formula.eval, h]

theorem isNullable_eq (s : Solver) (c : Ctx) (T : Atom) (st : NullState) (ac : Option Formula) :
    isNullable s c T st ac =
      match st.isNull with
      | none => allows s c T (mayFormula st ac)
      | some nl =>
        if ac = none ∧ nl = Formula.lit false then false
        else if proves s c T (impFormula nl ac) then !proves s c T (.lit false)
        else allows s c T (mayFormula st ac) := by
  obtain ⟨fn, nl⟩ := st
  cases nl with
  | none => cases fn <;> cases ac <;> rfl
  | some nl =>
    unfold isNullable
    dsimp only
    by_cases h1 : ac = none ∧ nl = Formula.lit false
    · rw [if_pos h1, if_pos h1]
    · rw [if_neg h1, if_neg h1]
      cases ac with
      | none =>
        by_cases h2 : proves s c T nl = true
        · by_cases h3 : proves s c T (.lit false) = true <;> simp [impFormula, h2, h3]
        · cases fn <;> simp [impFormula, h2, mayFormula]
      | some a =>
        by_cases h2 : proves s c T (.implies a nl) = true
        · by_cases h3 : proves s c T (.lit false) = true <;> simp [impFormula, h2, h3]
        · cases fn <;> simp [impFormula, h2, mayFormula]

theorem isNullable_iff (s : Solver) (hs : s.Complete) (c : Ctx) (T : Atom) (st : NullState) (ac : Option Formula) :
    isNullable s c T st ac = true ↔
      (KnownNull c T st ac ∧ Reachable c T) ∨ FromNullableAndMaybeNull c T st ac := by
  rw [isNullable_eq]
  have hmay : allows s c T (mayFormula st ac) = true ↔ FromNullableAndMaybeNull c T st ac := by
    rw [allows_iff s hs]
    unfold FromNullableAndMaybeNull
    simp only [mayFormula_eval]
  have hfalse : proves s c T (.lit false) = true ↔ ¬ Reachable c T := by
    rw [proves_iff s hs]
    simp [Formula.eval, Reachable]
  cases hn : st.isNull with
  | none =>
    simp only [hmay]
    have : ¬ KnownNull c T st ac := by rintro ⟨nl, h, -⟩; rw [hn] at h; simp at h
    simp [this]
  | some nl =>
    simp only
    have hknown : proves s c T (impFormula nl ac) = true ↔ KnownNull c T st ac := by
      rw [proves_iff s hs]
      simp only [impFormula_eval]
      constructor
      · intro h; exact ⟨nl, hn, h⟩
      · rintro ⟨nl', h1, h2⟩
        rw [hn] at h1; simp only [Option.some.injEq] at h1; subst h1; exact h2
    have hunreach : ¬ Reachable c T → ¬ FromNullableAndMaybeNull c T st ac := fun h ⟨ρ, hr, _⟩ => h ⟨ρ, hr⟩
    by_cases h1 : ac = none ∧ nl = Formula.lit false
    · simp only [h1, and_self, if_true, Bool.false_eq_true, false_iff, not_or, not_and]
      obtain ⟨rfl, rfl⟩ := h1
      constructor
      · rintro ⟨nl', a, b⟩ ⟨ρ, hr⟩
        rw [hn] at a; simp only [Option.some.injEq] at a; subst a
        have := b ρ hr (by simp [Ac])
        simp [Formula.eval] at this
      · rintro ⟨ρ, hr, -, -, hm⟩
        have := hm _ hn
        simp [Formula.eval] at this
    · simp only [h1, if_false]
      by_cases h2 : proves s c T (impFormula nl ac) = true
      · simp only [h2, if_true]
        rw [hknown] at h2
        simp only [h2, true_and]
        rw [Bool.not_eq_true', ← Bool.not_eq_true, hfalse, Classical.not_not]
        constructor
        · exact Or.inl
        · rintro (h | ⟨ρ, hr, -⟩)
          · exact h
          · exact ⟨ρ, hr⟩
      · simp only [h2]
        rw [hknown] at h2
        simp only [h2, false_and, false_or]
        exact hmay

theorem nonnull_query (nl : Formula) (ac : Option Formula) (ρ : Atom → Bool) :
    (Formula.not (match ac with | none => nl | some a => .and a nl)).eval ρ = true ↔ (Ac ac ρ → nl.eval ρ = false) := by
  unfold Ac
  cases ac with
  | none => simp [Formula.eval]
  | some a => cases h : a.eval ρ <;> simp [Formula.eval, h]

theorem getNullability_eq (s : Solver) (c : Ctx) (T : Atom) (st : NullState) (ac : Option Formula) :
    (getNullability s c T st ac = .NonNull ↔
      ∃ nl, st.isNull = some nl ∧ proves s c T (.not (match ac with | none => nl | some a => .and a nl)) = true) ∧
    (getNullability s c T st ac ≠ .NonNull →
      (getNullability s c T st ac = .Nullable ↔ isNullable s c T st ac = true)) := by
  obtain ⟨fn, nl⟩ := st
  cases nl with
  | none =>
    have : getNullability s c T ⟨fn, none⟩ ac = if isNullable s c T ⟨fn, none⟩ ac then .Nullable else .Unspecified := rfl
    rw [this]
    by_cases h : isNullable s c T ⟨fn, none⟩ ac = true <;> simp [h]
  | some nl =>
    have key : ∀ f, (f = (match ac with | none => nl | some a => .and a nl)) →
        getNullability s c T ⟨fn, some nl⟩ ac = if proves s c T (.not f) then .NonNull else
          if isNullable s c T ⟨fn, some nl⟩ ac then .Nullable else .Unspecified := by
      rintro f rfl; cases ac <;> rfl
    obtain ⟨f, hf⟩ : ∃ f, f = (match ac with | none => nl | some a => Formula.and a nl) := ⟨_, rfl⟩
    rw [key f hf]
    simp only [Option.some.injEq, exists_eq_left']
    rw [← hf]
    by_cases h : proves s c T (.not f) = true
    · simp [h]
    · by_cases h' : isNullable s c T ⟨fn, some nl⟩ ac = true <;> simp [h, h']

/-- C40: with a solver that never gives up, the verdict is exact. NonNull iff the pointer is known non-null; Nullable
iff it is not, and the pointer is known null at a reachable point or comes from a nullable source and may be null;
Unspecified otherwise. -/
theorem verdict_exact (s : Solver) (hs : s.Complete) (c : Ctx) (T : Atom) (st : NullState) (ac : Option Formula) :
    (getNullability s c T st ac = .NonNull ↔ KnownNonnull c T st ac) ∧
    (getNullability s c T st ac = .Nullable ↔ ¬ KnownNonnull c T st ac ∧
      ((KnownNull c T st ac ∧ Reachable c T) ∨ FromNullableAndMaybeNull c T st ac)) := by
  obtain ⟨h1, h2⟩ := getNullability_eq s c T st ac
  have hN : getNullability s c T st ac = .NonNull ↔ KnownNonnull c T st ac := by
    rw [h1]
    unfold KnownNonnull
    simp only [proves_iff s hs, nonnull_query]
  refine ⟨hN, ?_⟩
  rw [← isNullable_iff s hs, ← hN]
  constructor
  · intro h
    have hne : getNullability s c T st ac ≠ .NonNull := by rw [h]; simp
    exact ⟨hne, (h2 hne).mp h⟩
  · rintro ⟨hne, h⟩; exact (h2 hne).mpr h

/-- C40: whatever the solver (it may time out), NonNull is never claimed of a pointer that some run makes null. -/
theorem nonnull_sound (s : Solver) (c : Ctx) (T : Atom) (st : NullState) (ac : Option Formula)
    (h : getNullability s c T st ac = .NonNull) : KnownNonnull c T st ac := by
  obtain ⟨nl, h1, h2⟩ := (getNullability_eq s c T st ac).1.mp h
  exact ⟨nl, h1, fun ρ hr => (nonnull_query nl ac ρ).mp (proves_sound s h2 ρ hr)⟩

/-- C40: whatever the solver, Nullable is only claimed of a pointer that is known null, or that some run makes null with
a nullable source. -/
theorem nullable_sound (s : Solver) (c : Ctx) (T : Atom) (st : NullState) (ac : Option Formula)
    (h : getNullability s c T st ac = .Nullable) : KnownNull c T st ac ∨ FromNullableAndMaybeNull c T st ac := by
  obtain ⟨-, h2⟩ := getNullability_eq s c T st ac
  have hn := (h2 (by rw [h]; simp)).mp h
  rw [isNullable_eq] at hn
  have may : allows s c T (mayFormula st ac) = true → FromNullableAndMaybeNull c T st ac := by
    intro h
    obtain ⟨ρ, hr, hf⟩ := allows_sound s h
    exact ⟨ρ, hr, (mayFormula_eval st ac ρ).mp hf⟩
  cases hs : st.isNull with
  | none => rw [hs] at hn; exact Or.inr (may hn)
  | some nl =>
    rw [hs] at hn
    simp only at hn
    split at hn
    · simp at hn
    · split at hn
      · rename_i hp
        exact Or.inl ⟨nl, hs, fun ρ hr => (impFormula_eval nl ac ρ).mp (proves_sound s hp ρ hr)⟩
      · exact Or.inr (may hn)

/-- C40: without additional constraints, a `nullptr` literal is Nullable exactly where it is reachable. -/
theorem nullptr_nullable_iff_reachable (s : Solver) (hs : s.Complete) (c : Ctx) (T : Atom) :
    getNullabilityForNullptrT s c T none = .Nullable ↔ Reachable c T := by
  have h := isNullable_iff s hs c T ⟨some (.lit true), some (.lit true)⟩ none
  unfold getNullabilityForNullptrT isReachableNullptrLiteral
  have : (if isNullable s c T ⟨some (.lit true), some (.lit true)⟩ none then Kind.Nullable else .Unspecified) = .Nullable ↔
      isNullable s c T ⟨some (.lit true), some (.lit true)⟩ none = true := by split <;> simp_all
  rw [this, h]
  constructor
  · rintro (⟨-, h⟩ | ⟨ρ, h, -⟩)
    · exact h
    · exact ⟨ρ, h⟩
  · rintro ⟨ρ, h⟩
    exact Or.inr ⟨ρ, h, by simp [Ac], by simp [May, Formula.eval], by simp [May, Formula.eval]⟩

/-- Disagreement: the unreachability check ignores the additional constraints, so a `nullptr` literal under additional
constraints that no run satisfies (unreachable code) is still called Nullable, if the point itself is reachable. -/
theorem contradictory_constraints_nullable (s : Solver) (hs : s.Complete) (c : Ctx) (T : Atom) (a : Formula)
    (hreach : Reachable c T) (hno : ∀ ρ, Run c T ρ → a.eval ρ = false) :
    getNullabilityForNullptrT s c T (some a) = .Nullable := by
  unfold getNullabilityForNullptrT isReachableNullptrLiteral
  rw [(isNullable_iff s hs c T _ (some a)).mpr (Or.inl ⟨⟨_, rfl, fun ρ hr ha => ?_⟩, hreach⟩)]
  · rfl
  · rfl

end Verif.NullFlow

import Verif.Infer.Spec
import Verif.NullFlow.Verdict
import Mathlib.Tactic.Tauto
/- C127, C128: evidence is exactly what the behaviours call for. -/
namespace Verif.Infer
open Verif.NullFlow (Formula Ctx Solver NullState Source Run Reach)

local notation "Atom" => Nat

/-! ### Constraints -/

theorem eval_slotConstraints (fp : String → Nat → Nat) (prev : Previous) (slots : List InferableSlot) (ρ : Atom → Bool) :
    (slotConstraints fp prev slots).eval ρ = true ↔ AsInferred fp prev slots ρ := by
  have gen : ∀ (slots : List InferableSlot) (f : Formula),
      (slots.foldl (fun con i =>
        let nullable := if prev.nullable.contains (fp i.usr i.slot) then i.sym.isNullable else .not i.sym.isNullable
        let nonnull := if prev.nonnull.contains (fp i.usr i.slot) then i.sym.isNonnull else .not i.sym.isNonnull
        .and con (.and nullable nonnull)) f).eval ρ = true ↔ f.eval ρ = true ∧ AsInferred fp prev slots ρ := by
    intro slots
    induction slots with
    | nil => intro f; simp [AsInferred]
    | cons i slots ih =>
      intro f
      rw [List.foldl_cons, ih]
      have h1 : ((if prev.nullable.contains (fp i.usr i.slot) then i.sym.isNullable else .not i.sym.isNullable : Formula).eval ρ = true ↔
          (ρ i.nullable = true ↔ fp i.usr i.slot ∈ prev.nullable)) := by
        by_cases h : fp i.usr i.slot ∈ prev.nullable
        · simp [h, InferableSlot.sym, Source.isNullable, Formula.eval]
        · simp [h, InferableSlot.sym, Source.isNullable, Formula.eval]
      have h2 : ((if prev.nonnull.contains (fp i.usr i.slot) then i.sym.isNonnull else .not i.sym.isNonnull : Formula).eval ρ = true ↔
          (ρ i.nonnull = true ↔ fp i.usr i.slot ∈ prev.nonnull)) := by
        by_cases h : fp i.usr i.slot ∈ prev.nonnull
        · simp [h, InferableSlot.sym, Source.isNonnull, Formula.eval]
        · simp [h, InferableSlot.sym, Source.isNonnull, Formula.eval]
      simp only [Formula.eval, Bool.and_eq_true, h1, h2]
      unfold AsInferred
      simp only [List.mem_cons, forall_eq_or_imp]
      tauto
  exact (gen slots (.lit true)).trans (by simp [Formula.eval])

section
variable {s : Solver} (hs : s.Complete) {c : Ctx} {T : Atom}

include hs in
theorem certain_iff (f : Formula) : Env.proves ⟨s, c, T⟩ f = true ↔ Certain c T f := NullFlow.proves_iff s hs c T f

include hs in
theorem possible_iff (f : Formula) : Env.allows ⟨s, c, T⟩ f = true ↔ Possible c T f := NullFlow.allows_iff s hs c T f

include hs in
theorem nonnullHelps_iff (f : Formula) (i : InferableSlot) : nonnullHelps ⟨s, c, T⟩ f i = true ↔ NonnullSuffices c T f i := by
  simp only [nonnullHelps, Bool.and_eq_true, certain_iff hs, possible_iff hs]
  unfold NonnullSuffices Possible Certain
  simp only [InferableSlot.sym, Source.isNonnull, Formula.eval, Bool.or_eq_true, Bool.not_eq_true']
  refine and_congr Iff.rfl (forall_congr' fun ρ => ?_)
  cases ρ i.nonnull <;> simp

theorem nonnullHelps_sound (s : Solver) (f : Formula) (i : InferableSlot) (h : nonnullHelps ⟨s, c, T⟩ f i = true) :
    NonnullSuffices c T f i := by
  simp only [nonnullHelps, Bool.and_eq_true] at h
  refine ⟨NullFlow.allows_sound s h.1, fun ρ hr hn => ?_⟩
  have := NullFlow.proves_sound s h.2 ρ hr
  simpa [InferableSlot.sym, Source.isNonnull, Formula.eval, hn] using this

include hs in
theorem nullableHelps_iff (f : Formula) (i : InferableSlot) : nullableHelps ⟨s, c, T⟩ f i = true ↔ NullableSuffices c T f i := by
  simp only [nullableHelps, Bool.and_eq_true, certain_iff hs, possible_iff hs]
  unfold NullableSuffices Possible Certain
  simp only [InferableSlot.sym, Source.isNullable, Formula.eval, Bool.or_eq_true, Bool.not_eq_true']
  refine and_congr Iff.rfl (forall_congr' fun ρ => ?_)
  cases ρ i.nullable <;> simp

theorem nullableHelps_sound (s : Solver) (f : Formula) (i : InferableSlot) (h : nullableHelps ⟨s, c, T⟩ f i = true) :
    NullableSuffices c T f i := by
  simp only [nullableHelps, Bool.and_eq_true] at h
  refine ⟨NullFlow.allows_sound s h.1, fun ρ hr hn => ?_⟩
  have := NullFlow.proves_sound s h.2 ρ hr
  simpa [InferableSlot.sym, Source.isNullable, Formula.eval, hn] using this

end

theorem mem_emit (usr : String) (slot : Nat) (k : EKind) (cr : Bool) (loc : String) (ev : Evidence) :
    ev ∈ emit usr slot k cr loc ↔ usr ≠ "" ∧ ev = evidenceOf usr slot cr k loc := by
  unfold emit
  split
  · simp_all
  · simp_all [makeEvidence, evidenceOf]

theorem firstPass_spec (helps : InferableSlot → Bool) (slots : List InferableSlot) : ∀ fb,
    (∀ i r, firstPass helps slots fb = (some i, r) → ∃ before after, slots = before ++ i :: after ∧ helps i = true ∧
      i.crosses = false ∧ ∀ j ∈ before, j.crosses = false → helps j = false) ∧
    (∀ r, firstPass helps slots fb = (none, r) → (∀ j ∈ slots, j.crosses = false → helps j = false) ∧
      r = fb ++ slots.filter (·.crosses)) := by
  induction slots with
  | nil => intro fb; simp [firstPass]
  | cons a slots ih =>
    intro fb
    simp only [firstPass]
    by_cases ha : a.crosses = true
    · rw [if_pos ha]
      obtain ⟨h1, h2⟩ := ih (fb ++ [a])
      refine ⟨fun i r h => ?_, fun r h => ?_⟩
      · obtain ⟨b, af, e1, e2, e3, e4⟩ := h1 i r h
        exact ⟨a :: b, af, by simp [e1], e2, e3, fun j hj hc => by
          rcases List.mem_cons.mp hj with rfl | hj
          · rw [ha] at hc; cases hc
          · exact e4 j hj hc⟩
      · obtain ⟨e1, e2⟩ := h2 r h
        refine ⟨fun j hj hc => ?_, by simp [e2, ha]⟩
        rcases List.mem_cons.mp hj with rfl | hj
        · rw [ha] at hc; cases hc
        · exact e1 j hj hc
    · rw [if_neg ha]
      have ha' : a.crosses = false := by simpa using ha
      by_cases hh : helps a = true
      · rw [if_pos hh]
        refine ⟨fun i r h => ?_, fun r h => by simp at h⟩
        simp only [Prod.mk.injEq, Option.some.injEq] at h
        obtain ⟨rfl, -⟩ := h
        exact ⟨[], slots, rfl, hh, ha', by simp⟩
      · rw [if_neg hh]
        have hh' : helps a = false := by simpa using hh
        obtain ⟨h1, h2⟩ := ih fb
        refine ⟨fun i r h => ?_, fun r h => ?_⟩
        · obtain ⟨b, af, e1, e2, e3, e4⟩ := h1 i r h
          exact ⟨a :: b, af, by simp [e1], e2, e3, fun j hj hc => by
            rcases List.mem_cons.mp hj with rfl | hj
            · exact hh'
            · exact e4 j hj hc⟩
        · obtain ⟨e1, e2⟩ := h2 r h
          refine ⟨fun j hj hc => ?_, by simp [e2, ha']⟩
          rcases List.mem_cons.mp hj with rfl | hj
          · exact hh'
          · exact e1 j hj hc

/-- The slot chosen by the two passes. -/
def choose (helps : InferableSlot → Bool) (slots : List InferableSlot) : Option InferableSlot :=
  match firstPass helps slots [] with
  | (some i, _) => some i
  | (none, fallback) => fallback.find? helps

theorem nonnull_choose (e : Env) (slots : List InferableSlot) (f : Formula) (loc : String) (k : EKind) :
    mustBeTrueByMarkingNonnull e slots f loc k =
      if e.proves f || e.proves (.not f) then [] else
        (choose (nonnullHelps e f) slots).toList.flatMap (fun i => emitSlot i k loc) := by
  unfold mustBeTrueByMarkingNonnull choose
  split
  · rfl
  · generalize firstPass (nonnullHelps e f) slots [] = P
    obtain ⟨o, fb⟩ := P
    cases o with
    | some i => simp
    | none =>
      simp only
      cases fb.find? (nonnullHelps e f) <;> simp

theorem find_filter_split (P Q : InferableSlot → Bool) (slots : List InferableSlot) (i : InferableSlot)
    (h : (slots.filter Q).find? P = some i) : ∃ before after, slots = before ++ i :: after ∧ P i = true ∧ Q i = true ∧
      ∀ j ∈ before, Q j = true → P j = false := by
  induction slots with
  | nil => simp at h
  | cons a slots ih =>
    by_cases hq : Q a = true
    · rw [List.filter_cons_of_pos hq] at h
      by_cases hp : P a = true
      · rw [List.find?_cons_of_pos hp] at h
        cases h
        exact ⟨[], slots, rfl, hp, hq, by simp⟩
      · rw [List.find?_cons_of_neg hp] at h
        obtain ⟨b, af, e1, e2, e3, e4⟩ := ih h
        refine ⟨a :: b, af, by simp [e1], e2, e3, fun j hj hc => ?_⟩
        rcases List.mem_cons.mp hj with rfl | hj
        · simpa using hp
        · exact e4 j hj hc
    · rw [List.filter_cons_of_neg hq] at h
      obtain ⟨b, af, e1, e2, e3, e4⟩ := ih h
      refine ⟨a :: b, af, by simp [e1], e2, e3, fun j hj hc => ?_⟩
      rcases List.mem_cons.mp hj with rfl | hj
      · exact absurd hc hq
      · exact e4 j hj hc

theorem choose_some {helps : InferableSlot → Bool} {slots : List InferableSlot} {i : InferableSlot} (h : choose helps slots = some i) :
    FirstChoice slots (fun i => helps i = true) i := by
  unfold choose at h
  obtain ⟨h1, h2⟩ := firstPass_spec helps slots []
  generalize hP : firstPass helps slots [] = P at h h1 h2
  obtain ⟨o, fb⟩ := P
  cases o with
  | some j =>
    cases h
    obtain ⟨b, af, e1, e2, e3, e4⟩ := h1 _ _ rfl
    exact ⟨b, af, e1, e2, fun j hj hc => by simp [e4 j hj (by rw [hc, e3])], fun hc => by rw [e3] at hc; cases hc⟩
  | none =>
    obtain ⟨e1, e2⟩ := h2 _ rfl
    subst e2
    simp only [List.nil_append] at h
    obtain ⟨b, af, g1, g2, g3, g4⟩ := find_filter_split _ _ _ _ h
    exact ⟨b, af, g1, g2, fun j hj hc => by simp [g4 j hj (by rw [hc, g3])], fun _ j hj hc => by simp [e1 j hj hc]⟩

theorem choose_none {helps : InferableSlot → Bool} {slots : List InferableSlot} (h : choose helps slots = none) :
    ∀ i ∈ slots, helps i = false := by
  unfold choose at h
  obtain ⟨h1, h2⟩ := firstPass_spec helps slots []
  generalize hP : firstPass helps slots [] = P at h h1 h2
  obtain ⟨o, fb⟩ := P
  cases o with
  | some j => cases h
  | none =>
    obtain ⟨e1, e2⟩ := h2 _ rfl
    subst e2
    intro i hi
    cases hc : i.crosses with
    | false => exact e1 i hi hc
    | true =>
      have := List.find?_eq_none.mp h i (by simp [hi, hc])
      simpa using this

/-- There is at most one first choice. -/
theorem firstChoice_unique {slots : List InferableSlot} {P : InferableSlot → Prop} {i j : InferableSlot}
    (hi : FirstChoice slots P i) (hj : FirstChoice slots P j) : i = j := by
  obtain ⟨b, a, e, p, f, x⟩ := hi
  obtain ⟨b', a', e', p', f', x'⟩ := hj
  have hcr : i.crosses = j.crosses := by
    cases hci : i.crosses <;> cases hcj : j.crosses
    · rfl
    · exact absurd p (x' hcj i (by rw [e]; simp) hci)
    · exact absurd p' (x hci j (by rw [e']; simp) hcj)
    · rfl
  rw [e] at e'
  rcases List.append_eq_append_iff.mp e' with ⟨l, h1, h2⟩ | ⟨l, h1, h2⟩
  · cases l with
    | nil => simp at h2; exact h2.1
    | cons z l =>
      simp at h2
      exact absurd p (f' i (by rw [h1, h2.1]; simp) hcr)
  · cases l with
    | nil => simp at h2; exact h2.1.symm
    | cons z l =>
      simp at h2
      exact absurd p' (f j (by rw [h1, h2.1]; simp) hcr.symm)

theorem choose_iff {helps : InferableSlot → Bool} {slots : List InferableSlot} {P : InferableSlot → Prop}
    (hP : ∀ i, helps i = true ↔ P i) (i : InferableSlot) : choose helps slots = some i ↔ FirstChoice slots P i := by
  have hP' : (fun i => helps i = true) = P := funext fun i => propext (hP i)
  constructor
  · intro h; rw [← hP']; exact choose_some h
  · intro h
    cases hc : choose helps slots with
    | none =>
      obtain ⟨b, a, e, p, -⟩ := h
      have := choose_none hc i (by rw [e]; simp)
      rw [(hP i).mpr p] at this
      cases this
    | some j =>
      have hj := choose_some hc
      rw [hP'] at hj
      rw [firstChoice_unique h hj]

theorem nonnull_mem {s : Solver} (hs : s.Complete) {c : Ctx} {T : Atom} (slots : List InferableSlot) (f : Formula) (loc : String)
    (k : EKind) (ev : Evidence) : ev ∈ mustBeTrueByMarkingNonnull ⟨s, c, T⟩ slots f loc k ↔
      Open c T f ∧ ∃ i, FirstChoice slots (NonnullSuffices c T f) i ∧ i.usr ≠ "" ∧ ev = evidenceOf i.usr i.slot i.crosses k loc := by
  rw [nonnull_choose]
  have hop : (Env.proves ⟨s, c, T⟩ f || Env.proves ⟨s, c, T⟩ (.not f)) = true ↔ ¬ Open c T f := by
    rw [Bool.or_eq_true, certain_iff hs, certain_iff hs]; unfold Open; tauto
  split
  next h => exact ⟨fun h => by simp at h, fun ⟨h1, _⟩ => absurd h1 (hop.mp h)⟩
  next h =>
    have ho : Open c T f := by
      by_contra hn; exact h (hop.mpr hn)
    simp only [List.mem_flatMap, Option.mem_toList, choose_iff (nonnullHelps_iff hs f), emitSlot, mem_emit]
    exact ⟨fun ⟨i, h1, h2, h3⟩ => ⟨ho, i, h1, h2, h3⟩, fun ⟨_, i, h1, h2, h3⟩ => ⟨i, h1, h2, h3⟩⟩

theorem nonnull_le_one (e : Env) (slots : List InferableSlot) (f : Formula) (loc : String) (k : EKind) :
    (mustBeTrueByMarkingNonnull e slots f loc k).length ≤ 1 := by
  rw [nonnull_choose]
  split
  · simp
  · cases choose (nonnullHelps e f) slots with
    | none => simp
    | some i => simp [emitSlot, emit]; split <;> simp

theorem nullable_mem {s : Solver} (hs : s.Complete) {c : Ctx} {T : Atom} (slots : List InferableSlot) (f : Formula) (loc : String)
    (k : EKind) (ev : Evidence) : ev ∈ mustBeTrueByMarkingNullable ⟨s, c, T⟩ slots f loc k ↔
      Open c T f ∧ ∃ i ∈ slots, NullableSuffices c T f i ∧ i.usr ≠ "" ∧ ev = evidenceOf i.usr i.slot i.crosses k loc := by
  unfold mustBeTrueByMarkingNullable
  have hop : (Env.proves ⟨s, c, T⟩ f || Env.proves ⟨s, c, T⟩ (.not f)) = true ↔ ¬ Open c T f := by
    rw [Bool.or_eq_true, certain_iff hs, certain_iff hs]; unfold Open; tauto
  split
  next h => exact ⟨fun h => by simp at h, fun ⟨h1, _⟩ => absurd h1 (hop.mp h)⟩
  next h =>
    have ho : Open c T f := by
      by_contra hn; exact h (hop.mpr hn)
    simp only [List.mem_flatMap]
    constructor
    · rintro ⟨i, hi, hm⟩
      split at hm
      next hh => exact ⟨ho, i, hi, (nullableHelps_iff hs f i).mp hh, (mem_emit ..).mp hm⟩
      next => simp at hm
    · rintro ⟨-, i, hi, h1, h2⟩
      exact ⟨i, hi, by rw [if_pos ((nullableHelps_iff hs f i).mpr h1)]; exact (mem_emit ..).mpr h2⟩

theorem typeNonnull_iff {s : Solver} (hs : s.Complete) {c : Ctx} {T : Atom} {con : Formula} {A : (Atom → Bool) → Prop}
    (hA : ∀ ρ, con.eval ρ = true ↔ A ρ) (t : Source) : knownNonnull ⟨s, c, T⟩ con t = true ↔ TypeNonnull c T A t := by
  cases t with
  | concrete k => simp [knownNonnull, TypeNonnull]
  | symbolic n u =>
    simp only [knownNonnull, certain_iff hs, Certain, TypeNonnull, Source.isNonnull, Formula.eval, Bool.or_eq_true, Bool.not_eq_true']
    refine forall_congr' fun ρ => imp_congr_right fun _ => ?_
    rw [← hA]
    cases con.eval ρ <;> simp

theorem typeNullable_iff {s : Solver} (hs : s.Complete) {c : Ctx} {T : Atom} {con : Formula} {A : (Atom → Bool) → Prop}
    (hA : ∀ ρ, con.eval ρ = true ↔ A ρ) (t : Source) : knownNullable ⟨s, c, T⟩ con t = true ↔ TypeNullable c T A t := by
  cases t with
  | concrete k => simp [knownNullable, TypeNullable]
  | symbolic n u =>
    simp only [knownNullable, certain_iff hs, Certain, TypeNullable, Source.isNullable, Formula.eval, Bool.or_eq_true, Bool.not_eq_true']
    refine forall_congr' fun ρ => imp_congr_right fun _ => ?_
    rw [← hA]
    cases con.eval ρ <;> simp

theorem meets_true {s : Solver} (hs : s.Complete) {c : Ctx} {T : Atom} (slots : List InferableSlot) (f : Formula) (loc : String)
    (k : EKind) (ev : Evidence) : ev ∈ mustBeTrueByMarkingNonnull ⟨s, c, T⟩ slots f loc k ↔ Meets c T slots true f loc k ev := by
  rw [nonnull_mem hs]; simp [Meets]

theorem meets_false {s : Solver} (hs : s.Complete) {c : Ctx} {T : Atom} (slots : List InferableSlot) (f : Formula) (loc : String)
    (k : EKind) (ev : Evidence) : ev ∈ mustBeTrueByMarkingNullable ⟨s, c, T⟩ slots f loc k ↔ Meets c T slots false f loc k ev := by
  rw [nullable_mem hs]; simp [Meets, and_assoc]


theorem value_iff {s : Solver} (hs : s.Complete) {c : Ctx} {T : Atom} {con : Formula} {A : (Atom → Bool) → Prop}
    (hA : ∀ ρ, con.eval ρ = true ↔ A ρ) (st : NullState) :
    (NullFlow.KnownNonnull c T st (some con) ↔ ValueNonnull c T A st) ∧
    (((NullFlow.KnownNull c T st (some con) ∧ NullFlow.Reachable c T) ∨ NullFlow.FromNullableAndMaybeNull c T st (some con)) ↔
      MayBeNull c T A st) := by
  have hac : ∀ ρ, NullFlow.Ac (some con) ρ ↔ A ρ := fun ρ => by
    rw [← hA]; unfold NullFlow.Ac; simp
  unfold NullFlow.KnownNonnull NullFlow.KnownNull NullFlow.Reachable NullFlow.FromNullableAndMaybeNull NullFlow.May ValueNonnull MayBeNull
  simp only [hac]
  exact ⟨trivial, trivial⟩

theorem mayBeNull_iff {s : Solver} (hs : s.Complete) {c : Ctx} {T : Atom} {con : Formula} {A : (Atom → Bool) → Prop}
    (hA : ∀ ρ, con.eval ρ = true ↔ A ρ) (st : NullState) :
    NullFlow.isNullable s c T st (some con) = true ↔ MayBeNull c T A st := by
  rw [NullFlow.isNullable_iff s hs]; exact (value_iff hs hA st).2

theorem valueKind_iff {s : Solver} (hs : s.Complete) {c : Ctx} {T : Atom} {con : Formula} {A : (Atom → Bool) → Prop}
    (hA : ∀ ρ, con.eval ρ = true ↔ A ρ) (st : Option NullState) (v : NullFlow.Kind) :
    valueKind ⟨s, c, T⟩ con st = v ↔ ValueIs c T A st v := by
  cases st with
  | some st =>
    obtain ⟨h1, h2⟩ := NullFlow.verdict_exact s hs c T st (some con)
    obtain ⟨g1, g2⟩ := value_iff hs hA (c := c) (T := T) st
    rw [g1] at h1
    rw [g1, g2] at h2
    simp only [valueKind]
    generalize NullFlow.getNullability s c T st (some con) = w at h1 h2
    cases v <;> simp only [ValueIs]
    · exact h1
    · exact h2
    · cases w <;> simp_all
  | none =>
    have h := mayBeNull_iff hs hA (c := c) (T := T) ⟨some (.lit true), some (.lit true)⟩
    have hm : MayBeNull c T A ⟨some (.lit true), some (.lit true)⟩ ↔ ∃ ρ, Run c T ρ := by
      unfold MayBeNull
      constructor
      · rintro (⟨-, h⟩ | ⟨ρ, h, -⟩)
        · exact h
        · exact ⟨ρ, h⟩
      · intro h
        exact Or.inl ⟨⟨_, rfl, fun _ _ _ => rfl⟩, h⟩
    rw [hm] at h
    show (fun b : Bool => if b = true then NullFlow.Kind.Nullable else NullFlow.Kind.Unspecified)
      (NullFlow.isNullable s c T ⟨some (.lit true), some (.lit true)⟩ (some con)) = v ↔ _
    generalize NullFlow.isNullable s c T ⟨some (.lit true), some (.lit true)⟩ (some con) = b at h
    cases v <;> cases b <;> simp [ValueIs] <;> simpa using h

theorem argKind_iff (v : NullFlow.Kind) (t : TyProps) (k : EKind) :
    argKind v t = k ↔ ArgEvidence v t.isLValueRef t.isNonReferenceConst k := by
  obtain ⟨r, q⟩ := t
  cases v <;> cases r <;> cases q <;> simp [argKind, ArgEvidence, eq_comm]

theorem retKind_iff (v : NullFlow.Kind) (t : TyProps) (k : EKind) :
    retKind v t = k ↔ RetEvidence v t.isLValueRef t.isNonReferenceConst k := by
  obtain ⟨r, q⟩ := t
  cases v <;> cases r <;> cases q <;> simp [retKind, RetEvidence, eq_comm]

theorem fromKind_iff (n : EKind) (v : NullFlow.Kind) (k : EKind) : fromValueKind v n = k ↔ FromEvidence n v k := by
  cases v <;> simp [fromValueKind, FromEvidence, eq_comm]

theorem find_first {P : InferableSlot → Prop} {p : InferableSlot → Bool} (hp : ∀ i, p i = true ↔ P i) (slots : List InferableSlot)
    (i : InferableSlot) : slots.find? p = some i ↔ First slots P i := by
  constructor
  · intro h
    obtain ⟨h1, b, a, h2, h3⟩ := List.find?_eq_some_iff_append.mp h
    exact ⟨b, a, h2, (hp i).mp h1, fun j hj hc => by simpa [(hp j).mpr hc] using h3 j hj⟩
  · rintro ⟨b, a, h2, h1, h3⟩
    exact List.find?_eq_some_iff_append.mpr ⟨(hp i).mpr h1, b, a, h2, fun j hj => by
      have := h3 j hj
      rw [← hp] at this
      simpa using this⟩

theorem lhsNonnull_iff (c : Ctx) (T : Atom) (A : (Atom → Bool) → Prop) (prev : Previous) (fp : Option Nat) (t : Source) :
    TypeNonnull c T A (overridden prev fp t) ↔ LhsNonnull c T A prev fp t := by
  cases fp with
  | none => exact Iff.rfl
  | some p =>
    simp only [overridden, overlay, LhsNonnull]
    by_cases h1 : p ∈ prev.nullable
    · simp [h1, TypeNonnull]
    · by_cases h2 : p ∈ prev.nonnull
      · simp [h1, h2, TypeNonnull]
      · simp [h1, h2]

theorem lhsNullable_iff (c : Ctx) (T : Atom) (A : (Atom → Bool) → Prop) (prev : Previous) (fp : Option Nat) (t : Source) :
    TypeNullable c T A (overridden prev fp t) ↔ LhsNullable c T A prev fp t := by
  cases fp with
  | none => exact Iff.rfl
  | some p =>
    simp only [overridden, overlay, LhsNullable]
    by_cases h1 : p ∈ prev.nullable
    · simp [h1, TypeNullable]
    · by_cases h2 : p ∈ prev.nonnull
      · simp [h1, h2, TypeNullable]
      · simp [h1, h2]

/-- C127, C128: with a solver that answers, the evidence of a behaviour is exactly what is called for: what meets an open
requirement, or what the values seen tell. -/
theorem evidence_exact (s : Solver) (hs : s.Complete) (c : Ctx) (T : Atom) (fp : String → Nat → Nat) (prev : Previous)
    (slots : List InferableSlot) (b : Behavior) (ev : Evidence) :
    ev ∈ collect ⟨s, c, T⟩ slots (slotConstraints fp prev slots) prev b ↔
      (∃ nn f loc k, Needs c T (AsInferred fp prev slots) prev b nn f loc k ∧ Meets c T slots nn f loc k ev) ∨
      Tells c T (AsInferred fp prev slots) slots b ev := by
  have hA := eval_slotConstraints fp prev slots
  generalize slotConstraints fp prev slots = con at hA ⊢
  generalize AsInferred fp prev slots = A at hA ⊢
  cases b with
  | requires nn f loc k =>
    cases nn
    · rw [show collect ⟨s, c, T⟩ slots con prev (.requires false f loc k) = mustBeTrueByMarkingNullable ⟨s, c, T⟩ slots f loc k from rfl, meets_false hs]
      exact ⟨fun h => Or.inl ⟨_, _, _, _, .requires _ _ _ _, h⟩, fun h => by
        rcases h with ⟨_, _, _, _, hn, hm⟩ | ht
        · cases hn; exact hm
        · cases ht⟩
    · rw [show collect ⟨s, c, T⟩ slots con prev (.requires true f loc k) = mustBeTrueByMarkingNonnull ⟨s, c, T⟩ slots f loc k from rfl, meets_true hs]
      exact ⟨fun h => Or.inl ⟨_, _, _, _, .requires _ _ _ _, h⟩, fun h => by
        rcases h with ⟨_, _, _, _, hn, hm⟩ | ht
        · cases hn; exact hm
        · cases ht⟩
  | assignedToType lc lhs fp' rt rhs loc =>
    have kn := (typeNonnull_iff hs hA (c := c) (T := T) (overridden prev fp' lhs)).trans (lhsNonnull_iff c T A prev fp' lhs)
    have ku := (typeNullable_iff hs hA (c := c) (T := T) (overridden prev fp' lhs)).trans (lhsNullable_iff c T A prev fp' lhs)
    simp only [collect, collectAssignmentToType]
    cases rt with
    | none =>
      simp only [assignedToNonnull]
      cases hn : rhs.isNull with
      | none =>
        simp only [List.not_mem_nil, false_iff]
        rintro (⟨_, _, _, _, h, -⟩ | h)
        · cases h with | nonnullValue _ _ _ _ _ nl h1 h2 => rw [hn] at h2; cases h2
        · cases h
      | some nl =>
        simp only
        split
        next hk =>
          rw [meets_true hs]
          refine ⟨fun h => Or.inl ⟨_, _, _, _, .nonnullValue _ _ _ _ _ nl (kn.mp hk) hn, h⟩, ?_⟩
          rintro (⟨_, _, _, _, h, hm⟩ | h)
          · cases h with | nonnullValue _ _ _ _ _ nl' h1 h2 => rw [hn] at h2; cases h2; exact hm
          · cases h
        next hk =>
          simp only [List.not_mem_nil, false_iff]
          rintro (⟨_, _, _, _, h, -⟩ | h)
          · cases h with | nonnullValue _ _ _ _ _ nl h1 h2 => exact hk (kn.mpr h1)
          · cases h
    | some rt =>
      simp only
      split
      next hk =>
        rw [meets_true hs]
        refine ⟨fun h => Or.inl ⟨_, _, _, _, .nonnullReference _ _ _ _ _ _ (kn.mp hk), h⟩, ?_⟩
        rintro (⟨_, _, _, _, h, hm⟩ | h)
        · cases h with
          | nonnullReference _ _ _ _ _ _ h1 => exact hm
          | mutableNullable _ _ _ _ _ h1 h2 => exact absurd (kn.mp hk) h1
        · cases h
      next hk =>
        have hk' : ¬ LhsNonnull c T A prev fp' lhs := fun h => hk (kn.mpr h)
        split
        next hu =>
          rw [Bool.and_eq_true, ku] at hu
          rw [meets_false hs]
          obtain ⟨hlc, hu⟩ := hu
          have hlc : lc = false := by simpa using hlc
          subst hlc
          refine ⟨fun h => Or.inl ⟨_, _, _, _, .mutableNullable _ _ _ _ _ hk' hu, h⟩, ?_⟩
          rintro (⟨_, _, _, _, h, hm⟩ | h)
          · cases h with
            | nonnullReference _ _ _ _ _ _ h1 => exact absurd h1 hk'
            | mutableNullable _ _ _ _ _ h1 h2 => exact hm
          · cases h
        next hu =>
          have : assignedToNonnull ⟨s, c, T⟩ slots con (overridden prev fp' lhs) rhs loc = [] := by
            unfold assignedToNonnull
            cases rhs.isNull with
            | none => rfl
            | some nl => simp only; rw [if_neg hk]
          rw [this]
          simp only [List.not_mem_nil, false_iff]
          rintro (⟨_, _, _, _, h, -⟩ | h)
          · cases h with
            | nonnullReference _ _ _ _ _ _ h1 => exact hk' h1
            | mutableNullable _ _ _ _ _ h1 h2 => exact hu (by simp [ku.mpr h2])
          · cases h
  | invariantDecl usr slot cr tm loc =>
    have kn := typeNonnull_iff hs hA (c := c) (T := T) tm
    have ku := typeNullable_iff hs hA (c := c) (T := T) tm
    simp only [collect, collectInvariantDecl]
    split
    next hk =>
      rw [mem_emit]
      refine ⟨fun ⟨h1, h2⟩ => Or.inr (h2 ▸ .invariantNonnull _ _ _ _ _ h1 (kn.mp hk)), ?_⟩
      rintro (⟨_, _, _, _, h, -⟩ | h)
      · cases h
      · cases h with
        | invariantNonnull _ _ _ _ _ h1 h2 => exact ⟨h1, rfl⟩
        | invariantNullable _ _ _ _ _ h1 h2 h3 => exact absurd (kn.mp hk) h2
    next hk =>
      have hk' : ¬ TypeNonnull c T A tm := fun h => hk (kn.mpr h)
      split
      next hu =>
        rw [mem_emit]
        refine ⟨fun ⟨h1, h2⟩ => Or.inr (h2 ▸ .invariantNullable _ _ _ _ _ h1 hk' (ku.mp hu)), ?_⟩
        rintro (⟨_, _, _, _, h, -⟩ | h)
        · cases h
        · cases h with
          | invariantNonnull _ _ _ _ _ h1 h2 => exact absurd h2 hk'
          | invariantNullable _ _ _ _ _ h1 h2 h3 => exact ⟨h1, rfl⟩
      next hu =>
        simp only [List.not_mem_nil, false_iff]
        rintro (⟨_, _, _, _, h, -⟩ | h)
        · cases h
        · cases h with
          | invariantNonnull _ _ _ _ _ h1 h2 => exact hk' h2
          | invariantNullable _ _ _ _ _ h1 h2 h3 => exact hu (ku.mpr h3)
  | invariantExpr t tm fp' loc =>
    have kn := (typeNonnull_iff hs hA (c := c) (T := T) (overridden prev fp' tm)).trans (lhsNonnull_iff c T A prev fp' tm)
    have ku := (typeNullable_iff hs hA (c := c) (T := T) (overridden prev fp' tm)).trans (lhsNullable_iff c T A prev fp' tm)
    simp only [collect, collectInvariantExpr]
    split
    next hk =>
      rw [meets_true hs]
      refine ⟨fun h => Or.inl ⟨_, _, _, _, .invariantNonnull _ _ _ _ (kn.mp hk), h⟩, ?_⟩
      rintro (⟨_, _, _, _, h, hm⟩ | h)
      · cases h with
        | invariantNonnull _ _ _ _ h1 => exact hm
        | invariantNullable _ _ _ _ h1 h2 => exact absurd (kn.mp hk) h1
      · cases h
    next hk =>
      have hk' : ¬ LhsNonnull c T A prev fp' tm := fun h => hk (kn.mpr h)
      split
      next hu =>
        rw [meets_false hs]
        refine ⟨fun h => Or.inl ⟨_, _, _, _, .invariantNullable _ _ _ _ hk' (ku.mp hu), h⟩, ?_⟩
        rintro (⟨_, _, _, _, h, hm⟩ | h)
        · cases h with
          | invariantNonnull _ _ _ _ h1 => exact absurd h1 hk'
          | invariantNullable _ _ _ _ h1 h2 => exact hm
        · cases h
      next hu =>
        simp only [List.not_mem_nil, false_iff]
        rintro (⟨_, _, _, _, h, -⟩ | h)
        · cases h with
          | invariantNonnull _ _ _ _ h1 => exact hk' h1
          | invariantNullable _ _ _ _ h1 h2 => exact hu (ku.mpr h2)
        · cases h
  | fromValue ty st loc ifn =>
    have hcond : (Env.proves ⟨s, c, T⟩ ty.isNullable || !Env.allows ⟨s, c, T⟩ ty.isNullable) = true ↔
        ¬ (¬ Certain c T ty.isNullable ∧ Possible c T ty.isNullable) := by
      rw [← certain_iff hs, ← possible_iff hs]
      cases Env.proves ⟨s, c, T⟩ ty.isNullable <;> cases Env.allows ⟨s, c, T⟩ ty.isNullable <;> simp
    have hfind : ∀ i, slots.find? (fun i => Env.proves ⟨s, c, T⟩ (.implies i.sym.isNullable ty.isNullable)) = some i ↔
        First slots (fun i => ∀ ρ, Run c T ρ → ρ i.nullable = true → ty.isNullable.eval ρ = true) i := by
      intro i
      refine find_first (fun j => ?_) slots i
      rw [certain_iff hs]
      unfold Certain
      refine forall_congr' fun ρ => imp_congr_right fun _ => ?_
      simp only [InferableSlot.sym, Source.isNullable, Formula.eval, Bool.or_eq_true, Bool.not_eq_true']
      cases ρ j.nullable <;> simp
    simp only [collect, collectAssignmentFromValue]
    split
    next hk =>
      simp only [List.not_mem_nil, false_iff]
      rintro (⟨_, _, _, _, h, -⟩ | h)
      · cases h
      · cases h with | assigned _ _ _ _ i v k h1 h2 => exact hcond.mp hk ⟨h1, h2⟩
    next hk =>
      have hop : ¬ Certain c T ty.isNullable ∧ Possible c T ty.isNullable := by
        by_contra hn; exact hk (hcond.mpr hn)
      generalize slots.find? (fun i => Env.proves ⟨s, c, T⟩ (.implies i.sym.isNullable ty.isNullable)) = o at hfind
      have hv := (valueKind_iff hs hA (c := c) (T := T) st _).mp rfl
      cases o with
      | none =>
        simp only [List.not_mem_nil, false_iff]
        rintro (⟨_, _, _, _, h, -⟩ | h)
        · cases h
        · cases h with | assigned _ _ _ _ i v k h1 h2 h3 => have := (hfind i).mpr h3; cases this
      | some i =>
        simp only [emitSlot, mem_emit]
        refine ⟨fun ⟨h1, h2⟩ => Or.inr (h2 ▸ .assigned _ _ _ _ i _ _ hop.1 hop.2 ((hfind i).mp rfl) h1 hv ((fromKind_iff _ _ _).mp rfl)), ?_⟩
        rintro (⟨_, _, _, _, h, -⟩ | h)
        · cases h
        · cases h with
          | assigned _ _ _ _ j v k h1 h2 h3 h4 h5 h6 =>
            have := (hfind j).mpr h3
            cases this
            rw [← valueKind_iff hs hA] at h5
            rw [← fromKind_iff, ← h5] at h6
            exact ⟨h4, by rw [h6]⟩
  | argBinding usr slot t cr st loc =>
    simp only [collect, collectArgBinding, mem_emit]
    have hv := (valueKind_iff hs hA (c := c) (T := T) st _).mp rfl
    refine ⟨fun ⟨h1, h2⟩ => Or.inr (h2 ▸ .argument _ _ _ _ _ _ _ _ h1 hv ((argKind_iff _ _ _).mp rfl)), ?_⟩
    rintro (⟨_, _, _, _, h, -⟩ | h)
    · cases h
    · cases h with
      | argument _ _ _ _ _ _ v k h1 h2 h3 =>
        rw [← valueKind_iff hs hA] at h2
        rw [← argKind_iff, ← h2] at h3
        exact ⟨h1, by rw [h3]⟩
  | abortIfEqual f1 l1 f2 l2 =>
    simp only [collect, collectAbortIfEqual]
    split
    next hk =>
      rw [certain_iff hs] at hk
      rw [meets_true hs]
      refine ⟨fun h => Or.inl ⟨_, _, _, _, .abortSecond _ _ _ _ hk, h⟩, ?_⟩
      rintro (⟨_, _, _, _, h, hm⟩ | h)
      · cases h with
        | abortSecond _ _ _ _ h1 => exact hm
        | abortFirst _ _ _ _ h1 h2 => exact absurd hk h1
      · cases h
    next hk =>
      rw [certain_iff hs] at hk
      split
      next hu =>
        rw [certain_iff hs] at hu
        rw [meets_true hs]
        refine ⟨fun h => Or.inl ⟨_, _, _, _, .abortFirst _ _ _ _ hk hu, h⟩, ?_⟩
        rintro (⟨_, _, _, _, h, hm⟩ | h)
        · cases h with
          | abortSecond _ _ _ _ h1 => exact absurd h1 hk
          | abortFirst _ _ _ _ h1 h2 => exact hm
        · cases h
      next hu =>
        rw [certain_iff hs] at hu
        simp only [List.not_mem_nil, false_iff]
        rintro (⟨_, _, _, _, h, -⟩ | h)
        · cases h with
          | abortSecond _ _ _ _ h1 => exact hk h1
          | abortFirst _ _ _ _ h1 h2 => exact hu h2
        · cases h
  | returned usr t st loc =>
    simp only [collect, collectReturn, mem_emit]
    have hv := (valueKind_iff hs hA (c := c) (T := T) (some st) _).mp rfl
    refine ⟨fun ⟨h1, h2⟩ => Or.inr (h2 ▸ .returned _ _ _ _ _ _ h1 hv ((retKind_iff _ _ _).mp rfl)), ?_⟩
    rintro (⟨_, _, _, _, h, -⟩ | h)
    · cases h
    · cases h with
      | returned _ _ _ _ v k h1 h2 h3 =>
        rw [← valueKind_iff hs hA] at h2
        simp only [valueKind] at h2
        rw [← retKind_iff, ← h2] at h3
        exact ⟨h1, by rw [h3]⟩
  | onExit ctor late =>
    simp only [collect, List.mem_append, List.mem_flatMap]
    constructor
    · rintro (⟨i, hi, h⟩ | ⟨i, hi, h⟩)
      · unfold collectConstructorExit at h
        split at h
        next hn =>
          obtain ⟨h1, rfl⟩ := (mem_emit ..).mp h
          exact Or.inr (.ctorExit _ _ i hi h1 ((mayBeNull_iff hs hA _).mp hn))
        next => simp at h
      · unfold collectLateInitExit at h
        split at h
        next => simp at h
        next hn =>
          obtain ⟨h1, rfl⟩ := (mem_emit ..).mp h
          exact Or.inr (.lateExit _ _ i hi h1 (fun hm => hn ((mayBeNull_iff hs hA _).mpr hm)))
    · rintro (⟨_, _, _, _, h, -⟩ | h)
      · cases h
      · cases h with
        | ctorExit _ _ i hi h1 h2 =>
          refine Or.inl ⟨i, hi, ?_⟩
          unfold collectConstructorExit
          rw [if_pos ((mayBeNull_iff hs hA _).mpr h2)]
          exact (mem_emit ..).mpr ⟨h1, rfl⟩
        | lateExit _ _ i hi h1 h2 =>
          refine Or.inr ⟨i, hi, ?_⟩
          unfold collectLateInitExit
          rw [if_neg (fun hm => h2 ((mayBeNull_iff hs hA _).mp hm))]
          exact (mem_emit ..).mpr ⟨h1, rfl⟩

end Verif.Infer

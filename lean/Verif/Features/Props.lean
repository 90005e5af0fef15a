import Verif.Features.Model
/- Feature flag properties C22-C24. -/
namespace Verif.Features

/-- Specification of what a name on the list asks for, as documented: a feature's own short name
enables it; `supported` also enables `types`; `all` enables everything but the four opt-in flags. -/
def Enables (name : String) (f : Feature) : Prop :=
  name = f.shortName ∨ (name = "supported" ∧ f = .types) ∨
  (name = "all" ∧ f ≠ .noAssumeLifetimes ∧ f ≠ .layoutCompatTuple ∧
    f ≠ .alwaysSpecializeGenericsInCppApiFromRust ∧ f ≠ .ooCasting)

/-- A name that is understood. -/
def Known (name : String) : Prop := name = "all" ∨ ∃ f : Feature, name = f.shortName

theorem idx_lt (f : Feature) : f.idx < 32 := by cases f <;> decide
theorem idx_inj (f g : Feature) (h : f.idx = g.idx) : f = g := by
  revert h; cases f <;> cases g <;> decide

theorem toSet_getLsbD (f : Feature) (i : Nat) : f.toSet.getLsbD i = decide (i = f.idx) := by
  have := idx_lt f
  simp only [Feature.toSet, BitVec.getLsbD_twoPow]
  by_cases h : i = f.idx
  · subst h; simp [this]
  · have h' : ¬ f.idx = i := fun e => h e.symm
    simp [h, h']

theorem contains_iff (a : FlagSet) (f : Feature) : a.contains f = a.getLsbD f.idx := by
  unfold FlagSet.contains
  rw [Bool.eq_iff_iff, beq_iff_eq]
  constructor
  · intro h
    have := congrArg (fun v => v.getLsbD f.idx) h
    simpa [toSet_getLsbD] using this
  · intro h
    apply BitVec.eq_of_getLsbD_eq
    intro i _
    simp only [BitVec.getLsbD_and, toSet_getLsbD]
    by_cases hi : i = f.idx
    · subst hi; simp [h]
    · simp [hi]

theorem contains_or (a b : FlagSet) (f : Feature) : (a ||| b).contains f = (a.contains f || b.contains f) := by
  simp [contains_iff]

theorem contains_toSet (g f : Feature) : g.toSet.contains f = decide (f = g) := by
  rw [contains_iff, toSet_getLsbD]
  by_cases h : f = g
  · simp [h]
  · simp [h]; exact fun e => h (idx_inj _ _ e)

theorem contains_sub (a : FlagSet) (g f : Feature) : (a.sub g.toSet).contains f = (a.contains f && !decide (f = g)) := by
  rw [contains_iff, contains_iff, FlagSet.sub, BitVec.getLsbD_and, BitVec.getLsbD_not, ← contains_iff g.toSet, contains_toSet]
  simp [idx_lt f]

theorem contains_full (f : Feature) : FlagSet.full.contains f = true := by cases f <;> decide

theorem Feature.mem_all (f : Feature) : f ∈ Feature.all := by cases f <;> decide

/-- The name table agrees with the documentation, for every string and every feature. -/
theorem named_some (name : String) (s : FlagSet) (h : namedFeatures name = some s) (f : Feature) :
    s.contains f = true ↔ Enables name f := by
  have key : ∀ g : Feature, g.shortName ≠ "supported" → s = g.toSet → name = g.shortName →
      (s.contains f = true ↔ Enables name f) := by
    intro g hg hs hn
    subst hs
    rw [contains_toSet, decide_eq_true_eq]
    subst hn
    unfold Enables
    constructor
    · rintro rfl; exact .inl rfl
    · rintro (h | ⟨h, -⟩ | ⟨h, -⟩)
      · revert h; cases g <;> cases f <;> decide
      · exact absurd h hg
      · exfalso; clear hg; revert h; cases g <;> decide
  unfold namedFeatures at h
  split at h <;> simp only [Option.some.injEq, reduceCtorEq] at h
  · clear key; subst h
    simp only [contains_sub, contains_full, Bool.true_and, Enables]
    cases f <;> decide
  · clear key; subst h
    simp only [contains_or, contains_toSet, Enables]
    cases f <;> decide
  · exact key .wrapper (by decide) h.symm rfl
  · exact key .types (by decide) h.symm rfl
  · exact key .experimental (by decide) h.symm rfl
  · exact key .assumeLifetimes (by decide) h.symm rfl
  · exact key .assumeThisLifetimes (by decide) h.symm rfl
  · exact key .noAssumeLifetimes (by decide) h.symm rfl
  · exact key .unsafeView (by decide) h.symm rfl
  · exact key .checkDefaultInitialized (by decide) h.symm rfl
  · exact key .leadingColonsForCppType (by decide) h.symm rfl
  · exact key .templateInstantiation (by decide) h.symm rfl
  · exact key .layoutCompatTuple (by decide) h.symm rfl
  · exact key .alwaysSpecializeGenericsInCppApiFromRust (by decide) h.symm rfl
  · exact key .recordImplDebug (by decide) h.symm rfl
  · exact key .ctorPlainValues (by decide) h.symm rfl
  · exact key .reserveStandardMacros (by decide) h.symm rfl
  · exact key .thunklessAccessors (by decide) h.symm rfl
  · exact key .ooCasting (by decide) h.symm rfl
  · exact key .asyncFnSendModuloRegions (by decide) h.symm rfl

theorem named_isSome (name : String) : (namedFeatures name).isSome ↔ Known name := by
  constructor
  · intro h
    unfold namedFeatures at h
    split at h <;> first
      | exact .inl rfl
      | exact .inr ⟨.supported, rfl⟩
      | exact .inr ⟨.wrapper, rfl⟩
      | exact .inr ⟨.types, rfl⟩
      | exact .inr ⟨.experimental, rfl⟩
      | exact .inr ⟨.assumeLifetimes, rfl⟩
      | exact .inr ⟨.assumeThisLifetimes, rfl⟩
      | exact .inr ⟨.noAssumeLifetimes, rfl⟩
      | exact .inr ⟨.unsafeView, rfl⟩
      | exact .inr ⟨.checkDefaultInitialized, rfl⟩
      | exact .inr ⟨.leadingColonsForCppType, rfl⟩
      | exact .inr ⟨.templateInstantiation, rfl⟩
      | exact .inr ⟨.layoutCompatTuple, rfl⟩
      | exact .inr ⟨.alwaysSpecializeGenericsInCppApiFromRust, rfl⟩
      | exact .inr ⟨.recordImplDebug, rfl⟩
      | exact .inr ⟨.ctorPlainValues, rfl⟩
      | exact .inr ⟨.reserveStandardMacros, rfl⟩
      | exact .inr ⟨.thunklessAccessors, rfl⟩
      | exact .inr ⟨.ooCasting, rfl⟩
      | exact .inr ⟨.asyncFnSendModuloRegions, rfl⟩
      | simp at h
  · rintro (rfl | ⟨f, rfl⟩)
    · rfl
    · cases f <;> rfl

theorem visitLoop_spec (ns : List String) : ∀ (r : FlagSet),
    ((visitLoop r ns).isSome ↔ ∀ n ∈ ns, Known n) ∧
    ∀ s, visitLoop r ns = some s → ∀ f, s.contains f = true ↔ r.contains f = true ∨ ∃ n ∈ ns, Enables n f := by
  induction ns with
  | nil => intro r; simp [visitLoop]
  | cons n ns ih =>
    intro r
    have hk := named_isSome n
    simp only [visitLoop]
    cases h : namedFeatures n with
    | none =>
      simp [h] at hk
      simp [hk]
    | some fl =>
      simp [h] at hk
      obtain ⟨i1, i2⟩ := ih (r ||| fl)
      refine ⟨by simpa [hk] using i1, fun s hs f => ?_⟩
      rw [i2 s hs f, contains_or, Bool.or_eq_true, named_some n fl h f]
      simp [or_assoc]

/-- C22: a list is rejected iff some name on it is unknown. -/
theorem rejected_iff (names : List String) : deserialize names = none ↔ ∃ n ∈ names, ¬ Known n := by
  have := (visitLoop_spec names 0#32).1
  unfold deserialize
  cases h : visitLoop 0#32 names with
  | none =>
    simp [h] at this
    obtain ⟨n, hn, hk⟩ := this
    exact ⟨fun _ => ⟨n, hn, hk⟩, fun _ => by simp⟩
  | some s =>
    simp [h] at this
    constructor
    · intro h; simp at h
    · rintro ⟨n, hn, hk⟩; exact absurd (this n hn) hk

/-- C23: after resolution the marker `no_assume_lifetimes` is never present; `assume_lifetimes` is
present iff some name enables it and none is/enables the marker; every other feature is present iff
some name enables it. -/
theorem resolved_features (names : List String) (s : FlagSet) (h : deserialize names = some s) (f : Feature) :
    s.contains f = true ↔
      f ≠ .noAssumeLifetimes ∧ (∃ n ∈ names, Enables n f) ∧
      (f = .assumeLifetimes → ¬ ∃ n ∈ names, Enables n .noAssumeLifetimes) := by
  unfold deserialize at h
  cases hv : visitLoop 0#32 names with
  | none => simp [hv] at h
  | some r =>
    simp [hv] at h
    have hr := (visitLoop_spec names 0#32).2 r hv
    have h0 : ∀ g : Feature, FlagSet.contains 0#32 g = false := by intro g; cases g <;> decide
    have hr' : ∀ g : Feature, r.contains g = true ↔ ∃ n ∈ names, Enables n g := by
      intro g; rw [hr g]; simp [h0]
    subst h
    unfold resolved
    simp only
    split
    · rename_i hc
      simp only [contains_sub, Bool.and_eq_true, hr', Bool.not_eq_true', decide_eq_false_iff_not]
      rw [hr'] at hc
      constructor
      · rintro ⟨⟨a, b⟩, c⟩; exact ⟨c, a, fun e => absurd e b⟩
      · rintro ⟨a, b, c⟩; exact ⟨⟨b, fun e => c e hc⟩, a⟩
    · rename_i hc
      simp only [contains_sub, Bool.and_eq_true, hr', Bool.not_eq_true', decide_eq_false_iff_not]
      rw [hr'] at hc
      constructor
      · rintro ⟨a, b⟩; exact ⟨b, a, fun _ => hc⟩
      · rintro ⟨a, b, -⟩; exact ⟨b, a⟩

/-- Only `no_assume_lifetimes` itself enables the marker, so `all` (or anything else) never disables
lifetime defaults. -/
theorem only_marker_disables (n : String) : Enables n .noAssumeLifetimes ↔ n = "no_assume_lifetimes" := by
  unfold Enables Feature.shortName
  constructor
  · rintro (h | ⟨_, h⟩ | ⟨_, h, _⟩)
    · exact h
    · simp at h
    · simp at h
  · intro h; exact .inl h

theorem visitLoop_or (ns : List String) : ∀ (r : FlagSet), visitLoop r ns = (visitLoop 0#32 ns).map (r ||| ·) := by
  induction ns with
  | nil => intro r; simp [visitLoop]
  | cons n ns ih =>
    intro r
    simp only [visitLoop]
    cases h : namedFeatures n with
    | none => rfl
    | some fl =>
      simp only
      rw [ih (r ||| fl), ih (0#32 ||| fl)]
      cases visitLoop 0#32 ns <;> simp [BitVec.or_assoc]

/-- bits beyond the last flag are never set -/
theorem visitLoop_high (ns : List String) : ∀ (r s : FlagSet), (∀ i, 19 ≤ i → r.getLsbD i = false) →
    visitLoop r ns = some s → ∀ i, 19 ≤ i → s.getLsbD i = false := by
  induction ns with
  | nil => intro r s hr h; simp [visitLoop] at h; subst h; exact hr
  | cons n ns ih =>
    intro r s hr h
    simp only [visitLoop] at h
    cases hn : namedFeatures n with
    | none => simp [hn] at h
    | some fl =>
      simp only [hn] at h
      refine ih _ s ?_ h
      intro i hi
      rw [BitVec.getLsbD_or, hr i hi, Bool.false_or]
      have hl : ∀ g : Feature, g.idx < 19 := by intro g; cases g <;> decide
      have ht : ∀ g : Feature, g.toSet.getLsbD i = false := by
        intro g; rw [toSet_getLsbD]; have := hl g; simp; omega
      have hfull : FlagSet.full.getLsbD i = false := by
        simp [FlagSet.full, Feature.all, ht]
      unfold namedFeatures at hn
      split at hn <;> simp only [Option.some.injEq, reduceCtorEq] at hn <;> subst hn <;>
        simp [FlagSet.sub, ht, hfull]

/-- A flag set without stray bits is determined by the flags it contains. -/
theorem ext_flags {a b : FlagSet} (ha : ∀ i, 19 ≤ i → a.getLsbD i = false) (hb : ∀ i, 19 ≤ i → b.getLsbD i = false)
    (h : ∀ f : Feature, a.contains f = b.contains f) : a = b := by
  apply BitVec.eq_of_getLsbD_eq
  intro i _
  by_cases hi : 19 ≤ i
  · rw [ha i hi, hb i hi]
  · have : ∃ f : Feature, f.idx = i := by
      have hlt : i < Feature.all.length := by simp [Feature.all]; omega
      refine ⟨Feature.all[i], ?_⟩
      unfold Feature.idx
      have hnd : Feature.all.Nodup := by decide
      exact hnd.idxOf_getElem i hlt
    obtain ⟨f, rfl⟩ := this
    have := h f
    rwa [contains_iff, contains_iff] at this

/-- C22: the resulting flag set depends only on the *set* of names: any two lists with the same
members (in any order, with any repetitions) give the same result (including rejection). -/
theorem order_and_multiplicity_irrelevant (a b : List String) (h : ∀ n, n ∈ a ↔ n ∈ b) : deserialize a = deserialize b := by
  have key : visitLoop 0#32 a = visitLoop 0#32 b := by
    have ha := visitLoop_spec a 0#32
    have hb := visitLoop_spec b 0#32
    cases h1 : visitLoop 0#32 a with
    | none =>
      cases h2 : visitLoop 0#32 b with
      | none => rfl
      | some s =>
        simp only [h1, h2, Option.isSome_none, Option.isSome_some, Bool.false_eq_true, false_iff, true_iff] at ha hb
        exact absurd (fun n hn => hb.1 n ((h n).mp hn)) ha.1
    | some s =>
      cases h2 : visitLoop 0#32 b with
      | none =>
        simp only [h1, h2, Option.isSome_none, Option.isSome_some, Bool.false_eq_true, false_iff, true_iff] at ha hb
        exact absurd (fun n hn => ha.1 n ((h n).mpr hn)) hb.1
      | some t =>
        congr 1
        refine ext_flags (visitLoop_high a 0#32 s (by simp) h1) (visitLoop_high b 0#32 t (by simp) h2) fun f => ?_
        rw [Bool.eq_iff_iff, ha.2 s h1, hb.2 t h2]
        simp only [h]
  unfold deserialize
  rw [key]

/-- C24: every feature is enabled by its own short name and distinct features have distinct short
names; the only names that enable more than their own feature are `supported` (+ `types`) and `all`. -/
theorem short_names_consistent :
    (∀ f : Feature, ∃ s, namedFeatures f.shortName = some s ∧ s.contains f = true ∧
      ∀ g, s.contains g = true → g = f ∨ (f = .supported ∧ g = .types)) ∧
    (∀ f g : Feature, f.shortName = g.shortName → f = g) ∧
    (∀ f : Feature, f.aspectHint = "//features:" ++ f.shortName) := by
  refine ⟨fun f => ?_, fun f g h => ?_, fun f => by cases f <;> decide⟩
  · have hs := (named_isSome f.shortName).mpr (.inr ⟨f, rfl⟩)
    obtain ⟨s, hs⟩ := Option.isSome_iff_exists.mp hs
    refine ⟨s, hs, (named_some _ s hs f).mpr (.inl rfl), fun g hg => ?_⟩
    rcases (named_some _ s hs g).mp hg with h | ⟨h1, h2⟩ | ⟨h1, -⟩
    · left; revert h; cases f <;> cases g <;> decide
    · right; refine ⟨?_, h2⟩; revert h1; cases f <;> decide
    · exfalso; clear hs hg; revert h1; cases f <;> decide
  · revert h; cases f <;> cases g <;> decide

/-- C24: the `supported` bundle. -/
theorem supported_brings_types (names : List String) (s : FlagSet) (h : deserialize names = some s)
    (hs : s.contains .supported = true) : s.contains .types = true := by
  rw [resolved_features names s h] at hs ⊢
  obtain ⟨-, ⟨n, hn, he⟩, -⟩ := hs
  refine ⟨by decide, ⟨n, hn, ?_⟩, by intro h; simp at h⟩
  rcases he with he | ⟨-, he⟩ | ⟨he, -⟩
  · exact .inr (.inl ⟨he, rfl⟩)
  · simp at he
  · exact .inr (.inr ⟨he, by decide⟩)

/-- Non-vacuity. -/
example : (deserialize ["all", "no_assume_lifetimes", "all"]).map (fun s => (s.contains .assumeLifetimes, s.contains .wrapper,
    s.contains .noAssumeLifetimes)) = some (false, true, false) := by decide
example : deserialize ["supported", "nope"] = none := by decide

end Verif.Features

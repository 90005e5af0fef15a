import Verif.Infer.VIndex
import Verif.NullMerge.Props
/- C130: evidence goes from methods to the methods they override and the methods that override them. -/
namespace Verif.Infer
open Verif.NullMerge (Has relevant)

/-- The evidence after propagation. -/
def spread (ix : VIndex) (raw : List Evidence) : List Evidence := raw.flatMap (propagate ix)

theorem about_has (u : String) (slot : Nat) (es : List Evidence) (k : EKind) : Has (about u slot es) k ↔
    ∃ e ∈ es, e.usr = some u ∧ e.slot = some slot ∧ e.crossesFromTestToNontest = false ∧ e.kind = k := by
  simp only [Has, relevant, about, List.mem_filter, decide_eq_true_eq, Bool.not_eq_true']
  constructor
  · rintro ⟨e, ⟨⟨h1, h2, h3⟩, h4⟩, h5⟩; exact ⟨e, h1, h2, h3, h4, h5⟩
  · rintro ⟨e, h1, h2, h3, h4, h5⟩; exact ⟨e, ⟨⟨h1, h2, h3⟩, h4⟩, h5⟩

theorem overrides_ne {ms : List Method} {u b : String} (h : Overrides ms u b) : u ≠ "" ∧ b ≠ "" := by
  constructor
  · rcases Relation.TransGen.head'_iff.1 h with ⟨_, ⟨m, _, hr, rfl, _⟩, _⟩; exact hr.2.2
  · rcases Relation.TransGen.tail'_iff.1 h with ⟨_, _, ⟨m, _, _, _, _, h0⟩⟩; exact h0

variable {ms : List Method} {ix : VIndex}

theorem mem_down (hix : IndexOf ms ix) (usr u : String) :
    u ∈ (match AMap.get? ix.overrides usr with | some s => (⟨s.overriding, []⟩ : Targets) | none => ⟨[], []⟩).notCrossing ↔ Overrides ms u usr := by
  rw [← hix.overrides usr u]
  cases AMap.get? ix.overrides usr <;> simp

/-- The relevant part of what is added. -/
theorem mem_notCrossing (hix : IndexOf ms ix) (usr u : String) (k : EKind) (r : Bool) :
    u ∈ (additionalTargets ix usr k r).notCrossing ↔
      (flowDirection k r ≠ .derivedToBase ∧ Overrides ms u usr) ∨
      (flowDirection k r ≠ .baseToDerived ∧ Overrides ms usr u ∧ (InTest ms usr → InTest ms u)) := by
  have hup : ∀ t : Targets, u ∈ (match AMap.get? ix.bases usr with | some bs => baseTargets usr ix.inTest bs t | none => t).notCrossing ↔
      u ∈ t.notCrossing ∨ (Overrides ms usr u ∧ (InTest ms usr → InTest ms u)) := by
    intro t
    rw [← hix.bases usr u, ← hix.inTest usr, ← hix.inTest u]
    cases AMap.get? ix.bases usr with
    | none => simp
    | some bs =>
      simp only [baseTargets, Option.getD_some]
      by_cases h : usr ∈ ix.inTest
      · simp [h, List.mem_filter]
      · simp [h]
  unfold additionalTargets
  cases hf : flowDirection k r with
  | baseToDerived => simp only [ne_eq, reduceCtorEq, not_false_eq_true, true_and, not_true_eq_false, false_and, or_false]; exact mem_down hix usr u
  | derivedToBase =>
    simp only [ne_eq, reduceCtorEq, not_false_eq_true, true_and, not_true_eq_false, false_and, false_or]
    exact (hup _).trans (by simp)
  | both =>
    simp only [ne_eq, reduceCtorEq, not_false_eq_true, true_and]
    exact (hup _).trans (or_congr (mem_down hix usr u) Iff.rfl)

theorem has_spread (hix : IndexOf ms ix) (raw : List Evidence) (b : String) (i : Nat) (k : EKind) :
    Has (about b i (spread ix raw)) k ↔ ∃ c, Has (about c i raw) k ∧ (c = b ∨
      (flowDirection k (decide (i = 0)) ≠ .derivedToBase ∧ Overrides ms b c) ∨
      (flowDirection k (decide (i = 0)) ≠ .baseToDerived ∧ Overrides ms c b ∧ (InTest ms c → InTest ms b))) := by
  simp only [about_has, spread, List.mem_flatMap]
  constructor
  · rintro ⟨ev, ⟨e, he, hp⟩, hu, hs, hc, hk⟩
    unfold propagate at hp
    rcases List.mem_cons.1 hp with rfl | hp
    · exact ⟨b, ⟨ev, he, hu, hs, hc, hk⟩, Or.inl rfl⟩
    rcases List.mem_append.1 hp with hp | hp
    · obtain ⟨u, hm, rfl⟩ := List.mem_map.1 hp
      simp only [Option.some.injEq] at hu hs hc hk
      subst hu
      rw [hs, Option.getD_some, hk] at hm
      have hm' := (mem_notCrossing hix _ _ _ _).1 hm
      have hne : e.usr.getD "" ≠ "" := by
        rcases hm' with ⟨_, h⟩ | ⟨_, h, _⟩
        · exact (overrides_ne h).2
        · exact (overrides_ne h).1
      cases hue : e.usr with
      | none => simp [hue] at hne
      | some c =>
        rw [hue, Option.getD_some] at hm'
        exact ⟨c, ⟨e, he, hue, hs, hc, hk⟩, Or.inr hm'⟩
    · obtain ⟨u, hm, rfl⟩ := List.mem_map.1 hp
      simp at hc
  · rintro ⟨c, ⟨e, he, hu, hs, hc, hk⟩, rfl | h⟩
    · exact ⟨e, ⟨e, he, by simp [propagate]⟩, hu, hs, hc, hk⟩
    · refine ⟨{ e with usr := some b }, ⟨e, he, ?_⟩, rfl, hs, hc, hk⟩
      unfold propagate
      refine List.mem_cons_of_mem _ (List.mem_append_left _ (List.mem_map.2 ⟨b, ?_, rfl⟩))
      rw [hu, hs, hk, Option.getD_some, Option.getD_some]
      exact (mem_notCrossing hix c b k _).2 h

theorem flow_downward {i : Nat} {k : EKind} (h : Downward i k) : flowDirection k (decide (i = 0)) = .baseToDerived := by
  unfold Downward at h
  split at h
  next hi =>
    simp only [hi, decide_true]
    have : ∀ k ∈ towardsNonnull, flowDirection k true = .baseToDerived := by decide
    exact this k h
  next hi =>
    simp only [hi, decide_false]
    have : ∀ k ∈ towardsNullable, flowDirection k false = .baseToDerived := by decide
    exact this k h

theorem flow_upward {i : Nat} {k : EKind} (h : Upward i k) : flowDirection k (decide (i = 0)) = .derivedToBase := by
  unfold Upward at h
  split at h
  next hi =>
    simp only [hi, decide_true]
    have : ∀ k ∈ towardsNullable, flowDirection k true = .derivedToBase := by decide
    exact this k h
  next hi =>
    simp only [hi, decide_false]
    have : ∀ k ∈ towardsNonnull, flowDirection k false = .derivedToBase := by decide
    exact this k h

theorem flow_invariant {r : Bool} {k : EKind} (h : k ∈ invariantKinds) : flowDirection k r = .both := by
  have : ∀ k ∈ invariantKinds, ∀ r, flowDirection k r = .both := by decide
  exact this k h r

/-- C130: evidence that constrains overrides reaches a method exactly from itself and the methods it overrides. -/
theorem downward_exact (hix : IndexOf ms ix) (raw : List Evidence) (b : String) {i : Nat} {k : EKind} (h : Downward i k) :
    Has (about b i (spread ix raw)) k ↔ ∃ c, Has (about c i raw) k ∧ (c = b ∨ Overrides ms b c) := by
  rw [has_spread hix, flow_downward h]; simp

/-- C130: evidence that constrains what is overridden reaches a method exactly from itself and the methods that override it, except from
tests to methods outside tests. -/
theorem upward_exact (hix : IndexOf ms ix) (raw : List Evidence) (b : String) {i : Nat} {k : EKind} (h : Upward i k) :
    Has (about b i (spread ix raw)) k ↔
      ∃ c, Has (about c i raw) k ∧ (c = b ∨ Overrides ms c b ∧ (InTest ms c → InTest ms b)) := by
  rw [has_spread hix, flow_upward h]; simp

/-- C130: evidence about references goes both ways. -/
theorem invariant_exact (hix : IndexOf ms ix) (raw : List Evidence) (b : String) {i : Nat} {k : EKind} (h : k ∈ invariantKinds) :
    Has (about b i (spread ix raw)) k ↔
      ∃ c, Has (about c i raw) k ∧ (c = b ∨ Overrides ms b c ∨ Overrides ms c b ∧ (InTest ms c → InTest ms b)) := by
  rw [has_spread hix, flow_invariant h]; simp

/-- C130: overrides inherit what constrains them. -/
theorem flows_down (hix : IndexOf ms ix) (raw : List Evidence) {d b : String} (ho : Overrides ms d b) {i : Nat} {k : EKind}
    (h : Downward i k) (hb : Has (about b i (spread ix raw)) k) : Has (about d i (spread ix raw)) k := by
  rw [downward_exact hix raw _ h] at hb ⊢
  obtain ⟨c, hc, rfl | h'⟩ := hb
  · exact ⟨c, hc, Or.inr ho⟩
  · exact ⟨c, hc, Or.inr (ho.trans h')⟩

/-- C130: what is overridden inherits what constrains it, from overrides outside tests. -/
theorem flows_up (hix : IndexOf ms ix) (raw : List Evidence) {d b : String} (ho : Overrides ms d b) {i : Nat} {k : EKind}
    (h : Upward i k) (ht : InTest ms b ∨ ∀ c, c = d ∨ Overrides ms c d → ¬ InTest ms c)
    (hd : Has (about d i (spread ix raw)) k) : Has (about b i (spread ix raw)) k := by
  rw [upward_exact hix raw _ h] at hd ⊢
  obtain ⟨c, hc, h'⟩ := hd
  have hcd : c = d ∨ Overrides ms c d := h'.imp id And.left
  refine ⟨c, hc, Or.inr ⟨?_, fun hct => ht.elim id (fun hn => absurd hct (hn c hcd))⟩⟩
  rcases hcd with rfl | hcd
  · exact ho
  · exact hcd.trans ho

/-- C130: a test's override alone never decides about a method outside tests. -/
theorem tests_do_not_constrain (hix : IndexOf ms ix) (raw : List Evidence) (b : String) {i : Nat} {k : EKind} (h : Upward i k)
    (hb : ¬ InTest ms b) (hraw : ∀ c, Has (about c i raw) k → InTest ms c) (hbraw : ¬ Has (about b i raw) k) :
    ¬ Has (about b i (spread ix raw)) k := by
  rw [upward_exact hix raw _ h]
  rintro ⟨c, hc, rfl | ⟨-, h'⟩⟩
  · exact hbraw hc
  · exact hb (h' (hraw c hc))

end Verif.Infer

import Verif.Lifetimes.Model
/- C46: sets of lifetime substitutions. -/
namespace Verif.Lifetimes
open Chain

/-- A history of calls of `Add(variable, substitution)`; `none` if one of them does not return. -/
def Subst.addAll (s : Subst) : List (Lifetime × Lifetime) → Option Subst
  | [] => some s
  | (v, l) :: h => (s.add v l).bind fun s => s.addAll h

/-- The precondition of `Add` holds throughout. -/
def VarHistory (h : List (Lifetime × Lifetime)) : Prop := ∀ p ∈ h, p.1.isVariable = true

/-- Replacing `l` step by step, `v` comes up. -/
def Subst.Through (s : Subst) (l v : Lifetime) : Prop := Leads (AMap.get? s.map) l v

/-- Every chain ends, and only variables are replaced. -/
structure Subst.Good (s : Subst) : Prop where
  ends : ∀ l, ∃ n r, Ends (AMap.get? s.map) l n r
  vars : ∀ v l, AMap.get? s.map v = some l → v.isVariable = true

theorem Subst.substitute_eq {s : Subst} {l n r} (h : Ends (AMap.get? s.map) l n r) : s.substitute l = some r := by
  unfold Subst.substitute
  refine chase_eq h _ ?_
  have := ends_bound (K := AMap.keys s.map) (fun x hx => ?_) h
  · simpa [AMap.keys] using this
  · rw [AMap.mem_keys_iff]
    cases hg : AMap.get? s.map x with
    | none => exact absurd hg hx
    | some q => simp

theorem Subst.substitute_ends {s : Subst} {l r} (h : s.substitute l = some r) : ∃ n, Ends (AMap.get? s.map) l n r :=
  chase_ends _ _ _ h

theorem Subst.good_empty : Subst.empty.Good :=
  ⟨fun l => ⟨0, l, .stop rfl⟩, fun v l h => by simp [Subst.empty, AMap.get?] at h⟩

/-- The effect of one `Add`. -/
theorem Subst.add_spec {s : Subst} (g : s.Good) (v l : Lifetime) (hv : v.isVariable = true) :
    ∃ s' r, s.add v l = some s' ∧ s'.Good ∧ s.substitute l = some r ∧
      (∀ x, s.Through x v → s'.substitute x = some r) ∧ (∀ x, ¬ s.Through x v → s'.substitute x = s.substitute x) := by
  obtain ⟨n, r, hr⟩ := g.ends l
  have hs := substitute_eq hr
  have hrn : AMap.get? s.map r = none := hr.end_stops
  unfold Subst.add
  rw [hs, Option.map_some]
  by_cases e : v = r
  · rw [if_pos e]
    refine ⟨s, r, rfl, g, rfl, fun x hx => ?_, fun x _ => rfl⟩
    rw [e] at hx
    have : ∃ n, Ends (AMap.get? s.map) x n r := by
      have aux : ∀ {a b}, Leads (AMap.get? s.map) a b → AMap.get? s.map b = none → ∃ n, Ends (AMap.get? s.map) a n b := by
        intro a b hab hb
        induction hab with
        | refl => exact ⟨0, .stop hb⟩
        | next h1 _ ih => obtain ⟨n, hn⟩ := ih hb; exact ⟨n + 1, .next h1 hn⟩
      exact aux hx hrn
    obtain ⟨n, hn⟩ := this
    exact substitute_eq hn
  · rw [if_neg e]
    have hstep : ∀ x, AMap.get? (AMap.insert s.map v r) x = if x = v then some r else AMap.get? s.map x := by
      intro x; rw [AMap.get?_insert]; by_cases h : v = x <;> simp [h, eq_comm]
    refine ⟨_, r, rfl, ⟨fun x => ?_, fun w t hw => ?_⟩, rfl, fun x hx => ?_, fun x hx => ?_⟩
    · obtain ⟨m, t, ht⟩ := g.ends x
      have := ends_redirect hrn e hstep ht
      by_cases hx : Leads (AMap.get? s.map) x v
      · obtain ⟨k, hk⟩ := this.1 hx; exact ⟨k, r, hk⟩
      · exact ⟨m, t, this.2 hx⟩
    · rw [hstep] at hw
      by_cases ew : w = v
      · rw [ew]; exact hv
      · rw [if_neg ew] at hw; exact g.vars w t hw
    · obtain ⟨m, t, ht⟩ := g.ends x
      obtain ⟨k, hk⟩ := (ends_redirect hrn e hstep ht).1 hx
      exact substitute_eq (s := ⟨AMap.insert s.map v r⟩) hk
    · obtain ⟨m, t, ht⟩ := g.ends x
      rw [substitute_eq ht]
      exact substitute_eq (s := ⟨AMap.insert s.map v r⟩) ((ends_redirect hrn e hstep ht).2 hx)

theorem Subst.addAll_good : ∀ (h : List (Lifetime × Lifetime)) (s : Subst), s.Good → VarHistory h →
    ∃ s', s.addAll h = some s' ∧ s'.Good := by
  intro h
  induction h with
  | nil => intro s g _; exact ⟨s, rfl, g⟩
  | cons p h ih =>
    intro s g hv
    obtain ⟨s1, r, h1, g1, -⟩ := add_spec g p.1 p.2 (hv p (by simp))
    obtain ⟨s2, h2, g2⟩ := ih s1 g1 (fun q hq => hv q (by simp [hq]))
    exact ⟨s2, by simp [Subst.addAll, h1, h2], g2⟩

/-- C46: whatever was added before, in whatever order (also a variable several times, by itself or in a circle), neither
`Add` nor `Substitute` loops: every lifetime has a result. The result is final (substituting again does nothing), and
constant lifetimes are returned unchanged. -/
theorem substitute_terminates (h : List (Lifetime × Lifetime)) (hv : VarHistory h) :
    ∃ s, Subst.empty.addAll h = some s ∧
      (∀ l, ∃ r, s.substitute l = some r ∧ s.substitute r = some r) ∧
      (∀ l, l.isConstant = true → s.substitute l = some l) := by
  obtain ⟨s, hs, g⟩ := Subst.addAll_good h _ Subst.good_empty hv
  refine ⟨s, hs, fun l => ?_, fun l hl => ?_⟩
  · obtain ⟨n, r, hr⟩ := g.ends l
    exact ⟨r, Subst.substitute_eq hr, Subst.substitute_eq (.stop hr.end_stops)⟩
  · refine Subst.substitute_eq (.stop ?_)
    cases hg : AMap.get? s.map l with
    | none => rfl
    | some t => have := g.vars l t hg; simp [Lifetime.isConstant, this] at hl

/-- C46: what one more `Add(v, l)` changes after any history. What was replaced through `v` now ends where `l` ended; the
rest is as before. -/
theorem add_redirects (h : List (Lifetime × Lifetime)) (hv : VarHistory h) (s : Subst) (hs : Subst.empty.addAll h = some s)
    (v l : Lifetime) (hvv : v.isVariable = true) :
    ∃ s', s.add v l = some s' ∧ s'.substitute v = s.substitute l ∧
      (∀ x, s.Through x v → s'.substitute x = s.substitute l) ∧ (∀ x, ¬ s.Through x v → s'.substitute x = s.substitute x) := by
  obtain ⟨s0, hs0, g⟩ := Subst.addAll_good h _ Subst.good_empty hv
  rw [hs, Option.some.injEq] at hs0; subst hs0
  obtain ⟨s', r, h1, -, h3, h4, h5⟩ := Subst.add_spec g v l hvv
  exact ⟨s', h1, by rw [h3]; exact h4 v (.refl v), fun x hx => by rw [h3]; exact h4 x hx, h5⟩

/-- C46: for a variable that has not been replaced yet, this is composition of substitutions: first the old ones, then
`v` by the result for `l`. -/
theorem add_composes (h : List (Lifetime × Lifetime)) (hv : VarHistory h) (s : Subst) (hs : Subst.empty.addAll h = some s)
    (v l : Lifetime) (hvv : v.isVariable = true) (hnew : s.substitute v = some v) :
    ∃ s', s.add v l = some s' ∧ ∀ x, s'.substitute x = if s.substitute x = some v then s.substitute l else s.substitute x := by
  obtain ⟨s0, hs0, g⟩ := Subst.addAll_good h _ Subst.good_empty hv
  rw [hs, Option.some.injEq] at hs0; subst hs0
  obtain ⟨s', r, h1, -, h3, h4, h5⟩ := Subst.add_spec g v l hvv
  refine ⟨s', h1, fun x => ?_⟩
  have hvn : AMap.get? s.map v = none := by
    obtain ⟨n, hn⟩ := Subst.substitute_ends hnew
    exact hn.end_stops
  by_cases e : s.substitute x = some v
  · rw [if_pos e, h3]
    apply h4
    obtain ⟨n, hn⟩ := Subst.substitute_ends e
    have aux : ∀ {a n b}, Ends (AMap.get? s.map) a n b → Leads (AMap.get? s.map) a b := by
      intro a n b hab
      induction hab with
      | stop => exact .refl _
      | next h1 _ ih => exact .next h1 ih
    exact aux hn
  · rw [if_neg e]
    apply h5
    intro hx
    apply e
    have aux : ∀ {a b}, Leads (AMap.get? s.map) a b → AMap.get? s.map b = none → ∃ n, Ends (AMap.get? s.map) a n b := by
      intro a b hab hb
      induction hab with
      | refl => exact ⟨0, .stop hb⟩
      | next h1 _ ih => obtain ⟨n, hn⟩ := ih hb; exact ⟨n + 1, .next h1 hn⟩
    obtain ⟨n, hn⟩ := aux hx hvn
    exact Subst.substitute_eq hn

/-- Without the precondition (an `assert`) a constant can be replaced. -/
example : ∃ s, Subst.empty.addAll [(.static, ⟨2⟩)] = some s ∧ s.substitute .static = some ⟨2⟩ := ⟨⟨[(.static, ⟨2⟩)]⟩, rfl, by decide⟩

/-- Non-vacuity: a circle of substitutions, and a variable replaced twice. -/
example : ∃ s, VarHistory [(⟨2⟩, ⟨3⟩), (⟨3⟩, ⟨4⟩), (⟨4⟩, ⟨2⟩), (⟨3⟩, .static)] ∧
    Subst.empty.addAll [(⟨2⟩, ⟨3⟩), (⟨3⟩, ⟨4⟩), (⟨4⟩, ⟨2⟩), (⟨3⟩, .static)] = some s ∧ s.substitute ⟨2⟩ = some .static ∧
    s.substitute ⟨4⟩ = some ⟨4⟩ ∧ s.Through ⟨2⟩ ⟨3⟩ := by
  refine ⟨⟨[(⟨2⟩, ⟨3⟩), (⟨3⟩, .static)]⟩, ?_, rfl, by decide, by decide, .next (q := ⟨3⟩) (by decide) (.refl _)⟩
  intro p hp
  simp only [List.mem_cons, List.not_mem_nil, or_false] at hp
  rcases hp with rfl | rfl | rfl | rfl <;> decide

end Verif.Lifetimes

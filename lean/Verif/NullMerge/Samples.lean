import Verif.NullMerge.Props
/- C38, continued: the sample evidence attached to a conclusion, and grouping by slot. -/
namespace Verif.NullMerge
open Verif

section
variable {U L : Type} [DecidableEq U] [DecidableEq L]

/-- A sample is the evidence without symbol and slot. -/
def strip (e : Evidence U L) : Evidence U L := { e with usr := none, slot := none }

theorem mergeSampleLoop_spec (locs : List (Option L)) (rhs : List (Evidence U L)) : ∀ lhs : List (Evidence U L),
    lhs.length ≤ 3 → (lhs.map (·.location)).Nodup → (rhs.map (·.location)).Nodup →
    (∀ x ∈ locs, x ∈ lhs.map (·.location)) →
    (∀ e ∈ rhs, e.location ∈ lhs.map (·.location) → e.location ∈ locs) →
    let r := mergeSampleLoop locs lhs rhs
    r.length ≤ 3 ∧ (r.map (·.location)).Nodup ∧ (∀ x ∈ r, x ∈ lhs ∨ x ∈ rhs) ∧
    (r.length = 3 ∨ ∀ x, x ∈ lhs.map (·.location) ∨ x ∈ rhs.map (·.location) → x ∈ r.map (·.location)) := by
  induction rhs with
  | nil =>
    intro lhs h1 h2 _ _ _
    refine ⟨h1, h2, fun x hx => Or.inl hx, Or.inr ?_⟩
    intro x hx
    simpa [mergeSampleLoop] using hx
  | cons e rhs ih =>
    intro lhs h1 h2 h3 h4 h5
    simp only [List.map_cons, List.nodup_cons] at h3
    simp only [mergeSampleLoop]
    by_cases hfull : lhs.length ≥ 3
    · simp only [hfull, if_true]
      exact ⟨h1, h2, fun x hx => Or.inl hx, Or.inl (by omega)⟩
    · simp only [hfull, if_false]
      by_cases hc : locs.contains e.location = true
      · simp only [hc, if_true]
        obtain ⟨a, b, c, d⟩ := ih lhs h1 h2 h3.2 h4 (fun e' he' => h5 e' (List.mem_cons_of_mem _ he'))
        refine ⟨a, b, fun x hx => ?_, ?_⟩
        · rcases c x hx with h | h
          · exact Or.inl h
          · exact Or.inr (List.mem_cons_of_mem _ h)
        · rcases d with d | d
          · exact Or.inl d
          · right
            intro x hx
            rcases hx with hx | hx
            · exact d x (Or.inl hx)
            · simp only [List.map_cons, List.mem_cons] at hx
              rcases hx with rfl | hx
              · exact d _ (Or.inl (h4 _ (by simpa using hc)))
              · exact d x (Or.inr hx)
      · simp only [hc, if_false]
        have hc' : e.location ∉ locs := by simpa using hc
        have hnew : e.location ∉ lhs.map (·.location) := fun h => hc' (h5 e List.mem_cons_self h)
        obtain ⟨a, b, c, d⟩ := ih (lhs ++ [e]) (by simp; omega)
          (by rw [List.map_append, List.nodup_append]
              refine ⟨h2, by simp, ?_⟩
              intro x hx y hy
              simp only [List.map_cons, List.map_nil, List.mem_singleton] at hy
              rintro rfl; rw [hy] at hx; exact hnew hx)
          h3.2 (fun x hx => by rw [List.map_append]; exact List.mem_append_left _ (h4 x hx))
          (fun e' he' hl => by
            rw [List.map_append, List.mem_append] at hl
            rcases hl with hl | hl
            · exact h5 e' (List.mem_cons_of_mem _ he') hl
            · simp only [List.map_cons, List.map_nil, List.mem_singleton] at hl
              exact absurd (List.mem_map.mpr ⟨e', he', hl⟩) h3.1)
        refine ⟨a, b, fun x hx => ?_, ?_⟩
        · rcases c x hx with h | h
          · rcases List.mem_append.mp h with h | h
            · exact Or.inl h
            · simp only [List.mem_singleton] at h; subst h; exact Or.inr List.mem_cons_self
          · exact Or.inr (List.mem_cons_of_mem _ h)
        · rcases d with d | d
          · exact Or.inl d
          · right
            intro x hx
            apply d x
            simp only [List.map_append, List.map_cons, List.map_nil, List.mem_append, List.mem_cons, List.not_mem_nil, or_false] at hx ⊢
            tauto

theorem mergeSampleEvidence_spec (lhs rhs : List (Evidence U L)) (h1 : lhs.length ≤ 3)
    (h2 : (lhs.map (·.location)).Nodup) (h3 : (rhs.map (·.location)).Nodup) :
    let r := mergeSampleEvidence lhs rhs
    r.length ≤ 3 ∧ (r.map (·.location)).Nodup ∧ (∀ x ∈ r, x ∈ lhs ∨ x ∈ rhs) ∧
    (r.length = 3 ∨ ∀ x, x ∈ lhs.map (·.location) ∨ x ∈ rhs.map (·.location) → x ∈ r.map (·.location)) :=
  mergeSampleLoop_spec _ rhs lhs h1 h2 h3 (fun _ h => h) (fun _ _ h => h)

/-- The samples recorded for a kind. -/
def samplesOf (m : List (Kind × List (Evidence U L))) (k : Kind) : List (Evidence U L) := (AMap.get? m k).getD []

/-- What is true of the samples of one kind, after the evidence `es`. -/
structure SampleOk (es : List (Evidence U L)) (k : Kind) (s : List (Evidence U L)) : Prop where
  few : s.length ≤ 3
  distinct : (s.map (·.location)).Nodup
  real : ∀ x ∈ s, ∃ e ∈ relevant es, e.location.isSome ∧ e.kind = k ∧ x = strip e
  enough : s.length = 3 ∨ ∀ e ∈ relevant es, e.location.isSome → e.kind = k → e.location ∈ s.map (·.location)

theorem sampleOk_nil (es : List (Evidence U L)) (h : relevant es = []) (k : Kind) : SampleOk es k [] :=
  ⟨by simp, by simp, by simp, Or.inr (by simp [h])⟩

theorem sampleOk_merge {es1 es2 : List (Evidence U L)} {k : Kind} {s1 s2 : List (Evidence U L)}
    (h1 : SampleOk es1 k s1) (h2 : SampleOk es2 k s2) : SampleOk (es1 ++ es2) k (mergeSampleEvidence s1 s2) := by
  obtain ⟨a, b, c, d⟩ := mergeSampleEvidence_spec s1 s2 h1.few h1.distinct h2.distinct
  refine ⟨a, b, ?_, ?_⟩
  · intro x hx
    rw [relevant_append]
    rcases c x hx with h | h
    · obtain ⟨e, he, r⟩ := h1.real x h; exact ⟨e, List.mem_append_left _ he, r⟩
    · obtain ⟨e, he, r⟩ := h2.real x h; exact ⟨e, List.mem_append_right _ he, r⟩
  · by_cases h3 : (mergeSampleEvidence s1 s2).length = 3
    · exact Or.inl h3
    · right
      have d := d.resolve_left h3
      have big : ∀ s : List (Evidence U L), (s.map (·.location)).Nodup →
          (∀ x ∈ s.map (·.location), x ∈ (mergeSampleEvidence s1 s2).map (·.location)) → s.length ≠ 3 := by
        intro s hs hsub he
        have := (List.subperm_of_subset hs (fun x hx => hsub x hx)).length_le
        simp only [List.length_map] at this
        omega
      have e1 := h1.enough.resolve_left (big s1 h1.distinct (fun x hx => d x (Or.inl hx)))
      have e2 := h2.enough.resolve_left (big s2 h2.distinct (fun x hx => d x (Or.inr hx)))
      intro e he hl hk
      rw [relevant_append, List.mem_append] at he
      rcases he with he | he
      · exact d _ (Or.inl (e1 e he hl hk))
      · exact d _ (Or.inr (e2 e he hl hk))

theorem samplesOf_addSamples (m : List (Kind × List (Evidence U L))) (ks : Kind × List (Evidence U L)) (k : Kind) :
    samplesOf (addSamples m ks) k = if k = ks.1 then mergeSampleEvidence (samplesOf m k) ks.2 else samplesOf m k := by
  unfold samplesOf addSamples
  rw [AMap.get?_insert]
  by_cases h : k = ks.1
  · subst h; simp
  · have : ¬ ks.1 = k := fun e => h e.symm
    simp [h, this]

theorem mergeSampleLoop_nil (s : List (Evidence U L)) : mergeSampleEvidence s [] = s := rfl

theorem foldl_addSamples (l : List (Kind × List (Evidence U L))) : ∀ m : List (Kind × List (Evidence U L)),
    (AMap.keys m).Nodup → (AMap.keys l).Nodup →
    (AMap.keys (l.foldl addSamples m)).Nodup ∧
    ∀ k, samplesOf (l.foldl addSamples m) k = mergeSampleEvidence (samplesOf m k) (samplesOf l k) := by
  induction l with
  | nil => intro m hm _; exact ⟨hm, fun k => rfl⟩
  | cons ks l ih =>
    intro m hm hl
    simp only [AMap.keys, List.map_cons, List.nodup_cons] at hl
    obtain ⟨h1, h2⟩ := ih (addSamples m ks) (AMap.nodup_insert _ _ _ hm) hl.2
    refine ⟨h1, fun k => ?_⟩
    rw [List.foldl_cons, h2 k, samplesOf_addSamples]
    obtain ⟨a, b⟩ := ks
    have hc : samplesOf ((a, b) :: l) k = if a = k then b else samplesOf l k := by
      unfold samplesOf; simp only [AMap.get?]; split <;> rfl
    rw [hc]
    by_cases e : k = a
    · subst e
      have : samplesOf l k = [] := by
        unfold samplesOf
        rw [(AMap.get?_eq_none_iff l k).mpr hl.1]; rfl
      simp [this, mergeSampleLoop_nil]
    · have : ¬ a = k := fun h => e h.symm
      simp [e, this]

theorem samplesOf_perm {m m' : List (Kind × List (Evidence U L))} (h : m.Perm m') (hm : (AMap.keys m).Nodup) (k : Kind) :
    samplesOf m k = samplesOf m' k := by
  have hm' : (AMap.keys m').Nodup := (h.map Prod.fst).nodup_iff.mp hm
  unfold samplesOf
  congr 1
  apply Option.ext
  intro v
  rw [← AMap.mem_iff_get? m hm, ← AMap.mem_iff_get? m' hm']
  exact h.mem_iff

end

section
variable {U L : Type} [DecidableEq U] [LinearOrder L]

theorem eval_samples (o : Order U L) (t : Tree U L) :
    (t.eval o = none ∧ relevant t.leaves = []) ∨
    (∃ p, t.eval o = some p ∧ (AMap.keys p.kindSamples).Nodup ∧ ∀ k, SampleOk t.leaves k (samplesOf p.kindSamples k)) := by
  induction t with
  | leaf e =>
    by_cases he : e.crossesFromTestToNontest = true
    · left
      simp [Tree.eval, partialFromEvidence, he, Tree.leaves, relevant]
    · right
      refine ⟨_, by simp only [Tree.eval, partialFromEvidence, he]; rfl, ?_, fun k => ?_⟩
      · dsimp only; split <;> simp [AMap.keys]
      · dsimp only
        have hr : relevant [e] = [e] := by simp [relevant, he]
        by_cases hl : e.location.isSome = true
        · simp only [hl, if_true, samplesOf, AMap.get?]
          by_cases hk : e.kind = k
          · simp only [hk, if_true, Option.getD_some]
            refine ⟨by simp, by simp, ?_, Or.inr ?_⟩
            · intro x hx
              simp only [List.mem_singleton] at hx
              exact ⟨e, by simp [Tree.leaves, hr], hl, hk, by rw [hx]; simp [strip, hk, he]⟩
            · simp [Tree.leaves, hr]
          · simp only [hk, if_false, Option.getD_none]
            refine ⟨by simp, by simp, by simp, Or.inr ?_⟩
            simp [Tree.leaves, hr, hk]
        · simp only [hl, if_false, samplesOf, AMap.get?]
          refine ⟨by simp, by simp, by simp, Or.inr ?_⟩
          simp [Tree.leaves, hr, hl]
  | node l r ihl ihr =>
    simp only [Tree.eval, Tree.leaves]
    have nilr : ∀ {es : List (Evidence U L)} {k s} (es' : List (Evidence U L)), relevant es' = [] → SampleOk es k s → SampleOk (es ++ es') k s := by
      intro es k s es' h hs
      exact sampleOk_merge hs (sampleOk_nil es' h k)
    rcases ihl with ⟨hl, el⟩ | ⟨p, hl, np, sp⟩ <;> rcases ihr with ⟨hr, er⟩ | ⟨q, hr, nq, sq⟩
    · left; simp [hl, hr, combine, relevant_append, el, er]
    · right
      refine ⟨q, by simp [hl, hr, combine], nq, fun k => ?_⟩
      have := sq k
      refine ⟨this.few, this.distinct, ?_, ?_⟩
      · intro x hx; rw [relevant_append, el]; exact this.real x hx
      · rw [relevant_append, el]; exact this.enough
    · right
      exact ⟨p, by simp [hl, hr, combine], np, fun k => nilr _ er (sp k)⟩
    · right
      have hperm := o.samplesPerm q.kindSamples
      have hn : (AMap.keys (o.samples q.kindSamples)).Nodup := (hperm.map Prod.fst).nodup_iff.mpr nq
      obtain ⟨f1, f2⟩ := foldl_addSamples (o.samples q.kindSamples) p.kindSamples np hn
      refine ⟨mergePartials o p q, by simp [hl, hr, combine], f1, fun k => ?_⟩
      show SampleOk _ k (samplesOf (List.foldl addSamples p.kindSamples (o.samples q.kindSamples)) k)
      rw [f2 k, samplesOf_perm hperm hn]
      exact sampleOk_merge (sp k) (sq k)

/-- The samples of a conclusion, as a flat list, of one kind. -/
theorem finalize_samples (o : Order U L) (es : List (Evidence U L)) (p : Partial U L) (g : Good p)
    (hn : (AMap.keys p.kindSamples).Nodup) (hs : ∀ k, SampleOk es k (samplesOf p.kindSamples k)) (soft : Bool) :
    ((finalize o p soft).samples).Perm (p.kindSamples.flatMap (·.2)) ∧
    ∀ k, ((p.kindSamples.flatMap (·.2)).filter (fun e => e.kind = k)) = samplesOf p.kindSamples k := by
  constructor
  · unfold finalize
    have hne : p.kindCount.isEmpty = false := by simpa using g.ne
    simp only [hne, Bool.false_eq_true, if_false]
    exact (List.mergeSort_perm _ _).trans ((o.samplesPerm _).flatMap_right _)
  · intro k
    have hk : ∀ k' s, (k', s) ∈ p.kindSamples → ∀ x ∈ s, x.kind = k' := by
      intro k' s hm x hx
      have : samplesOf p.kindSamples k' = s := by
        unfold samplesOf; rw [(AMap.mem_iff_get? _ hn k' s).mp hm]; rfl
      obtain ⟨e, -, -, ek, rfl⟩ := (hs k').real x (by rw [this]; exact hx)
      exact ek
    clear hs g
    generalize p.kindSamples = m at *
    induction m with
    | nil => rfl
    | cons ks m ih =>
      obtain ⟨a, b⟩ := ks
      simp only [AMap.keys, List.map_cons, List.nodup_cons] at hn
      have hc : samplesOf ((a, b) :: m) k = if a = k then b else samplesOf m k := by
        unfold samplesOf; simp only [AMap.get?]; split <;> rfl
      rw [hc, List.flatMap_cons, List.filter_append, ih hn.2 (fun k' s h => hk k' s (List.mem_cons_of_mem _ h))]
      have hb := hk a b List.mem_cons_self
      by_cases e : a = k
      · subst e
        have : samplesOf m a = [] := by
          unfold samplesOf
          rw [(AMap.get?_eq_none_iff m a).mpr hn.1]; rfl
        rw [this, List.filter_eq_self.mpr (by intro x hx; simp [hb x hx])]; simp
      · rw [List.filter_eq_nil_iff.mpr (by intro x hx; simp [hb x hx, e])]; simp [e]

/-- C38: the samples of a conclusion. However the evidence was ordered, grouped and iterated: every sample is
one of the relevant pieces of evidence, without its symbol and slot; there are at most three of a kind, at
distinct locations; and fewer than three of a kind only if every location of that kind is shown. -/
theorem samples_sound (o : Order U L) (t : Tree U L) (soft : Bool) (k : Kind) :
    SampleOk t.leaves k ((t.conclude o soft).samples.filter (fun e => e.kind = k)) := by
  unfold Tree.conclude
  rcases eval_samples o t with ⟨h, e⟩ | ⟨p, h, n, s⟩
  · rw [h]; exact sampleOk_nil _ e k
  · rw [h]
    rcases eval_spec o t with ⟨h', -⟩ | ⟨p', h', -, g, -⟩
    · rw [h] at h'; simp at h'
    · rw [h] at h'; simp only [Option.some.injEq] at h'; subst h'
      obtain ⟨h1, h2⟩ := finalize_samples o t.leaves p g n s soft
      have hperm := h1.filter (fun e => decide (e.kind = k))
      rw [h2 k] at hperm
      have hs := s k
      refine ⟨by rw [hperm.length_eq]; exact hs.few, (hperm.map _).nodup_iff.mpr hs.distinct,
        fun x hx => hs.real x (hperm.mem_iff.mp hx), ?_⟩
      rcases hs.enough with e | e
      · exact Or.inl (by rw [hperm.length_eq]; exact e)
      · exact Or.inr (fun x hx hl hk => (hperm.map _).mem_iff.mpr (e x hx hl hk))

theorem sampleLe_trans (a b c : Evidence U L) (h1 : sampleLe a b = true) (h2 : sampleLe b c = true) : sampleLe a c = true := by
  unfold sampleLe at *
  simp only [Bool.or_eq_true, decide_eq_true_eq, Bool.and_eq_true, beq_iff_eq] at *
  rcases h1 with h1 | ⟨h1, h1'⟩ <;> rcases h2 with h2 | ⟨h2, h2'⟩
  · exact Or.inl (Nat.lt_trans h1 h2)
  · exact Or.inl (h2 ▸ h1)
  · exact Or.inl (h1 ▸ h2)
  · refine Or.inr ⟨h1.trans h2, ?_⟩
    cases ha : a.location <;> cases hb : b.location <;> cases hc : c.location <;> simp_all
    exact le_trans h1' h2'

theorem sampleLe_total (a b : Evidence U L) : (sampleLe a b || sampleLe b a) = true := by
  unfold sampleLe
  simp only [Bool.or_eq_true, decide_eq_true_eq, Bool.and_eq_true, beq_iff_eq]
  rcases Nat.lt_trichotomy a.kind b.kind with h | h | h
  · exact Or.inl (Or.inl h)
  · cases ha : a.location <;> cases hb : b.location <;> simp_all
    exact le_total _ _
  · exact Or.inr (Or.inl h)

theorem sampleLe_key {a b : Evidence U L} (h1 : sampleLe a b = true) (h2 : sampleLe b a = true) :
    a.kind = b.kind ∧ a.location = b.location := by
  unfold sampleLe at *
  simp only [Bool.or_eq_true, decide_eq_true_eq, Bool.and_eq_true, beq_iff_eq] at *
  have hk : a.kind = b.kind := by
    rcases h1 with h1 | h1
    · rcases h2 with h2 | h2
      · exact absurd h1 (Nat.lt_asymm h2)
      · exact h2.1.symm
    · exact h1.1
  refine ⟨hk, ?_⟩
  cases ha : a.location <;> cases hb : b.location <;> simp_all
  exact le_antisymm h1 h2

/-- Two partials with the same samples per kind give the same list of samples. -/
theorem samples_eq (o1 o2 : Order U L) (es : List (Evidence U L)) (p q : Partial U L) (gp : Good p) (gq : Good q)
    (hnp : (AMap.keys p.kindSamples).Nodup) (hnq : (AMap.keys q.kindSamples).Nodup)
    (hs : ∀ k, SampleOk es k (samplesOf p.kindSamples k))
    (heq : ∀ k, samplesOf p.kindSamples k = samplesOf q.kindSamples k) (soft : Bool) :
    (finalize o1 p soft).samples = (finalize o2 q soft).samples := by
  obtain ⟨p1, f⟩ := finalize_samples o1 es p gp hnp hs soft
  obtain ⟨p2, f'⟩ := finalize_samples o2 es q gq hnq (fun k => heq k ▸ hs k) soft
  have hcount : ∀ (l : List (Evidence U L)) (a : Evidence U L), l.count a = (l.filter (fun e => decide (e.kind = a.kind))).count a := by
    intro l a
    rw [List.count_filter]
    simp
  have hpq : (p.kindSamples.flatMap (·.2)).Perm (q.kindSamples.flatMap (·.2)) := by
    rw [List.perm_iff_count]
    intro a
    rw [hcount, hcount (List.flatMap _ q.kindSamples), f, f', heq]
  have sorted : ∀ (o : Order U L) (p : Partial U L), Good p → (finalize o p soft).samples.Pairwise (fun a b => sampleLe a b = true) := by
    intro o p g
    unfold finalize
    have hne : p.kindCount.isEmpty = false := by simpa using g.ne
    simp only [hne, Bool.false_eq_true, if_false]
    exact List.pairwise_mergeSort (fun a b c => sampleLe_trans a b c) (fun a b => sampleLe_total a b) _
  refine List.Perm.eq_of_pairwise ?_ (sorted o1 p gp) (sorted o2 q gq) (p1.trans (hpq.trans p2.symm))
  intro a b ha hb h1 h2
  obtain ⟨hk, hl⟩ := sampleLe_key h1 h2
  have ha' : a ∈ samplesOf p.kindSamples a.kind := by
    rw [← f]; exact List.mem_filter.mpr ⟨p1.mem_iff.mp ha, by simp⟩
  have hb' : b ∈ samplesOf p.kindSamples a.kind := by
    rw [heq, ← f']; exact List.mem_filter.mpr ⟨p2.mem_iff.mp hb, by simp [hk]⟩
  exact List.inj_on_of_nodup_map (hs a.kind).distinct ha' hb' hl

theorem eval_order (o1 o2 : Order U L) (t : Tree U L) :
    (t.eval o1 = none ∧ t.eval o2 = none) ∨
    (∃ p q, t.eval o1 = some p ∧ t.eval o2 = some q ∧ (AMap.keys p.kindSamples).Nodup ∧ (AMap.keys q.kindSamples).Nodup ∧
      ∀ k, samplesOf p.kindSamples k = samplesOf q.kindSamples k) := by
  induction t with
  | leaf e =>
    cases h : partialFromEvidence e with
    | none => exact Or.inl ⟨h, h⟩
    | some p =>
      refine Or.inr ⟨p, p, h, h, ?_, ?_, fun _ => rfl⟩ <;>
      · rcases eval_samples o1 (.leaf e) with ⟨h', -⟩ | ⟨p', h', hn, -⟩
        · rw [show Tree.eval o1 (.leaf e) = some p from h] at h'; simp at h'
        · rw [show Tree.eval o1 (.leaf e) = some p from h] at h'
          simp only [Option.some.injEq] at h'; subst h'; exact hn
  | node l r ihl ihr =>
    simp only [Tree.eval]
    rcases ihl with ⟨h1, h2⟩ | ⟨p, q, h1, h2, n1, n2, hs⟩ <;> rcases ihr with ⟨h3, h4⟩ | ⟨p', q', h3, h4, n3, n4, hs'⟩
    · left; simp [h1, h2, h3, h4, combine]
    · right; exact ⟨p', q', by simp [h1, h3, combine], by simp [h2, h4, combine], n3, n4, hs'⟩
    · right; exact ⟨p, q, by simp [h1, h3, combine], by simp [h2, h4, combine], n1, n2, hs⟩
    · right
      have m : ∀ (o : Order U L) (p p' : Partial U L), (AMap.keys p.kindSamples).Nodup → (AMap.keys p'.kindSamples).Nodup →
          (AMap.keys (mergePartials o p p').kindSamples).Nodup ∧
          ∀ k, samplesOf (mergePartials o p p').kindSamples k =
            mergeSampleEvidence (samplesOf p.kindSamples k) (samplesOf p'.kindSamples k) := by
        intro o p p' hp hp'
        have hperm := o.samplesPerm p'.kindSamples
        have hn : (AMap.keys (o.samples p'.kindSamples)).Nodup := (hperm.map Prod.fst).nodup_iff.mpr hp'
        obtain ⟨f1, f2⟩ := foldl_addSamples (o.samples p'.kindSamples) p.kindSamples hp hn
        exact ⟨f1, fun k => by rw [← samplesOf_perm hperm hn]; exact f2 k⟩
      refine ⟨_, _, by simp only [h1, h3, combine], by simp only [h2, h4, combine], (m o1 p p' n1 n3).1, (m o2 q q' n2 n4).1, fun k => ?_⟩
      rw [(m o1 p p' n1 n3).2, (m o2 q q' n2 n4).2, hs, hs']

/-- C38: the iteration order of the maps never shows: with the same merging history, two runs give the same
inference, samples and their order included. -/
theorem conclude_deterministic (o1 o2 : Order U L) (t : Tree U L) (soft : Bool) :
    t.conclude o1 soft = t.conclude o2 soft := by
  have hv := conclusion_order_independent o1 o2 t t soft (List.Perm.refl _)
  have hsamp : (t.conclude o1 soft).samples = (t.conclude o2 soft).samples := by
    unfold Tree.conclude
    rcases eval_order o1 o2 t with ⟨h1, h2⟩ | ⟨p, q, h1, h2, n1, n2, hs⟩
    · rw [h1, h2]
    · rw [h1, h2]
      have gs : ∀ (o : Order U L) (p : Partial U L), t.eval o = some p → Good p ∧ ∀ k, SampleOk t.leaves k (samplesOf p.kindSamples k) := by
        intro o p h
        rcases eval_spec o t with ⟨h', -⟩ | ⟨p', h', -, g, -⟩
        · rw [h] at h'; simp at h'
        · rcases eval_samples o t with ⟨h'', -⟩ | ⟨p'', h'', -, s⟩
          · rw [h] at h''; simp at h''
          · rw [h] at h' h''
            simp only [Option.some.injEq] at h' h''
            subst h'; subst h''
            exact ⟨g, s⟩
      exact samples_eq o1 o2 t.leaves p q (gs o1 p h1).1 (gs o2 q h2).1 n1 n2 (gs o1 p h1).2 hs soft
  simp only [Inference.verdict, Prod.mk.injEq] at hv
  generalize Tree.conclude o1 t soft = a at *
  generalize Tree.conclude o2 t soft = b at *
  obtain ⟨a1, a2, a3, a4⟩ := a
  obtain ⟨b1, b2, b3, b4⟩ := b
  simp_all

theorem mergeEvidence_conclude (o : Order U L) (e : Evidence U L) (es : List (Evidence U L)) :
    mergeEvidence o (e :: es) = (spine (.leaf e) es).conclude o true := by
  unfold mergeEvidence Tree.conclude
  rw [mergeLoop_none]

/-- C38: the same evidence in the same order always gives the same inference. -/
theorem merge_evidence_deterministic (o1 o2 : Order U L) (es : List (Evidence U L)) : mergeEvidence o1 es = mergeEvidence o2 es := by
  cases es with
  | nil => rfl
  | cons e es => rw [mergeEvidence_conclude, mergeEvidence_conclude, conclude_deterministic o1 o2]

/-! Grouping by slot. -/

def key (e : Evidence U L) : Option U × Option Nat := (e.usr, e.slot)

theorem mem_takeWhile_true {α : Type} (P : α → Bool) (l : List α) (x : α) (h : x ∈ l.takeWhile P) : P x = true := by
  have := List.all_takeWhile (p := P) (l := l)
  exact (List.all_eq_true.mp this) x h

/-- If equal keys are contiguous, the map of `groupAndMerge` holds, for each slot, the inference of that slot's
evidence. -/
theorem groupAndMerge_get (o : Order U L) (r : (Option U × Option Nat) → (Option U × Option Nat) → Prop)
    (anti : ∀ a b, r a b → r b a → a = b) :
    ∀ (n : Nat) (sorted : List (Evidence U L)) (m : List ((Option U × Option Nat) × Inference U L)), sorted.length ≤ n →
      sorted.Pairwise (fun a b => r (key a) (key b)) → ∀ k,
      AMap.get? ((batches n sorted).foldl (fun m b =>
        match b with
        | [] => m
        | e :: _ => AMap.insert m (e.usr, e.slot) (mergeEvidence o b)) m) k =
      if sorted.filter (fun e => key e = k) = [] then AMap.get? m k
      else some (mergeEvidence o (sorted.filter (fun e => key e = k))) := by
  intro n
  induction n with
  | zero =>
    intro sorted m hn _ k
    have : sorted = [] := List.length_eq_zero_iff.mp (by omega)
    subst this; simp [batches]
  | succ n ih =>
    intro sorted m hn hp k
    cases sorted with
    | nil => simp [batches]
    | cons e es =>
      obtain ⟨P, hP⟩ : ∃ P : Evidence U L → Bool, P = fun x => x.usr == e.usr && x.slot == e.slot := ⟨_, rfl⟩
      have hPk : ∀ x, P x = true ↔ key x = key e := by intro x; rw [hP]; simp [key, Prod.ext_iff]
      have hb : batches (n + 1) (e :: es) = ((e :: es).takeWhile P) :: batches n ((e :: es).dropWhile P) := by
        rw [hP]; rfl
      have hPe : P e = true := (hPk e).mpr rfl
      have ht : (e :: es).takeWhile P = e :: es.takeWhile P := by rw [List.takeWhile_cons, hPe]; rfl
      have hd : (e :: es).dropWhile P = es.dropWhile P := by rw [List.dropWhile_cons, hPe]; rfl
      rw [hb, List.foldl_cons, ht, hd]
      have hsub : (es.dropWhile P).Sublist (e :: es) := (List.dropWhile_sublist P).trans (List.sublist_cons_self _ _)
      have hlen : (es.dropWhile P).length ≤ n := by
        have := (List.dropWhile_sublist (l := es) P).length_le
        simp only [List.length_cons] at hn
        omega
      rw [ih (es.dropWhile P) _ hlen (hp.sublist hsub) k]
      -- nothing after the batch has the batch's key
      have hrest : ∀ x ∈ es.dropWhile P, key x ≠ key e := by
        intro x hx hxe
        cases hdw : es.dropWhile P with
        | nil => rw [hdw] at hx; simp at hx
        | cons y ys =>
          have hy : P y = false := by
            have := List.head?_dropWhile_not P es
            rw [hdw] at this
            simpa using this
          have hyk : key y ≠ key e := fun h => by rw [(hPk y).mpr h] at hy; simp at hy
          have hpe : ∀ z ∈ es, r (key e) (key z) := fun z hz => (List.pairwise_cons.mp hp).1 z hz
          have hpd : (y :: ys).Pairwise (fun a b => r (key a) (key b)) := by rw [← hdw]; exact hp.sublist hsub
          have hyes : y ∈ es := (List.dropWhile_sublist P).subset (by rw [hdw]; exact List.mem_cons_self)
          rw [hdw] at hx
          rcases List.mem_cons.mp hx with rfl | hx
          · exact hyk hxe
          · have h1 := (List.pairwise_cons.mp hpd).1 x hx
            rw [hxe] at h1
            exact hyk (anti _ _ h1 (hpe y hyes))
      have hsplit : (e :: es).filter (fun x => key x = k) = (e :: es.takeWhile P).filter (fun x => key x = k) ++ (es.dropWhile P).filter (fun x => key x = k) := by
        rw [← List.filter_append, List.cons_append, List.takeWhile_append_dropWhile]
      have htk : ∀ x ∈ e :: es.takeWhile P, key x = key e := by
        intro x hx
        rcases List.mem_cons.mp hx with rfl | hx
        · rfl
        · exact (hPk x).mp (mem_takeWhile_true P es x hx)
      rw [hsplit]
      by_cases hk : key e = k
      · have h0 : (es.dropWhile P).filter (fun x => key x = k) = [] :=
          List.filter_eq_nil_iff.mpr (fun x hx => by simpa [hk] using hrest x hx)
        have h1 : (e :: es.takeWhile P).filter (fun x => key x = k) = e :: es.takeWhile P :=
          List.filter_eq_self.mpr (fun x hx => by simp [htk x hx, hk])
        rw [h0, h1, if_pos rfl, List.append_nil, if_neg (by simp), AMap.get?_insert]
        simp [show (e.usr, e.slot) = k from hk]
      · have h1 : (e :: es.takeWhile P).filter (fun x => key x = k) = [] :=
          List.filter_eq_nil_iff.mpr (fun x hx => by simpa [htk x hx] using hk)
        rw [h1, List.nil_append, AMap.get?_insert]
        have hk' : ¬ (e.usr, e.slot) = k := hk
        have hk'' : ¬ k = (e.usr, e.slot) := fun h => hk h.symm
        simp [hk', hk'']

/-- C38: grouping. After sorting by (symbol, slot), in whatever way equal elements are ordered, each slot gets
the verdict of exactly its own evidence, and slots without evidence get nothing. -/
theorem grouping_by_slot (o : Order U L) (r : (Option U × Option Nat) → (Option U × Option Nat) → Prop)
    (anti : ∀ a b, r a b → r b a → a = b) (es sorted : List (Evidence U L)) (hperm : sorted.Perm es)
    (hsorted : sorted.Pairwise (fun a b => r (a.usr, a.slot) (b.usr, b.slot))) (u : Option U) (s : Option Nat) :
    let mine := es.filter (fun e => decide ((e.usr, e.slot) = (u, s)))
    (mine = [] → AMap.get? (groupAndMerge o sorted) (u, s) = none) ∧
    (mine ≠ [] → ∃ i, AMap.get? (groupAndMerge o sorted) (u, s) = some i ∧ i.verdict = (mergeEvidence o mine).verdict) := by
  intro mine
  have h := groupAndMerge_get o r anti sorted.length sorted [] (Nat.le_refl _) hsorted (u, s)
  have hp : (sorted.filter (fun e => decide (key e = (u, s)))).Perm mine := hperm.filter _
  constructor
  · intro h0
    rw [h0] at hp
    rw [hp.eq_nil, if_pos rfl] at h
    exact h
  · intro h0
    have : sorted.filter (fun e => decide (key e = (u, s))) ≠ [] := by
      intro h1; rw [h1] at hp; exact h0 hp.symm.eq_nil
    rw [if_neg this] at h
    exact ⟨_, h, merge_evidence_perm o o _ _ hp⟩

/-- Disagreement: which samples are kept does depend on the order of the evidence, so merging is not commutative
on the whole message (merge.h line 26 calls it commutative). -/
theorem samples_depend_on_order : ∃ (o : Order Nat Nat) (es es' : List (Evidence Nat Nat)), es.Perm es' ∧
    (mergeEvidence o es).samples ≠ (mergeEvidence o es').samples := by
  refine ⟨⟨id, id, fun _ => .refl _, fun _ => .refl _⟩,
    [⟨none, none, 3, some 1, false⟩, ⟨none, none, 3, some 2, false⟩, ⟨none, none, 3, some 3, false⟩, ⟨none, none, 3, some 4, false⟩],
    [⟨none, none, 3, some 4, false⟩, ⟨none, none, 3, some 1, false⟩, ⟨none, none, 3, some 2, false⟩, ⟨none, none, 3, some 3, false⟩], ?_, ?_⟩
  · decide
  · intro h
    have hin : (⟨none, none, 3, some 4, false⟩ : Evidence Nat Nat) ∈ List.mergeSort
        [(⟨none, none, 3, some 4, false⟩ : Evidence Nat Nat), ⟨none, none, 3, some 1, false⟩, ⟨none, none, 3, some 2, false⟩] sampleLe :=
      (List.mergeSort_perm _ _).mem_iff.mpr (by decide)
    have hout : (⟨none, none, 3, some 4, false⟩ : Evidence Nat Nat) ∉ List.mergeSort
        [(⟨none, none, 3, some 1, false⟩ : Evidence Nat Nat), ⟨none, none, 3, some 2, false⟩, ⟨none, none, 3, some 3, false⟩] sampleLe :=
      fun hm => absurd ((List.mergeSort_perm _ _).mem_iff.mp hm) (by decide)
    apply hout
    have h' : List.mergeSort
        [(⟨none, none, 3, some 1, false⟩ : Evidence Nat Nat), ⟨none, none, 3, some 2, false⟩, ⟨none, none, 3, some 3, false⟩] sampleLe =
      List.mergeSort
        [(⟨none, none, 3, some 4, false⟩ : Evidence Nat Nat), ⟨none, none, 3, some 1, false⟩, ⟨none, none, 3, some 2, false⟩] sampleLe := h
    rw [h']; exact hin

/-! The hypotheses are met: evidence for two slots, unsorted, with a test-boundary piece. -/
section example_
def exO : Order Nat Nat := ⟨id, id, fun _ => .refl _, fun _ => .refl _⟩
def exO' : Order Nat Nat := ⟨List.reverse, List.reverse, fun l => l.reverse_perm, fun l => l.reverse_perm⟩
def ex1 : Evidence Nat Nat := ⟨some 1, some 0, UNCHECKED_DEREFERENCE, some 10, false⟩
def ex2 : Evidence Nat Nat := ⟨some 1, some 1, NULLABLE_ARGUMENT, some 20, false⟩
def ex3 : Evidence Nat Nat := ⟨some 1, some 0, NULLABLE_ARGUMENT, some 30, false⟩
def ex4 : Evidence Nat Nat := ⟨some 1, some 1, UNCHECKED_DEREFERENCE, some 40, true⟩

example : ((Tree.node (.leaf ex1) (.node (.leaf ex3) (.leaf ex4))).conclude exO true).verdict = (some .NONNULL, true, false) := by decide
example : ((Tree.node (.node (.leaf ex3) (.leaf ex4)) (.leaf ex1)).conclude exO' true).verdict = (some .NONNULL, true, false) := by decide
example : (mergeEvidence exO [ex2, ex4]).verdict = (some .NULLABLE, false, false) := by decide
example : ((AMap.get? (groupAndMerge exO [ex1, ex3, ex2, ex4]) (some 1, some 1)).map (·.verdict)) = some (some .NULLABLE, false, false) := by decide
example : Has [ex1, ex3] UNCHECKED_DEREFERENCE ∧ MustBeNonnull [ex1, ex3] ∧ MustBeNullable [ex1, ex3] ∧ ¬ Has [ex1, ex3] ANNOTATED_NONNULL := by
  unfold MustBeNonnull MustBeNullable Has; decide
end example_
end
end Verif.NullMerge

import Verif.NullFlow.Join
/- C41: the join of two environments, main theorems. -/
namespace Verif.NullFlow
local notation "Atom" => Nat

/-- Both properties mention no tokens. -/
def PlainS (c : Ctx) (st : NullState) : Prop := PlainO c st.fromNullable ∧ PlainO c st.isNull

/-- The context after joining flow conditions. -/
theorem joinFC_facts {c : Ctx} (w : WF c) {T1 T2 : Atom} (h1 : T1 ∈ c.tokens) (h2 : T2 ∈ c.tokens) :
    let T := (joinFC c T1 T2).1
    let c' := (joinFC c T1 T2).2
    T = c.next ∧ WF c' ∧ c'.fc T = some (.or (.atom T1) (.atom T2)) ∧ T1 ∈ c'.deps T ∧ T2 ∈ c'.deps T ∧
    c'.tokens = c.tokens ++ [T] ∧ c'.next = c.next + 1 ∧ c'.inv = c.inv ∧
    (∀ t, t ≠ T → c'.fc t = c.fc t ∧ c'.deps t = c.deps t) := by
  have hfn : c.fc c.next = none := by
    cases h : c.fc c.next with
    | none => rfl
    | some C => exact absurd (w.tok_lt _ (w.fc_tok _ C h)) (Nat.lt_irrefl _)
  have hfc : ∀ t, (joinFC c T1 T2).2.fc t = if t = c.next then some (.or (.atom T1) (.atom T2)) else c.fc t := by
    intro t; simp [joinFC, makeAtom, assume, hfn]
  have hdep : ∀ t, (joinFC c T1 T2).2.deps t = if t = c.next then [T1, T2] else c.deps t := fun t => rfl
  have htok : (joinFC c T1 T2).2.tokens = c.tokens ++ [c.next] := rfl
  have hnext : (joinFC c T1 T2).2.next = c.next + 1 := rfl
  have hl1 := w.tok_lt _ h1
  have hl2 := w.tok_lt _ h2
  have hnt : ∀ {a}, a < c.next → a ∈ c.tokens ++ [c.next] → a ∈ c.tokens := by
    intro a ha h
    rcases List.mem_append.mp h with h | h
    · exact h
    · simp only [List.mem_singleton] at h; omega
  refine ⟨rfl, ⟨?_, ?_, ?_, ?_, ?_⟩, by rw [hfc]; simp [joinFC, makeAtom], by rw [hdep]; simp [joinFC, makeAtom], by rw [hdep]; simp [joinFC, makeAtom], rfl, rfl, rfl, fun t ht => ?_⟩
  · intro t ht
    rw [htok] at ht; rw [hnext]
    rcases List.mem_append.mp ht with h | h
    · have := w.tok_lt _ h; omega
    · simp only [List.mem_singleton] at h; omega
  · intro t C hC
    rw [hfc] at hC; rw [htok]
    split at hC
    · rename_i e; simp [e]
    · exact List.mem_append_left _ (w.fc_tok t C hC)
  · intro t d hd
    rw [hdep] at hd; rw [htok]
    split at hd
    · rename_i e
      simp only [List.mem_cons, List.not_mem_nil, or_false] at hd
      subst e
      rcases hd with rfl | rfl
      · exact ⟨by simp [h1], by simp, hl1⟩
      · exact ⟨by simp [h2], by simp, hl2⟩
    · obtain ⟨a, b, d'⟩ := w.dep_tok t d hd
      exact ⟨by simp [a], by simp [b], d'⟩
  · intro t C hC a ha
    rw [hfc] at hC; rw [htok, hnext, hdep]
    split at hC
    · rename_i e
      simp only [Option.some.injEq] at hC; subst hC; subst e
      simp only [Formula.atoms, List.mem_append, List.mem_cons, List.not_mem_nil, or_false] at ha
      rcases ha with rfl | rfl
      · exact ⟨by omega, fun _ => by simp⟩
      · exact ⟨by omega, fun _ => by simp⟩
    · rename_i e
      obtain ⟨k1, k2⟩ := w.fc_atoms t C hC a ha
      refine ⟨by omega, fun h => ?_⟩
      rw [if_neg e]; exact k2 (hnt k1 h)
  · intro g hg a ha
    obtain ⟨k1, k2⟩ := w.inv_plain g hg a ha
    exact ⟨by rw [hnext]; omega, fun h => k2 (hnt k1 (by rw [htok] at h; exact h))⟩
  · have : t ≠ c.next := ht
    exact ⟨by rw [hfc, if_neg this], by rw [hdep, if_neg this]⟩

/-- Old points keep their runs in any context that only adds to fresh tokens. -/
theorem run_old {c c' : Ctx} (w : WF c) (hinv : c'.inv = c.inv) (hold : ∀ t ∈ c.tokens, c'.fc t = c.fc t ∧ c'.deps t = c.deps t)
    {T : Atom} (hT : T ∈ c.tokens) (ρ : Atom → Bool) : Run c' T ρ ↔ Run c T ρ := by
  have hr : ∀ t, Reach c' T t ↔ Reach c T t := by
    intro t
    constructor
    · intro h
      induction h with
      | refl => exact .refl _
      | step _ hd ih =>
        exact .step ih (by rw [(hold _ (reach_tokens w hT ih)).2] at hd; exact hd)
    · intro h
      induction h with
      | refl => exact .refl _
      | step hh hd ih => exact .step ih (by rw [(hold _ (reach_tokens w hT hh)).2]; exact hd)
  constructor
  · intro r
    refine ⟨by rw [← hinv]; exact r.inv, fun t h hf => r.free t ((hr t).mpr h) ?_, fun t C h hf => r.defined t C ((hr t).mpr h) ?_, r.here⟩
    · rw [(hold _ (reach_tokens w hT h)).1]; exact hf
    · rw [(hold _ (reach_tokens w hT h)).1]; exact hf
  · intro r
    refine ⟨by rw [hinv]; exact r.inv, fun t h hf => r.free t ((hr t).mp h) ?_, fun t C h hf => r.defined t C ((hr t).mp h) ?_, r.here⟩
    · rw [← (hold _ (reach_tokens w hT ((hr t).mp h))).1]; exact hf
    · rw [← (hold _ (reach_tokens w hT ((hr t).mp h))).1]; exact hf

/-- Everything about `joinEnv`, from which the property theorems follow. -/
theorem joinEnv_spec (s : Solver) {c : Ctx} (w : WF c) {T1 T2 : Atom} (h1 : T1 ∈ c.tokens) (h2 : T2 ∈ c.tokens)
    {st1 st2 : NullState} (p1 : PlainS c st1) (p2 : PlainS c st2) :
    ∃ T st c', joinEnv s c T1 T2 (some st1) (some st2) = (T, some st, c') ∧ WF c' ∧ T ∈ c'.tokens ∧ PlainS c' st ∧
    (st.fromNullable = none ↔ st1.fromNullable = none ∨ st2.fromNullable = none) ∧
    (st.isNull = none ↔ st1.isNull = none ∨ st2.isNull = none) ∧
    (∀ ρ, Run c T1 ρ → ∃ ρ', Run c' T ρ' ∧ (∀ a, a < c.next → a ∉ c.tokens → ρ' a = ρ a) ∧
      Agree st.fromNullable st1.fromNullable ρ' ∧ Agree st.isNull st1.isNull ρ') ∧
    (∀ ρ, Run c T2 ρ → ∃ ρ', Run c' T ρ' ∧ (∀ a, a < c.next → a ∉ c.tokens → ρ' a = ρ a) ∧
      Agree st.fromNullable st2.fromNullable ρ' ∧ Agree st.isNull st2.isNull ρ') ∧
    (∀ ρ, Run c' T ρ →
      ((Run c T1 ρ ∧ Agree st.fromNullable st1.fromNullable ρ) ∨ (Run c T2 ρ ∧ Agree st.fromNullable st2.fromNullable ρ)) ∧
      ((Run c T1 ρ ∧ Agree st.isNull st1.isNull ρ) ∨ (Run c T2 ρ ∧ Agree st.isNull st2.isNull ρ)) ∧
      (¬ (ρ T1 = true ∧ ρ T2 = true) →
        (Run c T1 ρ ∧ Agree st.fromNullable st1.fromNullable ρ ∧ Agree st.isNull st1.isNull ρ) ∨
        (Run c T2 ρ ∧ Agree st.fromNullable st2.fromNullable ρ ∧ Agree st.isNull st2.isNull ρ))) := by
  obtain ⟨e0, w0, hC0, d1, d2, htok, hnext, hinv, hold⟩ := joinFC_facts w h1 h2
  obtain ⟨T, c0, hj⟩ : ∃ T c0, joinFC c T1 T2 = (T, c0) := ⟨_, _, rfl⟩
  rw [hj] at e0 w0 hC0 d1 d2 htok hnext hinv hold
  simp only at e0 w0 hC0 d1 d2 htok hnext hinv hold
  subst e0
  have hT0 : c.next ∈ c0.tokens := by rw [htok]; simp
  have hntok : ∀ a, a < c.next → a ∈ c0.tokens → a ∈ c.tokens := by
    intro a ha h
    rw [htok] at h
    rcases List.mem_append.mp h with h | h
    · exact h
    · simp only [List.mem_singleton] at h; omega
  have pm : ∀ {b}, PlainO c b → PlainO c0 b := fun hb f hf => (hb f hf).mono (by omega) hntok
  obtain ⟨s1, q1, n1, a1, b1, c1⟩ := merge_step s w0 hC0 d1 d2 st1.fromNullable st2.fromNullable (pm p1.1) (pm p2.1)
  obtain ⟨m1, c₁, hm1⟩ : ∃ m1 c₁, mergeFormulas s c0 T1 T2 c.next st1.fromNullable st2.fromNullable = (m1, c₁) := ⟨_, _, rfl⟩
  rw [hm1] at s1 q1 n1 a1 b1 c1
  simp only at s1 q1 n1 a1 b1 c1
  obtain ⟨C1, hC1, hC1imp⟩ := s1.self _ hC0
  have pm1 : ∀ {b}, PlainO c0 b → PlainO c₁ b := fun hb f hf => (hb f hf).mono s1.next (fun a _ h => by rw [s1.tokens] at h; exact h)
  obtain ⟨s2, q2, n2, a2, b2, c2⟩ := merge_step s s1.wf hC1 (by rw [s1.deps]; exact d1) (by rw [s1.deps]; exact d2)
    st1.isNull st2.isNull (pm1 (pm p1.2)) (pm1 (pm p2.2))
  obtain ⟨m2, c₂, hm2⟩ : ∃ m2 c₂, mergeFormulas s c₁ T1 T2 c.next st1.isNull st2.isNull = (m2, c₂) := ⟨_, _, rfl⟩
  rw [hm2] at s2 q2 n2 a2 b2 c2
  simp only at s2 q2 n2 a2 b2 c2
  have hT2 : c.next ∈ c₂.tokens := by rw [s2.tokens, s1.tokens]; exact hT0
  have hrun : joinEnv s c T1 T2 (some st1) (some st2) = (c.next, some ⟨m1, m2⟩, c₂) := by
    simp only [joinEnv, hj, joinState, hm1, hm2]
  have hne : ∀ t ∈ c.tokens, t ≠ c.next := fun t ht => by have := w.tok_lt t ht; omega
  have hrold : ∀ ρ {t}, t ∈ c.tokens → (Run c₂ t ρ ↔ Run c t ρ) := by
    intro ρ t ht
    refine run_old w (by rw [s2.inv, s1.inv, hinv]) (fun x hx => ?_) ht ρ
    rw [s2.other x (hne x hx), s1.other x (hne x hx), s2.deps, s1.deps]
    exact hold x (hne x hx)
  have keep1 : PlainO c₂ m1 := fun f hf => (q1 f hf).mono s2.next (fun a _ h => by rw [s2.tokens] at h; exact h)
  -- sending a run of either path to the join
  have send : ∀ (i : Atom) (x y : Option Formula), i ∈ c.tokens → (∀ ρ : Atom → Bool, ρ i = true → (ρ T1 || ρ T2) = true) →
      PlainO c x →
      (∀ ρ, Global c0 ρ → ρ c.next = true → ρ i = true → ∃ ρ', Global c₁ ρ' ∧ (∀ a, a < c0.next → ρ' a = ρ a) ∧ Agree m1 x ρ') →
      (∀ ρ, Global c₁ ρ → ρ c.next = true → ρ i = true → ∃ ρ', Global c₂ ρ' ∧ (∀ a, a < c₁.next → ρ' a = ρ a) ∧ Agree m2 y ρ') →
      ∀ ρ, Run c i ρ → ∃ ρ', Run c₂ c.next ρ' ∧ (∀ a, a < c.next → a ∉ c.tokens → ρ' a = ρ a) ∧ Agree m1 x ρ' ∧ Agree m2 y ρ' := by
    intro i x y hi hor px f1 f2 ρ r
    obtain ⟨ρg, g, ga, gr⟩ := extend w r
    have gi : ρg i = true := by rw [gr i (.refl _)]; exact r.here
    have old : ∀ a, a < c.next → upd ρg c.next true a = ρg a := fun a ha => by
      have : a ≠ c.next := by omega
      simp [upd, this]
    have g0 : Global c0 (upd ρg c.next true) := by
      refine ⟨?_, ?_, ?_⟩
      · intro h hh
        rw [hinv] at hh
        exact (eval_congr (fun a ha => old a (w.inv_plain h hh a ha).1)).trans (g.inv h hh)
      · intro t ht hf
        by_cases e : t = c.next
        · rw [e, hC0] at hf; simp at hf
        · have ht' : t ∈ c.tokens := by
            rw [htok] at ht
            rcases List.mem_append.mp ht with h | h
            · exact h
            · simp only [List.mem_singleton] at h; exact absurd h e
          rw [old t (w.tok_lt t ht')]
          exact g.free t ht' (by rw [← (hold t e).1]; exact hf)
      · intro t C hf
        by_cases e : t = c.next
        · subst e
          rw [hC0] at hf; simp only [Option.some.injEq] at hf; subst hf
          simp only [Formula.eval]
          rw [old T1 (w.tok_lt _ h1), old T2 (w.tok_lt _ h2), hor ρg gi]
          simp [upd]
        · rw [(hold t e).1] at hf
          have ht := w.fc_tok t C hf
          rw [old t (w.tok_lt t ht), g.defined t C hf]
          exact eval_congr (fun a ha => (old a (w.fc_atoms t C hf a ha).1).symm)
    have hu : upd ρg c.next true c.next = true := by simp [upd]
    have hui : upd ρg c.next true i = true := by rw [old i (w.tok_lt _ hi)]; exact gi
    obtain ⟨ρ1, g1, o1, ag1⟩ := f1 _ g0 hu hui
    have hlt0 : ∀ a, a ≤ c.next → a < c0.next := by intro a ha; omega
    have il : i < c.next := w.tok_lt _ hi
    obtain ⟨ρ2, g2, o2, ag2⟩ := f2 ρ1 g1 (by rw [o1 _ (hlt0 _ (Nat.le_refl _))]; exact hu) (by rw [o1 _ (hlt0 _ (by omega))]; exact hui)
    have hle : c0.next ≤ c₁.next := s1.next
    refine ⟨ρ2, g2.run s2.wf hT2 ?_, ?_, ?_, ag2⟩
    · rw [o2 _ (by have := hlt0 c.next (Nat.le_refl _); omega), o1 _ (hlt0 _ (Nat.le_refl _))]; exact hu
    · intro a ha hat
      rw [o2 _ (by omega), o1 _ (hlt0 _ (by omega)), old a ha, ga a hat]
    · intro f g' hf hg
      have k1 : f.eval ρ2 = f.eval ρ1 := eval_congr (fun a ha => o2 a (q1 f hf a ha).1)
      have k2 : g'.eval ρ2 = g'.eval ρ1 := eval_congr (fun a ha => o2 a (by have := (px g' hg a ha).1; omega))
      rw [k1, k2]; exact ag1 f g' hf hg
  refine ⟨c.next, ⟨m1, m2⟩, c₂, hrun, s2.wf, hT2, ⟨keep1, q2⟩, n1, n2, ?_, ?_, ?_⟩
  · exact send T1 _ _ h1 (fun ρ h => by simp [h]) p1.1 a1 a2
  · exact send T2 _ _ h2 (fun ρ h => by simp [h]) p2.1 b1 b2
  · intro ρ r
    have r1 : Run c₁ c.next ρ := s2.run hC1 r
    have r0 : Run c0 c.next ρ := s1.run hC0 r1
    have hor : ρ T1 = true ∨ ρ T2 = true := by
      have := r0.defined _ _ (.refl _) hC0
      rw [r0.here] at this
      simpa [Formula.eval] using this.symm
    have hR1 : ρ T1 = true → Run c T1 ρ := fun h => (hrold ρ h1).mp (r.sub (.step (.refl _) (by rw [s2.deps, s1.deps]; exact d1)) h)
    have hR2 : ρ T2 = true → Run c T2 ρ := fun h => (hrold ρ h2).mp (r.sub (.step (.refl _) (by rw [s2.deps, s1.deps]; exact d2)) h)
    obtain ⟨x1, x2, x3⟩ := c1 ρ r1
    obtain ⟨y1, y2, y3⟩ := c2 ρ r
    refine ⟨?_, ?_, ?_⟩
    · rcases x3 with ⟨h, a⟩ | ⟨h, a⟩ | ⟨h, h'⟩
      · exact Or.inl ⟨hR1 h, a⟩
      · exact Or.inr ⟨hR2 h, a⟩
      · rcases hor with e | e
        · rw [h] at e; simp at e
        · rw [h'] at e; simp at e
    · rcases y3 with ⟨h, a⟩ | ⟨h, a⟩ | ⟨h, h'⟩
      · exact Or.inl ⟨hR1 h, a⟩
      · exact Or.inr ⟨hR2 h, a⟩
      · rcases hor with e | e
        · rw [h] at e; simp at e
        · rw [h'] at e; simp at e
    · intro hx
      rcases hor with h | h
      · have h' : ρ T2 = false := by cases hh : ρ T2 with | true => exact absurd ⟨h, hh⟩ hx | false => rfl
        exact Or.inl ⟨hR1 h, x1 h h', y1 h h'⟩
      · have h' : ρ T1 = false := by cases hh : ρ T1 with | true => exact absurd ⟨hh, h⟩ hx | false => rfl
        exact Or.inr ⟨hR2 h, x2 h h', y2 h h'⟩

theorem plain_eval {c : Ctx} {f : Formula} (hp : Plain c f) {ρ ρ' : Atom → Bool} (h : ∀ a, a < c.next → a ∉ c.tokens → ρ' a = ρ a) :
    f.eval ρ' = f.eval ρ := eval_congr (fun a ha => h a (hp a ha).1 (hp a ha).2)

/-- C41: no run is lost. A run reaching the join along either path is a run at the join, with the same program facts, in
which the merged properties have the values they have on that path. -/
theorem join_keeps_runs (s : Solver) {c : Ctx} (w : WF c) {T1 T2 : Atom} (h1 : T1 ∈ c.tokens) (h2 : T2 ∈ c.tokens)
    {st1 st2 : NullState} (p1 : PlainS c st1) (p2 : PlainS c st2) {T : Atom} {st : NullState} {c' : Ctx}
    (hj : joinEnv s c T1 T2 (some st1) (some st2) = (T, some st, c')) (ρ : Atom → Bool) :
    (Run c T1 ρ → ∃ ρ', Run c' T ρ' ∧ (∀ f, Plain c f → f.eval ρ' = f.eval ρ) ∧
      (∀ f g, st.fromNullable = some f → st1.fromNullable = some g → f.eval ρ' = g.eval ρ) ∧
      (∀ f g, st.isNull = some f → st1.isNull = some g → f.eval ρ' = g.eval ρ)) ∧
    (Run c T2 ρ → ∃ ρ', Run c' T ρ' ∧ (∀ f, Plain c f → f.eval ρ' = f.eval ρ) ∧
      (∀ f g, st.fromNullable = some f → st2.fromNullable = some g → f.eval ρ' = g.eval ρ) ∧
      (∀ f g, st.isNull = some f → st2.isNull = some g → f.eval ρ' = g.eval ρ)) := by
  obtain ⟨T', st', c'', hj', -, -, -, -, -, a, b, -⟩ := joinEnv_spec s w h1 h2 p1 p2
  rw [hj] at hj'
  simp only [Prod.mk.injEq, Option.some.injEq] at hj'
  obtain ⟨rfl, rfl, rfl⟩ := hj'
  constructor
  · intro r
    obtain ⟨ρ', r', hp, x, y⟩ := a ρ r
    exact ⟨ρ', r', fun f hf => plain_eval hf hp, fun f g hf hg => by rw [x f g hf hg, plain_eval (p1.1 g hg) hp],
      fun f g hf hg => by rw [y f g hf hg, plain_eval (p1.2 g hg) hp]⟩
  · intro r
    obtain ⟨ρ', r', hp, x, y⟩ := b ρ r
    exact ⟨ρ', r', fun f hf => plain_eval hf hp, fun f g hf hg => by rw [x f g hf hg, plain_eval (p2.1 g hg) hp],
      fun f g hf hg => by rw [y f g hf hg, plain_eval (p2.2 g hg) hp]⟩

/-- C41: no value is invented. In every run at the join, each merged property has the value it has on a path that the
run takes; if the run takes only one path, both properties come from that path. -/
theorem join_adds_nothing (s : Solver) {c : Ctx} (w : WF c) {T1 T2 : Atom} (h1 : T1 ∈ c.tokens) (h2 : T2 ∈ c.tokens)
    {st1 st2 : NullState} (p1 : PlainS c st1) (p2 : PlainS c st2) {T : Atom} {st : NullState} {c' : Ctx}
    (hj : joinEnv s c T1 T2 (some st1) (some st2) = (T, some st, c')) (ρ : Atom → Bool) (r : Run c' T ρ) :
    ((Run c T1 ρ ∧ Agree st.fromNullable st1.fromNullable ρ) ∨ (Run c T2 ρ ∧ Agree st.fromNullable st2.fromNullable ρ)) ∧
    ((Run c T1 ρ ∧ Agree st.isNull st1.isNull ρ) ∨ (Run c T2 ρ ∧ Agree st.isNull st2.isNull ρ)) ∧
    (¬ (ρ T1 = true ∧ ρ T2 = true) →
      (Run c T1 ρ ∧ Agree st.fromNullable st1.fromNullable ρ ∧ Agree st.isNull st1.isNull ρ) ∨
      (Run c T2 ρ ∧ Agree st.fromNullable st2.fromNullable ρ ∧ Agree st.isNull st2.isNull ρ)) := by
  obtain ⟨T', st', c'', hj', -, -, -, -, -, -, -, a⟩ := joinEnv_spec s w h1 h2 p1 p2
  rw [hj] at hj'
  simp only [Prod.mk.injEq, Option.some.injEq] at hj'
  obtain ⟨rfl, rfl, rfl⟩ := hj'
  exact a ρ r

/-- C41: after a join a pointer is NonNull exactly if it is NonNull at the end of both paths. -/
theorem join_nonnull_iff (s : Solver) (hs : s.Complete) {c : Ctx} (w : WF c) {T1 T2 : Atom} (h1 : T1 ∈ c.tokens) (h2 : T2 ∈ c.tokens)
    {st1 st2 : NullState} (p1 : PlainS c st1) (p2 : PlainS c st2) {T : Atom} {st : NullState} {c' : Ctx}
    (hj : joinEnv s c T1 T2 (some st1) (some st2) = (T, some st, c')) :
    getNullability s c' T st none = .NonNull ↔
      getNullability s c T1 st1 none = .NonNull ∧ getNullability s c T2 st2 none = .NonNull := by
  rw [(verdict_exact s hs c' T st none).1, (verdict_exact s hs c T1 st1 none).1, (verdict_exact s hs c T2 st2 none).1]
  obtain ⟨T', st', c'', hj', -, -, -, -, htop, -, -, -⟩ := joinEnv_spec s w h1 h2 p1 p2
  have hj2 := hj
  rw [hj] at hj'
  simp only [Prod.mk.injEq, Option.some.injEq] at hj'
  obtain ⟨rfl, rfl, rfl⟩ := hj'
  have ac : ∀ ρ, Ac none ρ := fun ρ a h => by simp at h
  constructor
  · rintro ⟨nl, hn, hall⟩
    have hnt : ¬ (st1.isNull = none ∨ st2.isNull = none) := by rw [← htop, hn]; simp
    rw [not_or] at hnt
    obtain ⟨n1, e1⟩ := Option.ne_none_iff_exists'.mp hnt.1
    obtain ⟨n2, e2⟩ := Option.ne_none_iff_exists'.mp hnt.2
    refine ⟨⟨n1, e1, fun ρ r _ => ?_⟩, ⟨n2, e2, fun ρ r _ => ?_⟩⟩
    · obtain ⟨ρ', r', -, -, y⟩ := (join_keeps_runs s w h1 h2 p1 p2 hj2 ρ).1 r
      rw [← y nl n1 hn e1]; exact hall ρ' r' (ac _)
    · obtain ⟨ρ', r', -, -, y⟩ := (join_keeps_runs s w h1 h2 p1 p2 hj2 ρ).2 r
      rw [← y nl n2 hn e2]; exact hall ρ' r' (ac _)
  · rintro ⟨⟨n1, e1, a1⟩, ⟨n2, e2, a2⟩⟩
    have hnt : st.isNull ≠ none := by rw [ne_eq, htop]; simp [e1, e2]
    obtain ⟨nl, hn⟩ := Option.ne_none_iff_exists'.mp hnt
    refine ⟨nl, hn, fun ρ r _ => ?_⟩
    rcases (join_adds_nothing s w h1 h2 p1 p2 hj2 ρ r).2.1 with ⟨r1, g⟩ | ⟨r2, g⟩
    · rw [g nl n1 hn e1]; exact a1 ρ r1 (ac _)
    · rw [g nl n2 hn e2]; exact a2 ρ r2 (ac _)

/-- C41: a pointer that may be null from a nullable source on one path is Nullable after the join. -/
theorem join_keeps_nullable (s : Solver) (hs : s.Complete) {c : Ctx} (w : WF c) {T1 T2 : Atom} (h1 : T1 ∈ c.tokens) (h2 : T2 ∈ c.tokens)
    {st1 st2 : NullState} (p1 : PlainS c st1) (p2 : PlainS c st2) {T : Atom} {st : NullState} {c' : Ctx}
    (hj : joinEnv s c T1 T2 (some st1) (some st2) = (T, some st, c'))
    (hn : FromNullableAndMaybeNull c T1 st1 none ∨ FromNullableAndMaybeNull c T2 st2 none) :
    getNullability s c' T st none = .Nullable := by
  rw [(verdict_exact s hs c' T st none).2]
  obtain ⟨T', st', c'', hj', -, -, -, ftop, ntop, -, -, -⟩ := joinEnv_spec s w h1 h2 p1 p2
  have hj2 := hj
  rw [hj] at hj'
  simp only [Prod.mk.injEq, Option.some.injEq] at hj'
  obtain ⟨rfl, rfl, rfl⟩ := hj'
  have ac : ∀ ρ, Ac none ρ := fun ρ a h => by simp at h
  have hF : FromNullableAndMaybeNull c' T st none := by
    have some1 : ∀ {x a b : Option Formula}, (x = none ↔ a = none ∨ b = none) → ∀ f, x = some f → (∃ g, a = some g) ∧ ∃ g, b = some g := by
      intro x a b h f hx
      have : ¬ (a = none ∨ b = none) := by rw [← h, hx]; simp
      rw [not_or] at this
      exact ⟨Option.ne_none_iff_exists'.mp this.1, Option.ne_none_iff_exists'.mp this.2⟩
    rcases hn with ⟨ρ, r, -, m1, m2⟩ | ⟨ρ, r, -, m1, m2⟩
    · obtain ⟨ρ', r', -, x, y⟩ := (join_keeps_runs s w h1 h2 p1 p2 hj2 ρ).1 r
      refine ⟨ρ', r', ac _, fun f hf => ?_, fun f hf => ?_⟩
      · obtain ⟨⟨g, hg⟩, -⟩ := some1 ftop f hf; rw [x f g hf hg]; exact m1 g hg
      · obtain ⟨⟨g, hg⟩, -⟩ := some1 ntop f hf; rw [y f g hf hg]; exact m2 g hg
    · obtain ⟨ρ', r', -, x, y⟩ := (join_keeps_runs s w h1 h2 p1 p2 hj2 ρ).2 r
      refine ⟨ρ', r', ac _, fun f hf => ?_, fun f hf => ?_⟩
      · obtain ⟨-, ⟨g, hg⟩⟩ := some1 ftop f hf; rw [x f g hf hg]; exact m1 g hg
      · obtain ⟨-, ⟨g, hg⟩⟩ := some1 ntop f hf; rw [y f g hf hg]; exact m2 g hg
  refine ⟨?_, Or.inr hF⟩
  rintro ⟨nl, hnl, hall⟩
  obtain ⟨ρ, r, a, -, m⟩ := hF
  have := m nl hnl
  rw [hall ρ r a] at this
  simp at this

end Verif.NullFlow

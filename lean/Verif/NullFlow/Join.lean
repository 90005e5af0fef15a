import Verif.NullFlow.Verdict
/- C41: joining two paths loses no run, and adds none per property. -/
namespace Verif.NullFlow
local notation "Atom" => Nat

theorem eval_congr {ρ ρ' : Atom → Bool} : ∀ {f : Formula}, (∀ a ∈ f.atoms, ρ a = ρ' a) → f.eval ρ = f.eval ρ' := by
  intro f
  induction f with
  | atom a => intro h; exact h a (by simp [Formula.atoms])
  | lit b => intro _; rfl
  | not f ih => intro h; simp only [Formula.eval]; rw [ih h]
  | and f g ih1 ih2 | or f g ih1 ih2 | implies f g ih1 ih2 | equals f g ih1 ih2 =>
    intro h
    simp only [Formula.eval]
    rw [ih1 (fun a ha => h a (by simp [Formula.atoms, ha])), ih2 (fun a ha => h a (by simp [Formula.atoms, ha]))]

/-- All flow conditions are what their constraints say. -/
structure Global (c : Ctx) (ρ : Atom → Bool) : Prop where
  inv : ∀ g ∈ c.inv, g.eval ρ = true
  free : ∀ T ∈ c.tokens, c.fc T = none → ρ T = true
  defined : ∀ T C, c.fc T = some C → ρ T = C.eval ρ

theorem reach_tokens {c : Ctx} (w : WF c) {T T' : Atom} (hT : T ∈ c.tokens) (h : Reach c T T') : T' ∈ c.tokens := by
  cases h with
  | refl => exact hT
  | step _ hd => exact (w.dep_tok _ _ hd).1

theorem Global.run {c : Ctx} (w : WF c) {ρ : Atom → Bool} (g : Global c ρ) {T : Atom} (hT : T ∈ c.tokens) (h : ρ T = true) : Run c T ρ :=
  ⟨g.inv, fun T' hr hf => g.free T' (reach_tokens w hT hr) hf, fun T' C _ hf => g.defined T' C hf, h⟩

theorem Reach.trans {c : Ctx} {a b d : Atom} (h1 : Reach c a b) (h2 : Reach c b d) : Reach c a d := by
  induction h2 with
  | refl => exact h1
  | step _ hd ih => exact .step ih hd

theorem Run.sub {c : Ctx} {ρ : Atom → Bool} {T T' : Atom} (r : Run c T ρ) (h : Reach c T T') (ht : ρ T' = true) : Run c T' ρ :=
  ⟨r.inv, fun _ hr hf => r.free _ (h.trans hr) hf, fun _ _ hr hf => r.defined _ _ (h.trans hr) hf, ht⟩

def upd (ρ : Atom → Bool) (a : Atom) (b : Bool) : Atom → Bool := fun x => if x = a then b else ρ x

/-- A run at one point extends to all flow conditions. -/
theorem extend {c : Ctx} (w : WF c) {T : Atom} {ρ : Atom → Bool} (r : Run c T ρ) :
    ∃ ρ', Global c ρ' ∧ (∀ a, a ∉ c.tokens → ρ' a = ρ a) ∧ (∀ T', Reach c T T' → ρ' T' = ρ T') := by
  classical
  have step : ∀ n : Nat, ∃ ρ', (∀ a, a ∉ c.tokens → ρ' a = ρ a) ∧ (∀ T', Reach c T T' → ρ' T' = ρ T') ∧
      (∀ t ∈ c.tokens, t < n → ¬ Reach c T t → (c.fc t = none → ρ' t = true) ∧ (∀ C, c.fc t = some C → ρ' t = C.eval ρ')) := by
    intro n
    induction n with
    | zero => exact ⟨ρ, fun _ _ => rfl, fun _ _ => rfl, fun t _ h => absurd h (Nat.not_lt_zero _)⟩
    | succ n ih =>
      obtain ⟨ρ', h1, h2, h3⟩ := ih
      by_cases hn : n ∈ c.tokens ∧ ¬ Reach c T n
      · obtain ⟨hn1, hn2⟩ := hn
        refine ⟨upd ρ' n (match c.fc n with | none => true | some C => C.eval ρ'), ?_, ?_, ?_⟩
        · intro a ha
          have : a ≠ n := by rintro rfl; exact ha hn1
          simp [upd, this, h1 a ha]
        · intro T' hT'
          have : T' ≠ n := by rintro rfl; exact hn2 hT'
          simp [upd, this, h2 T' hT']
        · intro t ht htn hrt
          have keep : ∀ C, c.fc t = some C → t ≤ n → C.eval (upd ρ' n (match c.fc n with | none => true | some C => C.eval ρ')) = C.eval ρ' := by
            intro C hC hle
            apply eval_congr
            intro a ha
            have : a ≠ n := by
              rintro rfl
              have := (w.fc_atoms t C hC a ha).2 hn1
              have := (w.dep_tok _ _ this).2.2
              omega
            simp [upd, this]
          by_cases e : t = n
          · subst e
            refine ⟨fun hf => by simp [upd, hf], fun C hC => ?_⟩
            rw [keep C hC (Nat.le_refl _)]
            simp [upd, hC]
          · obtain ⟨k1, k2⟩ := h3 t ht (by omega) hrt
            refine ⟨fun hf => by simp [upd, e, k1 hf], fun C hC => ?_⟩
            rw [keep C hC (by omega), ← k2 C hC]
            simp [upd, e]
      · refine ⟨ρ', h1, h2, fun t ht htn hrt => ?_⟩
        have : t ≠ n := by rintro rfl; exact hn ⟨ht, hrt⟩
        exact h3 t ht (by omega) hrt
  obtain ⟨ρ', h1, h2, h3⟩ := step c.next
  refine ⟨ρ', ⟨?_, ?_, ?_⟩, h1, h2⟩
  · intro g hg
    rw [← r.inv g hg]
    apply eval_congr
    intro a ha
    exact h1 a (w.inv_plain g hg a ha).2
  · intro t ht hf
    by_cases hr : Reach c T t
    · rw [h2 t hr]; exact r.free t hr hf
    · exact (h3 t ht (w.tok_lt t ht) hr).1 hf
  · intro t C hf
    have ht := w.fc_tok t C hf
    by_cases hr : Reach c T t
    · rw [h2 t hr, r.defined t C hr hf]
      apply eval_congr
      intro a ha
      by_cases hat : a ∈ c.tokens
      · exact (h2 a (.step hr ((w.fc_atoms t C hf a ha).2 hat))).symm
      · exact (h1 a hat).symm
    · exact (h3 t ht (w.tok_lt t ht) hr).2 C hf

/-- The merged property has the value of the path's property. -/
def Agree (m b : Option Formula) (ρ : Atom → Bool) : Prop := ∀ f g, m = some f → b = some g → f.eval ρ = g.eval ρ

def PlainO (c : Ctx) (b : Option Formula) : Prop := ∀ f, b = some f → Plain c f

theorem Plain.mono {c c' : Ctx} {f : Formula} (h : Plain c f) (hn : c.next ≤ c'.next) (ht : ∀ a, a < c.next → a ∈ c'.tokens → a ∈ c.tokens) : Plain c' f := by
  intro a ha
  obtain ⟨h1, h2⟩ := h a ha
  exact ⟨by omega, fun h => h2 (ht a h1 h)⟩

/-- What a merge step changes: maybe one fresh atom and the constraint of `T`. -/
structure Step (c c' : Ctx) (T : Atom) : Prop where
  wf : WF c'
  tokens : c'.tokens = c.tokens
  deps : c'.deps = c.deps
  inv : c'.inv = c.inv
  next : c.next ≤ c'.next
  other : ∀ t, t ≠ T → c'.fc t = c.fc t
  self : ∀ C, c.fc T = some C → ∃ C', c'.fc T = some C' ∧ ∀ ρ, C'.eval ρ = true → C.eval ρ = true

theorem Step.refl {c : Ctx} (w : WF c) (T : Atom) : Step c c T :=
  ⟨w, rfl, rfl, rfl, Nat.le_refl _, fun _ _ => rfl, fun C h => ⟨C, h, fun _ h => h⟩⟩

theorem Step.reach {c c' : Ctx} {T a b : Atom} (s : Step c c' T) : Reach c' a b ↔ Reach c a b := by
  constructor
  · intro h
    induction h with
    | refl => exact .refl _
    | step _ hd ih => exact .step ih (by rw [s.deps] at hd; exact hd)
  · intro h
    induction h with
    | refl => exact .refl _
    | step _ hd ih => exact .step ih (by rw [s.deps]; exact hd)

theorem Step.run {c c' : Ctx} {T : Atom} (s : Step c c' T) {C : Formula} (hC : c.fc T = some C) {ρ : Atom → Bool} (r : Run c' T ρ) : Run c T ρ := by
  refine ⟨?_, ?_, ?_, r.here⟩
  · rw [← s.inv]; exact r.inv
  · intro t hr hf
    have : t ≠ T := by rintro rfl; rw [hC] at hf; simp at hf
    exact r.free t (s.reach.mpr hr) (by rw [s.other t this]; exact hf)
  · intro t D hr hf
    by_cases e : t = T
    · subst e
      rw [hC] at hf; simp only [Option.some.injEq] at hf; subst hf
      obtain ⟨C', h1, h2⟩ := s.self C hC
      have := r.defined t C' (s.reach.mpr hr) h1
      rw [r.here, h2 ρ (by rw [← this]; exact r.here)]
    · exact r.defined t D (s.reach.mpr hr) (by rw [s.other t e]; exact hf)

/-- The four outcomes of `mergeFormulas`. -/
theorem mergeFormulas_cases (s : Solver) (c : Ctx) (T1 T2 T : Atom) (b1 b2 : Option Formula) :
    (b1 = b2 ∧ mergeFormulas s c T1 T2 T b1 b2 = (b1, c)) ∨
    (b1 ≠ b2 ∧ (b1 = none ∨ b2 = none) ∧ mergeFormulas s c T1 T2 T b1 b2 = (none, c)) ∨
    (∃ f1 f2, b1 = some f1 ∧ b2 = some f2 ∧ ∃ v : Bool, mergeFormulas s c T1 T2 T b1 b2 = (some (.lit v), c) ∧
      (∀ ρ, Run c T1 ρ → f1.eval ρ = v) ∧ (∀ ρ, Run c T2 ρ → f2.eval ρ = v)) ∨
    (∃ f1 f2, b1 = some f1 ∧ b2 = some f2 ∧ mergeFormulas s c T1 T2 T b1 b2 =
      (some (.atom c.next), assume { c with next := c.next + 1 } T
        (.or (.and (.atom T1) (.equals (.atom c.next) f1)) (.and (.atom T2) (.equals (.atom c.next) f2))))) := by
  unfold mergeFormulas
  by_cases h : b1 = b2
  · left; exact ⟨h, by rw [if_pos h]⟩
  · right
    rw [if_neg h]
    cases b1 with
    | none => left; exact ⟨h, Or.inl rfl, by simp⟩
    | some f1 =>
      cases b2 with
      | none => left; exact ⟨h, Or.inr rfl, by simp⟩
      | some f2 =>
        right
        simp only
        by_cases h1 : proves s c T1 f1 = true
        · rw [if_pos h1]
          by_cases h2 : proves s c T2 f2 = true
          · rw [if_pos h2]
            left
            exact ⟨f1, f2, rfl, rfl, true, rfl, proves_sound s h1, proves_sound s h2⟩
          · rw [if_neg h2]; right; exact ⟨f1, f2, rfl, rfl, rfl⟩
        · rw [if_neg h1]
          by_cases h2 : (proves s c T1 (.not f1) && proves s c T2 (.not f2)) = true
          · rw [if_pos h2]
            simp only [Bool.and_eq_true] at h2
            left
            refine ⟨f1, f2, rfl, rfl, false, rfl, fun ρ hr => ?_, fun ρ hr => ?_⟩
            · simpa [Formula.eval] using proves_sound s h2.1 ρ hr
            · simpa [Formula.eval] using proves_sound s h2.2 ρ hr
          · rw [if_neg h2]; right; exact ⟨f1, f2, rfl, rfl, rfl⟩

/-- The merge of one property. -/
theorem merge_step (s : Solver) {c : Ctx} (w : WF c) {T1 T2 T : Atom} {C : Formula} (hC : c.fc T = some C)
    (hd1 : T1 ∈ c.deps T) (hd2 : T2 ∈ c.deps T) (b1 b2 : Option Formula) (p1 : PlainO c b1) (p2 : PlainO c b2) :
    let r := mergeFormulas s c T1 T2 T b1 b2
    Step c r.2 T ∧ PlainO r.2 r.1 ∧
    (r.1 = none ↔ b1 = none ∨ b2 = none) ∧
    -- no run is lost
    (∀ ρ, Global c ρ → ρ T = true → ρ T1 = true →
      ∃ ρ', Global r.2 ρ' ∧ (∀ a, a < c.next → ρ' a = ρ a) ∧ Agree r.1 b1 ρ') ∧
    (∀ ρ, Global c ρ → ρ T = true → ρ T2 = true →
      ∃ ρ', Global r.2 ρ' ∧ (∀ a, a < c.next → ρ' a = ρ a) ∧ Agree r.1 b2 ρ') ∧
    -- no value is invented
    (∀ ρ, Run r.2 T ρ → (ρ T1 = true → ρ T2 = false → Agree r.1 b1 ρ) ∧ (ρ T2 = true → ρ T1 = false → Agree r.1 b2 ρ) ∧
      ((ρ T1 = true ∧ Agree r.1 b1 ρ) ∨ (ρ T2 = true ∧ Agree r.1 b2 ρ) ∨ (ρ T1 = false ∧ ρ T2 = false))) := by
  have hT : T ∈ c.tokens := w.fc_tok T C hC
  have ht1 : T1 ∈ c.tokens := (w.dep_tok _ _ hd1).1
  have ht2 : T2 ∈ c.tokens := (w.dep_tok _ _ hd2).1
  have bools : ∀ ρ : Atom → Bool, (ρ T1 = true ∨ ρ T2 = true) ∨ (ρ T1 = false ∧ ρ T2 = false) := by
    intro ρ; cases ρ T1 <;> cases ρ T2 <;> simp
  rcases mergeFormulas_cases s c T1 T2 T b1 b2 with ⟨he, hm⟩ | ⟨hne, hnone, hm⟩ | ⟨f1, f2, rfl, rfl, v, hm, hv1, hv2⟩ | ⟨f1, f2, rfl, rfl, hm⟩
  · subst he
    rw [hm]
    have ag : ∀ ρ, Agree b1 b1 ρ := by intro ρ f g h1 h2; rw [h1] at h2; simp only [Option.some.injEq] at h2; rw [h2]
    refine ⟨Step.refl w T, p1, by simp, fun ρ g _ _ => ⟨ρ, g, fun _ _ => rfl, ag ρ⟩, fun ρ g _ _ => ⟨ρ, g, fun _ _ => rfl, ag ρ⟩,
      fun ρ _ => ⟨fun _ _ => ag ρ, fun _ _ => ag ρ, ?_⟩⟩
    rcases bools ρ with (h | h) | h
    · exact Or.inl ⟨h, ag ρ⟩
    · exact Or.inr (Or.inl ⟨h, ag ρ⟩)
    · exact Or.inr (Or.inr h)
  · rw [hm]
    have ag : ∀ b ρ, Agree none b ρ := by intro b ρ f g h1; simp at h1
    refine ⟨Step.refl w T, by intro f hf; simp at hf, by simp [hnone], fun ρ g _ _ => ⟨ρ, g, fun _ _ => rfl, ag _ ρ⟩, fun ρ g _ _ => ⟨ρ, g, fun _ _ => rfl, ag _ ρ⟩,
      fun ρ _ => ⟨fun _ _ => ag _ ρ, fun _ _ => ag _ ρ, ?_⟩⟩
    rcases bools ρ with (h | h) | h
    · exact Or.inl ⟨h, ag _ ρ⟩
    · exact Or.inr (Or.inl ⟨h, ag _ ρ⟩)
    · exact Or.inr (Or.inr h)
  · rw [hm]
    have ag1 : ∀ ρ, Run c T1 ρ → Agree (some (.lit v)) (some f1) ρ := by
      intro ρ r f g h1 h2
      simp only [Option.some.injEq] at h1 h2; subst h1; subst h2
      exact (hv1 ρ r).symm
    have ag2 : ∀ ρ, Run c T2 ρ → Agree (some (.lit v)) (some f2) ρ := by
      intro ρ r f g h1 h2
      simp only [Option.some.injEq] at h1 h2; subst h1; subst h2
      exact (hv2 ρ r).symm
    refine ⟨Step.refl w T, ?_, by simp, fun ρ g _ h => ⟨ρ, g, fun _ _ => rfl, ag1 ρ (g.run w ht1 h)⟩, fun ρ g _ h => ⟨ρ, g, fun _ _ => rfl, ag2 ρ (g.run w ht2 h)⟩,
      fun ρ r => ?_⟩
    · intro f hf; simp only [Option.some.injEq] at hf; subst hf; intro a ha; simp [Formula.atoms] at ha
    · have a1 : ρ T1 = true → Agree (some (.lit v)) (some f1) ρ := fun h => ag1 ρ (r.sub (.step (.refl _) hd1) h)
      have a2 : ρ T2 = true → Agree (some (.lit v)) (some f2) ρ := fun h => ag2 ρ (r.sub (.step (.refl _) hd2) h)
      refine ⟨fun h _ => a1 h, fun h _ => a2 h, ?_⟩
      rcases bools ρ with (h | h) | h
      · exact Or.inl ⟨h, a1 h⟩
      · exact Or.inr (Or.inl ⟨h, a2 h⟩)
      · exact Or.inr (Or.inr h)
  · rw [hm]
    have q1 := p1 f1 rfl
    have q2 := p2 f2 rfl
    have hlt : ∀ t ∈ c.tokens, t ≠ c.next := fun t ht => by have := w.tok_lt t ht; omega
    obtain ⟨D, hD⟩ : ∃ D, D = (Formula.or (.and (.atom T1) (.equals (.atom c.next) f1)) (.and (.atom T2) (.equals (.atom c.next) f2))) := ⟨_, rfl⟩
    rw [← hD]
    have hfc : ∀ t, (assume { c with next := c.next + 1 } T D).fc t = if t = T then some (.and C D) else c.fc t := by
      intro t; simp [assume, hC]
    have hDatoms : ∀ a ∈ D.atoms, a < c.next + 1 ∧ (a ∈ c.tokens → a ∈ c.deps T) := by
      intro a ha
      rw [hD] at ha
      simp only [Formula.atoms, List.mem_append, List.mem_cons, List.not_mem_nil, or_false] at ha
      rcases ha with (rfl | rfl | ha) | (rfl | rfl | ha)
      · exact ⟨by have := w.tok_lt _ ht1; omega, fun _ => hd1⟩
      · exact ⟨by omega, fun h => absurd rfl (hlt _ h)⟩
      · exact ⟨by have := (q1 a ha).1; omega, fun h => absurd h (q1 a ha).2⟩
      · exact ⟨by have := w.tok_lt _ ht2; omega, fun _ => hd2⟩
      · exact ⟨by omega, fun h => absurd rfl (hlt _ h)⟩
      · exact ⟨by have := (q2 a ha).1; omega, fun h => absurd h (q2 a ha).2⟩
    have hwf : WF (assume { c with next := c.next + 1 } T D) := by
      refine ⟨?_, ?_, w.dep_tok, ?_, ?_⟩
      · intro t ht; have := w.tok_lt t ht; show t < c.next + 1; omega
      · intro t E hE
        rw [hfc] at hE
        split at hE
        · rename_i e; rw [e]; exact hT
        · exact w.fc_tok t E hE
      · intro t E hE a ha
        rw [hfc] at hE
        show a < c.next + 1 ∧ (a ∈ c.tokens → a ∈ c.deps t)
        split at hE
        · rename_i e
          simp only [Option.some.injEq] at hE
          subst hE; subst e
          simp only [Formula.atoms, List.mem_append] at ha
          rcases ha with ha | ha
          · have := w.fc_atoms t C hC a ha; exact ⟨by omega, this.2⟩
          · exact hDatoms a ha
        · have := w.fc_atoms t E hE a ha; exact ⟨by omega, this.2⟩
      · intro g hg
        exact (w.inv_plain g hg).mono (by show c.next ≤ c.next + 1; omega) (fun a _ h => h)
    have hstep : Step c (assume { c with next := c.next + 1 } T D) T := by
      refine ⟨hwf, rfl, rfl, rfl, by show c.next ≤ c.next + 1; omega, fun t ht => by rw [hfc]; simp [ht], fun E hE => ?_⟩
      rw [hC] at hE; simp only [Option.some.injEq] at hE; subst hE
      refine ⟨.and C D, by rw [hfc]; simp, fun ρ h => ?_⟩
      simp only [Formula.eval, Bool.and_eq_true] at h; exact h.1
    have evalD : ∀ ρ, D.eval ρ = true ↔ (ρ T1 = true ∧ ρ c.next = f1.eval ρ) ∨ (ρ T2 = true ∧ ρ c.next = f2.eval ρ) := by
      intro ρ; rw [hD]; simp [Formula.eval]
    have lift : ∀ ρ, Global c ρ → ρ T = true → ∀ b, D.eval (upd ρ c.next b) = true → Global (assume { c with next := c.next + 1 } T D) (upd ρ c.next b) := by
      intro ρ g hρ b hDb
      have old : ∀ a, a < c.next → upd ρ c.next b a = ρ a := fun a ha => by
        have : a ≠ c.next := by omega
        simp [upd, this]
      refine ⟨?_, ?_, ?_⟩
      · intro h hh
        rw [← g.inv h hh]
        exact eval_congr (fun a ha => old a (w.inv_plain h hh a ha).1)
      · intro t ht hf
        rw [hfc] at hf
        split at hf
        · simp at hf
        · rw [old t (w.tok_lt t ht)]; exact g.free t ht hf
      · intro t E hE
        have htt := hwf.fc_tok t E hE
        rw [hfc] at hE
        rw [old t (w.tok_lt t htt)]
        split at hE
        · rename_i e
          simp only [Option.some.injEq] at hE
          subst hE; subst e
          have h1 := g.defined t C hC
          have h2 : C.eval (upd ρ c.next b) = C.eval ρ := eval_congr (fun a ha => old a (w.fc_atoms t C hC a ha).1)
          simp only [Formula.eval, hDb, h2, Bool.and_true]
          exact h1
        · rw [g.defined t E hE]
          exact eval_congr (fun a ha => (old a (w.fc_atoms t E hE a ha).1).symm)
    refine ⟨hstep, ?_, by simp, ?_, ?_, ?_⟩
    · intro f hf
      simp only [Option.some.injEq] at hf; subst hf
      intro a ha
      simp only [Formula.atoms, List.mem_cons, List.not_mem_nil, or_false] at ha
      subst ha
      exact ⟨by show c.next < c.next + 1; omega, fun h => absurd rfl (hlt _ h)⟩
    · intro ρ g hρ h1
      have e1 : f1.eval (upd ρ c.next (f1.eval ρ)) = f1.eval ρ := eval_congr (fun a ha => by
        have : a ≠ c.next := by have := (q1 a ha).1; omega
        simp [upd, this])
      refine ⟨upd ρ c.next (f1.eval ρ), lift ρ g hρ _ ((evalD _).mpr (Or.inl ⟨?_, ?_⟩)), ?_, ?_⟩
      · simp [upd, hlt T1 ht1, h1]
      · rw [e1]; simp [upd]
      · intro a ha; have : a ≠ c.next := by omega
        simp [upd, this]
      · intro f g' ha hb
        simp only [Option.some.injEq] at ha hb; subst ha; subst hb
        rw [e1]; simp [Formula.eval, upd]
    · intro ρ g hρ h1
      have e1 : f2.eval (upd ρ c.next (f2.eval ρ)) = f2.eval ρ := eval_congr (fun a ha => by
        have : a ≠ c.next := by have := (q2 a ha).1; omega
        simp [upd, this])
      refine ⟨upd ρ c.next (f2.eval ρ), lift ρ g hρ _ ((evalD _).mpr (Or.inr ⟨?_, ?_⟩)), ?_, ?_⟩
      · simp [upd, hlt T2 ht2, h1]
      · rw [e1]; simp [upd]
      · intro a ha; have : a ≠ c.next := by omega
        simp [upd, this]
      · intro f g' ha hb
        simp only [Option.some.injEq] at ha hb; subst ha; subst hb
        rw [e1]; simp [Formula.eval, upd]
    · intro ρ r
      have h := r.defined T (.and C D) (.refl _) (by rw [hfc]; simp)
      rw [r.here] at h
      simp only [Formula.eval, Bool.true_eq, Bool.and_eq_true] at h
      have hd := (evalD ρ).mp h.2
      have ag : ∀ f : Formula, ρ c.next = f.eval ρ → Agree (some (.atom c.next)) (some f) ρ := by
        intro f hf a b ha hb
        simp only [Option.some.injEq] at ha hb; subst ha; subst hb
        simp [Formula.eval, hf]
      refine ⟨fun h1 h2 => ?_, fun h1 h2 => ?_, ?_⟩
      · rcases hd with ⟨-, e⟩ | ⟨e, -⟩
        · exact ag _ e
        · rw [h2] at e; simp at e
      · rcases hd with ⟨e, -⟩ | ⟨-, e⟩
        · rw [h2] at e; simp at e
        · exact ag _ e
      · rcases hd with ⟨e, e'⟩ | ⟨e, e'⟩
        · exact Or.inl ⟨e, ag _ e'⟩
        · exact Or.inr (Or.inl ⟨e, ag _ e'⟩)

end Verif.NullFlow

import Verif.CallOrder.Stack

/-!
# Groups of recursive functions
-/

namespace Verif.CallOrder

variable {L E : Type}

theorem pass_outside {p : Prog L E} : ∀ {fs : List Nat} {a : Results L E} {ch a' ch'}, pass p fs a ch = .ok (a', ch') →
    (∀ g, g ∉ fs → a' g = a g) ∧ (∀ g l, a g = some (.ok l) → ∃ l', a' g = some (.ok l')) ∧ (ch = true → ch' = true)
  | [], a, ch, a', ch', h => by
      simp only [pass, Except.ok.injEq, Prod.mk.injEq] at h
      obtain ⟨rfl, rfl⟩ := h
      exact ⟨fun _ _ => rfl, fun g l h => ⟨l, h⟩, id⟩
  | f :: fs, a, ch, a', ch', h => by
      simp only [pass] at h
      split at h
      · simp at h
      · rename_i l hl
        split at h
        · rename_i l0 hl0
          split at h
          · obtain ⟨h1, h2, h3⟩ := pass_outside h
            exact ⟨fun g hg => h1 g (fun h => hg (List.mem_cons_of_mem _ h)), h2, h3⟩
          · obtain ⟨h1, h2, h3⟩ := pass_outside h
            refine ⟨fun g hg => ?_, fun g l1 hg => ?_, fun _ => h3 rfl⟩
            · simp only [List.mem_cons, not_or] at hg
              rw [h1 g hg.2]
              simp [Results.set, hg.1]
            · by_cases hgf : g = f
              · subst hgf
                exact h2 _ l (by simp [Results.set])
              · exact h2 _ l1 (by simp [Results.set, hgf, hg])
        · obtain ⟨h1, h2, h3⟩ := pass_outside h
          exact ⟨fun g hg => h1 g (fun h => hg (List.mem_cons_of_mem _ h)), h2, h3⟩

/-- A pass that changes nothing: every function is stable. -/
theorem pass_stable {p : Prog L E} : ∀ {fs : List Nat} {a : Results L E} {a'},
    (∀ f ∈ fs, ∃ l, a f = some (.ok l)) → pass p fs a false = .ok (a', false) →
    a' = a ∧ ∀ f ∈ fs, ∃ l l', a f = some (.ok l) ∧ p.single f a = .ok l' ∧ p.iso l l' = true
  | [], a, a', _, h => by
      simp only [pass, Except.ok.injEq, Prod.mk.injEq] at h
      exact ⟨h.1.symm, by simp⟩
  | f :: fs, a, a', ha, h => by
      simp only [pass] at h
      split at h
      · simp at h
      · rename_i l hl
        obtain ⟨l0, hl0⟩ := ha f (by simp)
        rw [hl0] at h
        simp only at h
        split at h
        · rename_i hi
          obtain ⟨rfl, h2⟩ := pass_stable (fun f hf => ha f (List.mem_cons_of_mem _ hf)) h
          refine ⟨rfl, fun g hg => ?_⟩
          simp only [List.mem_cons] at hg
          rcases hg with rfl | hg
          · exact ⟨l0, l, hl0, hl, hi⟩
          · exact h2 g hg
        · have := (pass_outside h).2.2 rfl
          simp at this

theorem passes_ok {p : Prog L E} {k : Nat} {fs : List Nat} : ∀ {n : Nat} {a a' : Results L E},
    (∀ f ∈ fs, ∃ l, a f = some (.ok l)) → passes p k fs n a = .ok a' →
    (∀ g, g ∉ fs → a' g = a g) ∧ ∀ f ∈ fs, ∃ l l', a' f = some (.ok l) ∧ p.single f a' = .ok l' ∧ p.iso l l' = true
  | 0, a, a', _, h => by simp [passes] at h
  | n + 1, a, a', ha, h => by
      simp only [passes] at h
      split at h
      · simp at h
      · rename_i b ch hb
        split at h
        · rename_i hch
          obtain ⟨h1, h2, -⟩ := pass_outside hb
          obtain ⟨h3, h4⟩ := passes_ok (fun f hf => by
            obtain ⟨l, hl⟩ := ha f hf
            exact h2 f l hl) h
          exact ⟨fun g hg => by rw [h3 g hg, h1 g hg], h4⟩
        · rename_i hch
          simp only [Bool.not_eq_true] at hch
          subst hch
          simp only [Except.ok.injEq] at h
          subst h
          obtain ⟨rfl, h2⟩ := pass_stable ha hb
          exact ⟨fun _ _ => rfl, h2⟩

theorem initial_ok {p : Prog L E} : ∀ {fs : List Nat} {a a' : Results L E}, initial p fs a = .ok a' →
    (∀ g, g ∉ fs → a' g = a g) ∧ (∀ g l, a g = some (.ok l) → ∃ l', a' g = some (.ok l')) ∧
      ∀ f ∈ fs, ∃ l, a' f = some (.ok l)
  | [], a, a', h => by
      simp only [initial, Except.ok.injEq] at h
      subst h
      exact ⟨fun _ _ => rfl, fun g l h => ⟨l, h⟩, by simp⟩
  | f :: fs, a, a', h => by
      simp only [initial] at h
      split at h
      · simp at h
      · rename_i l hl
        obtain ⟨h1, h2, h3⟩ := initial_ok h
        refine ⟨fun g hg => ?_, fun g l1 hg => ?_, fun g hg => ?_⟩
        · simp only [List.mem_cons, not_or] at hg
          rw [h1 g hg.2]
          simp [Results.set, hg.1]
        · by_cases hgf : g = f
          · subst hgf
            exact h2 _ l (by simp [Results.set])
          · exact h2 _ l1 (by simp [Results.set, hgf, hg])
        · simp only [List.mem_cons] at hg
          rcases hg with rfl | hg
          · exact h2 _ l (by simp [Results.set])
          · exact h3 g hg

theorem setAll (e : E) : ∀ (fs : List Nat) (a : Results L E),
    (∀ g, g ∉ fs → fs.foldl (fun a f => Results.set a f (.err e)) a g = a g) ∧
    (∀ g, (g ∈ fs ∨ a g = some (.err e)) → fs.foldl (fun a f => Results.set a f (.err e)) a g = some (.err e))
  | [], a => ⟨fun _ _ => rfl, fun g h => by simpa using h⟩
  | f :: fs, a => by
      obtain ⟨h1, h2⟩ := setAll e fs (a.set f (.err e))
      refine ⟨fun g hg => ?_, fun g hg => ?_⟩
      · simp only [List.mem_cons, not_or] at hg
        rw [List.foldl_cons, h1 g hg.2]
        simp [Results.set, hg.1]
      · rw [List.foldl_cons]
        refine h2 g ?_
        by_cases hgf : g = f
        · exact .inr (by simp [Results.set, hgf])
        · simp only [List.mem_cons, hgf, false_or] at hg
          exact hg.imp id (fun h => by simp [Results.set, hgf, h])

theorem analyzeGroup_outside (p : Prog L E) (fs : List Nat) (a : Results L E) (g : Nat) (hg : g ∉ fs) :
    analyzeGroup p fs a g = a g := by
  unfold analyzeGroup analyzeRecursiveFunctions
  cases hi : initial p fs a with
  | error e => exact (setAll e fs a).1 g hg
  | ok b =>
      obtain ⟨h1, -, h3⟩ := initial_ok hi
      simp only
      cases hp : passes p (expectedIterations p fs) fs (expectedIterations p fs + 1) b with
      | error e => exact (setAll e fs a).1 g hg
      | ok c => simp only; rw [(passes_ok h3 hp).1 g hg, h1 g hg]

theorem analyzeGroup_settled (p : Prog L E) (fs : List Nat) (a : Results L E) :
    Settled p (analyzeGroup p fs a) fs := by
  unfold analyzeGroup analyzeRecursiveFunctions
  cases hi : initial p fs a with
  | error e => exact .inr ⟨e, fun f hf => (setAll e fs a).2 f (.inl hf)⟩
  | ok b =>
      obtain ⟨h1, -, h3⟩ := initial_ok hi
      simp only
      cases hp : passes p (expectedIterations p fs) fs (expectedIterations p fs + 1) b with
      | error e => exact .inr ⟨e, fun f hf => (setAll e fs a).2 f (.inl hf)⟩
      | ok c => exact .inl (passes_ok h3 hp).2

theorem Settled.isSome {p : Prog L E} {a : Results L E} {fs : List Nat} (h : Settled p a fs) {f : Nat} (hf : f ∈ fs) :
    (a f).isSome = true := by
  rcases h with h | ⟨e, h⟩
  · obtain ⟨l, _, hl, _⟩ := h f hf
    rw [hl]; rfl
  · rw [h f hf]; rfl

end Verif.CallOrder

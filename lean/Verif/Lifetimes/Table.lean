import Verif.Lifetimes.Naming
import Mathlib.Data.List.Forall2
/- C44: lifetimes are distinct; C45: the symbol table. -/
namespace Verif.Lifetimes

/-! ### Creating lifetimes -/

inductive Create
  | var | loc
deriving DecidableEq

/-- A history of creations, by any threads; the result of each. -/
def createAll : Ids → List Create → List Lifetime
  | _, [] => []
  | s, .var :: h => (createVariable s).1 :: createAll (createVariable s).2 h
  | s, .loc :: h => (createLocal s).1 :: createAll (createLocal s).2 h

theorem wrap32_id {x : Int} (h1 : -2147483648 ≤ x) (h2 : x ≤ 2147483647) : wrap32 x = x := by
  unfold wrap32; omega

theorem createAll_range : ∀ (h : List Create) (s : Ids), 2 ≤ s.nextVar → s.nextVar + h.count .var ≤ 2147483647 →
    s.nextLocal ≤ -2 → -2147483648 ≤ s.nextLocal - h.count .loc →
    (∀ l ∈ createAll s h, s.nextVar ≤ l.id ∨ l.id ≤ s.nextLocal) ∧
    (createAll s h).Nodup ∧
    List.Forall₂ (fun c l => match c with | Create.var => s.nextVar ≤ l.id | Create.loc => l.id ≤ s.nextLocal) h (createAll s h) := by
  intro h
  induction h with
  | nil => intro s _ _ _ _; simp [createAll]
  | cons c h ih =>
    intro s a b d e
    cases c with
    | var =>
      have hc1 : (Create.var :: h).count .var = h.count .var + 1 := by simp
      have hc2 : (Create.var :: h).count .loc = h.count .loc := by simp [List.count_cons]
      rw [hc1] at b; rw [hc2] at e
      have hs : (createVariable s).2.nextVar = s.nextVar + 1 := wrap32_id (by omega) (by omega)
      have hsl : (createVariable s).2.nextLocal = s.nextLocal := rfl
      obtain ⟨i1, i2, i3⟩ := ih (createVariable s).2 (by rw [hs]; omega) (by rw [hs]; omega) (by rw [hsl]; exact d) (by rw [hsl]; exact e)
      rw [hs, hsl] at i1 i3
      simp only [createAll]
      refine ⟨?_, ?_, ?_⟩
      · intro l hl
        rcases List.mem_cons.mp hl with hh | hh
        · subst hh; left; exact Int.le_refl _
        · have := i1 l hh; omega
      · rw [List.nodup_cons]
        refine ⟨fun hm => ?_, i2⟩
        have := i1 _ hm; simp only [createVariable] at this; omega
      · refine .cons (Int.le_refl _) (i3.imp ?_)
        intro c l hcl
        cases c with
        | var => simp only at hcl ⊢; omega
        | loc => exact hcl
    | loc =>
      have hc1 : (Create.loc :: h).count .var = h.count .var := by simp [List.count_cons]
      have hc2 : (Create.loc :: h).count .loc = h.count .loc + 1 := by simp
      rw [hc1] at b; rw [hc2] at e
      have hs : (createLocal s).2.nextLocal = s.nextLocal - 1 := wrap32_id (by omega) (by omega)
      have hsl : (createLocal s).2.nextVar = s.nextVar := rfl
      obtain ⟨i1, i2, i3⟩ := ih (createLocal s).2 (by rw [hsl]; exact a) (by rw [hsl]; exact b) (by rw [hs]; omega) (by rw [hs]; omega)
      rw [hs, hsl] at i1 i3
      simp only [createAll]
      refine ⟨?_, ?_, ?_⟩
      · intro l hl
        rcases List.mem_cons.mp hl with hh | hh
        · subst hh; right; exact Int.le_refl _
        · have := i1 l hh; omega
      · rw [List.nodup_cons]
        refine ⟨fun hm => ?_, i2⟩
        have := i1 _ hm; simp only [createLocal] at this; omega
      · refine .cons (Int.le_refl _) (i3.imp ?_)
        intro c l hcl
        cases c with
        | var => exact hcl
        | loc => simp only at hcl ⊢; omega

/-- C44: in any history with fewer than 2^31 - 2 creations of each kind, all created lifetimes are pairwise distinct, valid
and different from 'static; what `CreateVariable` returns is a variable, what `CreateLocal` returns is a local constant,
and 'static is a constant that is neither. -/
theorem lifetimes_distinct (h : List Create) (h1 : h.count .var ≤ 2147483645) (h2 : h.count .loc ≤ 2147483646) :
    (createAll Ids.init h).Nodup ∧ Lifetime.static ∉ createAll Ids.init h ∧ (∀ l ∈ createAll Ids.init h, l.isValid) ∧
    List.Forall₂ (fun c l => match c with
      | Create.var => l.isVariable = true ∧ l.isConstant = false ∧ l.isLocal = false
      | Create.loc => l.isVariable = false ∧ l.isConstant = true ∧ l.isLocal = true) h (createAll Ids.init h) ∧
    (Lifetime.static.isValid = true ∧ Lifetime.static.isConstant = true ∧ Lifetime.static.isLocal = false) := by
  obtain ⟨i1, i2, i3⟩ := createAll_range h Ids.init (by simp [Ids.init]) (by simp [Ids.init]; omega) (by simp [Ids.init]) (by simp [Ids.init]; omega)
  simp only [Ids.init] at i1 i3
  refine ⟨i2, ?_, ?_, i3.imp ?_, by decide⟩
  · intro hm; have := i1 _ hm; simp [Lifetime.static] at this
  · intro l hl; have := i1 l hl; simp only [Lifetime.isValid, decide_eq_true_eq]; omega
  · intro c l hcl
    cases c with
    | var =>
      simp only [Lifetime.isVariable, Lifetime.isConstant, Lifetime.isLocal, Bool.not_eq_false', decide_eq_true_eq, decide_eq_false_iff_not] at hcl ⊢
      omega
    | loc =>
      simp only [Lifetime.isVariable, Lifetime.isConstant, Lifetime.isLocal, Bool.not_eq_true', decide_eq_true_eq, decide_eq_false_iff_not] at hcl ⊢
      omega

theorem createAll_vars : ∀ (n : Nat) (s : Ids) (k : Nat), s.nextVar = wrap32 (2 + k) → k + n ≤ 2147483646 →
    createAll s (List.replicate n .var ++ [.var]) = createAll s (List.replicate n .var) ++ [⟨wrap32 (2 + (k + n : Nat))⟩] := by
  intro n
  induction n with
  | zero => intro s k hs hk; simp [createAll, createVariable, hs]
  | succ n ih =>
    intro s k hs hk
    simp only [List.replicate_succ, List.cons_append, createAll]
    have hw : wrap32 (2 + (k : Int)) = 2 + k := wrap32_id (by omega) (by omega)
    have hs2 : (createVariable s).2.nextVar = wrap32 (2 + (k + 1 : Nat)) := by
      simp only [createVariable, hs, hw]
      rw [show (2 : Int) + k + 1 = 2 + (k + 1 : Nat) by omega]
    rw [ih (createVariable s).2 (k + 1) hs2 (by omega), show k + 1 + n = k + (n + 1) by omega]

/-- Disagreement: the counters wrap. After 2^31 - 2 variables, the next "variable" is a local constant. -/
theorem variable_ids_wrap (n : Nat) (hn : n = 2147483646) : ∃ l, createAll Ids.init (List.replicate n .var ++ [.var]) =
    createAll Ids.init (List.replicate n .var) ++ [l] ∧ l.isVariable = false ∧ l.isLocal = true := by
  refine ⟨_, createAll_vars n Ids.init 0 (by decide) (by omega), ?_, ?_⟩ <;> rw [hn] <;> decide

example : createAll Ids.init [.var, .loc, .var, .loc] = [⟨2⟩, ⟨-2⟩, ⟨3⟩, ⟨-3⟩] := by decide

end Verif.Lifetimes

import Verif.ModName.Model
import Mathlib.Data.List.Nodup
import Mathlib.Tactic.ByContra
import Batteries.Data.List.Perm

/-!
# Choosing a free name
-/

namespace Verif.ModName

/-- `n` and `k` underscores. -/
def under (n : Name) (k : Nat) : Name := n ++ List.replicate k '_'

theorem under_succ (n : Name) (k : Nat) : under (n ++ ['_']) k = under n (k + 1) := by
  simp [under, List.replicate_succ]

theorem under_inj {n : Name} {i j : Nat} (h : under n i = under n j) : i = j := by
  have := congrArg List.length h
  simpa [under] using this

/-- The loop ends at the first free name, if there is one within the bound. -/
theorem pad_spec (used : Name → Bool) : ∀ (k : Nat) (n : Name), ∃ j ≤ k, pad used k n = under n j ∧
    (∀ i < j, used (under n i) = true) ∧ (j < k → used (under n j) = false)
  | 0, n => ⟨0, Nat.le_refl _, by simp [pad, under], by simp, by simp⟩
  | k + 1, n => by
      by_cases h : used n = true
      · obtain ⟨j, hj, h1, h2, h3⟩ := pad_spec used k (n ++ ['_'])
        refine ⟨j + 1, by omega, ?_, ?_, ?_⟩
        · simp only [pad, h, if_true]; rw [h1, under_succ]
        · intro i hi
          cases i with
          | zero => simpa [under] using h
          | succ i => rw [← under_succ]; exact h2 i (by omega)
        · intro hlt; rw [← under_succ]; exact h3 (by omega)
      · refine ⟨0, by omega, by simp [pad, h, under], by simp, fun _ => ?_⟩
        simpa [under] using h

/-- With as many rounds as names in use, the loop finds a free name. -/
theorem pad_free (used : Name → Bool) (ks : List Name) (hu : ∀ n, used n = true → n ∈ ks) (n : Name) :
    used (pad used ks.length n) = false := by
  obtain ⟨j, hj, h1, h2, h3⟩ := pad_spec used ks.length n
  rw [h1]
  rcases Nat.lt_or_ge j ks.length with hlt | hge
  · exact h3 hlt
  · by_contra hne
    have hne : used (under n j) = true := by simpa using hne
    have hjk : j = ks.length := by omega
    have hnd : ((List.range (ks.length + 1)).map (under n)).Nodup :=
      List.Nodup.map (fun a b h => under_inj h) List.nodup_range
    have hsub : (List.range (ks.length + 1)).map (under n) ⊆ ks := by
      intro x hx
      simp only [List.mem_map, List.mem_range] at hx
      obtain ⟨i, hi, rfl⟩ := hx
      apply hu
      rcases Nat.lt_or_ge i j with h | h
      · exact h2 i h
      · have : i = j := by omega
        rw [this]; exact hne
    have := (List.subperm_of_subset hnd hsub).length_le
    simp at this
    omega

theorem pickName_free (used : Name → Bool) (ks : List Name) (hu : ∀ n, used n = true → n ∈ ks) (n : Name) :
    used (pickName used ks.length n) = false := by
  unfold pickName
  split
  · exact pad_free used ks hu _
  · rename_i h; simpa using h

/-- More names in use, but not the chosen one: the same choice. -/
theorem pad_mono {u v : Name → Bool} (huv : ∀ n, u n = true → v n = true) : ∀ {k l : Nat} {n : Name}, k ≤ l →
    v (pad u k n) = false → pad v l n = pad u k n
  | 0, 0, n, _, _ => rfl
  | 0, l + 1, n, _, h => by
      simp only [pad] at h ⊢
      rw [h]; simp
  | k + 1, l + 1, n, hkl, h => by
      simp only [pad] at h ⊢
      by_cases hu : u n = true
      · simp only [hu, huv n hu, if_true] at h ⊢
        exact pad_mono huv (by omega) h
      · simp only [hu, Bool.false_eq_true, if_false] at h ⊢
        simp [h]
  | k + 1, 0, _, h, _ => absurd h (by omega)

theorem pickName_mono {u v : Name → Bool} (huv : ∀ n, u n = true → v n = true) {k l : Nat} {n : Name} (hkl : k ≤ l)
    (h : v (pickName u k n) = false) : pickName v l n = pickName u k n := by
  unfold pickName at h ⊢
  by_cases hu : u n = true
  · simp only [hu, huv n hu, if_true] at h ⊢
    exact pad_mono huv hkl h
  · simp only [hu, Bool.false_eq_true, if_false] at h ⊢
    simp [h]

end Verif.ModName

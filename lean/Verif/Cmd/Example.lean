import Verif.Cmd.Targets

/-
Example for C175.
-/

namespace Verif.Cmd.Example

def lt : Str → Str → Bool
  | [], [] => false
  | [], _ :: _ => true
  | _ :: _, [] => false
  | a :: s, b :: t => if a.toNat < b.toNat then true else if a = b then lt s t else false

theorem lt_irrefl : ∀ a, lt a a = false
  | [] => rfl
  | a :: s => by simp [lt, lt_irrefl s]

theorem lt_trans : ∀ a b c, lt a b = true → lt b c = true → lt a c = true
  | [], b, [], h1, h2 => by cases b <;> simp [lt] at h1 h2
  | [], _, _ :: _, _, _ => rfl
  | a :: s, [], _, h1, _ => by simp [lt] at h1
  | a :: s, b :: t, [], _, h2 => by simp [lt] at h2
  | a :: s, b :: t, c :: u, h1, h2 => by
      unfold lt at h1 h2 ⊢
      split at h1
      · split at h2
        · rw [if_pos (by omega)]
        · split at h2
          · subst_vars; rw [if_pos (by assumption)]
          · cases h2
      · split at h1
        · subst_vars
          split at h2
          · rw [if_pos (by assumption)]
          · split at h2
            · subst_vars
              rw [if_neg (by omega), if_pos rfl]
              exact lt_trans _ _ _ h1 h2
            · cases h2
        · cases h1

theorem lt_total : ∀ a b, lt a b = true ∨ a = b ∨ lt b a = true
  | [], [] => .inr (.inl rfl)
  | [], _ :: _ => .inl rfl
  | _ :: _, [] => .inr (.inr rfl)
  | a :: s, b :: t => by
      rcases Nat.lt_trichotomy a.toNat b.toNat with h | h | h
      · left; simp [lt, h]
      · have : a = b := Char.toNat_inj.mp h
        subst this
        rcases lt_total s t with h | h | h
        · left; simp [lt, h]
        · right; left; rw [h]
        · right; right; simp [lt, h]
      · right; right; simp [lt, h]

/-- The order of strings -/
def order : Order := ⟨lt, lt_irrefl, lt_trans, lt_total⟩

def targets : List Target := [⟨"//b".toList, ["x.h".toList, "y.h".toList], ["f".toList], none⟩,
  ⟨"//a".toList, ["x.h".toList], [], some "a".toList⟩, ⟨"//b".toList, [], ["g".toList], none⟩]

theorem run : ∃ M, parseTargets order .empty targets = some M ∧ M.headers "x.h".toList = some "//a".toList ∧
    M.headers "y.h".toList = some "//b".toList ∧ M.headers "z.h".toList = none ∧
    M.features "//b".toList = ["g".toList, "f".toList] ∧ M.crates "//a".toList = some "a".toList := by
  have h : (parseTargets order .empty targets).isSome = true := by decide +kernel
  obtain ⟨M, hM⟩ := Option.isSome_iff_exists.mp h
  have e (A : Type) (g : Maps → A) : (parseTargets order .empty targets).map g = some (g M) := by rw [hM]; rfl
  have k1 : ((parseTargets order .empty targets).map fun M => M.headers "x.h".toList) = some (some "//a".toList) := by
    decide +kernel
  have k2 : ((parseTargets order .empty targets).map fun M => M.headers "y.h".toList) = some (some "//b".toList) := by
    decide +kernel
  have k3 : ((parseTargets order .empty targets).map fun M => M.headers "z.h".toList) = some none := by
    decide +kernel
  have k4 : ((parseTargets order .empty targets).map fun M => M.features "//b".toList) =
      some ["g".toList, "f".toList] := by decide +kernel
  have k5 : ((parseTargets order .empty targets).map fun M => M.crates "//a".toList) = some (some "a".toList) := by
    decide +kernel
  rw [e] at k1 k2 k3 k4 k5
  exact ⟨M, hM, Option.some.inj k1, Option.some.inj k2, Option.some.inj k3, Option.some.inj k4, Option.some.inj k5⟩

example : parseTargets order .empty [⟨"//b".toList, [[]], [], none⟩] = none := rfl

end Verif.Cmd.Example

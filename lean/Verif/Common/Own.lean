/-!
# Owned heap objects

A memory of objects at addresses `1, 2, …`, each owned by one owner of type `ι`; `R` relates what an owner is meant to
have (of type `β`) to what is in memory (of type `α`).  Used by `UniqPtr`; no code is modelled here.
-/

namespace Verif.Own

def upd {α : Type} (f : Nat → Option α) (k : Nat) (v : Option α) : Nat → Option α := fun n => if n = k then v else f n

def updO {ι α : Type} [DecidableEq ι] (f : ι → Option α) (k : ι) (v : Option α) : ι → Option α :=
  fun n => if n = k then v else f n

/-- Memory is in order. -/
structure Good {ι α β : Type} (R : β → α → Prop) (heap : Nat → Option α) (next : Nat) (deleted : List Nat)
    (ow : ι → Option Nat) (ao : ι → Option β) : Prop where
  same : ∀ o, ao o = none ↔ ow o = none
  val : ∀ o x p, ao o = some x → ow o = some p → ∃ b, heap p = some b ∧ R x b
  inj : ∀ o o' p, ow o = some p → ow o' = some p → o = o'
  noLeak : ∀ p b, heap p = some b → ∃ o, ow o = some p
  bound : ∀ p b, heap p = some b → 1 ≤ p ∧ p < next
  nodup : deleted.Nodup
  dead : ∀ p ∈ deleted, (1 ≤ p ∧ p < next) ∧ heap p = none
  all : ∀ p, 1 ≤ p → p < next → heap p = none → p ∈ deleted
  pos : 1 ≤ next

variable {ι α β : Type} [DecidableEq ι] {R : β → α → Prop} {heap : Nat → Option α} {next : Nat} {deleted : List Nat}
  {ow : ι → Option Nat} {ao : ι → Option β}

theorem good_alloc (g : Good R heap next deleted ow ao) {o : ι} (ho : ow o = none) {x : β} {b : α}
    (hx : R x b) :
    Good R (upd heap next (some b)) (next + 1) deleted (updO ow o (some next)) (updO ao o (some x)) := by
  have hfree : heap next = none := by
    cases h : heap next with
    | none => rfl
    | some b => exact absurd (g.bound _ _ h).2 (by omega)
  have hne : ∀ o' p, ow o' = some p → p ≠ next := by
    rintro o' p h rfl
    cases ha : ao o' with
    | none => rw [(g.same o').1 ha] at h; simp at h
    | some y =>
        obtain ⟨b, hb, -⟩ := g.val o' y _ ha h
        rw [hfree] at hb; simp at hb
  refine ⟨?_, ?_, ?_, ?_, ?_, g.nodup, ?_, ?_, by have := g.pos; omega⟩
  · intro o'
    unfold updO
    split
    · simp
    · exact g.same o'
  · intro o' y p h1 h2
    unfold updO at h1 h2
    unfold upd
    split at h1
    · rename_i he
      rw [if_pos he] at h2
      simp only [Option.some.injEq] at h1 h2
      subst h1 h2
      exact ⟨b, by simp, hx⟩
    · rename_i he
      rw [if_neg he] at h2
      rw [if_neg (hne _ _ h2)]
      exact g.val o' y p h1 h2
  · intro o1 o2 p h1 h2
    unfold updO at h1 h2
    split at h1 <;> split at h2
    · simp_all
    · simp only [Option.some.injEq] at h1; exact absurd h1.symm (hne _ _ h2)
    · simp only [Option.some.injEq] at h2; exact absurd h2.symm (hne _ _ h1)
    · exact g.inj _ _ _ h1 h2
  · intro p b' h
    unfold upd at h
    split at h
    · rename_i he; exact ⟨o, by simp [updO, he]⟩
    · obtain ⟨o', ho'⟩ := g.noLeak p b' h
      refine ⟨o', ?_⟩
      unfold updO
      rw [if_neg]
      · exact ho'
      · rintro rfl; rw [ho] at ho'; simp at ho'
  · intro p b' h
    unfold upd at h
    split at h
    · have := g.pos; omega
    · have := g.bound _ _ h; omega
  · intro p hp
    obtain ⟨h1, h2⟩ := g.dead p hp
    refine ⟨by omega, ?_⟩
    unfold upd
    rw [if_neg (by omega)]
    exact h2
  · intro p h1 h2 h3
    unfold upd at h3
    split at h3
    · simp at h3
    · exact g.all p h1 (by omega) h3

theorem good_live (g : Good R heap next deleted ow ao) {o : ι} {p : Nat} (ho : ow o = some p) :
    ∃ x b, ao o = some x ∧ heap p = some b ∧ R x b := by
  cases ha : ao o with
  | none => rw [(g.same o).1 ha] at ho; simp at ho
  | some x =>
      obtain ⟨b, hb, hx⟩ := g.val o x p ha ho
      exact ⟨x, b, rfl, hb, hx⟩

theorem good_delete (g : Good R heap next deleted ow ao) {o : ι} {p : Nat} (ho : ow o = some p) :
    Good R (upd heap p none) next (deleted ++ [p]) (updO ow o none) (updO ao o none) := by
  obtain ⟨x, b, -, hb, -⟩ := good_live g ho
  have hother : ∀ o' q, o' ≠ o → ow o' = some q → q ≠ p := by
    rintro o' q hne h rfl
    exact hne (g.inj _ _ _ h ho)
  refine ⟨?_, ?_, ?_, ?_, ?_, ?_, ?_, ?_, g.pos⟩
  · intro o'
    unfold updO
    split
    · simp
    · exact g.same o'
  · intro o' y q h1 h2
    unfold updO at h1 h2
    split at h1
    · simp at h1
    · rename_i he
      rw [if_neg he] at h2
      unfold upd
      rw [if_neg (hother _ _ he h2)]
      exact g.val _ _ _ h1 h2
  · intro o1 o2 q h1 h2
    unfold updO at h1 h2
    split at h1
    · simp at h1
    · split at h2
      · simp at h2
      · exact g.inj _ _ _ h1 h2
  · intro q b' h
    unfold upd at h
    split at h
    · simp at h
    · rename_i hq
      obtain ⟨o', ho'⟩ := g.noLeak q b' h
      refine ⟨o', ?_⟩
      unfold updO
      rw [if_neg]
      · exact ho'
      · rintro rfl; rw [ho] at ho'; simp only [Option.some.injEq] at ho'; exact hq ho'.symm
  · intro q b' h
    unfold upd at h
    split at h
    · simp at h
    · exact g.bound _ _ h
  · rw [List.nodup_append]
    refine ⟨g.nodup, by simp, ?_⟩
    intro q hq r hr
    simp only [List.mem_singleton] at hr
    subst hr
    rintro rfl
    rw [(g.dead _ hq).2] at hb; simp at hb
  · intro q hq
    simp only [List.mem_append, List.mem_singleton] at hq
    unfold upd
    rcases hq with hq | rfl
    · obtain ⟨h1, h2⟩ := g.dead q hq
      refine ⟨h1, ?_⟩
      split
      · rfl
      · exact h2
    · exact ⟨g.bound _ _ hb, by simp⟩
  · intro q h1 h2 h3
    unfold upd at h3
    simp only [List.mem_append, List.mem_singleton]
    split at h3
    · rename_i h; exact .inr h
    · exact .inl (g.all q h1 h2 h3)

theorem good_move (g : Good R heap next deleted ow ao) {o o' : ι} {p : Nat} {x : β} (ho : ow o = some p)
    (ha : ao o = some x) (ho' : ow o' = none) :
    Good R heap next deleted (updO (updO ow o none) o' (some p)) (updO (updO ao o none) o' (some x)) := by
  have hne : o ≠ o' := by rintro rfl; rw [ho] at ho'; simp at ho'
  refine ⟨?_, ?_, ?_, ?_, g.bound, g.nodup, g.dead, g.all, g.pos⟩
  · intro k
    unfold updO
    split
    · simp
    · split
      · simp
      · exact g.same k
  · intro k y q h1 h2
    unfold updO at h1 h2
    split at h1
    · rename_i he
      rw [if_pos he] at h2
      simp only [Option.some.injEq] at h1 h2
      subst h1 h2
      exact g.val _ _ _ ha ho
    · rename_i he
      rw [if_neg he] at h2
      split at h1
      · simp at h1
      · rename_i he'
        rw [if_neg he'] at h2
        exact g.val _ _ _ h1 h2
  · intro k1 k2 q h1 h2
    unfold updO at h1 h2
    split at h1 <;> split at h2
    · simp_all
    · split at h2
      · simp at h2
      · rename_i hk
        simp only [Option.some.injEq] at h1
        subst h1
        exact absurd (g.inj _ _ _ h2 ho) hk
    · split at h1
      · simp at h1
      · rename_i hk
        simp only [Option.some.injEq] at h2
        subst h2
        exact absurd (g.inj _ _ _ h1 ho) hk
    · split at h1
      · simp at h1
      · split at h2
        · simp at h2
        · exact g.inj _ _ _ h1 h2
  · intro q b h
    obtain ⟨k, hk⟩ := g.noLeak q b h
    by_cases hko : k = o
    · subst hko
      rw [ho] at hk
      simp only [Option.some.injEq] at hk
      subst hk
      exact ⟨o', by simp [updO]⟩
    · refine ⟨k, ?_⟩
      unfold updO
      rw [if_neg, if_neg hko]
      · exact hk
      · rintro rfl; rw [ho'] at hk; simp at hk

theorem good_set (g : Good R heap next deleted ow ao) {o : ι} {p : Nat} (ho : ow o = some p) {b : α} {x : β}
    (hx : R x b) :
    Good R (upd heap p (some b)) next deleted ow (updO ao o (some x)) := by
  obtain ⟨y, b0, hy, hb, -⟩ := good_live g ho
  refine ⟨?_, ?_, g.inj, ?_, ?_, g.nodup, ?_, ?_, g.pos⟩
  · intro k
    unfold updO
    split
    · rename_i he; subst he; simp [ho]
    · exact g.same k
  · intro k z q h1 h2
    unfold updO at h1
    unfold upd
    split at h1
    · rename_i he
      subst he
      rw [ho] at h2
      simp only [Option.some.injEq] at h1 h2
      subst h1 h2
      exact ⟨b, by simp, hx⟩
    · rename_i he
      rw [if_neg]
      · exact g.val _ _ _ h1 h2
      · rintro rfl; exact he (g.inj _ _ _ h2 ho)
  · intro q b' h
    unfold upd at h
    split at h
    · rename_i hq; subst hq; exact ⟨o, ho⟩
    · exact g.noLeak _ _ h
  · intro q b' h
    unfold upd at h
    split at h
    · rename_i hq; subst hq; exact g.bound _ _ hb
    · exact g.bound _ _ h
  · intro q hq
    obtain ⟨h1, h2⟩ := g.dead q hq
    refine ⟨h1, ?_⟩
    unfold upd
    rw [if_neg]
    · exact h2
    · rintro rfl; rw [hb] at h2; simp at h2
  · intro q h1 h2 h3
    unfold upd at h3
    split at h3
    · simp at h3
    · exact g.all _ h1 h2 h3

end Verif.Own

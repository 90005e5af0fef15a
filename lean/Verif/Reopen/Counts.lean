import Verif.Reopen.Tree
import Mathlib.Data.List.Induction

/-
The last block of a namespace (part of C167).
-/

namespace Verif.Reopen

theorem counts_snoc (bs : List (Nat × Nat)) (b : Nat × Nat) : counts (bs ++ [b]) = (counts bs).add b := by
  unfold counts
  rw [List.foldl_append]
  rfl

theorem count_eq (c : Nat) (bs : List (Nat × Nat)) :
    (counts bs).count c = (bs.filter fun e => e.2 == c).length := by
  induction bs using List.reverseRecOn with
  | nil => rfl
  | append_singleton bs b ih =>
    rw [counts_snoc, Counts.add, List.filter_append, List.length_append]
    by_cases h : c = b.2
    · subst h
      simp [ih]
    · simp only
      rw [if_neg h, ih]
      simp [Ne.symm h]

theorem idx_none {i : Nat} (bs : List (Nat × Nat)) : i ∉ bs.map Prod.fst → (counts bs).idx i = none := by
  induction bs using List.reverseRecOn with
  | nil => intro _; rfl
  | append_singleton bs b ih =>
    intro h
    rw [List.map_append, List.mem_append, not_or] at h
    rw [counts_snoc, Counts.add]
    simp only
    rw [if_neg, ih h.1]
    intro he
    exact h.2 (by simp [he])

theorem isLast_eq {i c : Nat} (bs : List (Nat × Nat)) : (bs.map Prod.fst).Nodup → (i, c) ∈ bs →
    isLast (counts bs) i c = some (decide ((bs.filter fun e => e.2 == c).getLast? = some (i, c))) := by
  intro hn hm
  obtain ⟨l, r, rfl⟩ := List.append_of_mem hm
  have hidx : ∀ r : List (Nat × Nat), i ∉ r.map Prod.fst →
      (counts (l ++ (i, c) :: r)).idx i = some ((l.filter fun e => e.2 == c).length) := by
    intro r
    induction r using List.reverseRecOn with
    | nil =>
      intro _
      rw [show l ++ [(i, c)] = l ++ [(i, c)] from rfl, counts_snoc, Counts.add]
      simp only [if_true]
      rw [count_eq]
    | append_singleton r b ih =>
      intro h
      rw [List.map_append, List.mem_append, not_or] at h
      rw [← List.cons_append, ← List.append_assoc, counts_snoc, Counts.add]
      simp only
      rw [if_neg, ih h.1]
      intro he
      exact h.2 (by simp [he])
  have hi : i ∉ r.map Prod.fst := by
    rw [List.map_append, List.nodup_append] at hn
    have := hn.2.1
    rw [List.map_cons, List.nodup_cons] at this
    exact this.1
  rw [isLast, hidx r hi, count_eq]
  have hf : (l ++ (i, c) :: r).filter (fun e => e.2 == c) =
      l.filter (fun e => e.2 == c) ++ (i, c) :: r.filter (fun e => e.2 == c) := by simp
  rw [hf]
  simp only
  rw [if_neg (by simp)]
  congr 1
  rw [Bool.eq_iff_iff]
  simp only [List.length_append, List.length_cons, beq_iff_eq, decide_eq_true_eq]
  rcases hr : r.filter fun e => e.2 == c with _ | ⟨z, zs⟩ <;> rw [hr]
  · simp
  · constructor
    · intro h
      simp only [List.length_cons] at h
      omega
    · intro h
      exfalso
      rw [List.getLast?_append, List.getLast?_cons_cons] at h
      have hne : (z :: zs) ≠ [] := nofun
      rw [List.getLast?_eq_some_getLast hne] at h
      have hz : (i, c) ∈ z :: zs := by
        have := List.getLast_mem hne
        simp only [Option.some_or, Option.some.injEq] at h
        rwa [h] at this
      rw [← hr] at hz
      exact hi (List.mem_map.mpr ⟨(i, c), (List.mem_filter.mp hz).1, rfl⟩)

mutual
theorem Item.blocks_every : ∀ x : Item, (x.blocks.map fun b => (b.2.1, b.2.2.1)).Sublist x.every
  | .leaf _ _ => .slnil
  | .ns i c own ok d ch => by
      rw [Item.blocks, Item.every]
      cases own with
      | false => exact List.nil_sublist _
      | true =>
        cases ok with
        | false => exact List.nil_sublist _
        | true =>
          simp only [Bool.and_self, if_true, List.map_cons, List.map_map, List.singleton_append]
          exact .cons_cons _ (blocksL_every ch)
theorem blocksL_every : ∀ L : List Item, ((blocksL L).map fun b => (b.2.1, b.2.2.1)).Sublist (everyL L)
  | [] => .slnil
  | x :: xs => by
      rw [blocksL, everyL, List.map_append]
      exact x.blocks_every.append (blocksL_every xs)
end

mutual
theorem Item.every_ids : ∀ x : Item, (x.every.map Prod.fst).Sublist x.ids
  | .leaf _ _ => List.nil_sublist _
  | .ns i c own ok d ch => by
      rw [Item.every, Item.ids]
      cases own with
      | false => exact .cons _ (everyL_ids ch)
      | true => exact .cons_cons _ (everyL_ids ch)
theorem everyL_ids : ∀ L : List Item, ((everyL L).map Prod.fst).Sublist (idsL L)
  | [] => .slnil
  | x :: xs => by
      rw [everyL, idsL, List.map_append]
      exact x.every_ids.append (everyL_ids xs)
end

theorem getLast_sublist {α : Type} {a : α} : ∀ {l m : List α}, l.Sublist m → m.Nodup → a ∈ l → m.getLast? = some a →
    l.getLast? = some a := by
  intro l m hs hn ha hl
  rcases hm : m.reverse with _ | ⟨z, zs⟩
  · rw [List.reverse_eq_nil_iff] at hm; subst hm; cases hl
  · have hm' : m = zs.reverse ++ [z] := by
      have := congrArg List.reverse hm
      simpa using this
    subst hm'
    rw [List.getLast?_append] at hl
    simp only [List.getLast?_singleton, Option.some_or, Option.some.injEq] at hl
    subst hl
    rw [List.sublist_append_iff] at hs
    obtain ⟨l1, l2, rfl, h1, h2⟩ := hs
    have h2 : l2 = [] ∨ l2 = [z] := by
      cases h2 with
      | cons _ h => left; exact List.sublist_nil.mp h
      | cons_cons _ h => right; rw [List.sublist_nil.mp h]
    rcases h2 with rfl | rfl
    · exfalso
      rw [List.append_nil] at ha
      rw [List.nodup_append] at hn
      exact hn.2.2 z (h1.subset ha) z (List.mem_singleton.mpr rfl) rfl
    · rw [List.getLast?_append]; rfl

end Verif.Reopen

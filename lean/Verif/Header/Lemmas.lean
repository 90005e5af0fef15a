import Verif.Header.Model
import Verif.Toposort.Props

namespace Verif.Header
open Verif Verif.Toposort

/-! ## Sets -/

theorem mem_insertSet (x y : Nat) (l : List Nat) : y ∈ insertSet x l ↔ y = x ∨ y ∈ l := by
  induction l with
  | nil => simp [insertSet]
  | cons z zs ih =>
      simp only [insertSet]
      split
      · simp
      · split
        · rename_i h; subst h; simp
        · simp [ih]; tauto

theorem mem_unionSet (a b : List Nat) (y : Nat) : y ∈ unionSet a b ↔ y ∈ a ∨ y ∈ b := by
  unfold unionSet
  induction b generalizing a with
  | nil => simp
  | cons x xs ih => simp [ih, mem_insertSet]; tauto

theorem sorted_insertSet (x : Nat) (l : List Nat) (h : l.Pairwise (· < ·)) :
    (insertSet x l).Pairwise (· < ·) := by
  induction l with
  | nil => simp [insertSet]
  | cons y ys ih =>
      rw [List.pairwise_cons] at h
      simp only [insertSet]
      split
      · rename_i hxy
        rw [List.pairwise_cons]
        refine ⟨fun z hz => ?_, List.pairwise_cons.2 h⟩
        rcases List.mem_cons.1 hz with rfl | hz
        · exact hxy
        · exact Nat.lt_trans hxy (h.1 z hz)
      · split
        · exact List.pairwise_cons.2 h
        · rename_i h1 h2
          rw [List.pairwise_cons]
          refine ⟨fun z hz => ?_, ih h.2⟩
          rcases (mem_insertSet _ _ _).1 hz with rfl | hz
          · omega
          · exact h.1 z hz

theorem sorted_unionSet (a b : List Nat) (h : a.Pairwise (· < ·)) : (unionSet a b).Pairwise (· < ·) := by
  unfold unionSet
  induction b generalizing a with
  | nil => simpa
  | cons x xs ih => exact ih _ (sorted_insertSet x a h)

/-- A sorted set is determined by its elements. -/
theorem sorted_ext {a b : List Nat} (ha : a.Pairwise (· < ·)) (hb : b.Pairwise (· < ·))
    (h : ∀ x, x ∈ a ↔ x ∈ b) : a = b := by
  have na : a.Nodup := ha.imp (fun h => Nat.ne_of_lt h)
  have nb : b.Nodup := hb.imp (fun h => Nat.ne_of_lt h)
  have hp := (List.perm_ext_iff_of_nodup na nb).2 h
  exact List.Perm.eq_of_pairwise (fun x y _ _ h1 h2 => by omega) ha hb hp

theorem mem_extendSet (a b : List Nat) (y : Nat) : y ∈ extendSet a b ↔ y ∈ a ∨ y ∈ b := by
  unfold extendSet
  induction b generalizing a with
  | nil => simp
  | cons x xs ih =>
      simp only [List.foldl_cons, ih, List.mem_cons]
      split
      · rename_i h
        constructor
        · rintro (h | h)
          · exact .inl h
          · exact .inr (.inr h)
        · rintro (h | rfl | h)
          · exact .inl h
          · exact .inl ‹_›
          · exact .inr h
      · simp; tauto

theorem nodup_extendSet (a b : List Nat) (h : a.Nodup) : (extendSet a b).Nodup := by
  unfold extendSet
  induction b generalizing a with
  | nil => simpa
  | cons x xs ih =>
      simp only [List.foldl_cons]
      apply ih
      split
      · exact h
      · rename_i hx
        rw [List.nodup_append]
        refine ⟨h, by simp, ?_⟩
        intro y hy z hz
        simp only [List.mem_singleton] at hz
        subst hz
        rintro rfl
        exact hx hy

theorem insertBy_perm (key : α → Nat) (x : α) (l : List α) : (insertBy key x l).Perm (x :: l) := by
  induction l with
  | nil => exact .refl _
  | cons y ys ih =>
      simp only [insertBy]
      split
      · exact .refl _
      · exact (ih.cons y).trans (.swap x y ys)

theorem sortBy_perm (key : α → Nat) (l : List α) : (sortBy key l).Perm l := by
  induction l with
  | nil => exact .refl _
  | cons x l ih => exact (insertBy_perm key x _).trans (ih.cons x)

theorem mem_sortBy (key : α → Nat) (l : List α) (x : α) : x ∈ sortBy key l ↔ x ∈ l :=
  (sortBy_perm key l).mem_iff

theorem insertBy_sorted (key : α → Nat) (x : α) (l : List α) (h : l.Pairwise fun a b => key a ≤ key b) :
    (insertBy key x l).Pairwise fun a b => key a ≤ key b := by
  induction l with
  | nil => simp [insertBy]
  | cons y ys ih =>
      rw [List.pairwise_cons] at h
      simp only [insertBy]
      split
      · rename_i hxy
        rw [List.pairwise_cons]
        refine ⟨?_, List.pairwise_cons.2 h⟩
        intro z hz
        rcases List.mem_cons.1 hz with rfl | hz
        · exact hxy
        · exact Nat.le_trans hxy (h.1 z hz)
      · rename_i hxy
        rw [List.pairwise_cons]
        refine ⟨?_, ih h.2⟩
        intro z hz
        rcases List.mem_cons.1 ((insertBy_perm key x ys).mem_iff.1 hz) with rfl | hz
        · omega
        · exact h.1 z hz

theorem sortBy_sorted (key : α → Nat) (l : List α) : (sortBy key l).Pairwise fun a b => key a ≤ key b := by
  induction l with
  | nil => simp [sortBy]
  | cons x l ih => exact insertBy_sorted key x _ ih

theorem insertBy_map (key : β → Nat) (key' : α → Nat) (f : α → β) (x : α) (l : List α)
    (h : ∀ y ∈ x :: l, key (f y) = key' y) : insertBy key (f x) (l.map f) = (insertBy key' x l).map f := by
  induction l with
  | nil => rfl
  | cons y ys ih =>
      simp only [List.map_cons, insertBy]
      rw [h x (by simp), h y (by simp)]
      split
      · rfl
      · rw [ih (fun z hz => h z (by simp only [List.mem_cons] at hz ⊢; tauto))]
        rfl

theorem sortBy_map (key : β → Nat) (key' : α → Nat) (f : α → β) (l : List α)
    (h : ∀ y ∈ l, key (f y) = key' y) : sortBy key (l.map f) = (sortBy key' l).map f := by
  induction l with
  | nil => rfl
  | cons x l ih =>
      have e : sortBy key ((x :: l).map f) = insertBy key (f x) (sortBy key (l.map f)) := rfl
      rw [e, ih fun y hy => h y (by simp [hy])]
      exact insertBy_map key key' f x _ fun y hy => h y (by
        rcases List.mem_cons.1 hy with rfl | hy
        · simp
        · exact List.mem_cons_of_mem _ ((mem_sortBy _ _ _).1 hy))

/-- Sorting by a key that tells the elements apart does not depend on the order of the input. -/
theorem sortBy_eq_of_perm (key : α → Nat) {l m : List α} (h : l.Perm m)
    (hk : ∀ x ∈ l, ∀ y ∈ l, key x = key y → x = y) : sortBy key l = sortBy key m := by
  have hs := sortBy_sorted key
  refine List.Perm.eq_of_pairwise ?_ (hs l) (hs m)
    ((sortBy_perm key l).trans (h.trans (sortBy_perm key m).symm))
  intro a b ha hb h1 h2
  exact hk a ((mem_sortBy _ _ _).1 ha) b (h.symm.subset ((mem_sortBy _ _ _).1 hb)) (by omega)

/-! ## The loop over items -/

/-- All that the items of a list ask for, say and define. -/
structure GInfo (w : Input) (is : List Item) (g : Gather) : Prop where
  ids : g.mains = is.filterMap fun i => i.api.map fun api => (i.id, api.main)
  details : g.details = is.flatMap fun i =>
    i.aliases.map (fun a => detailsPiece w (.alias i.id) i.id a.ns a.using_) ++
    (match i.api with
     | none => []
     | some api => [detailsPiece w (.details (.item i.id)) i.id (w.nsOf i.id) api.details])
  wanted : g.wanted = g.details.flatMap fun p => p.pre.wanted
  includes : ∀ x, x ∈ g.includes ↔ ∃ p ∈ g.details, x ∈ p.pre.includes
  sortedI : g.includes.Pairwise (· < ·)
  rs : g.rs = is.flatMap fun i => (i.api.map Api.rs).getD []
  decls : ∀ x, x ∈ g.decls ↔ ∃ i ∈ is, ∃ api, i.api = some api ∧ x ∈ api.decls
  sortedD : g.decls.Pairwise (· < ·)
  nodup : (g.mains.map Prod.fst).Nodup

/-- The aliases of an item. -/
theorem gatherAlias_fold (w : Input) (d : Nat) (as : List Alias) (g : Gather) :
    let g' := as.foldl (gatherAlias w d) g
    g'.mains = g.mains ∧ g'.rs = g.rs ∧ g'.decls = g.decls ∧
    g'.details = g.details ++ as.map (fun a => detailsPiece w (.alias d) d a.ns a.using_) ∧
    g'.wanted = g.wanted ++ (as.map (fun a => detailsPiece w (.alias d) d a.ns a.using_)).flatMap
      (fun p => p.pre.wanted) ∧
    (∀ x, x ∈ g'.includes ↔ x ∈ g.includes ∨
      ∃ p ∈ as.map (fun a => detailsPiece w (.alias d) d a.ns a.using_), x ∈ p.pre.includes) ∧
    (g.includes.Pairwise (· < ·) → g'.includes.Pairwise (· < ·)) := by
  induction as generalizing g with
  | nil => simp
  | cons a as ih =>
      simp only [List.foldl_cons]
      obtain ⟨h1, h2, h3, h4, h5, h6, h7⟩ := ih (gatherAlias w d g a)
      refine ⟨h1, h2, h3, ?_, ?_, ?_, ?_⟩
      · rw [h4]; simp [gatherAlias]
      · rw [h5]; simp [gatherAlias, detailsPiece]
      · intro x
        rw [h6]
        simp only [gatherAlias, mem_unionSet, List.map_cons, List.mem_cons, exists_eq_or_imp]
        simp only [detailsPiece]
        tauto
      · intro h
        exact h7 (sorted_unionSet _ _ h)

theorem gather_info (w : Input) (is js : List Item) (g g' : Gather) (hg : GInfo w is g)
    (h : gather w g js = .ok g') : GInfo w (is ++ js) g' := by
  induction js generalizing is g with
  | nil =>
      simp only [gather, Except.ok.injEq] at h
      subst h
      simpa using hg
  | cons i js ih =>
      simp only [gather] at h
      split at h
      · cases h
      · rename_i g1 h1
        have key : GInfo w (is ++ [i]) g1 := by
          simp only [gatherItem] at h1
          obtain ⟨a1, a2, a3, a4, a5, a6, a7⟩ := gatherAlias_fold w i.id i.aliases g
          cases hapi : i.api with
          | none =>
              simp only [hapi, Except.ok.injEq] at h1
              subst h1
              refine ⟨?_, ?_, ?_, ?_, a7 hg.sortedI, ?_, ?_, ?_, ?_⟩
              · rw [a1, hg.ids]; simp [hapi]
              · rw [a4, hg.details]; simp [hapi]
              · rw [a5, a4, hg.wanted]; simp
              · intro x
                rw [a6, hg.includes, a4]
                simp only [List.mem_append]
                constructor
                · rintro (⟨p, hp, hx⟩ | ⟨p, hp, hx⟩)
                  · exact ⟨p, .inl hp, hx⟩
                  · exact ⟨p, .inr hp, hx⟩
                · rintro ⟨p, hp | hp, hx⟩
                  · exact .inl ⟨p, hp, hx⟩
                  · exact .inr ⟨p, hp, hx⟩
              · rw [a2, hg.rs]; simp [hapi]
              · intro x
                rw [a3, hg.decls]
                simp [hapi]
              · rw [a3]; exact hg.sortedD
              · rw [a1]; exact hg.nodup
          | some api =>
              simp only [hapi] at h1
              split at h1
              · cases h1
              · rename_i hnew
                simp only [Except.ok.injEq] at h1
                subst h1
                refine ⟨?_, ?_, ?_, ?_, sorted_unionSet _ _ (a7 hg.sortedI), ?_, ?_,
                  sorted_unionSet _ _ (by rw [a3]; exact hg.sortedD), ?_⟩
                · simp only [gatherApi]; rw [a1, hg.ids]; simp [hapi]
                · simp only [gatherApi]; rw [a4, hg.details]; simp [hapi]
                · simp only [gatherApi]; rw [a5, a4, hg.wanted]; simp [detailsPiece]
                · intro x
                  simp only [gatherApi, mem_unionSet]
                  rw [a6, hg.includes, a4]
                  simp only [List.mem_append, List.mem_singleton]
                  constructor
                  · rintro ((⟨p, hp, hx⟩ | ⟨p, hp, hx⟩) | hx)
                    · exact ⟨p, .inl (.inl hp), hx⟩
                    · exact ⟨p, .inl (.inr hp), hx⟩
                    · exact ⟨_, .inr rfl, hx⟩
                  · rintro ⟨p, (hp | hp) | rfl, hx⟩
                    · exact .inl (.inl ⟨p, hp, hx⟩)
                    · exact .inl (.inr ⟨p, hp, hx⟩)
                    · exact .inr hx
                · simp only [gatherApi]; rw [a2, hg.rs]; simp [hapi]
                · intro x
                  simp only [gatherApi, mem_unionSet]
                  rw [a3, hg.decls]
                  constructor
                  · rintro (⟨j, hj, api', e, hx⟩ | hx)
                    · exact ⟨j, by simp [hj], api', e, hx⟩
                    · exact ⟨i, by simp, api, hapi, hx⟩
                  · rintro ⟨j, hj, api', e, hx⟩
                    rcases List.mem_append.1 hj with hj | hj
                    · exact .inl ⟨j, hj, api', e, hx⟩
                    · simp only [List.mem_singleton] at hj
                      subst hj
                      rw [hapi] at e
                      injection e with e
                      subst e
                      exact .inr hx
                · simp only [gatherApi]
                  rw [a1] at hnew ⊢
                  rw [List.map_append, List.nodup_append]
                  refine ⟨hg.nodup, by simp, ?_⟩
                  intro a ha b hb
                  simp only [List.map_cons, List.map_nil, List.mem_singleton] at hb
                  subst hb
                  rintro rfl
                  exact hnew ha
        have := ih (is ++ [i]) g1 key h
        simpa using this

theorem gather_start (w : Input) : GInfo w [] ⟨[], [], [], [], [], []⟩ := by
  constructor <;> simp

/-- The loop fails only for duplicates. -/
theorem gather_ok (w : Input) (is : List Item) (g : Gather)
    (hd : (g.mains.map Prod.fst ++ (is.filter fun i => i.api.isSome).map Item.id).Nodup) :
    ∃ g', gather w g is = .ok g' := by
  induction is generalizing g with
  | nil => exact ⟨g, rfl⟩
  | cons i is ih =>
      simp only [gather, gatherItem]
      obtain ⟨a1, -⟩ := gatherAlias_fold w i.id i.aliases g
      cases hapi : i.api with
      | none =>
          simp only
          apply ih
          rw [a1]
          simpa [hapi] using hd
      | some api =>
          simp only
          have : i.id ∉ (i.aliases.foldl (gatherAlias w i.id) g).mains.map Prod.fst := by
            rw [a1]
            simp only [List.filter_cons, hapi, Option.isSome_some, if_true, List.map_cons] at hd
            rw [List.nodup_append] at hd
            intro hc
            exact hd.2.2 _ hc _ (by simp) rfl
          rw [if_neg this]
          simp only
          apply ih
          simp only [gatherApi]
          rw [a1]
          simpa [hapi] using hd

end Verif.Header

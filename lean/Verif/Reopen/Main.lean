import Verif.Reopen.Gen

/-
One module for each namespace (C167).
-/

namespace Verif.Reopen

def GItem.isCan : GItem → Bool
  | .canonical .. => true
  | _ => false

def Item.depT : Item → Option String
  | .leaf _ _ => none
  | .ns _ _ _ _ d _ => d

def part (x : Item) : List Nat × Option String := (x.kids'.map Item.id, x.depT)

mutual
theorem Item.contr_can : ∀ x : Item, (x.contr.filter fun e => e.2.isCan) = x.blks.map fun b => (b.2.canon, can (part b.2))
  | .leaf i own => by cases own <;> simp [Item.contr, Item.blks, GItem.isCan]
  | .ns i c own ok d ch => by
      rw [Item.contr, Item.blks]
      cases own with
      | false => rfl
      | true =>
        cases ok with
        | false => rfl
        | true =>
          simp only [if_true, Bool.and_self]
          rw [List.filter_cons, List.filter_append, contrL_can ch, List.map_cons, List.map_map]
          by_cases h : i = c
          · simp [h, GItem.isCan, can, part, Item.canon, Item.kids', Item.depT, under, Function.comp_def]
          · simp [h, GItem.isCan, can, part, Item.canon, Item.kids', Item.depT, under, Function.comp_def]
theorem contrL_can : ∀ L : List Item, ((contrL L).filter fun e => e.2.isCan) = (blksL L).map fun b => (b.2.canon, can (part b.2))
  | [] => rfl
  | x :: xs => by rw [contrL, blksL, List.filter_append, List.map_append, x.contr_can, contrL_can xs]
end

mutual
theorem Item.contr_non : ∀ x : Item, ((x.contr.filter fun e => !e.2.isCan).map Prod.fst).Sublist x.ids
  | .leaf i own => by cases own <;> simp [Item.contr, Item.ids, GItem.isCan]
  | .ns i c own ok d ch => by
      rw [Item.contr, Item.ids]
      cases own with
      | false => simp
      | true =>
        cases ok with
        | false => simp [GItem.isCan]
        | true =>
          simp only [if_true]
          by_cases h : i = c
          · simp only [h, if_true, List.nil_append, List.filter_cons, GItem.isCan]
            exact .cons _ (contrL_non ch)
          · simp only [h, if_false, List.cons_append, List.nil_append, List.filter_cons, GItem.isCan]
            exact .cons_cons _ (contrL_non ch)
theorem contrL_non : ∀ L : List Item, (((contrL L).filter fun e => !e.2.isCan).map Prod.fst).Sublist (idsL L)
  | [] => .slnil
  | x :: xs => by
      rw [contrL, idsL, List.filter_append, List.map_append]
      exact x.contr_non.append (contrL_non xs)
end

/-- A declaration and what it contributes under its own number. -/
inductive Kind : Item → GItem → Prop
  | leaf (i : Nat) : Kind (.leaf i true) .leaf
  | comment (i c : Nat) (d : Option String) (ch : List Item) : Kind (.ns i c true false d ch) .comment
  | non (i c : Nat) (d : Option String) (ch : List Item) (h : i ≠ c) : Kind (.ns i c true true d ch) .nonCanonical

theorem Kind.not_can {x : Item} {g : GItem} (h : Kind x g) : g.isCan = false := by cases h <;> rfl

mutual
theorem Item.contr_mem : ∀ (x : Item) {k : Nat} {g : GItem}, g.isCan = false → ((k, g) ∈ x.contr ↔ ∃ y ∈ x.seen, y.id = k ∧ Kind y g)
  | .leaf i own, k, g, hg => by
      cases own with
      | false =>
        simp only [Item.contr, Item.seen, List.mem_singleton]
        constructor
        · intro h; cases h
        · rintro ⟨y, rfl, -, h⟩; cases h
      | true =>
        simp only [Item.contr, Item.seen, List.mem_singleton, if_true]
        constructor
        · intro h
          cases h
          exact ⟨_, rfl, rfl, .leaf _⟩
        · rintro ⟨y, rfl, rfl, h⟩
          cases h
          rfl
  | .ns i c own ok d ch, k, g, hg => by
      simp only [Item.contr, Item.seen]
      cases own with
      | false =>
        simp only [Bool.false_and, Bool.false_eq_true, if_false, List.mem_singleton]
        constructor
        · intro h; cases h
        · rintro ⟨y, rfl, -, h⟩; cases h
      | true =>
        cases ok with
        | false =>
          simp only [Bool.and_false, Bool.false_eq_true, if_false, if_true, List.mem_singleton]
          constructor
          · intro h
            cases h
            exact ⟨_, rfl, rfl, .comment ..⟩
          · rintro ⟨y, rfl, rfl, h⟩
            cases h
            rfl
        | true =>
          simp only [Bool.and_self, if_true, List.mem_cons, List.mem_append, exists_eq_or_imp]
          rw [contrL_mem ch hg]
          constructor
          · rintro (h | h | h)
            · cases h; cases hg
            · by_cases he : i = c
              · simp [he] at h
              · simp only [he, if_false, List.mem_singleton] at h
                cases h
                exact .inl ⟨rfl, .non _ _ _ _ he⟩
            · exact .inr h
          · rintro (⟨rfl, h⟩ | h)
            · cases h with
              | non _ _ _ _ he => exact .inr (.inl (by simp [he, Item.id]))
            · exact .inr (.inr h)
theorem contrL_mem : ∀ (L : List Item) {k : Nat} {g : GItem}, g.isCan = false → ((k, g) ∈ contrL L ↔ ∃ y ∈ seenL L, y.id = k ∧ Kind y g)
  | [], k, g, _ => by simp [contrL, seenL]
  | x :: xs, k, g, hg => by
      rw [contrL, seenL, List.mem_append, x.contr_mem hg, contrL_mem xs hg]
      simp only [List.mem_append, or_and_right, exists_or]
end

mutual
theorem Item.blks_seen : ∀ (x : Item) {b : List Nat × Item}, b ∈ x.blks → b.2 ∈ x.seen ∧ b.2.isOk = true
  | .leaf _ _, b, h => by cases h
  | .ns i c own ok d ch, b, h => by
      rw [Item.blks] at h
      rw [Item.seen]
      by_cases hb : (own && ok) = true
      · rw [if_pos hb] at h ⊢
        rcases List.mem_cons.mp h with rfl | h
        · exact ⟨List.mem_cons_self .., hb⟩
        · obtain ⟨z, hz, rfl⟩ := List.mem_map.mp h
          have := blksL_seen ch hz
          exact ⟨List.mem_cons_of_mem _ this.1, this.2⟩
      · rw [if_neg hb] at h; cases h
theorem blksL_seen : ∀ (L : List Item) {b : List Nat × Item}, b ∈ blksL L → b.2 ∈ seenL L ∧ b.2.isOk = true
  | x :: xs, b, h => by
      rw [blksL, List.mem_append] at h
      rw [seenL, List.mem_append]
      rcases h with h | h
      · exact ⟨.inl (x.blks_seen h).1, (x.blks_seen h).2⟩
      · exact ⟨.inr (blksL_seen xs h).1, (blksL_seen xs h).2⟩
end

mutual
theorem Item.seen_blks : ∀ (x : Item) {y : Item}, y ∈ x.seen → y.isOk = true → ∃ p, (p, y) ∈ x.blks
  | .leaf _ _, y, h, hy => by
      rw [Item.seen, List.mem_singleton] at h
      subst h
      cases hy
  | .ns i c own ok d ch, y, h, hy => by
      rw [Item.seen] at h
      rw [Item.blks]
      rcases List.mem_cons.mp h with rfl | h
      · exact ⟨[], by rw [Item.isOk] at hy; rw [if_pos hy]; exact List.mem_cons_self ..⟩
      · by_cases hb : (own && ok) = true
        · rw [if_pos hb] at h ⊢
          obtain ⟨p, hp⟩ := seenL_blks ch h hy
          exact ⟨c :: p, List.mem_cons_of_mem _ (List.mem_map.mpr ⟨_, hp, rfl⟩)⟩
        · rw [if_neg hb] at h; cases h
theorem seenL_blks : ∀ (L : List Item) {y : Item}, y ∈ seenL L → y.isOk = true → ∃ p, (p, y) ∈ blksL L
  | x :: xs, y, h, hy => by
      rw [seenL, List.mem_append] at h
      rw [blksL]
      rcases h with h | h
      · obtain ⟨p, hp⟩ := x.seen_blks h hy
        exact ⟨p, List.mem_append_left _ hp⟩
      · obtain ⟨p, hp⟩ := seenL_blks xs h hy
        exact ⟨p, List.mem_append_right _ hp⟩
end

mutual
theorem Item.seen_ids : ∀ (x : Item), (x.seen.map Item.id).Sublist x.ids
  | .leaf i own => by simp [Item.seen, Item.ids, Item.id]
  | .ns i c own ok d ch => by
      rw [Item.seen, Item.ids, List.map_cons]
      refine .cons_cons _ ?_
      split
      · exact seenL_ids ch
      · exact List.nil_sublist _
theorem seenL_ids : ∀ (L : List Item), ((seenL L).map Item.id).Sublist (idsL L)
  | [] => .slnil
  | x :: xs => by
      rw [seenL, idsL, List.map_append]
      exact x.seen_ids.append (seenL_ids xs)
end

theorem mem_keys {k : Nat} {L : List Item} (h : k ∈ keys (contrL L)) :
    (∃ y ∈ seenL L, y.id = k) ∨ ∃ b ∈ blksL L, b.2.canon = k := by
  obtain ⟨⟨k', g⟩, he, rfl⟩ := List.mem_map.mp h
  by_cases hg : g.isCan = true
  · right
    have : (k', g) ∈ (contrL L).filter fun e => e.2.isCan := List.mem_filter.mpr ⟨he, hg⟩
    rw [contrL_can] at this
    obtain ⟨b, hb, hbe⟩ := List.mem_map.mp this
    exact ⟨b, hb, congrArg Prod.fst hbe⟩
  · left
    obtain ⟨y, hy, hk, -⟩ := (contrL_mem L (by simpa using hg)).mp he
    exact ⟨y, hy, hk⟩

theorem nodup_entries {k : Nat} : ∀ {C : List (Nat × GItem)}, (keys C).Nodup → (entries k C).length ≤ 1
  | [], _ => by simp [entries]
  | e :: C, h => by
      have h' := List.nodup_cons.mp h
      rw [entries_cons]
      by_cases he : e.1 = k
      · rw [entries_nil (by rw [← he]; exact h'.1)]
        simp [he]
      · simpa [he] using nodup_entries h'.2

theorem mer_non {k : Nat} {L : List Item} (hn : (idsL L).Nodup) (h : ∀ g ∈ entries k (contrL L), g.isCan = false) :
    (entries k (contrL L)).length ≤ 1 := by
  have : entries k (contrL L) = entries k ((contrL L).filter fun e => !e.2.isCan) := by
    unfold entries
    rw [List.filter_filter]
    congr 1
    refine List.filter_congr fun e he => ?_
    by_cases hk : e.1 = k
    · have := h e.2 (mem_entries.mpr (by rw [← hk]; exact he))
      simp [hk, this]
    · simp [hk]
  rw [this]
  exact nodup_entries (hn.sublist (contrL_non L))

theorem entries_can {k : Nat} {L : List Item} (h : ∀ g ∈ entries k (contrL L), g.isCan = true) :
    entries k (contrL L) = (((blksL L).filter fun b => b.2.canon == k).map fun b => part b.2).map can := by
  have : entries k (contrL L) = entries k ((contrL L).filter fun e => e.2.isCan) := by
    unfold entries
    rw [List.filter_filter]
    congr 1
    refine List.filter_congr fun e he => ?_
    by_cases hk : e.1 = k
    · have := h e.2 (mem_entries.mpr (by rw [← hk]; exact he))
      simp [hk, this]
    · simp [hk]
  rw [this, contrL_can, entries, List.filter_map, List.map_map, List.map_map]
  rfl

mutual
theorem Item.quiet_blks : ∀ x : Item, x.quiet → x.blks = []
  | .leaf _ _, _ => rfl
  | .ns i c own ok d ch, h => by
      rw [Item.quiet] at h
      rw [Item.blks, h.1, Bool.and_false]
      rfl
theorem quietL_blks : ∀ L : List Item, quietL L → blksL L = []
  | [], _ => rfl
  | x :: xs, h => by
      rw [quietL] at h
      rw [blksL, x.quiet_blks h.1, quietL_blks xs h.2]
      rfl
end

theorem quiet_mer {L : List Item} (hn : (idsL L).Nodup) (h : quietL L) (k : Nat) : Mer (entries k (contrL L)) := by
  refine .inl (mer_non hn fun g hg => ?_)
  by_contra hc
  have : (k, g) ∈ (contrL L).filter fun e => e.2.isCan := List.mem_filter.mpr ⟨mem_entries.mp hg, by simpa using hc⟩
  rw [contrL_can, quietL_blks L h] at this
  cases this

mutual
theorem Item.quiet_fresh : ∀ x : Item, x.ids.Nodup → x.quiet → x.fresh
  | .leaf _ _, _, _ => by rw [Item.fresh]; trivial
  | .ns i c own ok d ch, hn, h => by
      rw [Item.quiet] at h
      rw [Item.ids, List.nodup_cons] at hn
      rw [Item.fresh, h.1]
      cases own with
      | false => trivial
      | true => exact ⟨quietL_fresh ch hn.2 h.2, quiet_mer hn.2 h.2⟩
theorem quietL_fresh : ∀ L : List Item, (idsL L).Nodup → quietL L → freshL L
  | [], _, _ => by rw [freshL]; trivial
  | x :: xs, hn, h => by
      rw [quietL] at h
      rw [idsL, List.nodup_append] at hn
      rw [freshL]
      exact ⟨x.quiet_fresh hn.1 h.1, quietL_fresh xs hn.2.1 h.2⟩
end

/-- `L` is in the module `p` of the bindings for `T`. -/
structure Loc (T : List Item) (p : List Nat) (L : List Item) : Prop where
  blk : ∀ b ∈ blksL L, (p ++ b.1, b.2) ∈ blksL T
  seen : ∀ x ∈ seenL L, x ∈ seenL T
  ids : (idsL L).Nodup

/-- `Wf` in terms of `blksL` -/
structure Wf' (T : List Item) : Prop where
  place : ∀ x ∈ blksL T, ∀ y ∈ blksL T, x.2.canon = y.2.canon → x.1 = y.1
  canon : ∀ x ∈ seenL T, ∀ b ∈ blksL T, x.id = b.2.canon → x.isOk = true ∧ x.id = x.canon
  quiet : ∀ i c d ch, .ns i c true false d ch ∈ seenL T → quietL ch

theorem Wf.wf' {pre tops post : List Item} (h : Wf pre tops post) : Wf' tops where
  place x hx y hy := h.place (info x) (by rw [blocksL_blks]; exact List.mem_map.mpr ⟨x, hx, rfl⟩)
    (info y) (by rw [blocksL_blks]; exact List.mem_map.mpr ⟨y, hy, rfl⟩)
  canon x hx b hb he := by
    obtain ⟨d, ch, rfl⟩ := h.canon x hx (info b) (by rw [blocksL_blks]; exact List.mem_map.mpr ⟨b, hb, rfl⟩) he
    exact ⟨rfl, rfl⟩
  quiet := h.quiet

theorem Loc.kids {T : List Item} {p : List Nat} {i c : Nat} {d : Option String} {ch xs : List Item}
    (h : Loc T p (.ns i c true true d ch :: xs)) : Loc T (p ++ [c]) ch where
  blk b hb := by
    have := h.blk (under c b) (by
      rw [blksL, Item.blks]
      exact List.mem_append_left _ (List.mem_cons_of_mem _ (List.mem_map.mpr ⟨b, hb, rfl⟩)))
    rw [List.append_assoc]
    exact this
  seen x hx := h.seen x (by
    rw [seenL, Item.seen]
    exact List.mem_append_left _ (List.mem_cons_of_mem _ hx))
  ids := by
    have := h.ids
    rw [idsL, Item.ids, List.cons_append, List.nodup_cons, List.nodup_append] at this
    exact this.2.1

theorem Loc.tail {T : List Item} {p : List Nat} {x : Item} {xs : List Item} (h : Loc T p (x :: xs)) : Loc T p xs where
  blk b hb := h.blk b (by rw [blksL]; exact List.mem_append_right _ hb)
  seen y hy := h.seen y (by rw [seenL]; exact List.mem_append_right _ hy)
  ids := by
    have := h.ids
    rw [idsL, List.nodup_append] at this
    exact this.2.1

theorem Loc.kids_ids {T : List Item} {p : List Nat} {i c : Nat} {own ok : Bool} {d : Option String} {ch xs : List Item}
    (h : Loc T p (.ns i c own ok d ch :: xs)) : i ∉ idsL ch ∧ (idsL ch).Nodup := by
  have := h.ids
  rw [idsL, Item.ids, List.cons_append, List.nodup_cons, List.nodup_append, List.mem_append, not_or] at this
  exact ⟨this.1.1, this.2.1⟩

mutual
theorem fresh_of {T : List Item} (w : Wf' T) : ∀ (x : Item) {p : List Nat} {xs : List Item}, Loc T p (x :: xs) → x.fresh
  | .leaf _ _, _, _, _ => by rw [Item.fresh]; trivial
  | .ns i c own ok d ch, p, xs, h => by
      rw [Item.fresh]
      cases own with
      | false => trivial
      | true =>
        have hx : Item.ns i c true ok d ch ∈ seenL T := h.seen _ (by
          rw [seenL]; exact List.mem_append_left _ (self_seen _))
        cases ok with
        | false =>
          have hq := w.quiet i c d ch hx
          exact ⟨quietL_fresh ch h.kids_ids.2 hq, quiet_mer h.kids_ids.2 hq⟩
        | true =>
          have hb : (p, Item.ns i c true true d ch) ∈ blksL T := by
            have := h.blk ([], .ns i c true true d ch) (by
              rw [blksL, Item.blks]
              exact List.mem_append_left _ (List.mem_cons_self ..))
            rwa [List.append_nil] at this
          have hk := h.kids
          have hno : ∀ b ∈ blksL ch, b.2.canon ≠ c := by
            intro b hbc he
            have := w.place _ hb _ (hk.blk b hbc) he.symm
            have := congrArg List.length this
            simp at this
          refine ⟨fun hi => ?_, fun hc => ?_, freshL_of w ch hk⟩
          · rcases mem_keys hi with ⟨y, hy, he⟩ | ⟨b, hbc, he⟩
            · exact h.kids_ids.1 (he ▸ (seenL_ids ch).subset (List.mem_map.mpr ⟨y, hy, rfl⟩))
            · have := (w.canon _ hx _ (hk.blk b hbc) he.symm).2
              simp only [Item.id, Item.canon] at this
              exact hno b hbc (he.trans this)
          · rcases mem_keys hc with ⟨y, hy, he⟩ | ⟨b, hbc, he⟩
            · have := w.canon _ (hk.seen y hy) _ hb he
              obtain ⟨q, hq⟩ := seenL_blks ch hy this.1
              exact hno _ hq (this.2.symm.trans he)
            · exact hno b hbc he
theorem freshL_of {T : List Item} (w : Wf' T) : ∀ (L : List Item) {p : List Nat}, Loc T p L → freshL L
  | [], _, _ => by rw [freshL]; trivial
  | x :: xs, _, h => by
      rw [freshL]
      exact ⟨fresh_of w x h, freshL_of w xs h.tail⟩
end

theorem can_of {T : List Item} (w : Wf' T) {b : List Nat × Item} (hb : b ∈ blksL T) :
    ∀ g ∈ entries b.2.canon (contrL T), g.isCan = true := by
  intro g hg
  by_contra hc
  obtain ⟨y, hy, hk, hK⟩ := (contrL_mem T (by simpa using hc)).mp (mem_entries.mp hg)
  have := w.canon y hy b hb hk
  cases hK with
  | leaf => cases this.1
  | comment => cases this.1
  | non i c d ch h => exact h this.2

theorem mer_of {T : List Item} (w : Wf' T) (hn : (idsL T).Nodup) (k : Nat) : Mer (entries k (contrL T)) := by
  by_cases h : ∃ b ∈ blksL T, b.2.canon = k
  · obtain ⟨b, hb, rfl⟩ := h
    exact .inr ⟨_, entries_can (can_of w hb)⟩
  · refine .inl (mer_non hn fun g hg => ?_)
    by_contra hc
    have : (k, g) ∈ (contrL T).filter fun e => e.2.isCan := List.mem_filter.mpr ⟨mem_entries.mp hg, by simpa using hc⟩
    rw [contrL_can] at this
    obtain ⟨b, hb, hbe⟩ := List.mem_map.mp this
    exact h ⟨b, hb, congrArg Prod.fst hbe⟩

/-- The table for the whole target. -/
theorem gen_all {T : List Item} (w : Wf' T) (hn : (idsL T).Nodup) : ∃ s, genL [] T = some s ∧ Tab s (contrL T) := by
  have hl : Loc T [] T := ⟨fun b hb => by rw [List.nil_append]; exact hb, fun _ h => h, hn⟩
  have := genL_tab T [] [] ⟨by simp [keys], fun _ => .none⟩ (freshL_of w T hl) (fun k => by
    rw [List.nil_append]; exact mer_of w hn k)
  rwa [List.nil_append] at this

theorem Rep.single {o : Option GItem} {g : GItem} (h : Rep o [g]) (hg : g.isCan = false) : o = some g := by
  generalize hl : [g] = l at h
  cases h with
  | none => cases hl
  | one g' => cases hl; rfl
  | many ps is d h =>
    match ps, hl with
    | p :: ps, hl =>
      rw [List.map_cons, List.cons.injEq] at hl
      rw [hl.1] at hg
      cases hg

theorem look_kind {T : List Item} (w : Wf' T) (hn : (idsL T).Nodup) {s : Snip} (ht : Tab s (contrL T)) {x : Item}
    (hx : x ∈ seenL T) {g : GItem} (hk : Kind x g) : look s x.id = some g := by
  have hm : g ∈ entries x.id (contrL T) := mem_entries.mpr ((contrL_mem T hk.not_can).mpr ⟨x, hx, rfl, hk⟩)
  have hr := ht.rep x.id
  have h1 : (entries x.id (contrL T)).length ≤ 1 := by
    rcases mer_of w hn x.id with h | ⟨ps, h⟩
    · exact h
    · rw [h] at hm
      obtain ⟨p, -, rfl⟩ := List.mem_map.mp hm
      cases hk.not_can
  match he : entries x.id (contrL T), hm, h1 with
  | [g'], hm, _ =>
    rw [List.mem_singleton] at hm
    subst hm
    rw [he] at hr
    exact hr.single hk.not_can

theorem look_other {T : List Item} (w : Wf' T) (hn : (idsL T).Nodup) {s : Snip} (ht : Tab s (contrL T)) {x : Item}
    (hx : x ∈ seenL T) (hno : x.contr = []) : look s x.id = none := by
  refine look_none.mpr (ht.keys fun hk => ?_)
  rcases mem_keys hk with _ | ⟨b, hb, he⟩
  · obtain ⟨⟨k, g⟩, hm, hke⟩ := List.mem_map.mp hk
    simp only at hke
    subst hke
    by_cases hg : g.isCan = true
    · have : (x.id, g) ∈ (contrL T).filter fun e => e.2.isCan := List.mem_filter.mpr ⟨hm, hg⟩
      rw [contrL_can] at this
      obtain ⟨b, hb, hbe⟩ := List.mem_map.mp this
      have := (w.canon x hx b hb (congrArg Prod.fst hbe).symm).1
      cases x with
      | leaf => cases this
      | ns i c own ok d ch =>
        simp only [Item.isOk, Bool.and_eq_true] at this
        rw [Item.contr, this.1, this.2] at hno
        cases hno
    · obtain ⟨y, hy, hyk, hK⟩ := (contrL_mem T (by simpa using hg)).mp hm
      have : y = x := inj_of_map (hn.sublist (seenL_ids T)) hy hx hyk
      subst this
      cases hK <;> simp [Item.contr] at hno
  · have := (w.canon x hx b hb he.symm).1
    cases x with
    | leaf => cases this
    | ns i c own ok d ch =>
      simp only [Item.isOk, Bool.and_eq_true] at this
      rw [Item.contr, this.1, this.2] at hno
      cases hno

mutual
theorem Item.canonOf_none : ∀ (x : Item) {k : Nat}, k ∉ x.ids → x.canonOf k = none
  | .leaf _ _, _, _ => rfl
  | .ns i c own ok d ch, k, h => by
      rw [Item.ids, List.mem_cons, not_or] at h
      rw [Item.canonOf, if_neg (Ne.symm h.1), canonOfL_none ch h.2]
theorem canonOfL_none : ∀ (L : List Item) {k : Nat}, k ∉ idsL L → canonOfL k L = none
  | [], _, _ => rfl
  | x :: xs, k, h => by
      rw [idsL, List.mem_append, not_or] at h
      rw [canonOfL, x.canonOf_none h.1, canonOfL_none xs h.2]
      rfl
end

mutual
theorem Item.canonOf_eq : ∀ (x : Item) {i c : Nat} {own ok : Bool} {d : Option String} {ch : List Item}, x.ids.Nodup →
    .ns i c own ok d ch ∈ x.seen → x.canonOf i = some c
  | .leaf _ _, _, _, _, _, _, _, _, h => by simp [Item.seen] at h
  | .ns j e own' ok' d' ch', i, c, own, ok, d, ch, hn, h => by
      rw [Item.seen] at h
      rw [Item.ids, List.nodup_cons] at hn
      rw [Item.canonOf]
      rcases List.mem_cons.mp h with h | h
      · cases h
        rw [if_pos rfl]
      · by_cases hb : (own' && ok') = true
        · rw [if_pos hb] at h
          rw [if_neg, canonOfL_eq ch' hn.2 h]
          rintro rfl
          exact hn.1 ((seenL_ids ch').subset (List.mem_map.mpr ⟨_, h, rfl⟩))
        · rw [if_neg hb] at h; cases h
theorem canonOfL_eq : ∀ (L : List Item) {i c : Nat} {own ok : Bool} {d : Option String} {ch : List Item}, (idsL L).Nodup →
    .ns i c own ok d ch ∈ seenL L → canonOfL i L = some c
  | x :: xs, i, c, own, ok, d, ch, hn, h => by
      rw [idsL, List.nodup_append] at hn
      rw [seenL, List.mem_append] at h
      rw [canonOfL]
      rcases h with h | h
      · rw [x.canonOf_eq hn.1 h]; rfl
      · rw [x.canonOf_none, canonOfL_eq xs hn.2.1 h]
        · rfl
        · intro hi
          exact hn.2.2 i hi i ((seenL_ids xs).subset (List.mem_map.mpr ⟨_, h, rfl⟩)) rfl
end

theorem lev_seen : ∀ (p : List Nat) (L M : List Item), (∀ x ∈ M, x ∈ seenL L) → ∀ x ∈ lev p M, x ∈ seenL L
  | [], _, _, h => h
  | d :: q, L, M, h => lev_seen q L (merged d M) (seenL_sub h d)

theorem lev_ids : ∀ (p : List Nat) (L : List Item), (idsL (lev p L)).Sublist (idsL L)
  | [], _ => .refl _
  | d :: q, L => (lev_ids q (merged d L)).trans (merged_sub d L)

/-- All blocks of a namespace are in the same list of declarations. -/
theorem blks_lev {T : List Item} (w : Wf' T) {p : List Nat} {c : Nat} {x : Item} (hx : x ∈ lev p T)
    (hb : x.isBlk c = true) : ((blksL T).filter fun b => b.2.canon == c) =
      ((lev p T).filter (Item.isBlk c)).map fun y => (p, y) := by
  have hxp : (p, x) ∈ blksL T ∧ x.canon = c := by
    have hok : x.isOk = true ∧ x.canon = c := by
      cases x with
      | leaf => cases hb
      | ns i c' own ok d ch =>
        simp only [Item.isBlk, Bool.and_eq_true, beq_iff_eq] at hb
        simp [Item.isOk, Item.canon, hb]
    refine ⟨?_, hok.2⟩
    have : (p, x) ∈ at' p (blksL T) := by
      rw [at_lev]
      exact List.mem_map.mpr ⟨x, List.mem_filter.mpr ⟨hx, hok.1⟩, rfl⟩
    exact (List.mem_filter.mp this).1
  have h1 : ((blksL T).filter fun b => b.2.canon == c) = (at' p (blksL T)).filter fun b => b.2.canon == c := by
    unfold at'
    rw [List.filter_filter]
    refine List.filter_congr fun b hb' => ?_
    by_cases hc : b.2.canon = c
    · have := w.place _ hb' _ hxp.1 (hc.trans hxp.2.symm)
      simp [hc, this]
    · simp [hc]
  rw [h1, at_lev, List.filter_map, List.filter_filter]
  congr 1
  refine List.filter_congr fun y _ => ?_
  cases y <;> simp [Item.isBlk, Item.isOk, Item.canon, Bool.and_comm]

theorem idsL_append (L M : List Item) : idsL (L ++ M) = idsL L ++ idsL M := by
  rw [idsL_eq, idsL_eq, idsL_eq, List.flatMap_append]

theorem everyL_append (L M : List Item) : everyL (L ++ M) = everyL L ++ everyL M := by
  rw [everyL_eq, everyL_eq, everyL_eq, List.flatMap_append]

theorem Wf.nodup {pre tops post : List Item} (h : Wf pre tops post) : (idsL tops).Nodup := by
  have := h.ids
  rw [idsL_append, idsL_append] at this
  exact this.sublist ((List.sublist_append_right ..).trans (List.sublist_append_left ..))

/-- The representative of a namespace is its last block in the list of declarations. -/
theorem last_lev {pre T post : List Item} (h : Wf pre T post) {p : List Nat} {i c : Nat} {d : Option String}
    {ch : List Item} (hx : .ns i c true true d ch ∈ lev p T) :
    isLast (counts (everyL (pre ++ T ++ post))) i c =
      some (decide ((((lev p T).filter (Item.isBlk c)).map Item.id).getLast? = some i)) := by
  have hb : (Item.ns i c true true d ch).isBlk c = true := by simp [Item.isBlk]
  have hB := blks_lev h.wf' hx hb
  have hnE : ((everyL (pre ++ T ++ post)).map Prod.fst).Nodup := h.ids.sublist (everyL_ids _)
  have hsub : ((blocksL T).map fun b => (b.2.1, b.2.2.1)).Sublist (everyL (pre ++ T ++ post)) := by
    refine (blocksL_every T).trans ?_
    rw [everyL_append, everyL_append]
    exact (List.sublist_append_right ..).trans (List.sublist_append_left ..)
  have hmem : (p, Item.ns i c true true d ch) ∈ blksL T := by
    have : (p, Item.ns i c true true d ch) ∈ (blksL T).filter fun b => b.2.canon == c := by
      rw [hB]
      exact List.mem_map.mpr ⟨_, List.mem_filter.mpr ⟨hx, hb⟩, rfl⟩
    exact (List.mem_filter.mp this).1
  have hmem' : info (p, Item.ns i c true true d ch) ∈ blocksL T := by
    rw [blocksL_blks]; exact List.mem_map.mpr ⟨_, hmem, rfl⟩
  have hin : (i, c) ∈ everyL (pre ++ T ++ post) := hsub.subset (List.mem_map.mpr ⟨_, hmem', rfl⟩)
  rw [isLast_eq _ hnE hin]
  congr 1
  obtain ⟨x, hxb, hxc, hl⟩ := h.last _ hmem'
  simp only [info, Item.canon] at hxc hl
  have hl2 : (((lev p T).filter (Item.isBlk c)).map Item.id).getLast? = some x.2.1 := by
    have hs2 : ((((blocksL T).map fun b => (b.2.1, b.2.2.1))).filter fun e => e.2 == c).Sublist
        ((everyL (pre ++ T ++ post)).filter fun e => e.2 == c) := hsub.filter _
    have := getLast_sublist hs2 (nodup_of_map (f := Prod.fst) (hnE.sublist ((List.filter_sublist).map _)))
      (List.mem_filter.mpr ⟨List.mem_map.mpr ⟨x, hxb, by rw [hxc]⟩, by simp⟩) hl
    have heq : ((((blocksL T).map fun b => (b.2.1, b.2.2.1))).filter fun e => e.2 == c).map Prod.fst =
        ((lev p T).filter (Item.isBlk c)).map Item.id := by
      rw [blocksL_blks, List.map_map, List.filter_map, List.map_map]
      have : List.filter ((fun e : Nat × Nat => e.2 == c) ∘ (fun b : List Nat × Nat × Nat × Bool => (b.2.1, b.2.2.1)) ∘ info) (blksL T) =
        ((blksL T).filter fun b => b.2.canon == c) := rfl
      rw [this, hB, List.map_map]
      rfl
    rw [← heq, List.getLast?_map, this]
    rfl
  rw [hl, hl2]
  simp

/-- Tables and trees give the same modules. -/
theorem render_eq {pre T post : List Item} (h : Wf pre T post) {s : Snip} (ht : Tab s (contrL T)) :
    ∀ (f : Nat) (p : List Nat), depthL (lev p T) < f →
      render s (counts (everyL (pre ++ T ++ post))) (fun k => (canonOfL k T).getD 0) f ((lev p T).map Item.id) =
        some (rT f (lev p T))
  | 0, _, hf => by omega
  | f + 1, p, hf => by
      have hseen : ∀ x ∈ lev p T, x ∈ seenL T := lev_seen p T T (self_seenL T)
      have w := h.wf'
      have hn := h.nodup
      suffices hM : ∀ M : List Item, (∀ x ∈ M, x ∈ lev p T) →
          render s (counts (everyL (pre ++ T ++ post))) (fun k => (canonOfL k T).getD 0) (f + 1) (M.map Item.id) =
            some (M.flatMap (one (lev p T) (rT f))) from hM _ fun _ h => h
      intro M
      induction M with
      | nil => intro _; rw [List.map_nil, render]; rfl
      | cons x M ih =>
        intro hM
        have hxl := hM x (List.mem_cons_self ..)
        have hxs := hseen x hxl
        rw [List.map_cons, render, ih fun y hy => hM y (List.mem_cons_of_mem _ hy)]
        simp only
        rw [List.flatMap_cons]
        cases x with
        | leaf i own =>
          cases own with
          | false =>
            rw [look_other w hn ht hxs (by simp [Item.contr])]
            simp [one]
          | true =>
            rw [look_kind w hn ht hxs (.leaf i)]
            simp [one, Item.id]
        | ns i c own ok d ch =>
          cases own with
          | false =>
            rw [look_other w hn ht hxs (by simp [Item.contr])]
            simp [one]
          | true =>
            cases ok with
            | false =>
              rw [look_kind w hn ht hxs (.comment ..)]
              simp [one, Item.id]
            | true =>
              have hb : (Item.ns i c true true d ch).isBlk c = true := by simp [Item.isBlk]
              have hcan : (canonOfL i T).getD 0 = c := by rw [canonOfL_eq T hn hxs]; rfl
              obtain ⟨q, hq⟩ := seenL_blks T hxs rfl
              have hre := ht.rep c
              have hBc : ((blksL T).filter fun b => b.2.canon == c) ≠ [] :=
                List.ne_nil_of_mem (List.mem_filter.mpr ⟨hq, by simp [Item.canon]⟩)
              have hcc := can_of w hq
              simp only [Item.canon] at hcc
              rw [entries_can hcc] at hre
              have hlc : ∃ is dd, look s c = some (.canonical is dd) ∧
                  is = (merged c (lev p T)).map Item.id ∧ dd.isSome = (lev p T).any fun x => x.isBlk c && x.depr := by
                rcases hl : look s c with _ | g
                · rw [hl] at hre
                  exfalso
                  generalize hll : (((blksL T).filter fun b => b.2.canon == c).map fun b => part b.2).map can = l at hre
                  cases hre
                  rw [List.map_eq_nil_iff, List.map_eq_nil_iff] at hll
                  exact hBc hll
                · rw [hl] at hre
                  obtain ⟨is, dd, rfl, hi, hd⟩ := hre.canon
                  refine ⟨is, dd, rfl, ?_, ?_⟩
                  · rw [hi, blks_lev w hxl hb, List.map_map]
                    clear * -
                    unfold merged
                    induction lev p T with
                    | nil => rfl
                    | cons y ys ih =>
                      rw [List.filter_cons, List.flatMap_cons, List.map_append, ← ih]
                      cases y with
                      | leaf => rfl
                      | ns j e own ok dep ch =>
                        rw [Item.isBlk, Item.kids]
                        by_cases hh : (own && ok && e == c) = true
                        · rw [if_pos hh, if_pos hh, List.map_cons, List.flatMap_cons]
                          rfl
                        · rw [if_neg hh, if_neg hh]
                          rfl
                  · rw [hd, blks_lev w hxl hb, List.map_map, List.any_map, any_map_filter]
                    congr 1
                    funext y
                    cases y <;> rfl
              obtain ⟨is, dd, hlc, his, hdd⟩ := hlc
              have hli : ∃ g, look s i = some g ∧ g ≠ .leaf ∧ g ≠ .comment := by
                by_cases hic : i = c
                · rw [hic, hlc]; exact ⟨_, rfl, nofun, nofun⟩
                · exact ⟨_, look_kind w hn ht hxs (.non i c d ch hic), nofun, nofun⟩
              obtain ⟨g, hg, hg1, hg2⟩ := hli
              have hgo : one (lev p T) (rT f) (.ns i c true true d ch) =
                  if (((lev p T).filter (Item.isBlk c)).map Item.id).getLast? = some i then
                    [.mod c ((lev p T).any fun x => x.isBlk c && x.depr) (rT f (merged c (lev p T)))] else [] := by
                simp [one]
              rw [hgo]
              simp only [Item.id]
              rw [hg, hcan]
              have hlast := last_lev h hxl
              have hdep : depthL (lev (p ++ [c]) T) < f := by
                rw [lev_snoc]
                have h1 := depth_le hxl
                rw [Item.depth] at h1
                have := merged_depth (d := c) (L := lev p T) (f := depthL (lev p T) - 1) (by omega)
                omega
              have ihf := render_eq h ht f (p ++ [c]) hdep
              rw [lev_snoc, ← his] at ihf
              by_cases hlt : (((lev p T).filter (Item.isBlk c)).map Item.id).getLast? = some i
              · rw [decide_eq_true hlt] at hlast
                rw [if_pos hlt]
                cases g with
                | leaf => exact absurd rfl hg1
                | comment => exact absurd rfl hg2
                | nonCanonical => simp only [hlast, hlc, ihf, hdd]; rfl
                | canonical => simp only [hlast, hlc, ihf, hdd]; rfl
              · rw [decide_eq_false hlt] at hlast
                rw [if_neg hlt]
                cases g with
                | leaf => exact absurd rfl hg1
                | comment => exact absurd rfl hg2
                | nonCanonical => simp only [hlast]; rfl
                | canonical => simp only [hlast]; rfl

theorem rT_stable : ∀ (f g : Nat) (L : List Item), depthL L < f → depthL L < g → rT f L = rT g L
  | 0, _, _, h, _ => by omega
  | _, 0, _, _, h => by omega
  | f + 1, g + 1, L, hf, hg => by
      rw [rT, rT]
      refine flatMap_congr' fun x hx => ?_
      cases x with
      | leaf => rfl
      | ns i c own ok d ch =>
        have h1 := depth_le hx
        rw [Item.depth] at h1
        have := merged_depth (d := c) (L := L) (f := depthL L - 1) (by omega)
        rw [one, one, rT_stable f g (merged c L) (by omega) (by omega)]

theorem nodup_of_at {α : Type} [DecidableEq α] : ∀ {l : List (List Nat × α)},
    (∀ p, (at' p l).length ≤ 1) → (l.map Prod.fst).Nodup
  | [], _ => List.nodup_nil
  | x :: xs, h => by
      rw [List.map_cons, List.nodup_cons]
      constructor
      · intro hx
        obtain ⟨y, hy, he⟩ := List.mem_map.mp hx
        have h1 := h x.1
        have h2 : y ∈ at' x.1 xs := List.mem_filter.mpr ⟨hy, by simp [he]⟩
        have h3 : at' x.1 (x :: xs) = x :: at' x.1 xs := by simp [at']
        rw [h3, List.length_cons] at h1
        have := List.length_pos_of_mem h2
        omega
      · refine nodup_of_at fun p => Nat.le_trans (List.Sublist.length_le ?_) (h p)
        exact (List.sublist_cons_self x xs).filter _

/-- C167: The generator does not fail; each declaration of the target is exactly once in the bindings, in the module of
its namespace and in order, also if the namespace is opened several times; and there is exactly one module for each
namespace, which is deprecated if and only if one of its blocks is. -/
theorem reopened_namespaces {pre tops post : List Item} (h : Wf pre tops post) :
    ∃ n out, (∀ fuel, n ≤ fuel → bindings pre tops post fuel = some out) ∧
      (∀ p, at' p (leavesL out) = at' p (decls tops)) ∧
      ((modsL out).map Prod.fst).Nodup ∧
      ∀ p d, (p, d) ∈ modsL out ↔ (∃ e, (p, e) ∈ spaces tops) ∧ (d = true ↔ (p, true) ∈ spaces tops) := by
  obtain ⟨s, hs, ht⟩ := gen_all h.wf' h.nodup
  refine ⟨depthL tops + 1, rT (depthL tops + 1) tops, fun fuel hf => ?_, rT_leaves _ _ (by omega) h.nodup, ?_, ?_⟩
  · have := render_eq h ht fuel [] (by rw [lev]; omega)
    rw [lev] at this
    rw [bindings, hs]
    simp only [this]
    rw [rT_stable fuel (depthL tops + 1) tops (by omega) (by omega)]
  · refine nodup_of_at fun p => ?_
    rw [rT_mods _ _ (by omega) h.nodup]
    split <;> simp
  · intro p d
    have hm : (p, d) ∈ modsL (rT (depthL tops + 1) tops) ↔ (p, d) ∈ at' p (modsL (rT (depthL tops + 1) tops)) := by
      simp [at', List.mem_filter]
    have hs : ∀ e, (p, e) ∈ spaces tops ↔ (p, e) ∈ at' p (spaces tops) := by
      intro e
      simp [at', List.mem_filter]
    have hp : ∀ x ∈ at' p (spaces tops), x.1 = p := by
      intro x hx
      have := (List.mem_filter.mp hx).2
      simpa using this
    rw [hm, rT_mods _ _ (by omega) h.nodup]
    simp only [hs]
    by_cases he : at' p (spaces tops) = []
    · simp [he]
    · rw [if_neg he, List.mem_singleton, Prod.mk.injEq]
      have hany : (at' p (spaces tops)).any (fun x => x.2) = true ↔ (p, true) ∈ at' p (spaces tops) := by
        rw [List.any_eq_true]
        constructor
        · rintro ⟨x, hx, hx2⟩
          have : (p, true) = x := Prod.ext (hp x hx).symm hx2.symm
          rw [this]
          exact hx
        · intro hx
          exact ⟨_, hx, rfl⟩
      rw [← hany]
      have hex : ∃ e, (p, e) ∈ at' p (spaces tops) := by
        obtain ⟨x, hx⟩ := List.exists_mem_of_ne_nil _ he
        refine ⟨x.2, ?_⟩
        rw [show (p, x.2) = x from Prod.ext (hp x hx).symm rfl]
        exact hx
      simp only [true_and, hex]
      cases d <;> cases (at' p (spaces tops)).any (fun x => x.2) <;> simp

end Verif.Reopen

import Verif.Reopen.Model

/-
Modules made from trees instead of tables, and that they are what is wanted (part of C167).
-/

namespace Verif.Reopen

theorem decls_eq : ∀ L : List Item, decls L = L.flatMap Item.decl
  | [] => rfl
  | x :: xs => by rw [decls, decls_eq xs, List.flatMap_cons]

theorem blocksL_eq : ∀ L : List Item, blocksL L = L.flatMap Item.blocks
  | [] => rfl
  | x :: xs => by rw [blocksL, blocksL_eq xs, List.flatMap_cons]

theorem everyL_eq : ∀ L : List Item, everyL L = L.flatMap Item.every
  | [] => rfl
  | x :: xs => by rw [everyL, everyL_eq xs, List.flatMap_cons]

theorem idsL_eq : ∀ L : List Item, idsL L = L.flatMap Item.ids
  | [] => rfl
  | x :: xs => by rw [idsL, idsL_eq xs, List.flatMap_cons]

theorem seenL_eq : ∀ L : List Item, seenL L = L.flatMap Item.seen
  | [] => rfl
  | x :: xs => by rw [seenL, seenL_eq xs, List.flatMap_cons]

theorem leavesL_eq : ∀ L : List Out, leavesL L = L.flatMap Out.leaves
  | [] => rfl
  | x :: xs => by rw [leavesL, leavesL_eq xs, List.flatMap_cons]

theorem modsL_eq : ∀ L : List Out, modsL L = L.flatMap Out.mods
  | [] => rfl
  | x :: xs => by rw [modsL, modsL_eq xs, List.flatMap_cons]

/-- A supported block of the namespace `d` in the target. -/
def Item.isBlk (d : Nat) : Item → Bool
  | .leaf _ _ => false
  | .ns _ c own ok _ _ => own && ok && c == d

def Item.depr : Item → Bool
  | .leaf _ _ => false
  | .ns _ _ _ _ dep _ => dep.isSome

def Item.kids (d : Nat) : Item → List Item
  | .leaf _ _ => []
  | .ns _ c own ok _ ch => if own && ok && c == d then ch else []

/-- The children of all blocks of a namespace. -/
def merged (d : Nat) (L : List Item) : List Item := L.flatMap (Item.kids d)

/-- What becomes of one declaration. -/
def one (L : List Item) (r : List Item → List Out) : Item → List Out
  | .leaf i own => if own then [.item i] else []
  | .ns i c own ok _ _ =>
      if own then
        if ok then
          if ((L.filter (Item.isBlk c)).map Item.id).getLast? = some i then
            [.mod c (L.any fun x => x.isBlk c && x.depr) (r (merged c L))]
          else []
        else [.item i]
      else []

def rT : Nat → List Item → List Out
  | 0, _ => []
  | f + 1, L => L.flatMap (one L (rT f))

/-! ### Lists -/

theorem flatMap_one {α β : Type} {g : α → List β} {a : α} : ∀ {L : List α}, a ∈ L → L.Nodup →
    (∀ x ∈ L, x ≠ a → g x = []) → L.flatMap g = g a
  | x :: xs, ha, hn, hg => by
      rw [List.flatMap_cons]
      rw [List.nodup_cons] at hn
      by_cases hx : x = a
      · subst hx
        have : xs.flatMap g = [] := by
          rw [List.flatMap_eq_nil_iff]
          intro y hy
          exact hg y (List.mem_cons_of_mem _ hy) (by rintro rfl; exact hn.1 hy)
        rw [this, List.append_nil]
      · rw [hg x (List.mem_cons_self ..) hx, List.nil_append]
        refine flatMap_one ?_ hn.2 fun y hy => hg y (List.mem_cons_of_mem _ hy)
        rcases List.mem_cons.mp ha with rfl | h
        · exact absurd rfl hx
        · exact h

theorem flatMap_nil {α β : Type} {g : α → List β} {L : List α} (h : ∀ x ∈ L, g x = []) : L.flatMap g = [] :=
  List.flatMap_eq_nil_iff.mpr h

theorem filter_flatMap' {α β : Type} (p : β → Bool) (g : α → List β) : ∀ L : List α,
    (L.flatMap g).filter p = L.flatMap fun x => (g x).filter p
  | [] => rfl
  | x :: xs => by rw [List.flatMap_cons, List.filter_append, filter_flatMap' p g xs, List.flatMap_cons]

theorem flatMap_congr' {α β : Type} {g h : α → List β} : ∀ {L : List α}, (∀ x ∈ L, g x = h x) →
    L.flatMap g = L.flatMap h
  | [], _ => rfl
  | x :: xs, hg => by
      rw [List.flatMap_cons, List.flatMap_cons, hg x (List.mem_cons_self ..),
        flatMap_congr' fun y hy => hg y (List.mem_cons_of_mem _ hy)]

theorem flatMap_flatMap' {α β γ : Type} (f : α → List β) (g : β → List γ) : ∀ L : List α,
    (L.flatMap f).flatMap g = L.flatMap fun x => (f x).flatMap g
  | [] => rfl
  | x :: xs => by rw [List.flatMap_cons, List.flatMap_append, flatMap_flatMap' f g xs, List.flatMap_cons]

theorem map_flatMap' {α β γ : Type} (f : α → List β) (g : β → γ) : ∀ L : List α,
    (L.flatMap f).map g = L.flatMap fun x => (f x).map g
  | [] => rfl
  | x :: xs => by rw [List.flatMap_cons, List.map_append, map_flatMap' f g xs, List.flatMap_cons]

def under {α : Type} (d : Nat) (x : List Nat × α) : List Nat × α := (d :: x.1, x.2)

theorem at_under {α : Type} (d : Nat) (q : List Nat) (l : List (List Nat × α)) :
    at' (d :: q) (l.map (under d)) = (at' q l).map (under d) := by
  unfold at'
  rw [List.filter_map]
  congr 1
  apply List.filter_congr
  intro x _
  simp [under]

theorem at_under_ne {α : Type} {d e : Nat} (h : e ≠ d) (q : List Nat) (l : List (List Nat × α)) :
    at' (d :: q) (l.map (under e)) = [] := by
  unfold at'
  rw [List.filter_eq_nil_iff]
  intro x hx
  obtain ⟨y, -, rfl⟩ := List.mem_map.mp hx
  simp [under, h]

theorem at_nil_under {α : Type} {e : Nat} (l : List (List Nat × α)) : at' [] (l.map (under e)) = [] := by
  unfold at'
  rw [List.filter_eq_nil_iff]
  intro x hx
  obtain ⟨y, -, rfl⟩ := List.mem_map.mp hx
  simp [under]

/-! ### Depth and numbers -/

mutual
def Item.depth : Item → Nat
  | .leaf _ _ => 0
  | .ns _ _ _ _ _ ch => depthL ch + 1
def depthL : List Item → Nat
  | [] => 0
  | x :: xs => max x.depth (depthL xs)
end

theorem depthL_le {n : Nat} : ∀ {L : List Item}, (∀ x ∈ L, x.depth ≤ n) → depthL L ≤ n
  | [], _ => by rw [depthL]; omega
  | x :: xs, h => by
      rw [depthL]
      have h1 := h x (List.mem_cons_self ..)
      have h2 := depthL_le fun y hy => h y (List.mem_cons_of_mem _ hy)
      omega

theorem depth_le : ∀ {L : List Item} {x : Item}, x ∈ L → x.depth ≤ depthL L
  | y :: ys, x, h => by
      rw [depthL]
      rcases List.mem_cons.mp h with rfl | h
      · omega
      · have := depth_le h; omega

theorem merged_depth {d : Nat} {L : List Item} {f : Nat} (h : depthL L ≤ f + 1) : depthL (merged d L) ≤ f := by
  refine depthL_le fun x hx => ?_
  obtain ⟨y, hy, hx⟩ := List.mem_flatMap.mp hx
  have h1 := depth_le hy
  cases y with
  | leaf => cases hx
  | ns i c own ok dep ch =>
    rw [Item.kids] at hx
    by_cases hb : (own && ok && c == d) = true
    · rw [if_pos hb] at hx
      have h2 := depth_le hx
      rw [Item.depth] at h1
      omega
    · rw [if_neg hb] at hx
      cases hx

theorem depth_zero {L : List Item} (h : depthL L = 0) : ∀ x ∈ L, ∃ i own, x = .leaf i own := by
  intro x hx
  have := depth_le hx
  cases x with
  | leaf i own => exact ⟨i, own, rfl⟩
  | ns => rw [Item.depth] at this; omega

theorem ids_eq (x : Item) : ∃ t, x.ids = x.id :: t := by
  cases x with
  | leaf => exact ⟨[], rfl⟩
  | ns i c own ok dep ch => exact ⟨idsL ch, by rw [Item.ids]; rfl⟩

theorem map_id_sub : ∀ L : List Item, (L.map Item.id).Sublist (idsL L)
  | [] => .slnil
  | x :: xs => by
      obtain ⟨t, ht⟩ := ids_eq x
      rw [List.map_cons, idsL, ht, List.cons_append]
      exact .cons_cons _ ((map_id_sub xs).trans (List.sublist_append_right ..))

theorem merged_sub (d : Nat) : ∀ L : List Item, (idsL (merged d L)).Sublist (idsL L)
  | [] => .slnil
  | x :: xs => by
      unfold merged
      rw [List.flatMap_cons, idsL_eq, List.flatMap_append, ← idsL_eq, ← idsL_eq, idsL]
      refine List.Sublist.append ?_ (merged_sub d xs)
      cases x with
      | leaf => rw [Item.kids, idsL]; exact List.nil_sublist _
      | ns i c own ok dep ch =>
        rw [Item.kids, Item.ids]
        split
        · exact .cons _ (List.Sublist.refl _)
        · rw [idsL]; exact List.nil_sublist _

theorem nodup_of_map {α β : Type} {f : α → β} : ∀ {L : List α}, (L.map f).Nodup → L.Nodup
  | [], _ => List.nodup_nil
  | x :: xs, h => by
      rw [List.map_cons, List.nodup_cons] at h
      rw [List.nodup_cons]
      exact ⟨fun hx => h.1 (List.mem_map.mpr ⟨x, hx, rfl⟩), nodup_of_map h.2⟩

theorem inj_of_map {α β : Type} {f : α → β} : ∀ {L : List α}, (L.map f).Nodup → ∀ {x y}, x ∈ L → y ∈ L → f x = f y →
    x = y
  | z :: zs, h, x, y, hx, hy, he => by
      rw [List.map_cons, List.nodup_cons] at h
      rcases List.mem_cons.mp hx with hx | hx
      · rcases List.mem_cons.mp hy with hy | hy
        · rw [hx, hy]
        · rw [hx] at he
          exact absurd (List.mem_map.mpr ⟨y, hy, he.symm⟩) h.1
      · rcases List.mem_cons.mp hy with hy | hy
        · rw [hy] at he
          exact absurd (List.mem_map.mpr ⟨x, hx, he⟩) h.1
        · exact inj_of_map h.2 hx hy he

/-! ### The modules -/

/-- The last block of a namespace, if there is one. -/
theorem last_blk (d : Nat) (L : List Item) : (∀ x ∈ L, x.isBlk d = false) ∨
    ∃ x ∈ L, x.isBlk d = true ∧ ((L.filter (Item.isBlk d)).map Item.id).getLast? = some x.id := by
  rcases h : L.filter (Item.isBlk d) with _ | ⟨y, ys⟩
  · left
    intro x hx
    have := List.filter_eq_nil_iff.mp h x hx
    simpa using this
  · right
    have hne : (y :: ys) ≠ [] := nofun
    have hm : (y :: ys).getLast hne ∈ L.filter (Item.isBlk d) := by rw [h]; exact List.getLast_mem hne
    rw [List.mem_filter] at hm
    refine ⟨_, hm.1, hm.2, ?_⟩
    rw [List.getLast?_map, List.getLast?_eq_some_getLast hne]
    rfl

theorem one_other {L : List Item} {r : List Item → List Out} {d : Nat} {q : List Nat} {x : Item}
    (h : x.isBlk d = false ∨ ((L.filter (Item.isBlk d)).map Item.id).getLast? ≠ some x.id) :
    at' (d :: q) (leavesL (one L r x)) = [] ∧ at' (d :: q) (modsL (one L r x)) = [] := by
  cases x with
  | leaf i own => cases own <;> simp [one, leavesL, modsL, Out.leaves, Out.mods, at']
  | ns i c own ok dep ch =>
    cases own with
    | false => simp [one, leavesL, modsL, at']
    | true =>
      cases ok with
      | false => simp [one, leavesL, modsL, Out.leaves, Out.mods, at']
      | true =>
        by_cases hc : c = d
        · subst hc
          simp only [Item.isBlk, Bool.and_self, beq_self_eq_true, Item.id, Bool.true_eq_false, false_or] at h
          simp only [one, if_true, if_neg h]
          simp [leavesL, modsL, at']
        · simp only [one, if_true]
          split
          · rw [leavesL, leavesL, List.append_nil, modsL, modsL, List.append_nil, Out.leaves, Out.mods]
            refine ⟨at_under_ne hc _ _, ?_⟩
            have := at_under_ne hc q (modsL (r (merged c L)))
            unfold at' under at *
            simp [this, hc]
          · simp [leavesL, modsL, at']

theorem leaves_under {f d : Nat} {L : List Item} {q : List Nat} (hn : (L.map Item.id).Nodup) :
    at' (d :: q) (leavesL (rT (f + 1) L)) =
      if L.any (Item.isBlk d) then (at' q (leavesL (rT f (merged d L)))).map (under d) else [] := by
  rw [rT, leavesL_eq, flatMap_flatMap', at', filter_flatMap']
  rcases last_blk d L with h | ⟨x, hx, hb, hl⟩
  · rw [flatMap_nil, if_neg]
    · simp; exact h
    · intro x hx
      have := (one_other (L := L) (r := rT f) (q := q) (.inl (h x hx))).1
      rwa [leavesL_eq] at this
  · rw [flatMap_one hx (nodup_of_map hn), if_pos (List.any_eq_true.mpr ⟨x, hx, hb⟩)]
    · cases x with
      | leaf => cases hb
      | ns i c own ok dep ch =>
        simp only [Item.isBlk, Bool.and_eq_true, beq_iff_eq] at hb
        obtain ⟨⟨rfl, rfl⟩, rfl⟩ := hb
        simp only [Item.id] at hl
        simp only [one, if_true, hl, List.flatMap_cons, List.flatMap_nil, List.append_nil, Out.leaves]
        exact at_under ..
    · intro y hy hne
      have := (one_other (L := L) (r := rT f) (q := q) (d := d) (x := y) (.inr (by
        rw [hl]
        intro he
        exact hne (inj_of_map hn hy hx (Option.some.inj he).symm)))).1
      rwa [leavesL_eq] at this

theorem mods_under {f d : Nat} {L : List Item} {q : List Nat} (hn : (L.map Item.id).Nodup) :
    at' (d :: q) (modsL (rT (f + 1) L)) =
      if L.any (Item.isBlk d) then
        at' (d :: q) [([d], L.any fun x => x.isBlk d && x.depr)] ++ (at' q (modsL (rT f (merged d L)))).map (under d)
      else [] := by
  rw [rT, modsL_eq, flatMap_flatMap', at', filter_flatMap']
  rcases last_blk d L with h | ⟨x, hx, hb, hl⟩
  · rw [flatMap_nil, if_neg]
    · simp; exact h
    · intro x hx
      have := (one_other (L := L) (r := rT f) (q := q) (.inl (h x hx))).2
      rwa [modsL_eq] at this
  · rw [flatMap_one hx (nodup_of_map hn), if_pos (List.any_eq_true.mpr ⟨x, hx, hb⟩)]
    · cases x with
      | leaf => cases hb
      | ns i c own ok dep ch =>
        simp only [Item.isBlk, Bool.and_eq_true, beq_iff_eq] at hb
        obtain ⟨⟨rfl, rfl⟩, rfl⟩ := hb
        simp only [Item.id] at hl
        simp only [one, if_true, hl, List.flatMap_cons, List.flatMap_nil, List.append_nil, Out.mods]
        have := at_under c q (modsL (rT f (merged c L)))
        rw [← this]
        unfold at' under
        rw [List.filter_cons, List.filter_cons]
        split <;> simp
    · intro y hy hne
      have := (one_other (L := L) (r := rT f) (q := q) (d := d) (x := y) (.inr (by
        rw [hl]
        intro he
        exact hne (inj_of_map hn hy hx (Option.some.inj he).symm)))).2
      rwa [modsL_eq] at this

theorem decls_under (d : Nat) (q : List Nat) (L : List Item) :
    at' (d :: q) (decls L) = (at' q (decls (merged d L))).map (under d) := by
  rw [decls_eq, decls_eq, merged, flatMap_flatMap', at', at', filter_flatMap', filter_flatMap', map_flatMap']
  refine flatMap_congr' fun x _ => ?_
  cases x with
  | leaf i own => cases own <;> simp [Item.decl, Item.kids]
  | ns i c own ok dep ch =>
    rw [← decls_eq]
    cases own with
    | false => simp [Item.decl, Item.kids, decls]
    | true =>
      cases ok with
      | false => simp [Item.decl, Item.kids, decls]
      | true =>
        by_cases hc : c = d
        · subst hc
          simp only [Item.decl, Item.kids, Bool.and_self, beq_self_eq_true, if_true]
          exact at_under c q (decls ch)
        · simp only [Item.decl, Item.kids, Bool.and_self, beq_iff_eq, hc, if_true, Bool.true_and, if_false]
          rw [decls]
          exact at_under_ne hc q (decls ch)

/-- Each declaration is in its module, in order. -/
theorem rT_leaves : ∀ (f : Nat) (L : List Item), depthL L < f → (idsL L).Nodup → ∀ p,
    at' p (leavesL (rT f L)) = at' p (decls L)
  | 0, _, h, _, _ => by omega
  | f + 1, L, h, hn, [] => by
      rw [rT, leavesL_eq, flatMap_flatMap', at', filter_flatMap', at', decls_eq, filter_flatMap']
      refine flatMap_congr' fun x _ => ?_
      rw [← leavesL_eq]
      cases x with
      | leaf i own => cases own <;> simp [one, Item.decl, leavesL, Out.leaves]
      | ns i c own ok dep ch =>
        cases own with
        | false => simp [one, Item.decl, leavesL]
        | true =>
          cases ok with
          | false => simp [one, Item.decl, leavesL, Out.leaves]
          | true =>
            simp only [one, Item.decl, if_true]
            rw [show (List.filter (fun x : List Nat × Nat => x.1 == []) ((decls ch).map fun x => (c :: x.1, x.2))) = []
              from at_nil_under (decls ch)]
            split
            · rw [leavesL, leavesL, List.append_nil, Out.leaves]
              exact at_nil_under _
            · rfl
  | f + 1, L, h, hn, d :: q => by
      rw [leaves_under (hn.sublist (map_id_sub L)), decls_under]
      split
      · cases f with
        | zero =>
          exfalso
          rename_i ha
          obtain ⟨x, hx, hb⟩ := List.any_eq_true.mp ha
          obtain ⟨i, own, rfl⟩ := depth_zero (by omega) x hx
          cases hb
        | succ f =>
          rw [rT_leaves (f + 1) (merged d L) (by have := merged_depth (d := d) (show depthL L ≤ f + 1 by omega); omega)
            (hn.sublist (merged_sub d L)) q]
      · rename_i ha
        have : merged d L = [] := by
          refine flatMap_nil fun x hx => ?_
          have := List.any_eq_false.mp (Bool.not_eq_true _ ▸ ha) x hx
          cases x with
          | leaf => rfl
          | ns i c own ok dep ch =>
            unfold Item.isBlk at this
            rw [Item.kids, if_neg this]
        rw [this]
        rfl

/-! ### Blocks with their paths -/

mutual
/-- The supported blocks and where they are. -/
def Item.blks : Item → List (List Nat × Item)
  | .leaf _ _ => []
  | .ns i c own ok d ch => if own && ok then ([], .ns i c own ok d ch) :: (blksL ch).map (under c) else []
def blksL : List Item → List (List Nat × Item)
  | [] => []
  | x :: xs => x.blks ++ blksL xs
end

theorem blksL_eq : ∀ L : List Item, blksL L = L.flatMap Item.blks
  | [] => rfl
  | x :: xs => by rw [blksL, blksL_eq xs, List.flatMap_cons]

def Item.canon : Item → Nat
  | .leaf _ _ => 0
  | .ns _ c .. => c

/-- A supported block. -/
def Item.isOk : Item → Bool
  | .leaf _ _ => false
  | .ns _ _ own ok _ _ => own && ok

def Item.kids' : Item → List Item
  | .leaf _ _ => []
  | .ns _ _ _ _ _ ch => ch

def info (b : List Nat × Item) : List Nat × Nat × Nat × Bool := (b.1, b.2.id, b.2.canon, b.2.depr)

mutual
theorem Item.blocks_blks : ∀ x : Item, x.blocks = x.blks.map info
  | .leaf _ _ => rfl
  | .ns i c own ok d ch => by
      rw [Item.blocks, Item.blks]
      split
      · rw [blocksL_blks ch, List.map_cons, List.map_map, List.map_map]
        rfl
      · rfl
theorem blocksL_blks : ∀ L : List Item, blocksL L = (blksL L).map info
  | [] => rfl
  | x :: xs => by rw [blocksL, blksL, x.blocks_blks, blocksL_blks xs, List.map_append]
end

theorem blks_under (d : Nat) (q : List Nat) (L : List Item) :
    at' (d :: q) (blksL L) = (at' q (blksL (merged d L))).map (under d) := by
  rw [blksL_eq, blksL_eq, merged, flatMap_flatMap', at', at', filter_flatMap', filter_flatMap', map_flatMap']
  refine flatMap_congr' fun x _ => ?_
  cases x with
  | leaf i own => simp [Item.blks, Item.kids]
  | ns i c own ok dep ch =>
    rw [← blksL_eq]
    cases own with
    | false => simp [Item.blks, Item.kids, blksL]
    | true =>
      cases ok with
      | false => simp [Item.blks, Item.kids, blksL]
      | true =>
        by_cases hc : c = d
        · subst hc
          simp only [Item.blks, Item.kids, Bool.and_self, beq_self_eq_true, if_true]
          have := at_under c q (blksL ch)
          unfold at' at this
          rw [← this, List.filter_cons]
          simp
        · simp only [Item.blks, Item.kids, Bool.and_self, beq_iff_eq, hc, if_true, Bool.true_and, if_false]
          rw [blksL]
          have := at_under_ne hc q (blksL ch)
          unfold at' at this
          rw [List.filter_cons, this]
          simp

theorem blks_nil (L : List Item) : at' [] (blksL L) = (L.filter Item.isOk).map fun x => ([], x) := by
  rw [blksL_eq, at', filter_flatMap']
  induction L with
  | nil => rfl
  | cons x xs ih =>
    rw [List.flatMap_cons, ih, List.filter_cons]
    cases x with
    | leaf => simp [Item.blks, Item.isOk]
    | ns i c own ok dep ch =>
      rw [Item.blks, Item.isOk]
      split
      · rw [List.filter_cons]
        have := at_nil_under (e := c) (blksL ch)
        unfold at' at this
        rw [this]
        rfl
      · rfl

/-- The declarations in the module `p`. -/
def lev : List Nat → List Item → List Item
  | [], L => L
  | d :: q, L => lev q (merged d L)

theorem lev_snoc (d : Nat) : ∀ (p : List Nat) (L : List Item), lev (p ++ [d]) L = merged d (lev p L)
  | [], _ => rfl
  | e :: q, L => by rw [List.cons_append, lev, lev, lev_snoc d q]

theorem at_lev : ∀ (p : List Nat) (L : List Item),
    at' p (blksL L) = ((lev p L).filter Item.isOk).map fun x => (p, x)
  | [], L => blks_nil L
  | d :: q, L => by
      rw [blks_under, at_lev q, List.map_map, lev]
      rfl

theorem mem_seenL {y : Item} : ∀ {L : List Item}, y ∈ seenL L ↔ ∃ x ∈ L, y ∈ x.seen := by
  intro L
  rw [seenL_eq, List.mem_flatMap]

theorem self_seen (x : Item) : x ∈ x.seen := by
  cases x <;> simp [Item.seen]

mutual
theorem Item.seen_kids : ∀ (y : Item) {x z : Item} {d : Nat}, x ∈ y.seen → z ∈ x.kids d → z ∈ y.seen
  | .leaf i own, x, z, d, hx, hz => by
      rw [Item.seen, List.mem_singleton] at hx
      subst hx
      cases hz
  | .ns i c own ok dep ch, x, z, d, hx, hz => by
      rw [Item.seen, List.mem_cons] at hx
      rw [Item.seen]
      refine List.mem_cons_of_mem _ ?_
      rcases hx with hx | hx
      · subst hx
        rw [Item.kids] at hz
        by_cases hb : (own && ok && c == d) = true
        · rw [if_pos hb] at hz
          rw [if_pos (by simp at hb; simp [hb])]
          exact mem_seenL.mpr ⟨z, hz, self_seen z⟩
        · rw [if_neg hb] at hz; cases hz
      · by_cases hb : (own && ok) = true
        · rw [if_pos hb] at hx ⊢
          exact seenL_kids ch hx hz
        · rw [if_neg hb] at hx; cases hx
theorem seenL_kids : ∀ (L : List Item) {x z : Item} {d : Nat}, x ∈ seenL L → z ∈ x.kids d → z ∈ seenL L
  | y :: ys, x, z, d, hx, hz => by
      rw [seenL, List.mem_append] at hx ⊢
      exact hx.imp (y.seen_kids · hz) (seenL_kids ys · hz)
end

theorem seenL_sub {M L : List Item} (h : ∀ x ∈ M, x ∈ seenL L) (d : Nat) : ∀ x ∈ merged d M, x ∈ seenL L := by
  intro x hx
  obtain ⟨y, hy, hx⟩ := List.mem_flatMap.mp hx
  exact seenL_kids L (h y hy) hx

theorem self_seenL (L : List Item) : ∀ x ∈ L, x ∈ seenL L := fun x hx => mem_seenL.mpr ⟨x, hx, self_seen x⟩

theorem mods_ne (os : List Out) : at' [] (modsL os) = [] := by
  rw [at', List.filter_eq_nil_iff, modsL_eq]
  intro x hx
  obtain ⟨o, -, ho⟩ := List.mem_flatMap.mp hx
  cases o with
  | item => cases ho
  | mod c d os =>
    rw [Out.mods, List.mem_cons] at ho
    rcases ho with rfl | ho
    · simp
    · obtain ⟨z, -, rfl⟩ := List.mem_map.mp ho
      simp

theorem spaces_one (d : Nat) (L : List Item) :
    at' [d] (spaces L) = (L.filter (Item.isBlk d)).map fun x => ([d], x.depr) := by
  have h : at' [d] (spaces L) =
      ((at' [] (blksL L)).filter fun b => b.2.canon == d).map fun b => ([d], b.2.depr) := by
    unfold spaces at'
    rw [blocksL_blks, List.map_map, List.filter_map, List.filter_filter]
    rw [show (List.filter ((fun x => x.1 == [d]) ∘ ((fun b => (b.1 ++ [b.2.2.1], b.2.2.2)) ∘ info)) (blksL L)) =
      List.filter (fun a => (a.2.canon == d) && (a.1 == [])) (blksL L) from ?_]
    · refine List.map_congr_left fun b hb => ?_
      have := (List.mem_filter.mp hb).2
      simp only [Bool.and_eq_true, beq_iff_eq] at this
      simp [info, this]
    · refine List.filter_congr fun b _ => ?_
      rw [Bool.eq_iff_iff]
      rcases b with ⟨⟨⟩ | ⟨e, r⟩, x⟩ <;> simp [info]
  rw [h, blks_nil, List.filter_map, List.map_map, List.filter_filter]
  rw [show L.filter (Item.isBlk d) = L.filter (fun a => (((fun b : List Nat × Item => b.2.canon == d) ∘ fun x => ([], x)) a) && a.isOk)
    from List.filter_congr fun x _ => ?_]
  · rfl
  · cases x <;> simp [Item.isBlk, Item.isOk, Item.canon, Bool.and_comm]

theorem spaces_under (d : Nat) {q : List Nat} (hq : q ≠ []) (L : List Item) :
    at' (d :: q) (spaces L) = (at' q (spaces (merged d L))).map (under d) := by
  obtain ⟨r, e, rfl⟩ : ∃ r e, q = r ++ [e] := ⟨q.dropLast, q.getLast hq, (List.dropLast_concat_getLast hq).symm⟩
  have h : ∀ (p : List Nat) (L : List Item), at' (p ++ [e]) (spaces L) =
      ((at' p (blksL L)).filter fun b => b.2.canon == e).map fun b => (p ++ [e], b.2.depr) := by
    intro p L
    unfold spaces at'
    rw [blocksL_blks, List.map_map, List.filter_map, List.filter_filter]
    rw [show (List.filter ((fun x => x.1 == p ++ [e]) ∘ ((fun b => (b.1 ++ [b.2.2.1], b.2.2.2)) ∘ info)) (blksL L)) =
      List.filter (fun a => (a.2.canon == e) && (a.1 == p)) (blksL L) from ?_]
    · refine List.map_congr_left fun b hb => ?_
      have := (List.mem_filter.mp hb).2
      simp only [Bool.and_eq_true, beq_iff_eq] at this
      simp [info, this]
    · refine List.filter_congr fun b _ => ?_
      rw [Bool.eq_iff_iff]
      simp [info, List.append_inj_left', and_comm]
  rw [← List.cons_append, h, h, blks_under, List.filter_map, List.map_map, List.map_map]
  rfl

theorem any_map_filter {α : Type} (f g : α → Bool) : ∀ L : List α, (L.any fun x => f x && g x) = ((L.filter f).any g)
  | [] => rfl
  | x :: xs => by
      rw [List.any_cons, any_map_filter f g xs, List.filter_cons]
      cases f x <;> simp

/-- One module for each namespace; it is deprecated if one of the blocks is. -/
theorem rT_mods : ∀ (f : Nat) (L : List Item), depthL L < f → (idsL L).Nodup → ∀ p,
    at' p (modsL (rT f L)) =
      if at' p (spaces L) = [] then [] else [(p, (at' p (spaces L)).any fun x => x.2)]
  | 0, _, h, _, _ => by omega
  | f + 1, L, h, hn, [] => by
      rw [mods_ne, if_pos]
      rw [at', List.filter_eq_nil_iff, spaces]
      intro x hx
      obtain ⟨b, -, rfl⟩ := List.mem_map.mp hx
      simp
  | f + 1, L, h, hn, d :: q => by
      rw [mods_under (hn.sublist (map_id_sub L))]
      by_cases hq : q = []
      · subst hq
        rw [spaces_one, mods_ne]
        by_cases ha : L.any (Item.isBlk d) = true
        · rw [if_pos ha, if_neg]
          · rw [any_map_filter, List.any_map]
            simp [at', Function.comp_def]
          · obtain ⟨x, hx, hb⟩ := List.any_eq_true.mp ha
            rw [List.map_eq_nil_iff]
            exact List.ne_nil_of_mem (List.mem_filter.mpr ⟨hx, hb⟩)
        · rw [if_neg ha, if_pos]
          rw [List.map_eq_nil_iff, List.filter_eq_nil_iff]
          intro x hx hb
          exact ha (List.any_eq_true.mpr ⟨x, hx, hb⟩)
      · rw [spaces_under d hq]
        have h0 : at' (d :: q) [([d], L.any fun x => x.isBlk d && x.depr)] = [] := by
          simp [at', Ne.symm hq]
        rw [h0, List.nil_append]
        by_cases ha : L.any (Item.isBlk d) = true
        · rw [if_pos ha]
          cases f with
          | zero =>
            exfalso
            obtain ⟨x, hx, hb⟩ := List.any_eq_true.mp ha
            obtain ⟨i, own, rfl⟩ := depth_zero (by omega) x hx
            cases hb
          | succ f =>
            rw [rT_mods (f + 1) (merged d L) (by have := merged_depth (d := d) (show depthL L ≤ f + 1 by omega); omega)
              (hn.sublist (merged_sub d L)) q]
            by_cases he : at' q (spaces (merged d L)) = []
            · simp [he]
            · rw [if_neg he, if_neg (by simpa using he), List.any_map]
              rfl
        · rw [if_neg ha, if_pos]
          have : merged d L = [] := by
            refine flatMap_nil fun x hx => ?_
            have := List.any_eq_false.mp (Bool.not_eq_true _ ▸ ha) x hx
            cases x with
            | leaf => rfl
            | ns i c own ok dep ch =>
              unfold Item.isBlk at this
              rw [Item.kids, if_neg this]
          rw [this]
          rfl

end Verif.Reopen

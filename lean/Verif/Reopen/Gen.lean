import Verif.Reopen.Counts

/-
The table of generated items (part of C167).
-/

namespace Verif.Reopen

def keys (s : List (Nat × GItem)) : List Nat := s.map Prod.fst

/-- What there is for the number `k`. -/
def entries (k : Nat) (s : List (Nat × GItem)) : List GItem := (s.filter fun e => e.1 == k).map Prod.snd

theorem entries_append (k : Nat) (s t : List (Nat × GItem)) : entries k (s ++ t) = entries k s ++ entries k t := by
  unfold entries
  rw [List.filter_append, List.map_append]

theorem entries_cons (k : Nat) (e : Nat × GItem) (t : List (Nat × GItem)) :
    entries k (e :: t) = (if e.1 = k then [e.2] else []) ++ entries k t := by
  unfold entries
  rw [List.filter_cons]
  by_cases h : e.1 = k <;> simp [h]

theorem entries_nil {k : Nat} {s : List (Nat × GItem)} (h : k ∉ keys s) : entries k s = [] := by
  unfold entries
  rw [List.map_eq_nil_iff, List.filter_eq_nil_iff]
  intro e he hk
  exact h (List.mem_map.mpr ⟨e, he, by simpa using hk⟩)

theorem mem_entries {k : Nat} {g : GItem} {s : List (Nat × GItem)} : g ∈ entries k s ↔ (k, g) ∈ s := by
  unfold entries
  rw [List.mem_map]
  constructor
  · rintro ⟨⟨k', g'⟩, h, rfl⟩
    obtain ⟨h1, hk⟩ := List.mem_filter.mp h
    simp only [beq_iff_eq] at hk
    rw [← hk]
    exact h1
  · intro h
    exact ⟨(k, g), List.mem_filter.mpr ⟨h, by simp⟩, rfl⟩

def can (p : List Nat × Option String) : GItem := .canonical p.1 p.2

/-- `o` stands for the contributions `l`. -/
inductive Rep : Option GItem → List GItem → Prop
  | none : Rep none []
  | one (g : GItem) : Rep (some g) [g]
  | many (ps : List (List Nat × Option String)) (is : List Nat) (d : Option String) (h : ps ≠ [])
      (hi : is = ps.flatMap Prod.fst) (hd : d.isSome = ps.any fun p => p.2.isSome) : Rep (some (.canonical is d)) (ps.map can)

/-- Contributions that can be merged. -/
def Mer (l : List GItem) : Prop := l.length ≤ 1 ∨ ∃ ps : List (List Nat × Option String), l = ps.map can

theorem Mer.sub {l m : List GItem} (h : Mer m) (hs : l.Sublist m) : Mer l := by
  rcases h with h | ⟨ps, rfl⟩
  · exact .inl (Nat.le_trans hs.length_le h)
  · obtain ⟨qs, -, rfl⟩ := List.sublist_map_iff.mp hs
    exact .inr ⟨qs, rfl⟩

theorem mergeDep_isSome (a b : Option String) : (mergeDep a b).isSome = (a.isSome || b.isSome) := by
  cases a <;> cases b <;> simp only [mergeDep] <;> try rfl
  split <;> rfl

theorem Rep.canon {g : GItem} {ps : List (List Nat × Option String)} (h : Rep (some g) (ps.map can)) :
    ∃ is d, g = .canonical is d ∧ is = ps.flatMap Prod.fst ∧ d.isSome = ps.any fun p => p.2.isSome := by
  generalize ho : some g = o at h
  generalize hl : ps.map can = l at h
  cases h with
  | none => cases ho
  | one g' =>
    cases ho
    match ps, hl with
    | [p], hl =>
      simp only [List.map_cons, List.map_nil, List.cons.injEq, and_true] at hl
      subst hl
      exact ⟨p.1, p.2, rfl, by simp, by simp⟩
  | many qs is d h hi hd =>
    cases ho
    have : ps = qs := by
      have hinj : Function.Injective can := by
        rintro ⟨a, b⟩ ⟨c, d⟩ h
        simp only [can, GItem.canonical.injEq] at h
        rw [h.1, h.2]
      exact (List.map_inj_right fun x y h => hinj h).mp hl
    subst this
    exact ⟨is, d, rfl, hi, hd⟩

theorem Rep.nil {o : Option GItem} (h : Rep o []) : o = Option.none := by
  generalize hl : ([] : List GItem) = l at h
  cases h with
  | none => rfl
  | one => cases hl
  | many ps is d h => exact absurd (List.map_eq_nil_iff.mp hl.symm) h

theorem Rep.ne_nil {g : GItem} {l : List GItem} (h : Rep (some g) l) : l ≠ [] := by
  intro he
  subst he
  cases h.nil

theorem Rep.merge {g g' : GItem} {l l' : List GItem} (h : Rep (some g) l) (h' : Rep (some g') l') (hm : Mer (l ++ l')) :
    ∃ m, merge g g' = some m ∧ Rep (some m) (l ++ l') := by
  rcases hm with hm | ⟨ps, hm⟩
  · exfalso
    have h1 := List.length_pos_iff.mpr h.ne_nil
    have h2 := List.length_pos_iff.mpr h'.ne_nil
    rw [List.length_append] at hm
    omega
  · obtain ⟨qs, rs, rfl, rfl, rfl⟩ := List.map_eq_append_iff.mp hm.symm
    obtain ⟨is, d, rfl, hi, hd⟩ := h.canon
    obtain ⟨is', d', rfl, hi', hd'⟩ := h'.canon
    refine ⟨_, rfl, ?_⟩
    rw [← List.map_append]
    refine .many _ _ _ ?_ ?_ ?_
    · intro he
      have := h.ne_nil
      rw [List.append_eq_nil_iff] at he
      exact this (by rw [he.1]; rfl)
    · rw [hi, hi', List.flatMap_append]
    · rw [mergeDep_isSome, hd, hd', List.any_append]

/-- The table `s` stands for the contributions `C`. -/
structure Tab (s : Snip) (C : List (Nat × GItem)) : Prop where
  nodup : (keys s).Nodup
  rep : ∀ k, Rep (look s k) (entries k C)

theorem look_none {k : Nat} : ∀ {s : Snip}, look s k = none ↔ k ∉ keys s
  | [] => by simp [look, keys]
  | (k', g) :: s => by
      have ih := look_none (k := k) (s := s)
      unfold keys at ih
      rw [look, keys, List.map_cons, List.mem_cons]
      by_cases h : k' = k
      · simp [h]
      · rw [if_neg h, ih]
        simp [Ne.symm h]

theorem put_look {g : GItem} {k : Nat} : ∀ {s : Snip}, (keys s).Nodup →
    (look s k = none → ∃ t, put s k g = some t ∧ (keys t).Nodup ∧ (∀ j, j ∈ keys t ↔ j ∈ keys s ∨ j = k) ∧
      look t k = some g ∧ ∀ j, j ≠ k → look t j = look s j) ∧
    (∀ g' m, look s k = some g' → merge g' g = some m → ∃ t, put s k g = some t ∧ (keys t).Nodup ∧
      (∀ j, j ∈ keys t ↔ j ∈ keys s ∨ j = k) ∧ look t k = some m ∧ ∀ j, j ≠ k → look t j = look s j)
  | [], _ => by
      constructor
      · intro _
        refine ⟨_, rfl, by simp [keys], by simp [keys], by simp [look], ?_⟩
        intro j hj
        simp [look, Ne.symm hj]
      · intro g' m h
        cases h
  | (k', g0) :: s, hn => by
      have hn' : k' ∉ keys s ∧ (keys s).Nodup := List.nodup_cons.mp hn
      obtain ⟨ih1, ih2⟩ := put_look (g := g) (k := k) hn'.2
      by_cases h : k' = k
      · subst h
        constructor
        · intro h; simp [look] at h
        · intro g' m hg hm
          simp only [look, if_true, Option.some.injEq] at hg
          subst hg
          refine ⟨(k', m) :: s, by rw [put, if_pos rfl, hm]; rfl, hn, ?_, by simp [look], ?_⟩
          · intro j; simp [keys]; tauto
          · intro j hj
            simp [look, Ne.symm hj]
      · have key : ∀ t, put s k g = some t ∧ (keys t).Nodup ∧ (∀ j, j ∈ keys t ↔ j ∈ keys s ∨ j = k) ∧
            (∀ j, j ≠ k → look t j = look s j) →
            put ((k', g0) :: s) k g = some ((k', g0) :: t) ∧ (keys ((k', g0) :: t)).Nodup ∧
            (∀ j, j ∈ keys ((k', g0) :: t) ↔ j ∈ keys ((k', g0) :: s) ∨ j = k) ∧
            look ((k', g0) :: t) k = look t k ∧
            (∀ j, j ≠ k → look ((k', g0) :: t) j = look ((k', g0) :: s) j) := by
          rintro t ⟨h1, h2, h3, h4⟩
          refine ⟨by rw [put, if_neg h, h1]; rfl, ?_, ?_, by rw [look, if_neg h], ?_⟩
          · refine List.nodup_cons.mpr ⟨?_, h2⟩
            intro hk
            rcases (h3 k').mp hk with hk | hk
            · exact hn'.1 hk
            · exact h hk
          · intro j
            have := h3 j
            unfold keys at *
            simp only [List.map_cons, List.mem_cons]
            rw [this]
            tauto
          · intro j hj
            rw [look, look, h4 j hj]
        constructor
        · intro hl
          rw [look, if_neg h] at hl
          obtain ⟨t, h1, h2, h3, h4, h5⟩ := ih1 hl
          obtain ⟨k1, k2, k3, k4, k5⟩ := key t ⟨h1, h2, h3, h5⟩
          exact ⟨_, k1, k2, k3, k4.trans h4, k5⟩
        · intro g' m hl hm
          rw [look, if_neg h] at hl
          obtain ⟨t, h1, h2, h3, h4, h5⟩ := ih2 g' m hl hm
          obtain ⟨k1, k2, k3, k4, k5⟩ := key t ⟨h1, h2, h3, h5⟩
          exact ⟨_, k1, k2, k3, k4.trans h4, k5⟩

theorem append_look : ∀ {t s : Snip}, (keys t).Nodup → (keys s).Nodup →
    (∀ k g g', look s k = some g → look t k = some g' → ∃ m, merge g g' = some m) →
    ∃ r, append s t = some r ∧ (keys r).Nodup ∧ ∀ k,
      (look t k = none → look r k = look s k) ∧ (look s k = none → look r k = look t k) ∧
      ∀ g g', look s k = some g → look t k = some g' → look r k = merge g g'
  | [], s, _, hs, _ => ⟨s, rfl, hs, fun k => ⟨fun _ => rfl, fun h => by rw [h]; rfl, fun g g' _ h => by cases h⟩⟩
  | (k0, g0) :: t, s, ht, hs, hm => by
      have ht' : k0 ∉ keys t ∧ (keys t).Nodup := List.nodup_cons.mp ht
      have hp : ∃ u m, put s k0 g0 = some u ∧ (keys u).Nodup ∧ look u k0 = some m ∧
          (∀ j, j ≠ k0 → look u j = look s j) ∧ (look s k0 = none → m = g0) ∧
          (∀ g, look s k0 = some g → merge g g0 = some m) := by
        rcases hl : look s k0 with _ | g
        · obtain ⟨u, h1, h2, -, h4, h5⟩ := (put_look (g := g0) hs).1 hl
          exact ⟨u, g0, h1, h2, h4, h5, (fun _ => rfl), (fun g h => by cases h)⟩
        · obtain ⟨m, hm'⟩ := hm k0 g g0 hl (by simp [look])
          obtain ⟨u, h1, h2, -, h4, h5⟩ := (put_look (g := g0) hs).2 g m hl hm'
          exact ⟨u, m, h1, h2, h4, h5, (fun h => by cases h), (fun g h => by cases h; exact hm')⟩
      obtain ⟨u, m, h1, h2, h3, h4, h5, h6⟩ := hp
      have hlt : look t k0 = none := look_none.mpr ht'.1
      obtain ⟨r, hr, hrn, hrl⟩ := append_look (t := t) (s := u) ht'.2 h2 (by
        intro k g g' hu hg'
        have hk : k ≠ k0 := by rintro rfl; rw [hlt] at hg'; cases hg'
        rw [h4 k hk] at hu
        exact hm k g g' hu (by rw [look, if_neg hk.symm]; exact hg'))
      refine ⟨r, by rw [append, h1]; exact hr, hrn, fun k => ?_⟩
      by_cases hk : k = k0
      · subst hk
        have hrk : look r k = some m := ((hrl k).1 hlt).trans h3
        refine ⟨fun h => ?_, fun h => ?_, fun g g' hg hg' => ?_⟩
        · simp [look] at h
        · rw [hrk, h5 h]; simp [look]
        · simp only [look, if_true, Option.some.injEq] at hg'
          subst hg'
          rw [hrk, h6 g hg]
      · have hl : look ((k0, g0) :: t) k = look t k := by rw [look, if_neg (Ne.symm hk)]
        rw [hl, ← h4 k hk]
        exact hrl k

theorem Tab.append {s t : Snip} {C D : List (Nat × GItem)} (hs : Tab s C) (ht : Tab t D)
    (hm : ∀ k, Mer (entries k (C ++ D))) : ∃ r, append s t = some r ∧ Tab r (C ++ D) := by
  obtain ⟨r, hr, hn, hl⟩ := append_look ht.nodup hs.nodup (by
    intro k g g' hg hg'
    have h1 := hs.rep k
    have h2 := ht.rep k
    rw [hg] at h1
    rw [hg'] at h2
    have := hm k
    rw [entries_append] at this
    obtain ⟨m, hm, -⟩ := h1.merge h2 this
    exact ⟨m, hm⟩)
  refine ⟨r, hr, hn, fun k => ?_⟩
  have h1 := hs.rep k
  have h2 := ht.rep k
  obtain ⟨l1, l2, l3⟩ := hl k
  rw [entries_append]
  rcases hg : look s k with _ | g
  · rw [l2 hg]
    rw [hg] at h1
    have : entries k C = [] := by
      generalize hl : entries k C = l at h1
      cases h1
      rfl
    rw [this]
    exact h2
  · rcases hg' : look t k with _ | g'
    · rw [l1 hg', ]
      rw [hg'] at h2
      have : entries k D = [] := by
        generalize hl : entries k D = l at h2
        cases h2
        rfl
      rw [this, List.append_nil]
      exact h1
    · rw [hg] at h1
      rw [hg'] at h2
      have := hm k
      rw [entries_append] at this
      obtain ⟨m, hm, hr⟩ := h1.merge h2 this
      rw [l3 g g' hg hg', hm]
      exact hr

theorem insert_new {s : Snip} {k : Nat} {g : GItem} (h : k ∉ keys s) : insert s k g = s ++ [(k, g)] := by
  induction s with
  | nil => rfl
  | cons e s ih =>
    unfold keys at h
    rw [List.map_cons, List.mem_cons, not_or] at h
    obtain ⟨k', g'⟩ := e
    rw [insert, if_neg (Ne.symm h.1), ih h.2]
    rfl

theorem insert_twice {s : Snip} {k : Nat} {g g' : GItem} (h : k ∉ keys s) :
    insert (insert s k g) k g' = s ++ [(k, g')] := by
  induction s with
  | nil => simp [insert]
  | cons e s ih =>
    unfold keys at h
    rw [List.map_cons, List.mem_cons, not_or] at h
    obtain ⟨k', g''⟩ := e
    rw [insert, if_neg (Ne.symm h.1), insert, if_neg (Ne.symm h.1), ih h.2]
    rfl

theorem look_append {s t : Snip} {k : Nat} : look (s ++ t) k = (look s k).or (look t k) := by
  induction s with
  | nil => rfl
  | cons e s ih =>
    obtain ⟨k', g⟩ := e
    rw [List.cons_append, look, look, ih]
    split <;> rfl

theorem Tab.insert {s : Snip} {C : List (Nat × GItem)} (h : Tab s C) {k : Nat} {g : GItem} (hk : k ∉ keys s) :
    Tab (s ++ [(k, g)]) ((k, g) :: C) := by
  refine ⟨?_, fun j => ?_⟩
  · unfold keys
    rw [List.map_append, List.nodup_append]
    refine ⟨h.nodup, by simp, ?_⟩
    rintro a ha b hb rfl
    simp only [List.map_cons, List.map_nil, List.mem_singleton] at hb
    subst hb
    exact hk ha
  · rw [look_append, entries_cons]
    by_cases hj : k = j
    · subst hj
      have h1 := h.rep k
      rw [look_none.mpr hk] at h1 ⊢
      have : entries k C = [] := by
        generalize hl : entries k C = l at h1
        cases h1
        rfl
      simp only [this, if_true, List.append_nil, look, Option.none_or]
      exact .one g
    · simp only [look, hj, if_false, Option.or_none, List.nil_append]
      exact h.rep j

theorem Tab.keys {s : Snip} {C : List (Nat × GItem)} (h : Tab s C) {k : Nat} (hk : k ∉ keys C) : k ∉ Reopen.keys s := by
  rw [← look_none]
  have := h.rep k
  rw [entries_nil hk] at this
  exact this.nil

mutual
/-- What a declaration contributes. -/
def Item.contr : Item → List (Nat × GItem)
  | .leaf i own => if own then [(i, .leaf)] else []
  | .ns i c own ok d ch =>
      if own then
        if ok then (c, .canonical (ch.map Item.id) d) :: ((if i = c then [] else [(i, .nonCanonical)]) ++ contrL ch)
        else [(i, .comment)]
      else []
def contrL : List Item → List (Nat × GItem)
  | [] => []
  | x :: xs => x.contr ++ contrL xs
end

mutual
/-- Numbers of blocks and namespaces are not used in them again. -/
def Item.fresh : Item → Prop
  | .leaf _ _ => True
  | .ns i c own ok _ ch =>
      if own then
        if ok then i ∉ keys (contrL ch) ∧ c ∉ keys (contrL ch) ∧ freshL ch
        else freshL ch ∧ ∀ k, Mer (entries k (contrL ch))
      else True
def freshL : List Item → Prop
  | [] => True
  | x :: xs => x.fresh ∧ freshL xs
end

theorem Mer.left {k : Nat} {C D : List (Nat × GItem)} (h : Mer (entries k (C ++ D))) : Mer (entries k C) := by
  rw [entries_append] at h
  exact h.sub (List.sublist_append_left ..)

theorem Mer.right {k : Nat} {C D : List (Nat × GItem)} (h : Mer (entries k (C ++ D))) : Mer (entries k D) := by
  rw [entries_append] at h
  exact h.sub (List.sublist_append_right ..)

mutual
theorem gen_tab : ∀ x : Item, x.fresh → (∀ k, Mer (entries k x.contr)) → ∃ s, gen x = some s ∧ Tab s x.contr
  | .leaf i own, _, _ => by
      cases own with
      | false =>
        refine ⟨[], by simp [gen], by simp [keys], fun k => ?_⟩
        simp only [Item.contr]
        exact .none
      | true =>
        refine ⟨[(i, .leaf)], by simp [gen], by simp [keys], fun k => ?_⟩
        simp only [Item.contr, if_true, look, entries_cons]
        split
        · exact .one _
        · exact .none
  | .ns i c own ok d ch, hf, hm => by
      rw [Item.fresh] at hf
      rw [Item.contr] at hm ⊢
      cases own with
      | false =>
        refine ⟨[], by simp [gen], by simp [keys], fun k => ?_⟩
        exact .none
      | true =>
        cases ok with
        | false =>
          simp only [if_true, Bool.false_eq_true, if_false] at hf hm ⊢
          obtain ⟨s, hs, -⟩ := genL_tab ch [] [] ⟨by simp [keys], fun _ => .none⟩ hf.1 hf.2
          refine ⟨[(i, .comment)], by simp [gen, hs], by simp [keys], fun k => ?_⟩
          simp only [look, entries_cons]
          split
          · exact .one _
          · exact .none
        | true =>
          simp only [if_true] at hf hm ⊢
          obtain ⟨hi, hc, hf⟩ := hf
          obtain ⟨s, hs, ht⟩ := genL_tab ch [] [] ⟨by simp [keys], fun _ => .none⟩ hf (fun k => by
            have := hm k
            rw [entries_cons, entries_append] at this
            exact this.sub ((List.sublist_append_right ..).trans (List.sublist_append_right ..)))
          rw [List.nil_append] at ht
          have hi' := ht.keys hi
          have hc' := ht.keys hc
          refine ⟨insert (insert s i .nonCanonical) c (.canonical (ch.map Item.id) d), by simp only [gen, if_true, hs], ?_⟩
          by_cases he : i = c
          · subst he
            rw [insert_twice hi', if_pos rfl, List.nil_append]
            exact ht.insert hi'
          · rw [insert_new hi', if_neg he, insert_new (by
              unfold keys at *
              rw [List.map_append, List.mem_append, not_or]
              exact ⟨hc', by simp [Ne.symm he]⟩)]
            exact (ht.insert hi').insert (by
              unfold keys at *
              rw [List.map_append, List.mem_append, not_or]
              exact ⟨hc', by simp [Ne.symm he]⟩)
theorem genL_tab : ∀ (L : List Item) (acc : Snip) (C : List (Nat × GItem)), Tab acc C → freshL L →
    (∀ k, Mer (entries k (C ++ contrL L))) → ∃ s, genL acc L = some s ∧ Tab s (C ++ contrL L)
  | [], acc, C, ha, _, _ => ⟨acc, rfl, by rw [contrL, List.append_nil]; exact ha⟩
  | x :: xs, acc, C, ha, hf, hm => by
      rw [freshL] at hf
      rw [contrL, ← List.append_assoc] at hm ⊢
      obtain ⟨s, hs, ht⟩ := gen_tab x hf.1 (fun k => (hm k).left.right)
      obtain ⟨r, hr, hrt⟩ := ha.append ht (fun k => (hm k).left)
      obtain ⟨u, hu, hut⟩ := genL_tab xs r (C ++ x.contr) hrt hf.2 hm
      exact ⟨u, by rw [genL, hs]; simp only [hr]; exact hu, hut⟩
end

end Verif.Reopen

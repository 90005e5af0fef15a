import Verif.Paths.Best

/-!
# C95, C96: the paths of the items of one crate
-/

namespace Verif.Paths
open Verif Std

theorem walk_det (t : Tcx) (nm : Names t) (root : Nat) (p : List Nat) (h1 h2 : Bool) (m1 m2 : Nat)
    (w1 : Walk t root p h1 m1) (w2 : Walk t root p h2 m2) : h1 = h2 ∧ m1 = m2 := by
  induction w1 generalizing h2 m2 with
  | nil =>
      generalize hp : ([] : List Nat) = p at w2
      cases w2 with
      | nil => exact ⟨rfl, rfl⟩
      | snoc path h m name m' _ _ => simp at hp
  | snoc path h m name m' w o ih =>
      generalize hp : path ++ [name] = p at w2
      cases w2 with
      | nil => simp at hp
      | snoc path2 hh2 m2' name2 m2'' w' o' =>
          obtain ⟨rfl, hn⟩ := List.append_inj' hp rfl
          have hn : name = name2 := by simpa using hn
          subst hn
          obtain ⟨rfl, rfl⟩ := ih _ _ w'
          have := nm.mods m name m' _ o o'
          subst this
          exact ⟨rfl, rfl⟩

theorem walk_shape (t : Tcx) (root : Nat) (h : Bool) (m : Nat) (w : Walk t root [] h m) : m = root := by
  generalize hp : ([] : List Nat) = p at w
  cases w with
  | nil => rfl
  | snoc path h m name m' _ _ => simp at hp

/-- What the search has done when it ends. -/
structure Final (t : Tcx) (krate root : Nat) (lib : Lib (pathCmp t.str)) (D : List Mod)
    (m : List (Nat × PublicPaths)) : Prop where
  map : m = recAll lib [] (D.flatMap (recs t krate))
  walk : ∀ e ∈ D, Walk t root e.path (e.hidden || t.docHidden e.mod) e.mod
  reach : ∀ p h m', Walk t root p h m' → ∃ e ∈ D, e.mod = m' ∧ e.path.length ≤ p.length
  nodup : (D.map (·.path)).Nodup

theorem final (t : Tcx) (nm : Names t) (krate root : Nat) (lib : Lib (pathCmp t.str)) (fuel : Nat)
    (m : List (Nat × PublicPaths)) (h : publicPaths t krate root lib fuel = some m) :
    ∃ D, Final t krate root lib D m := by
  obtain ⟨D, s, inv, hq, hm⟩ := bfs_inv t nm krate root lib fuel [] _ (inv_init t krate root lib) m h
  have hD : D ++ s.queue = D := by rw [hq]; simp
  refine ⟨D, by rw [← hm]; exact inv.map, fun e he => inv.walk e (by simp [he]), ?_, ?_⟩
  · obtain ⟨rest, e1, _⟩ := inv.root
    rw [hD] at e1
    intro p h m' hw
    induction hw with
    | nil => exact ⟨⟨[], false, root⟩, by rw [e1]; simp, rfl, by simp⟩
    | snoc path h m name m' w o ih =>
        obtain ⟨q, hqD, hqm, hql⟩ := ih
        obtain ⟨e, he, h1, h2⟩ := inv.open_ q hqD name m' (hqm ▸ o)
        rw [hD] at he
        exact ⟨e, he, h1, by simp; omega⟩
  · obtain ⟨rest, e1, e2, e3, e4⟩ := inv.root
    have hw := inv.walk
    rw [hD] at e1
    rw [hD, e1] at hw
    rw [e1, List.map_cons, List.nodup_cons]
    constructor
    · intro hmem
      obtain ⟨e, he, hp⟩ := List.mem_map.1 hmem
      exact e2 e he hp
    · rw [List.nodup_iff_pairwise_ne, List.pairwise_map] at *
      refine List.Pairwise.imp_of_mem ?_ e3
      intro a b ha hb hne hp
      have hb' := hw b (by simp [hb])
      rw [← hp] at hb'
      exact hne (walk_det t nm root a.path _ _ _ _ (hw a (by simp [ha])) hb').2

theorem mem_recs (t : Tcx) (krate : Nat) (D : List Mod) (d : Nat) (p : Path) :
    (d, p) ∈ D.flatMap (recs t krate) ↔ ∃ q ∈ D, ∃ c ∈ t.children q.mod, ∃ res, Usable t c res ∧ d = t.target res ∧
      p = ⟨q.path, c.name, if (t.aliasOf res).isSome then some res else none, q.hidden || t.docHidden q.mod,
        c.reexport, krate⟩ := by
  simp only [List.mem_flatMap, recs, List.mem_filterMap, item_iff]

/-- No path is recorded twice. -/
theorem recs_distinct (t : Tcx) (nm : Names t) (krate : Nat) (D : List Mod) (hD : (D.map (·.path)).Nodup) (d : Nat) :
    (pathsOf (D.flatMap (recs t krate)) d).Pairwise fun a b => (a.path, a.name) ≠ (b.path, b.name) := by
  have one : ∀ q : Mod, (recs t krate q).Pairwise fun a b => a.1 = b.1 → (a.2.path, a.2.name) ≠ (b.2.path, b.2.name) := by
    intro q
    unfold recs
    rw [List.pairwise_filterMap]
    have hn := nm.items q.mod
    rw [List.nodup_iff_pairwise_ne, List.pairwise_filterMap] at hn
    refine hn.imp ?_
    intro c c' hcc a ha b hb hd hpn
    obtain ⟨r, hu, hd1, hp1⟩ := (item_iff _ _ _ _ _ _ _).1 ha
    obtain ⟨r', hu', hd2, hp2⟩ := (item_iff _ _ _ _ _ _ _).1 hb
    refine hcc (c.name, t.target r) (by rw [hu.2.2.1]; rfl) (c'.name, t.target r') (by rw [hu'.2.2.1]; rfl) ?_
    rw [hp1, hp2] at hpn
    rw [hd1, hd2] at hd
    simp at hpn
    simp [hpn, hd]
  have all : (D.flatMap (recs t krate)).Pairwise fun a b => a.1 = b.1 → (a.2.path, a.2.name) ≠ (b.2.path, b.2.name) := by
    clear d
    induction D with
    | nil => simp
    | cons q D ih =>
        rw [List.map_cons, List.nodup_cons] at hD
        rw [List.flatMap_cons, List.pairwise_append]
        refine ⟨one q, ih hD.2, ?_⟩
        intro a ha b hb _ hpn
        obtain ⟨da, pa⟩ := a
        obtain ⟨db, pb⟩ := b
        have ha' : (da, pa) ∈ [q].flatMap (recs t krate) := by simpa using ha
        obtain ⟨q1, hq1, c1, _, r1, _, _, hp1⟩ := (mem_recs t krate [q] da pa).1 ha'
        obtain ⟨q2, hq2, c2, _, r2, _, _, hp2⟩ := (mem_recs t krate D db pb).1 hb
        have : q1 = q := by simpa using hq1
        subst this
        rw [hp1, hp2] at hpn
        simp at hpn
        exact hD.1 (List.mem_map.2 ⟨q2, hq2, hpn.1.symm⟩)
  unfold pathsOf
  rw [List.pairwise_map, List.pairwise_filter]
  refine all.imp ?_
  intro a b h ha hb
  simp at ha hb
  exact h (by rw [ha, hb])

/-- What is known about an item of the map. -/
theorem entry (t : Tcx) (nm : Names t) (krate root : Nat) (lib : Lib (pathCmp t.str)) (fuel : Nat)
    (m : List (Nat × PublicPaths)) (h : publicPaths t krate root lib fuel = some m) :
    ∃ D, Final t krate root lib D m ∧ ∀ d,
      (AMap.get? m d = none → pathsOf (D.flatMap (recs t krate)) d = []) ∧
      ∀ pp, AMap.get? m d = some pp → Good (pathCmp t.str) (pathsOf (D.flatMap (recs t krate)) d) pp ∧
        pp.all.Perm (pathsOf (D.flatMap (recs t krate)) d) := by
  obtain ⟨D, f⟩ := final t nm krate root lib fuel m h
  refine ⟨D, f, fun d => ?_⟩
  have hr := recAll_get lib (D.flatMap (recs t krate)) d
  rw [← f.map] at hr
  constructor
  · intro hg; rw [hg] at hr; exact hr
  · intro pp hg
    rw [hg] at hr
    refine ⟨hr, hr.exact_ ?_⟩
    refine (recs_distinct t nm krate D f.nodup d).imp ?_
    intro a b hab he
    obtain ⟨_, h1, h2⟩ := pathCmp_eq t.str nm.intern a b he
    exact hab (by rw [h1, h2])

/-- C95: the search ends, when there are finitely many modules. -/
theorem paths_end (t : Tcx) (nm : Names t) (krate root : Nat) (lib : Lib (pathCmp t.str)) (U : List Nat) (hr : root ∈ U)
    (hU : ∀ m ∈ U, ∀ name m', Opens t m name m' → m' ∈ U) (fuel : Nat) (hf : U.length + 1 ≤ fuel) :
    (publicPaths t krate root lib fuel).isSome :=
  bfs_ends t nm krate root lib U hr hU fuel [] _ (inv_init t krate root lib) (by simpa using hf)

/-- C95: what is found does not depend on how long one waits. -/
theorem paths_fuel (t : Tcx) (krate root : Nat) (lib : Lib (pathCmp t.str)) (f1 f2 : Nat)
    (m1 m2 : List (Nat × PublicPaths)) (h1 : publicPaths t krate root lib f1 = some m1)
    (h2 : publicPaths t krate root lib f2 = some m2) : m1 = m2 := by
  have key : ∀ n k s m, bfs t krate lib n s = some m → bfs t krate lib (n + k) s = some m := by
    intro n
    induction n with
    | zero =>
        intro k s m h
        simp only [bfs] at h
        split at h
        · cases k with
          | zero => simp only [bfs]; simp_all
          | succ k => rw [Nat.zero_add]; simp only [bfs]; split <;> simp_all
        · cases h
    | succ n ih =>
        intro k s m h
        rw [Nat.add_right_comm]
        simp only [bfs] at h ⊢
        split at h
        · exact h
        · exact ih k _ _ h
  have a := key f1 f2 _ _ h1
  have b := key f2 f1 _ _ h2
  rw [Nat.add_comm] at b
  unfold publicPaths at *
  rw [a] at b
  exact Option.some.inj b

/-- C95: every path recorded for an item is a public path by which Rust code can write the item. -/
theorem paths_valid (t : Tcx) (nm : Names t) (krate root : Nat) (lib : Lib (pathCmp t.str)) (fuel : Nat)
    (m : List (Nat × PublicPaths)) (h : publicPaths t krate root lib fuel = some m) (d : Nat) (pp : PublicPaths)
    (hg : AMap.get? m d = some pp) (p : Path) (hp : p ∈ pp.all) : Spells t krate root p d := by
  obtain ⟨D, f, hd⟩ := entry t nm krate root lib fuel m h
  have hp := ((hd d).2 pp hg).1.mem p hp
  rw [mem_pathsOf, mem_recs] at hp
  obtain ⟨q, hq, c, hc, res, hu, rfl, rfl⟩ := hp
  exact ⟨rfl, q.mod, f.walk q hq, c, hc, res, hu, rfl, rfl, rfl, rfl⟩

/-- C95: every item that can be written is found, under each of its names, by a path that is as short. -/
theorem paths_complete (t : Tcx) (nm : Names t) (krate root : Nat) (lib : Lib (pathCmp t.str)) (fuel : Nat)
    (m : List (Nat × PublicPaths)) (h : publicPaths t krate root lib fuel = some m) (d : Nat) (p : Path)
    (hs : Spells t krate root p d) : ∃ pp, AMap.get? m d = some pp ∧ ∃ p' ∈ pp.all, p'.name = p.name ∧
      p'.path.length ≤ p.path.length ∧ p'.typeAlias = p.typeAlias ∧ p'.reexport = p.reexport := by
  obtain ⟨D, f, hd⟩ := entry t nm krate root lib fuel m h
  obtain ⟨_, mo, hw, c, hc, res, hu, hn, rfl, hta, hre⟩ := hs
  obtain ⟨q, hq, rfl, hl⟩ := f.reach _ _ _ hw
  have hmem := (mem_pathsOf _ _ _).2 ((mem_recs t krate D (t.target res) _).2 ⟨q, hq, c, hc, res, hu, rfl, rfl⟩)
  rcases hg : AMap.get? m (t.target res) with _ | pp
  · rw [(hd _).1 hg] at hmem; simp at hmem
  · exact ⟨pp, rfl, _, ((hd _).2 pp hg).2.mem_iff.2 hmem, hn, hl, hta.symm, hre.symm⟩

/-- C95: no path is there twice. -/
theorem paths_once (t : Tcx) (nm : Names t) (krate root : Nat) (lib : Lib (pathCmp t.str)) (fuel : Nat)
    (m : List (Nat × PublicPaths)) (h : publicPaths t krate root lib fuel = some m) (d : Nat) (pp : PublicPaths)
    (hg : AMap.get? m d = some pp) : (pp.all.map fun p => (p.path, p.name)).Nodup := by
  obtain ⟨D, f, hd⟩ := entry t nm krate root lib fuel m h
  have hperm := ((hd d).2 pp hg).2
  have h1 := recs_distinct t nm krate D f.nodup d
  rw [(hperm.map _).nodup_iff, List.nodup_iff_pairwise_ne, List.pairwise_map]
  exact h1

/-- C96: among the paths of the crate, none is of a kind preferred to that of the canonical path. -/
theorem canonical_best (t : Tcx) (nm : Names t) (krate root : Nat) (lib : Lib (pathCmp t.str)) (fuel : Nat)
    (m : List (Nat × PublicPaths)) (h : publicPaths t krate root lib fuel = some m) (d : Nat) (pp : PublicPaths)
    (hg : AMap.get? m d = some pp) (p : Path) (hp : p ∈ pp.all) : ¬ Prefer p pp.canonical := by
  obtain ⟨D, f, hd⟩ := entry t nm krate root lib fuel m h
  have g := ((hd d).2 pp hg).1
  intro hpr
  exact g.least p (g.mem p hp) (OrientedCmp.gt_iff_lt.2 ((pathCmp_lt t.str _ _).2 (.inl hpr)))

/-- C96: where nothing is hidden, the canonical path is best among all the ways to write the item: it is as short as
any of them. -/
theorem canonical_shortest (t : Tcx) (nm : Names t) (krate root : Nat) (lib : Lib (pathCmp t.str)) (fuel : Nat)
    (m : List (Nat × PublicPaths)) (h : publicPaths t krate root lib fuel = some m) (hid : ∀ x, t.docHidden x = false)
    (d : Nat) (pp : PublicPaths) (hg : AMap.get? m d = some pp) (p : Path) (hs : Spells t krate root p d) :
    pp.canonical.path.length ≤ p.path.length ∧ ¬ Prefer p pp.canonical := by
  have nohid : ∀ p h mo, Walk t root p h mo → h = false := by
    intro p h mo hw
    induction hw with
    | nil => exact hid _
    | snoc _ _ _ _ m' _ _ ih => simp [ih, hid m']
  have hidS : ∀ p, Spells t krate root p d → p.hidden = false := fun p ⟨_, mo, hw, _⟩ => nohid _ _ _ hw
  obtain ⟨pp', hg', p', hp', hn, hl, hta, hre⟩ := paths_complete t nm krate root lib fuel m h d p hs
  rw [hg] at hg'
  obtain rfl := Option.some.inj hg'
  have hb := canonical_best t nm krate root lib fuel m h d pp hg p' hp'
  have v1 := hidS _ (paths_valid t nm krate root lib fuel m h d pp hg p' hp')
  have v2 := hidS _ (paths_valid t nm krate root lib fuel m h d pp hg pp.canonical (by simp [PublicPaths.all]))
  have v3 := hidS _ hs
  have hlen : pp.canonical.path.length ≤ p'.path.length := by
    apply Classical.byContradiction
    intro hlt
    exact hb (.inr ⟨by rw [v1, v2], .inl (by omega)⟩)
  refine ⟨by omega, ?_⟩
  rintro (⟨_, h2⟩ | ⟨_, hlt | ⟨he, hrest⟩⟩)
  · rw [v2] at h2; cases h2
  · omega
  · refine hb (.inr ⟨by rw [v1, v2], .inr ⟨by omega, ?_⟩⟩)
    rw [hta, hre]; exact hrest

/-- The interner numbers strings in their order. -/
def Agrees (str : Nat → String) : Prop := ∀ a b, a < b ↔ str a < str b

theorem compare_paths (str : Nat → String) (inj : ∀ a b, str a = str b → a = b) (ag : Agrees str) (a b : List Nat) :
    compare a b = .lt ↔ a.map str < b.map str := by
  induction a generalizing b with
  | nil => cases b <;> simp [compare, List.compareLex]
  | cons x a ih =>
      cases b with
      | nil => simp [compare, List.compareLex]
      | cons y b =>
          have hc : compare (x :: a) (y :: b) = (compare x y).then (compare a b) := by
            simp [compare, List.compareLex_cons_cons]
          rw [hc, Ordering.then_eq_lt, nat_lt, nat_eq, ih b, ag x y]
          simp only [List.map_cons, List.cons_lt_cons_iff]
          constructor
          · rintro (h | ⟨rfl, h⟩)
            · exact .inl h
            · exact .inr ⟨rfl, h⟩
          · rintro (h | ⟨he, h⟩)
            · exact .inl h
            · exact .inr ⟨inj _ _ he, h⟩

theorem pathCmp_better (str : Nat → String) (inj : ∀ a b, str a = str b → a = b) (ag : Agrees str) (p q : Path) :
    pathCmp str p q = .lt ↔ Better str p q := by
  rw [pathCmp_lt, compare_paths str inj ag]
  unfold Better
  have : p.path = q.path ↔ p.path.map str = q.path.map str := by
    constructor
    · intro h; rw [h]
    · intro h; exact List.map_inj_right (fun a b h => inj a b h) |>.1 h
  rw [this]

/-- C96: the canonical path is the documented choice, and the aliases are in the documented order, if the interner
numbers strings in their order. -/
theorem canonical_documented (t : Tcx) (nm : Names t) (krate root : Nat) (lib : Lib (pathCmp t.str)) (fuel : Nat)
    (m : List (Nat × PublicPaths)) (h : publicPaths t krate root lib fuel = some m) (ag : Agrees t.str) (d : Nat)
    (pp : PublicPaths) (hg : AMap.get? m d = some pp) : pp.all.Pairwise (Better t.str) := by
  obtain ⟨D, f, hd⟩ := entry t nm krate root lib fuel m h
  obtain ⟨g, hperm⟩ := (hd d).2 pp hg
  unfold PublicPaths.all
  rw [List.pairwise_cons]
  refine ⟨?_, g.sorted.imp fun h => (pathCmp_better t.str nm.intern ag _ _).1 h⟩
  intro p hp
  rw [← pathCmp_better t.str nm.intern ag]
  have hpa : p ∈ pp.all := by simp [PublicPaths.all, hp]
  have h1 := g.least p (g.mem p hpa)
  have hne : pathCmp t.str pp.canonical p ≠ .eq := by
    intro he
    obtain ⟨_, h1, h2⟩ := pathCmp_eq t.str nm.intern _ _ he
    have hn := paths_once t nm krate root lib fuel m h d pp hg
    rw [PublicPaths.all, List.map_cons, List.nodup_cons] at hn
    exact hn.1 (List.mem_map.2 ⟨p, hp, by rw [h1, h2]⟩)
  cases hc : pathCmp t.str pp.canonical p
  · rfl
  · exact absurd hc hne
  · exact absurd hc h1

/-- C96: the aliases are strictly sorted in the order that the code uses. -/
theorem aliases_sorted (t : Tcx) (nm : Names t) (krate root : Nat) (lib : Lib (pathCmp t.str)) (fuel : Nat)
    (m : List (Nat × PublicPaths)) (h : publicPaths t krate root lib fuel = some m) (d : Nat)
    (pp : PublicPaths) (hg : AMap.get? m d = some pp) : pp.aliases.Pairwise fun a b => pathCmp t.str a b = .lt := by
  obtain ⟨D, f, hd⟩ := entry t nm krate root lib fuel m h
  exact ((hd d).2 pp hg).1.sorted

end Verif.Paths

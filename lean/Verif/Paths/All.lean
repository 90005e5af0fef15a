import Verif.Paths.Crate

/-!
# C97, C98: the paths of the items of all crates, and what headers say
-/

namespace Verif.Paths
open Verif Std

/-- A map of the public paths of crate `krate`. -/
structure CrateMap (krate : Nat) (m : List (Nat × PublicPaths)) : Prop where
  keys : (AMap.keys m).Nodup
  own : ∀ d pp, AMap.get? m d = some pp → ∀ p ∈ pp.all, p.krate = krate

theorem publicPaths_crateMap (t : Tcx) (nm : Names t) (krate root : Nat) (lib : Lib (pathCmp t.str)) (fuel : Nat)
    (m : List (Nat × PublicPaths)) (h : publicPaths t krate root lib fuel = some m) : CrateMap krate m where
  keys := by
    obtain ⟨D, f⟩ := final t nm krate root lib fuel m h
    rw [f.map]; exact recAll_nodup lib _
  own := fun d pp hg p hp => (paths_valid t nm krate root lib fuel m h d pp hg p hp).1

/-- The public paths of `d` in each crate that has some. -/
def inputs (ms : List (Nat × List (Nat × PublicPaths))) (d : Nat) : List PublicPaths :=
  ms.filterMap fun m => AMap.get? m.2 d

/-- The maps of distinct crates. -/
structure Crates (ms : List (Nat × List (Nat × PublicPaths))) : Prop where
  distinct : (ms.map (·.1)).Nodup
  maps : ∀ m ∈ ms, CrateMap m.1 m.2

/-- What merging gives. -/
structure Merged (t : Tcx) (d : Nat) (l : List PublicPaths) (g : PublicPaths) : Prop where
  canon : ∃ p ∈ l, g.canonical = p.canonical
  rank : ∀ p ∈ l, rank t d p.canonical.krate < rank t d g.canonical.krate ∨
    rank t d p.canonical.krate = rank t d g.canonical.krate ∧ pathCmp t.str g.canonical p.canonical ≠ .gt
  all : g.all.Perm (l.flatMap (·.all))

theorem insertAliases_all {cmp : Path → Path → Ordering} (lib : Lib cmp) (a b : PublicPaths)
    (h : b.canonical ≠ a.canonical) : (PublicPaths.insertAliases lib a b).all.Perm (a.all ++ b.all) := by
  simp only [PublicPaths.insertAliases, if_neg h]
  exact List.Perm.cons _ (lib.kmerge_perm _ _)

theorem merge_all {cmp : Path → Path → Ordering} (lib : Lib cmp) (a b : PublicPaths)
    (h : b.canonical ≠ a.canonical) : (PublicPaths.merge lib a b).all.Perm (a.all ++ b.all) := by
  unfold PublicPaths.merge
  split
  · refine (insertAliases_all lib _ _ (by simpa using fun he => h he.symm)).trans ?_
    simp only [PublicPaths.all]
    have h1 : (b.canonical :: a.aliases ++ a.canonical :: b.aliases).Perm
        (b.canonical :: (a.canonical :: (a.aliases ++ b.aliases))) := List.Perm.cons _ List.perm_middle
    have h2 : (a.canonical :: a.aliases ++ b.canonical :: b.aliases).Perm
        (b.canonical :: (a.canonical :: (a.aliases ++ b.aliases))) := by
      have : (a.canonical :: a.aliases ++ b.canonical :: b.aliases).Perm
        (b.canonical :: (a.canonical :: a.aliases ++ b.aliases)) := List.perm_middle
      simpa using this
    exact h1.trans h2.symm
  · exact insertAliases_all lib _ _ h

theorem merge_canonical {cmp : Path → Path → Ordering} [TransCmp cmp] (lib : Lib cmp) (a b : PublicPaths) :
    ((PublicPaths.merge lib a b).canonical = a.canonical ∧ cmp a.canonical b.canonical ≠ .gt) ∨
    ((PublicPaths.merge lib a b).canonical = b.canonical ∧ cmp b.canonical a.canonical = .lt) := by
  unfold PublicPaths.merge
  split
  · rename_i h; exact .inr ⟨rfl, OrientedCmp.gt_iff_lt.1 h⟩
  · rename_i h; exact .inl ⟨rfl, h⟩

theorem merged_step (t : Tcx) (lib : Lib (pathCmp t.str)) (d : Nat) (l : List PublicPaths) (g p : PublicPaths)
    (hm : Merged t d l g) (hne : p.canonical ≠ g.canonical) : Merged t d (l ++ [p]) (mergeRanked t lib d g p) := by
  have hall : (l ++ [p]).flatMap (·.all) = l.flatMap (·.all) ++ p.all := by simp
  have pq : (p.all ++ g.all).Perm ((l ++ [p]).flatMap (·.all)) := by
    rw [hall]; exact List.perm_append_comm.trans (hm.all.append_right _)
  have gq : (g.all ++ p.all).Perm ((l ++ [p]).flatMap (·.all)) := by
    rw [hall]; exact hm.all.append_right _
  have takeP : ∀ g', g'.canonical = p.canonical →
      (rank t d g.canonical.krate < rank t d p.canonical.krate ∨ rank t d g.canonical.krate = rank t d p.canonical.krate ∧
        pathCmp t.str p.canonical g.canonical ≠ .gt) → g'.all.Perm ((l ++ [p]).flatMap (·.all)) →
      Merged t d (l ++ [p]) g' := by
    intro g' hc hr ha
    refine ⟨⟨p, by simp, hc⟩, ?_, ha⟩
    intro q hq
    rw [hc]
    rcases List.mem_append.1 hq with hq | hq
    · rcases hm.rank q hq with h | ⟨h, h'⟩
      · rcases hr with hr | ⟨hr, _⟩ <;> left <;> omega
      · rcases hr with hr | ⟨hr, hr'⟩
        · left; omega
        · right
          exact ⟨by omega, Ordering.isLE_iff_ne_gt.1 (TransCmp.isLE_trans (Ordering.isLE_iff_ne_gt.2 hr')
            (Ordering.isLE_iff_ne_gt.2 h'))⟩
    · have : q = p := by simpa using hq
      subst this
      exact .inr ⟨rfl, self_ne_gt _⟩
  have takeG : ∀ g', g'.canonical = g.canonical →
      (rank t d p.canonical.krate < rank t d g.canonical.krate ∨ rank t d p.canonical.krate = rank t d g.canonical.krate ∧
        pathCmp t.str g.canonical p.canonical ≠ .gt) → g'.all.Perm ((l ++ [p]).flatMap (·.all)) →
      Merged t d (l ++ [p]) g' := by
    intro g' hc hr ha
    obtain ⟨q0, hq0, he⟩ := hm.canon
    refine ⟨⟨q0, by simp [hq0], by rw [hc, he]⟩, ?_, ha⟩
    intro q hq
    rw [hc]
    rcases List.mem_append.1 hq with hq | hq
    · exact hm.rank q hq
    · have : q = p := by simpa using hq
      subst this
      exact hr
  unfold mergeRanked
  split
  · rename_i hc
    exact takeP _ rfl (.inl (Nat.compare_eq_gt.1 hc)) ((insertAliases_all lib p g hne.symm).trans pq)
  · rename_i hc
    exact takeG _ rfl (.inl (Nat.compare_eq_lt.1 hc)) ((insertAliases_all lib g p hne).trans gq)
  · rename_i hc
    have he := Nat.compare_eq_eq.1 hc
    rcases merge_canonical lib g p with ⟨h1, h2⟩ | ⟨h1, h2⟩
    · exact takeG _ h1 (.inr ⟨he, h2⟩) ((merge_all lib g p hne).trans gq)
    · exact takeP _ h1 (.inr ⟨he.symm, by rw [h2]; simp⟩) ((merge_all lib g p hne).trans gq)

theorem addCrate_get (t : Tcx) (lib : Lib (pathCmp t.str)) (out cm : List (Nat × PublicPaths))
    (hk : (AMap.keys cm).Nodup) (d : Nat) : AMap.get? (addCrate t lib out cm) d =
      match AMap.get? cm d with
      | none => AMap.get? out d
      | some pp => some (match AMap.get? out d with | none => pp | some e => mergeRanked t lib d e pp) := by
  induction cm generalizing out with
  | nil => rfl
  | cons e cm ih =>
      have hk' : e.1 ∉ AMap.keys cm ∧ (AMap.keys cm).Nodup := by simpa [AMap.keys] using hk
      have hstep : addCrate t lib out (e :: cm) = addCrate t lib
          (match AMap.get? out e.1 with
            | none => AMap.insert out e.1 e.2
            | some existing => AMap.insert out e.1 (mergeRanked t lib e.1 existing e.2)) cm := rfl
      rw [hstep, ih _ hk'.2]
      by_cases h : e.1 = d
      · subst h
        have hn : AMap.get? cm e.1 = none := (AMap.get?_eq_none_iff _ _).2 hk'.1
        have hs : AMap.get? (e :: cm) e.1 = some e.2 := AMap.get?_of_mem _ hk (by simp)
        rw [hn, hs]
        simp only
        split <;> simp [AMap.get?_insert_self]
      · have hs : AMap.get? (e :: cm) d = AMap.get? cm d := by
          obtain ⟨a, b⟩ := e
          simp only [AMap.get?]
          simp only at h
          simp [h]
        rw [hs]
        have ho : AMap.get? (match AMap.get? out e.1 with
            | none => AMap.insert out e.1 e.2
            | some existing => AMap.insert out e.1 (mergeRanked t lib e.1 existing e.2)) d = AMap.get? out d := by
          split <;> rw [AMap.get?_insert_ne _ _ h]
        rw [ho]

theorem input_krate (ms : List (Nat × List (Nat × PublicPaths))) (hc : Crates ms) (d : Nat) (pp : PublicPaths)
    (h : pp ∈ inputs ms d) : ∃ m ∈ ms, AMap.get? m.2 d = some pp ∧ pp.canonical.krate = m.1 := by
  obtain ⟨m, hm, hg⟩ := List.mem_filterMap.1 h
  exact ⟨m, hm, hg, (hc.maps m hm).own d pp hg _ (by simp [PublicPaths.all])⟩

theorem all_get (t : Tcx) (lib : Lib (pathCmp t.str)) (ms : List (Nat × List (Nat × PublicPaths))) (hc : Crates ms)
    (d : Nat) : match AMap.get? (allPaths t lib (ms.map (·.2))) d with
      | none => inputs ms d = []
      | some g => Merged t d (inputs ms d) g := by
  induction ms using List.reverseRecOn with
  | nil => rfl
  | append_singleton ms m ih =>
      have hc' : Crates ms := ⟨by
        have := hc.distinct
        rw [List.map_append, List.nodup_append] at this
        exact this.1, fun x hx => hc.maps x (by simp [hx])⟩
      have hms : m.1 ∉ ms.map (·.1) := by
        have := hc.distinct
        rw [List.map_append, List.nodup_append] at this
        intro h
        exact this.2.2 m.1 h m.1 (by simp) rfl
      have hcm := hc.maps m (by simp)
      have ih := ih hc'
      have hstep : allPaths t lib ((ms ++ [m]).map (·.2)) = addCrate t lib (allPaths t lib (ms.map (·.2))) m.2 := by
        simp [allPaths]
      have hin : inputs (ms ++ [m]) d = inputs ms d ++ (AMap.get? m.2 d).toList := by
        simp only [inputs, List.filterMap_append]
        congr 1
      rw [hstep, addCrate_get t lib _ _ hcm.keys, hin]
      rcases hg : AMap.get? m.2 d with _ | pp
      · simpa using ih
      · simp only [Option.toList_some]
        rcases ho : AMap.get? (allPaths t lib (ms.map (·.2))) d with _ | g
        · rw [ho] at ih
          simp only at ih
          rw [ih, ho]
          refine ⟨⟨pp, by simp, rfl⟩, ?_, by simp⟩
          intro p hp
          have : p = pp := by simpa using hp
          subst this
          exact .inr ⟨rfl, self_ne_gt _⟩
        · rw [ho] at ih
          simp only at ih
          rw [ho]
          refine merged_step t lib d _ g pp ih ?_
          intro he
          obtain ⟨p, hp, hpc⟩ := ih.canon
          obtain ⟨m', hm', _, hk'⟩ := input_krate ms hc' d p hp
          have := hcm.own d pp hg pp.canonical (by simp [PublicPaths.all])
          rw [he, hpc, hk'] at this
          exact hms (List.mem_map.2 ⟨m', hm', this⟩)

theorem rank_eq (t : Tcx) (d k : Nat) : rank t d k = ownership t d k := by
  unfold rank ownership
  simp

/-- C97: an item has global paths exactly if some crate has paths of it; they are all the paths of all crates. -/
theorem global_members (t : Tcx) (lib : Lib (pathCmp t.str)) (ms : List (Nat × List (Nat × PublicPaths)))
    (hc : Crates ms) (d : Nat) :
    ((AMap.get? (allPaths t lib (ms.map (·.2))) d).isSome ↔ ∃ m ∈ ms, (AMap.get? m.2 d).isSome) ∧
    ∀ g, AMap.get? (allPaths t lib (ms.map (·.2))) d = some g → g.all.Perm ((inputs ms d).flatMap (·.all)) := by
  have h := all_get t lib ms hc d
  constructor
  · rcases hg : AMap.get? (allPaths t lib (ms.map (·.2))) d with _ | g
    · rw [hg] at h
      simp only at h
      constructor
      · intro h'; rw [hg] at h'; cases h'
      · rintro ⟨m, hm, hs⟩
        obtain ⟨pp, hpp⟩ := Option.isSome_iff_exists.1 hs
        have : pp ∈ inputs ms d := List.mem_filterMap.2 ⟨m, hm, hpp⟩
        rw [h] at this; simp at this
    · rw [hg] at h
      obtain ⟨p, hp, _⟩ := h.canon
      obtain ⟨m, hm, hpp⟩ := List.mem_filterMap.1 hp
      exact ⟨fun _ => ⟨m, hm, by rw [hpp]; rfl⟩, fun _ => by rw [hg]; rfl⟩
  · intro g hg
    rw [hg] at h
    exact h.all

/-- C97: the canonical path is the canonical path of one crate; no crate that has the item owns it more. -/
theorem global_owner (t : Tcx) (lib : Lib (pathCmp t.str)) (ms : List (Nat × List (Nat × PublicPaths)))
    (hc : Crates ms) (d : Nat) (g : PublicPaths) (hg : AMap.get? (allPaths t lib (ms.map (·.2))) d = some g) :
    (∃ m ∈ ms, ∃ pp, AMap.get? m.2 d = some pp ∧ g.canonical = pp.canonical ∧ g.canonical.krate = m.1) ∧
    ∀ m ∈ ms, ∀ pp, AMap.get? m.2 d = some pp → ownership t d m.1 < ownership t d g.canonical.krate ∨
      ownership t d m.1 = ownership t d g.canonical.krate ∧ ¬ Prefer pp.canonical g.canonical := by
  have h := all_get t lib ms hc d
  rw [hg] at h
  constructor
  · obtain ⟨p, hp, he⟩ := h.canon
    obtain ⟨m, hm, hpp, hk⟩ := input_krate ms hc d p hp
    exact ⟨m, hm, p, hpp, he, by rw [he, hk]⟩
  · intro m hm pp hpp
    have hk := (hc.maps m hm).own d pp hpp pp.canonical (by simp [PublicPaths.all])
    rw [← rank_eq, ← rank_eq, ← hk]
    rcases h.rank pp (List.mem_filterMap.2 ⟨m, hm, hpp⟩) with h | ⟨h, h'⟩
    · exact .inl h
    · exact .inr ⟨h, fun hp => h' (OrientedCmp.gt_iff_lt.2 ((pathCmp_lt t.str _ _).2 (.inl hp)))⟩

theorem ownership_two (t : Tcx) (d k : Nat) : ownership t d k ≤ 2 ∧ (ownership t d k = 2 ↔ k = t.crateOf d) := by
  unfold ownership
  split
  · simp [*]
  · split <;> simp [*]

theorem map_unique (ms : List (Nat × List (Nat × PublicPaths))) (hc : Crates ms) (m m' : Nat × List (Nat × PublicPaths))
    (hm : m ∈ ms) (hm' : m' ∈ ms) (h : m.1 = m'.1) : m = m' := by
  have hd := hc.distinct
  rw [List.nodup_iff_pairwise_ne, List.pairwise_map] at hd
  clear hc
  induction ms with
  | nil => simp at hm
  | cons x ms ih =>
      rw [List.pairwise_cons] at hd
      rcases List.mem_cons.1 hm with e1 | h1 <;> rcases List.mem_cons.1 hm' with e2 | h2
      · rw [e1, e2]
      · rw [e1] at h; exact absurd h (hd.1 m' h2)
      · rw [e2] at h; exact absurd h.symm (hd.1 m h1)
      · exact ih h1 h2 hd.2

/-- C97: an item that its own crate exports is known by its canonical path in that crate, whatever other crates
re-export it, and in whatever order crates come. -/
theorem defining_crate (t : Tcx) (lib : Lib (pathCmp t.str)) (ms : List (Nat × List (Nat × PublicPaths)))
    (hc : Crates ms) (d : Nat) (m : List (Nat × PublicPaths)) (hm : (t.crateOf d, m) ∈ ms) (pp : PublicPaths)
    (hpp : AMap.get? m d = some pp) :
    ∃ g, AMap.get? (allPaths t lib (ms.map (·.2))) d = some g ∧ g.canonical = pp.canonical := by
  have hs := (global_members t lib ms hc d).1.2 ⟨_, hm, by simp [hpp]⟩
  obtain ⟨g, hg⟩ := Option.isSome_iff_exists.1 hs
  refine ⟨g, hg, ?_⟩
  obtain ⟨⟨m', hm', pp', hpp', he, hk⟩, hr⟩ := global_owner t lib ms hc d g hg
  have h2 : ownership t d (t.crateOf d) = 2 := ((ownership_two t d _).2).2 rfl
  have h3 := ownership_two t d g.canonical.krate
  have : g.canonical.krate = t.crateOf d := by
    apply h3.2.1
    rcases hr _ hm pp hpp with h | ⟨h, _⟩ <;> simp only at h <;> omega
  have hmm := map_unique ms hc m' (t.crateOf d, m) hm' hm (by rw [← hk, this])
  subst hmm
  rw [hpp'] at hpp
  rw [he, Option.some.inj hpp]

/-- C97: where no two crates tie, the canonical path does not depend on the order of the crates. -/
theorem order_irrelevant (t : Tcx) (lib lib' : Lib (pathCmp t.str)) (ms ms' : List (Nat × List (Nat × PublicPaths)))
    (hc : Crates ms) (hp : ms.Perm ms') (d : Nat)
    (noTie : ∀ m1 ∈ ms, ∀ m2 ∈ ms, ∀ p1 p2, AMap.get? m1.2 d = some p1 → AMap.get? m2.2 d = some p2 →
      ownership t d m1.1 = ownership t d m2.1 → (p1.canonical.path, p1.canonical.name) = (p2.canonical.path, p2.canonical.name) →
      m1 = m2)
    (nm : Names t) :
    (AMap.get? (allPaths t lib (ms.map (·.2))) d).map (·.canonical) =
    (AMap.get? (allPaths t lib' (ms'.map (·.2))) d).map (·.canonical) := by
  have hc' : Crates ms' := ⟨(hp.map _).nodup_iff.1 hc.distinct, fun m hm => hc.maps m (hp.mem_iff.2 hm)⟩
  have hin : (inputs ms d).Perm (inputs ms' d) := hp.filterMap _
  have h := all_get t lib ms hc d
  have h' := all_get t lib' ms' hc' d
  rcases hg : AMap.get? (allPaths t lib (ms.map (·.2))) d with _ | g <;>
  rcases hg' : AMap.get? (allPaths t lib' (ms'.map (·.2))) d with _ | g' <;> rw [hg] at h <;> rw [hg'] at h' <;> simp only at h h'
  · rw [hg, hg']
  · exfalso
    obtain ⟨p, hp, _⟩ := h'.canon
    have := hin.mem_iff.2 hp
    rw [h] at this; simp at this
  · exfalso
    obtain ⟨p, hp, _⟩ := h.canon
    have := hin.mem_iff.1 hp
    rw [h'] at this; simp at this
  · rw [hg, hg']
    simp only [Option.map_some]
    congr 1
    obtain ⟨p, hpi, he⟩ := h.canon
    obtain ⟨p', hpi', he'⟩ := h'.canon
    have r1 := h.rank p' (hin.mem_iff.2 hpi')
    have r2 := h'.rank p (hin.mem_iff.1 hpi)
    rw [he] at r1 ⊢
    rw [he'] at r2 ⊢
    obtain ⟨m1, hm1, hg1, hk1⟩ := input_krate ms hc d p hpi
    obtain ⟨m2, hm2, hg2, hk2⟩ := input_krate ms hc d p' (hin.mem_iff.2 hpi')
    have heq : rank t d p.canonical.krate = rank t d p'.canonical.krate ∧ pathCmp t.str p.canonical p'.canonical = .eq := by
      rcases r1 with r1 | ⟨r1, c1⟩ <;> rcases r2 with r2 | ⟨r2, c2⟩
      · omega
      · omega
      · omega
      · refine ⟨r1.symm, ?_⟩
        cases hc : pathCmp t.str p.canonical p'.canonical
        · exact absurd (OrientedCmp.gt_iff_lt.2 hc) c2
        · rfl
        · exact absurd hc c1
    obtain ⟨_, e1, e2⟩ := pathCmp_eq t.str nm.intern _ _ heq.2
    have := noTie m1 hm1 m2 hm2 p p' hg1 hg2 (by rw [← rank_eq, ← rank_eq, ← hk1, ← hk2]; exact heq.1) (by rw [e1, e2])
    subst this
    rw [hg1] at hg2
    rw [Option.some.inj hg2]

/-- C98: the header of a crate says each path that the crate has for an item exactly once: as the definition, or as
a `using` declaration. -/
theorem header_names (t : Tcx) (lib : Lib (pathCmp t.str)) (ms : List (Nat × List (Nat × PublicPaths)))
    (hc : Crates ms) (source : Nat) (m : List (Nat × PublicPaths)) (hm : (source, m) ∈ ms) (d : Nat)
    (pp : PublicPaths) (hpp : AMap.get? m d = some pp) :
    ∃ df us, headerNames source (allPaths t lib (ms.map (·.2))) m d = some (df, us) ∧ df.toList ++ us = pp.all := by
  have hs := (global_members t lib ms hc d).1.2 ⟨_, hm, by simp [hpp]⟩
  obtain ⟨g, hg⟩ := Option.isSome_iff_exists.1 hs
  unfold headerNames
  rw [hpp, hg]
  simp only
  split
  · rename_i hk
    refine ⟨_, _, rfl, ?_⟩
    obtain ⟨⟨m', hm', pp', hpp', he, hk'⟩, _⟩ := global_owner t lib ms hc d g hg
    have := map_unique ms hc m' (source, m) hm' hm (by rw [← hk', hk])
    subst this
    rw [hpp'] at hpp
    obtain rfl := Option.some.inj hpp
    simp [PublicPaths.all, he]
  · exact ⟨none, _, rfl, by simp⟩

/-- C98: if all headers are made with the same crates, exactly one crate defines an item: the one that the canonical
path is in. -/
theorem defined_once (t : Tcx) (lib : Lib (pathCmp t.str)) (ms : List (Nat × List (Nat × PublicPaths)))
    (hc : Crates ms) (d : Nat) (g : PublicPaths) (hg : AMap.get? (allPaths t lib (ms.map (·.2))) d = some g) :
    ∃ m ∈ ms, (∃ us, headerNames m.1 (allPaths t lib (ms.map (·.2))) m.2 d = some (some g.canonical, us)) ∧
      ∀ m' ∈ ms, ∀ p us, headerNames m'.1 (allPaths t lib (ms.map (·.2))) m'.2 d = some (some p, us) → m' = m := by
  obtain ⟨⟨m, hm, pp, hpp, he, hk⟩, _⟩ := global_owner t lib ms hc d g hg
  refine ⟨m, hm, ⟨pp.aliases, ?_⟩, ?_⟩
  · simp [headerNames, hpp, hg, hk]
  · intro m' hm' p us h
    refine map_unique ms hc m' m hm' hm ?_
    unfold headerNames at h
    rw [hg] at h
    rcases hpp' : AMap.get? m'.2 d with _ | pp'
    · rw [hpp'] at h; simp at h
    · rw [hpp'] at h
      simp only at h
      split at h
      · rename_i hk'; rw [← hk', hk]
      · simp at h

end Verif.Paths

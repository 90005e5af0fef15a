import Verif.Toposort.Spec
import Mathlib.Data.Fintype.Pigeonhole
import Mathlib.Data.List.Nodup
/- Helper lemmas for the toposort properties. -/
namespace Verif.Toposort
open Verif

variable {α : Type} [DecidableEq α]

/-- number of not-yet-emitted predecessors edges of `k` -/
def pend (deps : List (Dependency α)) (done : List α) (k : α) : Nat :=
  deps.countP (fun d => decide (d.successor = k ∧ d.predecessor ∉ done))

def succs (deps : List (Dependency α)) (k : α) : List α :=
  (deps.filter (fun d => d.predecessor = k)).map (·.successor)

structure GInv (nodes : List α) (deps : List (Dependency α)) (done : List α)
    (g : List (α × GraphNode α)) : Prop where
  nodup : (AMap.keys g).Nodup
  keys : ∀ k, k ∈ AMap.keys g ↔ k ∈ nodes ∧ k ∉ done
  count : ∀ k n, AMap.get? g k = some n → n.count_of_predecessors = pend deps done k
  succ : ∀ k n, AMap.get? g k = some n → n.successors = succs deps k
  idx : ∀ k n, AMap.get? g k = some n → IsLastIdx nodes k n.input_index

theorem initGraph_snoc (nodes : List α) (x : α) :
    initGraph (nodes ++ [x]) = AMap.insert (initGraph nodes) x ⟨0, [], nodes.length⟩ := by
  simp [initGraph, List.zipIdx_append]

theorem initGraph_inv (nodes : List α) : GInv nodes [] [] (initGraph nodes) := by
  induction nodes using List.reverseRecOn with
  | nil => constructor <;> simp [initGraph, AMap.keys]
  | append_singleton nodes x ih =>
    rw [initGraph_snoc]
    constructor
    · exact AMap.nodup_insert _ _ _ ih.nodup
    · intro k; rw [AMap.keys_insert_mem, ih.keys]; simp [or_comm]
    · intro k n h
      rw [AMap.get?_insert] at h
      split at h
      · simp at h; subst h; simp [pend]
      · exact ih.count k n h
    · intro k n h
      rw [AMap.get?_insert] at h
      split at h
      · simp at h; subst h; simp [succs]
      · exact ih.succ k n h
    · intro k n h
      rw [AMap.get?_insert] at h
      split at h
      · simp at h; subst h; subst_vars
        refine ⟨by simp, fun j hj => ?_⟩
        rw [List.getElem?_eq_none (by simp at hj ⊢; omega)]; simp
      · obtain ⟨h1, h2⟩ := ih.idx k n h
        have hlt : n.input_index < nodes.length := by
          rw [List.getElem?_eq_some_iff] at h1; exact h1.1
        refine ⟨by rw [List.getElem?_append_left hlt]; exact h1, fun j hj => ?_⟩
        by_cases hj2 : j < nodes.length
        · rw [List.getElem?_append_left hj2]; exact h2 j hj
        · rw [List.getElem?_append_right (by omega)]
          by_cases h3 : j - nodes.length = 0
          · simp [h3]; assumption
          · rw [List.getElem?_eq_none (by simp at hj ⊢; omega)]; simp

theorem addDep_inv {nodes : List α} {deps g} (d : Dependency α) (h : GInv nodes deps [] g)
    (hp : d.predecessor ∈ nodes) (hs : d.successor ∈ nodes) :
    ∃ g', addDep g d = .ok g' ∧ GInv nodes (deps ++ [d]) [] g' := by
  have hsk : d.successor ∈ AMap.keys g := (h.keys _).2 ⟨hs, by simp⟩
  have hpk : d.predecessor ∈ AMap.keys g := (h.keys _).2 ⟨hp, by simp⟩
  obtain ⟨s, hs'⟩ := (AMap.mem_keys_iff _ _).1 hsk
  simp only [addDep, hs']
  have hpk' : d.predecessor ∈ AMap.keys (AMap.insert g d.successor
      { s with count_of_predecessors := s.count_of_predecessors + 1 }) := by
    rw [AMap.keys_insert_of_mem _ _ _ hsk]; exact hpk
  obtain ⟨p, hp'⟩ := (AMap.mem_keys_iff _ _).1 hpk'
  rw [hp']
  refine ⟨_, rfl, ?_⟩
  have key : ∀ k n, AMap.get? (AMap.insert (AMap.insert g d.successor
      { s with count_of_predecessors := s.count_of_predecessors + 1 }) d.predecessor
      { p with successors := p.successors ++ [d.successor] }) k = some n →
      ∃ n0, AMap.get? g k = some n0 ∧ n.input_index = n0.input_index ∧
        n.count_of_predecessors = n0.count_of_predecessors + (if d.successor = k then 1 else 0) ∧
        n.successors = n0.successors ++ (if d.predecessor = k then [d.successor] else []) := by
    intro k n hk
    rw [AMap.get?_insert] at hk
    rw [AMap.get?_insert] at hp'
    by_cases hpk : d.predecessor = k
    · subst hpk
      simp only [if_true, Option.some.injEq] at hk
      subst hk
      by_cases hsp : d.successor = d.predecessor
      · simp only [hsp, if_true, Option.some.injEq] at hp'
        subst hp'
        refine ⟨s, by rw [← hsp]; exact hs', rfl, by simp [hsp], by simp⟩
      · simp only [hsp, if_false] at hp'
        exact ⟨p, hp', rfl, by simp [hsp], by simp⟩
    · simp only [hpk, if_false] at hk
      rw [AMap.get?_insert] at hk
      by_cases hsk : d.successor = k
      · subst hsk
        simp only [if_true, Option.some.injEq] at hk
        subst hk
        exact ⟨s, hs', rfl, by simp, by simp [hpk]⟩
      · simp only [hsk, if_false] at hk
        exact ⟨n, hk, rfl, by simp [hsk], by simp [hpk]⟩
  constructor
  · exact AMap.nodup_insert _ _ _ (AMap.nodup_insert _ _ _ h.nodup)
  · intro k
    rw [AMap.keys_insert_of_mem _ _ _ hpk', AMap.keys_insert_of_mem _ _ _ hsk, h.keys]
  · intro k n hk
    obtain ⟨n0, h0, _, hc, _⟩ := key k n hk
    rw [hc, h.count k n0 h0]
    simp [pend, List.countP_append, List.countP_cons]
  · intro k n hk
    obtain ⟨n0, h0, _, _, hc⟩ := key k n hk
    rw [hc, h.succ k n0 h0]
    by_cases hpk : d.predecessor = k <;> simp [succs, hpk]
  · intro k n hk
    obtain ⟨n0, h0, hi, _, _⟩ := key k n hk
    rw [hi]; exact h.idx k n0 h0

theorem addDeps_ok {nodes : List α} {deps g} (ds : List (Dependency α)) (h : GInv nodes deps [] g)
    (hv : Valid nodes ds) : ∃ g', addDeps g ds = .ok g' ∧ GInv nodes (deps ++ ds) [] g' := by
  induction ds generalizing deps g with
  | nil => exact ⟨g, rfl, by simpa using h⟩
  | cons d ds ih =>
    obtain ⟨g1, h1, hg1⟩ := addDep_inv d h (hv d (by simp)).1 (hv d (by simp)).2
    obtain ⟨g2, h2, hg2⟩ := ih hg1 (fun d' hd' => hv d' (by simp [hd']))
    refine ⟨g2, by simp [addDeps, h1, h2], by simpa using hg2⟩

theorem addDep_err {nodes : List α} {deps g} (d : Dependency α) (h : GInv nodes deps [] g)
    (hd : ¬ (d.predecessor ∈ nodes ∧ d.successor ∈ nodes)) :
    addDep g d = .error (if d.successor ∈ nodes then .unknownPredecessor else .unknownSuccessor) := by
  by_cases hs : d.successor ∈ nodes
  · have hsk : d.successor ∈ AMap.keys g := (h.keys _).2 ⟨hs, by simp⟩
    obtain ⟨s, hs'⟩ := (AMap.mem_keys_iff _ _).1 hsk
    have hp : d.predecessor ∉ AMap.keys g := by
      rw [h.keys]; intro hp; exact hd ⟨hp.1, hs⟩
    have : AMap.get? (AMap.insert g d.successor
      { s with count_of_predecessors := s.count_of_predecessors + 1 }) d.predecessor = none := by
      rw [AMap.get?_eq_none_iff, AMap.keys_insert_of_mem _ _ _ hsk]; exact hp
    simp [addDep, hs', this, hs]
  · have : AMap.get? g d.successor = none := by
      rw [AMap.get?_eq_none_iff, h.keys]; simp [hs]
    simp [addDep, this, hs]

theorem addDeps_err {nodes : List α} {deps g} (ds : List (Dependency α)) (h : GInv nodes deps [] g)
    (hv : ¬ Valid nodes ds) :
    addDeps g ds = .error .unknownPredecessor ∨ addDeps g ds = .error .unknownSuccessor := by
  induction ds generalizing deps g with
  | nil => exact absurd (by simp [Valid]) hv
  | cons d ds ih =>
    by_cases hd : d.predecessor ∈ nodes ∧ d.successor ∈ nodes
    · obtain ⟨g1, h1, hg1⟩ := addDep_inv d h hd.1 hd.2
      have hv' : ¬ Valid nodes ds := by
        intro hv'; apply hv; intro d' hd'
        rcases List.mem_cons.1 hd' with rfl | hd'
        · exact hd
        · exact hv' d' hd'
      simpa [addDeps, h1] using ih hg1 hv'
    · have := addDep_err d h hd
      simp only [addDeps, this]
      split <;> simp

/-- `ready` holds exactly the zero-count nodes of `g`. -/
structure RInv (g : List (α × GraphNode α)) (ready : List (HeapNode α)) : Prop where
  nodup : (ready.map (·.id)).Nodup
  mem : ∀ h, h ∈ ready ↔ ∃ n, AMap.get? g h.id = some n ∧ n.count_of_predecessors = 0 ∧
    n.input_index = h.input_index

theorem initReady_inv {g : List (α × GraphNode α)} {enum} (he : ∀ g : List (α × GraphNode α), (enum g).Perm g)
    (hn : (AMap.keys g).Nodup) : RInv g (initReady enum g) := by
  constructor
  · simp only [initReady, List.map_map]
    have h1 : (((enum g).filter (fun p => p.2.count_of_predecessors == 0)).map Prod.fst).Nodup := by
      refine List.Nodup.sublist (List.Sublist.map _ List.filter_sublist) ?_
      exact ((he g).map Prod.fst).nodup_iff.2 hn
    exact h1
  · rintro ⟨i, ix⟩
    simp only [initReady, List.mem_map, List.mem_filter, (he g).mem_iff]
    constructor
    · rintro ⟨⟨k, n⟩, ⟨hm, hc⟩, heq⟩
      simp only [HeapNode.mk.injEq] at heq
      obtain ⟨rfl, rfl⟩ := heq
      exact ⟨n, AMap.get?_of_mem g hn hm, by simpa using hc, rfl⟩
    · rintro ⟨n, hg, hc, hi⟩
      exact ⟨(i, n), ⟨AMap.mem_of_get? g hg, by simpa using hc⟩, by simp_all⟩

/-- mid-`relax` invariant -/
theorem relax_ok {nodes : List α} {deps done} (ss : List α) {g ready}
    (hnd : (AMap.keys g).Nodup)
    (hk : ∀ k, k ∈ AMap.keys g ↔ k ∈ nodes ∧ k ∉ done)
    (hc : ∀ k n, AMap.get? g k = some n → n.count_of_predecessors = pend deps done k + ss.count k)
    (hs : ∀ k n, AMap.get? g k = some n → n.successors = succs deps k)
    (hi : ∀ k n, AMap.get? g k = some n → IsLastIdx nodes k n.input_index)
    (hr : RInv g ready)
    (hss : ∀ s ∈ ss, s ∈ AMap.keys g) :
    ∃ g' ready', relax g ready ss = .ok (g', ready') ∧ GInv nodes deps done g' ∧ RInv g' ready' := by
  induction ss generalizing g ready with
  | nil => exact ⟨g, ready, rfl, ⟨hnd, hk, by simpa using hc, hs, hi⟩, hr⟩
  | cons s ss ih =>
    have hsk := hss s (by simp)
    obtain ⟨n, hn⟩ := (AMap.mem_keys_iff _ _).1 hsk
    have hcn := hc s n hn
    simp only [List.count_cons_self] at hcn
    have hpos : 0 < n.count_of_predecessors := by omega
    simp only [relax, hn, hpos, if_true]
    have hkeys : AMap.keys (AMap.insert g s { n with count_of_predecessors := n.count_of_predecessors - 1 })
        = AMap.keys g := AMap.keys_insert_of_mem _ _ _ hsk
    have key : ∀ k m, AMap.get? (AMap.insert g s { n with count_of_predecessors := n.count_of_predecessors - 1 }) k = some m →
        ∃ m0, AMap.get? g k = some m0 ∧ m.successors = m0.successors ∧ m.input_index = m0.input_index ∧
          m.count_of_predecessors = m0.count_of_predecessors - (if s = k then 1 else 0) := by
      intro k m hm
      rw [AMap.get?_insert] at hm
      by_cases hsk : s = k
      · subst hsk; simp only [if_true, Option.some.injEq] at hm; subst hm
        exact ⟨n, hn, rfl, rfl, by simp⟩
      · simp only [hsk, if_false] at hm
        exact ⟨m, hm, rfl, rfl, by simp [hsk]⟩
    apply ih
    · rw [hkeys]; exact hnd
    · intro k; rw [hkeys]; exact hk k
    · intro k m hm
      obtain ⟨m0, h0, _, _, h1⟩ := key k m hm
      rw [h1, hc k m0 h0, List.count_cons]
      by_cases h : s = k <;> simp [h]
    · intro k m hm
      obtain ⟨m0, h0, h1, _, _⟩ := key k m hm
      rw [h1]; exact hs k m0 h0
    · intro k m hm
      obtain ⟨m0, h0, _, h1, _⟩ := key k m hm
      rw [h1]; exact hi k m0 h0
    · have hnot : s ∉ ready.map (·.id) := by
        intro hmem
        obtain ⟨h, hh, he⟩ := List.mem_map.1 hmem
        obtain ⟨m, hm, hm0, _⟩ := (hr.mem h).1 hh
        rw [he, hn] at hm
        simp only [Option.some.injEq] at hm
        subst hm; omega
      constructor
      · split
        · simp only [List.map_cons, List.nodup_cons]; exact ⟨hnot, hr.nodup⟩
        · exact hr.nodup
      · rintro ⟨i, ix⟩
        have hother : i ≠ s → ((⟨i, ix⟩ : HeapNode α) ∈ ready ↔ ∃ m, AMap.get? (AMap.insert g s { n with count_of_predecessors := n.count_of_predecessors - 1 }) i = some m ∧ m.count_of_predecessors = 0 ∧
              m.input_index = ix) := by
          intro hne
          rw [hr.mem, AMap.get?_insert_ne _ _ (Ne.symm hne)]
        by_cases his : i = s
        · subst his
          simp only [AMap.get?_insert_self, Option.some.injEq, exists_eq_left']
          have : (⟨i, ix⟩ : HeapNode α) ∉ ready := fun hm => hnot (List.mem_map.2 ⟨_, hm, rfl⟩)
          split
          · rename_i h0
            simp only [List.mem_cons, this, or_false, HeapNode.mk.injEq, true_and]
            simp only [h0, true_and]
            exact eq_comm
          · rename_i h0
            simp [this]; intro h1; exact absurd h1 h0
        · rw [← hother his]
          split
          · simp [his]
          · rfl
    · intro x hx; rw [hkeys]; exact hss x (by simp [hx])

theorem pend_snoc_of (deps : List (Dependency α)) (done : List α) (r k : α) (hr : r ∉ done) :
    pend deps done k = pend deps (done ++ [r]) k + (succs deps r).count k := by
  induction deps with
  | nil => simp [pend, succs]
  | cons d ds ih =>
    simp only [pend, succs, List.countP_cons, List.filter_cons] at *
    by_cases h1 : d.predecessor = r
    · simp only [h1, decide_true, if_true, List.map_cons, List.count_cons]
      rw [ih]
      by_cases h2 : d.successor = k <;> simp [h2, hr]; omega
    · simp only [h1, decide_false, Bool.false_eq_true, if_false]
      rw [ih]
      by_cases h2 : d.successor = k <;> by_cases h3 : d.predecessor ∈ done <;> simp [h2, h1, h3]; omega

theorem pend_eq_zero (deps : List (Dependency α)) (done : List α) (k : α) :
    pend deps done k = 0 ↔ ∀ p, Dep deps p k → p ∈ done := by
  simp only [pend, List.countP_eq_zero, decide_eq_true_eq, not_and, not_not, Dep]
  constructor
  · intro h p hp; exact h _ hp rfl
  · rintro h ⟨p, s⟩ hd rfl; exact h p hd

theorem mem_succs (deps : List (Dependency α)) (r s : α) : s ∈ succs deps r ↔ Dep deps r s := by
  simp only [succs, List.mem_map, List.mem_filter, decide_eq_true_eq, Dep]
  constructor
  · rintro ⟨⟨p, s'⟩, ⟨h, rfl⟩, rfl⟩; exact h
  · intro h; exact ⟨_, ⟨h, rfl⟩, rfl⟩

/-- The loop invariant. -/
structure LInv (cmp : α → α → Ordering) (nodes : List α) (deps : List (Dependency α))
    (g : List (α × GraphNode α)) (ready : List (HeapNode α)) (ordered : List α) : Prop where
  ginv : GInv nodes deps ordered g
  rinv : RInv g ready
  avail : ∀ a x b, ordered = a ++ x :: b → Available nodes deps a x
  best : Std.TransCmp cmp → ∀ a x b, ordered = a ++ x :: b →
    ∀ y, Available nodes deps a y → y ≠ x → Prefer cmp nodes x y

theorem GInv.available_iff {nodes : List α} {deps done g} (h : GInv nodes deps done g) (x : α) :
    Available nodes deps done x ↔ ∃ n, AMap.get? g x = some n ∧ n.count_of_predecessors = 0 := by
  constructor
  · rintro ⟨h1, h2, h3⟩
    obtain ⟨n, hn⟩ := (AMap.mem_keys_iff _ _).1 ((h.keys x).2 ⟨h1, h2⟩)
    exact ⟨n, hn, by rw [h.count x n hn, pend_eq_zero]; exact h3⟩
  · rintro ⟨n, hn, h0⟩
    have := (h.keys x).1 ((AMap.mem_keys_iff _ _).2 ⟨n, hn⟩)
    refine ⟨this.1, this.2, ?_⟩
    rw [← pend_eq_zero, ← h.count x n hn]; exact h0

theorem snoc_split {β : Type} {l a b : List β} {r x : β} (h : l ++ [r] = a ++ x :: b) :
    (b = [] ∧ l = a ∧ r = x) ∨ ∃ b', b = b' ++ [r] ∧ l = a ++ x :: b' := by
  rcases List.eq_nil_or_concat b with rfl | ⟨b', z, rfl⟩
  · left
    have := List.append_inj' h rfl
    simp at this; exact ⟨rfl, this.1, this.2⟩
  · right
    have h' : l ++ [r] = (a ++ x :: b') ++ [z] := by simpa [List.concat_eq_append] using h
    have := List.append_inj' h' rfl
    simp only [List.cons.injEq, and_true] at this
    exact ⟨b', by simp [List.concat_eq_append, this.2], this.1⟩

theorem loop_step {cmp : α → α → Ordering} (rt : Runtime α cmp) {nodes : List α} {deps g ready ordered}
    (hv : Valid nodes deps)
    (h : LInv cmp nodes deps g ready ordered) {removed ready1} (hp : rt.pop ready = some (removed, ready1)) :
    ∃ node g2 ready2, AMap.get? g removed.id = some node ∧
      relax (AMap.erase g removed.id) ready1 node.successors = .ok (g2, ready2) ∧
      LInv cmp nodes deps g2 ready2 (ordered ++ [removed.id]) := by
  have hperm := rt.pop_perm _ _ _ hp
  have hmem : removed ∈ ready := hperm.mem_iff.2 (by simp)
  obtain ⟨node, hnode, hcnt, hidx⟩ := (h.rinv.mem removed).1 hmem
  have hav : Available nodes deps ordered removed.id := (h.ginv.available_iff _).2 ⟨node, hnode, hcnt⟩
  have hge : ∀ k, AMap.get? (AMap.erase g removed.id) k = if removed.id = k then none else AMap.get? g k :=
    fun k => AMap.get?_erase g _ k h.ginv.nodup
  have hke : ∀ k, k ∈ AMap.keys (AMap.erase g removed.id) ↔ k ∈ nodes ∧ k ∉ ordered ++ [removed.id] := by
    intro k
    rw [AMap.mem_keys_iff, hge]
    by_cases hk : removed.id = k
    · subst hk; simp
    · simp only [hk, if_false]; rw [← AMap.mem_keys_iff, h.ginv.keys]
      simp only [List.mem_append, List.mem_singleton]
      constructor
      · rintro ⟨h1, h2⟩; exact ⟨h1, by rintro (h3 | h3); exact h2 h3; exact hk h3.symm⟩
      · rintro ⟨h1, h2⟩; exact ⟨h1, fun h3 => h2 (Or.inl h3)⟩
  have hnd1 : (removed.id :: ready1.map (·.id)).Nodup := by
    have := (hperm.map (·.id)).nodup_iff.1 h.rinv.nodup
    simpa using this
  have hrelax := relax_ok (nodes := nodes) (deps := deps) (done := ordered ++ [removed.id]) node.successors
    (g := AMap.erase g removed.id) (ready := ready1)
    (AMap.nodup_erase _ _ h.ginv.nodup) hke
    (by
      intro k n hk
      rw [hge] at hk
      split at hk
      · simp at hk
      · rw [h.ginv.count k n hk, h.ginv.succ _ _ hnode]
        exact pend_snoc_of deps ordered removed.id k hav.2.1)
    (by
      intro k n hk
      rw [hge] at hk
      split at hk
      · simp at hk
      · exact h.ginv.succ k n hk)
    (by
      intro k n hk
      rw [hge] at hk
      split at hk
      · simp at hk
      · exact h.ginv.idx k n hk)
    (by
      refine ⟨(List.nodup_cons.1 hnd1).2, ?_⟩
      intro x
      rw [hge]
      by_cases hx : removed.id = x.id
      · simp only [hx, if_true]
        constructor
        · intro hm
          exact absurd (List.mem_map.2 ⟨x, hm, hx.symm⟩) (List.nodup_cons.1 hnd1).1
        · rintro ⟨n, hn, _⟩; simp at hn
      · simp only [hx, if_false]
        rw [← h.rinv.mem x, hperm.mem_iff]
        simp only [List.mem_cons]
        constructor
        · exact Or.inr
        · rintro (h1 | h1)
          · subst h1; exact absurd rfl hx
          · exact h1)
    (by
      intro s hs
      rw [h.ginv.succ _ _ hnode, mem_succs] at hs
      rw [hke]
      refine ⟨(hv _ hs).2, ?_⟩
      simp only [List.mem_append, List.mem_singleton, not_or]
      constructor
      · intro hso
        obtain ⟨a, b, hab⟩ := List.append_of_mem hso
        have := (h.avail a s b hab).2.2 _ hs
        exact hav.2.1 (by rw [hab]; simp [this])
      · rintro rfl
        exact hav.2.1 (hav.2.2 _ hs))
  obtain ⟨g2, ready2, hr, hg2, hr2⟩ := hrelax
  refine ⟨node, g2, ready2, hnode, hr, hg2, hr2, ?_, ?_⟩
  · intro a x b hab
    rcases snoc_split hab with ⟨_, rfl, rfl⟩ | ⟨b', _, hb'⟩
    · exact hav
    · exact h.avail a x b' hb'
  · intro htr a x b hab
    rcases snoc_split hab with ⟨_, rfl, rfl⟩ | ⟨b', _, hb'⟩
    · intro y hy hyx
      obtain ⟨ny, hny, hy0⟩ := (h.ginv.available_iff y).1 hy
      have hyr : (⟨y, ny.input_index⟩ : HeapNode α) ∈ ready := (h.rinv.mem _).2 ⟨ny, hny, hy0, rfl⟩
      have hmax := rt.pop_max htr _ _ _ hp _ hyr
      have hix := h.ginv.idx _ _ hnode
      have hiy := h.ginv.idx _ _ hny
      simp only [HeapNode.cmp] at hmax
      have hsw : cmp removed.id y = (cmp y removed.id).swap := Std.OrientedCmp.eq_swap
      unfold Prefer
      rw [hsw]
      cases hcase : cmp y removed.id with
      | lt => rw [hcase] at hmax; simp at hmax
      | gt => left; rfl
      | eq =>
        right
        refine ⟨rfl, node.input_index, ny.input_index, hix, hiy, ?_⟩
        rw [hcase] at hmax
        simp only [if_true] at hmax
        have hle : node.input_index ≤ ny.input_index := by
          rw [hidx]
          rcases Nat.lt_or_ge ny.input_index removed.input_index with hlt | hge
          · exact absurd (Nat.compare_eq_gt.2 hlt) hmax
          · exact hge
        rcases Nat.lt_or_eq_of_le hle with hlt | heq
        · exact hlt
        · exfalso
          have := hix.1
          rw [heq, hiy.1] at this
          simp at this; exact hyx this
    · exact h.best htr a x b' hb'

theorem loop_ok {cmp : α → α → Ordering} (rt : Runtime α cmp) {nodes : List α} {deps}
    (hv : Valid nodes deps) (k : Nat) : ∀ {g ready ordered}, g.length ≤ k →
    LInv cmp nodes deps g ready ordered →
    ∃ g' ordered', loop rt.pop g ready ordered = .ok (g', ordered') ∧
      LInv cmp nodes deps g' [] ordered' := by
  induction k with
  | zero =>
    intro g ready ordered hk h
    have hg : g = [] := List.length_eq_zero_iff.1 (by omega)
    have : ready = [] := by
      cases ready with
      | nil => rfl
      | cons x xs =>
        obtain ⟨n, hn, _⟩ := (h.rinv.mem x).1 (by simp)
        rw [hg] at hn; simp at hn
    subst this
    unfold loop
    rw [(rt.pop_none []).2 rfl]
    exact ⟨g, ordered, rfl, h⟩
  | succ k ih =>
    intro g ready ordered hk h
    unfold loop
    cases hp : rt.pop ready with
    | none =>
      have := (rt.pop_none ready).1 hp
      subst this
      exact ⟨g, ordered, rfl, h⟩
    | some pr =>
      obtain ⟨removed, ready1⟩ := pr
      obtain ⟨node, g2, ready2, h1, h2, h3⟩ := loop_step rt hv h hp
      have hlen : g2.length ≤ k := by
        have := relax_length h2
        have := AMap.length_erase_lt g removed.id h1
        omega
      obtain ⟨g', o', h4, h5⟩ := ih hlen h3
      refine ⟨g', o', ?_, h5⟩
      simp only
      split
      · simp_all
      · rename_i node' hn'
        rw [h1] at hn'; simp only [Option.some.injEq] at hn'; subst hn'
        split
        · simp_all
        · rename_i g2' r2' hr'
          rw [h2] at hr'
          simp only [Except.ok.injEq, Prod.mk.injEq] at hr'
          obtain ⟨rfl, rfl⟩ := hr'
          exact h4

/-- Everything about a successful run. -/
theorem toposort_ok {cmp : α → α → Ordering} (rt : Runtime α cmp) {nodes : List α} {deps}
    (hv : Valid nodes deps) :
    ∃ g r, toposort rt nodes deps = .ok r ∧ LInv cmp nodes deps g [] r.ordered ∧
      r.failed = ((rt.enumFailed g).map Prod.fst).mergeSort (fun a b => (cmp a b).isLE) := by
  obtain ⟨g, hg, hgi⟩ := addDeps_ok deps (initGraph_inv nodes) hv
  simp only [List.nil_append] at hgi
  have hl : LInv cmp nodes deps g (initReady rt.enumReady g) [] :=
    ⟨hgi, initReady_inv rt.enumReady_perm hgi.nodup, by simp, by simp⟩
  obtain ⟨g', o', h1, h2⟩ := loop_ok rt hv g.length (Nat.le_refl _) hl
  refine ⟨g', ⟨o', _⟩, ?_, h2, rfl⟩
  simp only [toposort, hg, h1]

theorem mem_failed {cmp : α → α → Ordering} (rt : Runtime α cmp) {nodes : List α} {deps g r}
    (h : LInv cmp nodes deps g [] r) (k : α) :
    k ∈ ((rt.enumFailed g).map Prod.fst).mergeSort (fun a b => (cmp a b).isLE) ↔ k ∈ nodes ∧ k ∉ r := by
  rw [(List.mergeSort_perm _ _).mem_iff, ((rt.enumFailed_perm g).map Prod.fst).mem_iff]
  exact h.ginv.keys k

theorem avail_nodup {nodes deps} (l : List α)
    (h : ∀ a x b, l = a ++ x :: b → Available nodes deps a x) : l.Nodup := by
  induction l using List.reverseRecOn with
  | nil => simp
  | append_singleton l x ih =>
    rw [List.nodup_append]
    refine ⟨ih (fun a y b hab => h a y (b ++ [x]) (by simp [hab])), by simp, ?_⟩
    intro a ha b hb
    simp only [List.mem_singleton] at hb
    subst hb
    rintro rfl
    exact (h l a [] rfl).2.1 ha

/-- nodes left over all have a left-over predecessor -/
theorem leftover_pred {cmp : α → α → Ordering} {nodes : List α} {deps g r}
    (hv : Valid nodes deps) (h : LInv cmp nodes deps g [] r) {k : α} (hk : k ∈ nodes ∧ k ∉ r) :
    ∃ p, Dep deps p k ∧ p ∈ nodes ∧ p ∉ r := by
  by_contra hcon
  have hav : Available nodes deps r k := by
    refine ⟨hk.1, hk.2, fun p hp => ?_⟩
    by_contra hpr
    exact hcon ⟨p, hp, (hv _ hp).1, hpr⟩
  obtain ⟨n, hn, h0⟩ := (h.ginv.available_iff k).1 hav
  have := (h.rinv.mem ⟨k, n.input_index⟩).2 ⟨n, hn, h0, rfl⟩
  simp at this

theorem exists_cycle_of_pred {S : List α} {R : α → α → Prop}
    (hpred : ∀ k ∈ S, ∃ p ∈ S, R p k) {k : α} (hk : k ∈ S) :
    ∃ c, Relation.TransGen R c c ∧ Relation.ReflTransGen R c k := by
  classical
  choose! f hfS hfR using hpred
  let it : Nat → {x // x ∈ S} := fun n => Nat.rec ⟨k, hk⟩ (fun _ x => ⟨f x.1, hfS x.1 x.2⟩) n
  have hstep : ∀ n, R (it (n+1)).1 (it n).1 := fun n => hfR _ (it n).2
  have hreach : ∀ n m, Relation.ReflTransGen R (it (n+m)).1 (it n).1 := by
    intro n m
    induction m with
    | zero => exact .refl
    | succ m ih => exact .head (hstep (n+m)) ih
  haveI : Finite {x // x ∈ S} := Finite.of_fintype _
  obtain ⟨i, j, hij, heq⟩ := Finite.exists_ne_map_eq_of_infinite it
  wlog hlt : i < j generalizing i j
  · exact this j i (Ne.symm hij) heq.symm (by omega)
  refine ⟨(it j).1, ?_, ?_⟩
  · have h1 : Relation.TransGen R (it (i+1)).1 (it i).1 := .single (hstep i)
    have h2 := hreach (i+1) (j - (i+1))
    rw [show i + 1 + (j - (i+1)) = j by omega] at h2
    have := Relation.TransGen.trans_right h2 h1
    rw [heq] at this; exact this
  · have := hreach 0 j
    rw [Nat.zero_add] at this; exact this

theorem greedy_unique {cmp : α → α → Ordering} [Std.TransCmp cmp] {nodes : List α} {deps}
    {o1 o2 : List α} (h1 : GreedyOrder cmp nodes deps o1) (h2 : GreedyOrder cmp nodes deps o2) :
    o1 = o2 := by
  have hasym : ∀ x y, Prefer cmp nodes x y → Prefer cmp nodes y x → False := by
    intro x y hxy hyx
    have hsw : cmp y x = (cmp x y).swap := Std.OrientedCmp.eq_swap
    rcases hxy with hxy | ⟨hxy, i, j, hi, hj, hij⟩
    · rcases hyx with hyx | ⟨hyx, _⟩ <;> rw [hsw, hxy] at hyx <;> simp at hyx
    · rcases hyx with hyx | ⟨hyx, i', j', hi', hj', hij'⟩
      · rw [hsw, hxy] at hyx; simp at hyx
      · have e1 : i = j' := by
          rcases Nat.lt_trichotomy i j' with h | h | h
          · exact absurd hj'.1 (hi.2 _ h)
          · exact h
          · exact absurd hi.1 (hj'.2 _ h)
        have e2 : j = i' := by
          rcases Nat.lt_trichotomy j i' with h | h | h
          · exact absurd hi'.1 (hj.2 _ h)
          · exact h
          · exact absurd hj.1 (hi'.2 _ h)
        omega
  have hpre : ∀ n, o1.take n = o2.take n := by
    intro n
    induction n with
    | zero => simp
    | succ n ih =>
      by_cases hn1 : n < o1.length
      · have e1 : o1 = o1.take n ++ o1[n] :: o1.drop (n+1) := by simp
        have a1 := h1.1 _ _ _ e1
        by_cases hn2 : n < o2.length
        · have e2 : o2 = o2.take n ++ o2[n] :: o2.drop (n+1) := by simp
          have a2 := h2.1 _ _ _ e2
          rw [← ih] at a2
          have : o1[n] = o2[n] := by
            by_contra hne
            exact hasym _ _ (a1.2 _ a2.1 (Ne.symm hne)) (a2.2 _ a1.1 hne)
          rw [List.take_succ_eq_append_getElem hn1, List.take_succ_eq_append_getElem hn2, ih, this]
        · have : o2.take n = o2 := List.take_of_length_le (by omega)
          rw [this] at ih
          rw [ih] at a1
          exact absurd a1.1 (h2.2 _)
      · have e1 : o1.take n = o1 := List.take_of_length_le (by omega)
        by_cases hn2 : n < o2.length
        · have e2 : o2 = o2.take n ++ o2[n] :: o2.drop (n+1) := by simp
          have a2 := h2.1 _ _ _ e2
          rw [← ih, e1] at a2
          exact absurd a2.1 (h1.2 _)
        · rw [List.take_of_length_le (by omega), List.take_of_length_le (by omega)]
          rw [e1, List.take_of_length_le (by omega)] at ih
          exact ih
  have := hpre (o1.length + o2.length)
  rwa [List.take_of_length_le (by omega), List.take_of_length_le (by omega)] at this

end Verif.Toposort

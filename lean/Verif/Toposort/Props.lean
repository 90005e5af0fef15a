import Verif.Toposort.Lemmas
/- Property theorems C01-C06 about `toposort`. -/
namespace Verif.Toposort
open Verif

variable {α : Type} [DecidableEq α]

/-! ### A reference runtime, so that the `Runtime` contract is known to be satisfiable -/

theorem heapCmp_eq {cmp : α → α → Ordering} [Std.TransCmp cmp] :
    HeapNode.cmp cmp = compareLex (fun a b => cmp b.id a.id) (fun a b => compare b.input_index a.input_index) := by
  funext a b
  simp only [HeapNode.cmp, compareLex]
  have hsw : cmp b.id a.id = (cmp a.id b.id).swap := Std.OrientedCmp.eq_swap
  rw [hsw]
  cases cmp a.id b.id <;> simp

theorem heapCmp_trans {cmp : α → α → Ordering} [Std.TransCmp cmp] : Std.TransCmp (HeapNode.cmp cmp) := by
  rw [heapCmp_eq]
  have i1 : Std.TransCmp (fun a b : HeapNode α => cmp b.id a.id) :=
    { eq_swap := fun {a b} => Std.OrientedCmp.eq_swap (cmp := cmp)
      isLE_trans := fun {a b c} h1 h2 => Std.TransCmp.isLE_trans (cmp := cmp) h2 h1 }
  have i2 : Std.TransCmp (fun a b : HeapNode α => compare b.input_index a.input_index) :=
    { eq_swap := fun {a b} => Std.OrientedCmp.eq_swap (cmp := (compare : Nat → Nat → Ordering))
      isLE_trans := fun {a b c} h1 h2 =>
        Std.TransCmp.isLE_trans (cmp := (compare : Nat → Nat → Ordering)) h2 h1 }
  infer_instance

/-- A list-based priority queue: removes a greatest element. -/
def popMax (cmp : α → α → Ordering) : List (HeapNode α) → Option (HeapNode α × List (HeapNode α))
  | [] => none
  | x :: xs =>
    match popMax cmp xs with
    | none => some (x, [])
    | some (y, r) => if HeapNode.cmp cmp y x = .gt then some (y, x :: r) else some (x, y :: r)

theorem popMax_none (cmp : α → α → Ordering) (h) : popMax cmp h = none ↔ h = [] := by
  cases h with
  | nil => simp [popMax]
  | cons x xs =>
    simp only [popMax]
    split
    · simp
    · split <;> simp

theorem popMax_perm (cmp : α → α → Ordering) (h) : ∀ x r, popMax cmp h = some (x, r) → h.Perm (x :: r) := by
  induction h with
  | nil => simp [popMax]
  | cons a as ih =>
    intro x r
    simp only [popMax]
    split
    · rename_i h0
      rw [popMax_none] at h0
      subst h0; rintro ⟨⟩; exact List.Perm.refl _
    · rename_i y r' hy
      split
      · rintro ⟨⟩
        exact (List.Perm.cons a (ih _ _ hy)).trans (List.Perm.swap _ _ _)
      · rintro ⟨⟩
        exact List.Perm.cons a (ih _ _ hy)

theorem popMax_max (cmp : α → α → Ordering) (ht : Std.TransCmp cmp) (h) :
    ∀ x r, popMax cmp h = some (x, r) → ∀ y ∈ h, HeapNode.cmp cmp y x ≠ .gt := by
  have := heapCmp_trans (cmp := cmp)
  induction h with
  | nil => simp [popMax]
  | cons a as ih =>
    intro x r hx
    simp only [popMax] at hx
    split at hx
    · rename_i h0
      rw [popMax_none] at h0
      subst h0
      simp only [Option.some.injEq, Prod.mk.injEq] at hx
      obtain ⟨rfl, rfl⟩ := hx
      simp [Std.ReflCmp.compare_self]
    · rename_i y r' hy
      have ihy := ih _ _ hy
      split at hx
      · rename_i hgt
        simp only [Option.some.injEq, Prod.mk.injEq] at hx
        obtain ⟨rfl, rfl⟩ := hx
        intro z hz
        rcases List.mem_cons.1 hz with rfl | hz
        · rw [Std.OrientedCmp.gt_iff_lt] at hgt
          rw [hgt]; simp
        · exact ihy z hz
      · rename_i hgt
        simp only [Option.some.injEq, Prod.mk.injEq] at hx
        obtain ⟨rfl, rfl⟩ := hx
        intro z hz
        rcases List.mem_cons.1 hz with rfl | hz
        · simp [Std.ReflCmp.compare_self]
        · have h1 := ihy z hz
          have h1' : (HeapNode.cmp cmp z y).isLE := by
            cases hc : HeapNode.cmp cmp z y <;> simp_all
          have h2' : (HeapNode.cmp cmp y a).isLE := by
            cases hc : HeapNode.cmp cmp y a <;> simp_all
          have h3 := Std.TransCmp.isLE_trans h1' h2'
          intro hc; rw [hc] at h3; simp at h3

/-- A runtime with a chosen enumeration order for the leftover map. -/
def mkRuntime (cmp : α → α → Ordering) (e : List (α × GraphNode α) → List (α × GraphNode α))
    (he : ∀ g, (e g).Perm g) : Runtime α cmp where
  enumReady := id
  enumReady_perm := fun _ => List.Perm.refl _
  enumFailed := e
  enumFailed_perm := he
  pop := popMax cmp
  pop_none := popMax_none cmp
  pop_perm := popMax_perm cmp
  pop_max := popMax_max cmp

/-! ### C01 -/

/-- C01: `ordered ++ failed` contains every distinct input node exactly once and nothing else. -/
theorem toposort_partition {cmp : α → α → Ordering} (rt : Runtime α cmp) (nodes : List α)
    (deps : List (Dependency α)) (r) (h : toposort rt nodes deps = .ok r) :
    (r.ordered ++ r.failed).Nodup ∧ ∀ k, k ∈ r.ordered ++ r.failed ↔ k ∈ nodes := by
  by_cases hv : Valid nodes deps
  · obtain ⟨g, r', h1, hl, hf⟩ := toposort_ok rt hv
    rw [h] at h1
    simp only [Except.ok.injEq] at h1
    subst h1
    have hon := avail_nodup _ hl.avail
    constructor
    · rw [List.nodup_append]
      refine ⟨hon, ?_, ?_⟩
      · rw [hf, (List.mergeSort_perm _ _).nodup_iff, ((rt.enumFailed_perm g).map Prod.fst).nodup_iff]
        exact hl.ginv.nodup
      · intro a ha b hb
        rw [hf, mem_failed rt hl] at hb
        rintro rfl; exact hb.2 ha
    · intro k
      rw [List.mem_append, hf, mem_failed rt hl]
      constructor
      · rintro (hk | hk)
        · obtain ⟨a, b, hab⟩ := List.append_of_mem hk
          exact (hl.avail a k b hab).1
        · exact hk.1
      · intro hk
        by_cases hko : k ∈ r.ordered
        · exact Or.inl hko
        · exact Or.inr ⟨hk, hko⟩
  · rcases addDeps_err deps (initGraph_inv nodes) hv with he | he <;>
      simp [toposort, he] at h

/-! ### C02 -/

/-- C02: wherever a successor is emitted, its predecessor was emitted strictly earlier. -/
theorem toposort_respects_deps {cmp : α → α → Ordering} (rt : Runtime α cmp) (nodes : List α)
    (deps : List (Dependency α)) (r) (h : toposort rt nodes deps = .ok r)
    (p s : α) (hd : Dep deps p s) (a b : List α) (hs : r.ordered = a ++ s :: b) : p ∈ a := by
  by_cases hv : Valid nodes deps
  · obtain ⟨g, r', h1, hl, hf⟩ := toposort_ok rt hv
    rw [h] at h1
    simp only [Except.ok.injEq] at h1
    subst h1
    exact (hl.avail a s b hs).2.2 p hd
  · rcases addDeps_err deps (initGraph_inv nodes) hv with he | he <;>
      simp [toposort, he] at h

/-! ### C03 -/

/-- C03: `failed` is exactly the set of nodes on, or downstream of, a dependency cycle. -/
theorem toposort_failed_iff {cmp : α → α → Ordering} (rt : Runtime α cmp) (nodes : List α)
    (deps : List (Dependency α)) (r) (h : toposort rt nodes deps = .ok r) (k : α) (hk : k ∈ nodes) :
    k ∈ r.failed ↔ Doomed deps k := by
  by_cases hv : Valid nodes deps
  · obtain ⟨g, r', h1, hl, hf⟩ := toposort_ok rt hv
    rw [h] at h1
    simp only [Except.ok.injEq] at h1
    subst h1
    rw [hf, mem_failed rt hl]
    constructor
    · intro hkn
      classical
      have hS : ∀ x, x ∈ nodes.filter (fun x => decide (x ∉ r.ordered)) ↔ x ∈ nodes ∧ x ∉ r.ordered := by
        intro x; simp
      exact exists_cycle_of_pred (S := nodes.filter (fun x => decide (x ∉ r.ordered))) (R := Dep deps)
        (fun x hx => by
          obtain ⟨p, hp, h1, h2⟩ := leftover_pred hv hl ((hS x).1 hx)
          exact ⟨p, (hS p).2 ⟨h1, h2⟩, hp⟩) ((hS k).2 hkn)
    · rintro ⟨c, hc, hck⟩
      refine ⟨hk, fun hko => ?_⟩
      -- ancestors of an emitted node are emitted before it
      have hback : ∀ p s, Dep deps p s → ∀ a b, r.ordered = a ++ s :: b →
          ∃ a' b', r.ordered = a' ++ p :: b' ∧ a'.length < a.length := by
        intro p s hd a b hab
        have hpa := (hl.avail a s b hab).2.2 p hd
        obtain ⟨a', b', hab'⟩ := List.append_of_mem hpa
        refine ⟨a', b' ++ s :: b, by rw [hab, hab']; simp, by rw [hab']; simp⟩
      have hrefl : ∀ x, Relation.ReflTransGen (Dep deps) x k → x ∈ r.ordered := by
        intro x hx
        induction hx using Relation.ReflTransGen.head_induction_on with
        | refl => exact hko
        | head hd _ ih =>
          obtain ⟨a, b, hab⟩ := List.append_of_mem ih
          obtain ⟨a', b', hab', _⟩ := hback _ _ hd a b hab
          rw [hab']; simp
      have htrans : ∀ x, Relation.TransGen (Dep deps) x c → ∀ a b, r.ordered = a ++ c :: b →
          ∃ a' b', r.ordered = a' ++ x :: b' ∧ a'.length < a.length := by
        intro x hx a b hab
        induction hx using Relation.TransGen.head_induction_on with
        | single hd => exact hback _ _ hd a b hab
        | head hd _ ih =>
          obtain ⟨a', b', hab', hl'⟩ := ih
          obtain ⟨a2, b2, hab2, hl2⟩ := hback _ _ hd a' b' hab'
          exact ⟨a2, b2, hab2, by omega⟩
      obtain ⟨a, b, hab⟩ := List.append_of_mem (hrefl c hck)
      obtain ⟨a', b', hab', hlt⟩ := htrans c hc a b hab
      have hnd := avail_nodup _ hl.avail
      have hlen := congrArg List.length hab
      have hlen' := congrArg List.length hab'
      simp only [List.length_append, List.length_cons] at hlen hlen'
      have h1 : r.ordered[a.length]? = some c := by rw [hab]; simp
      have h2 : r.ordered[a'.length]? = some c := by rw [hab']; simp
      have := (List.nodup_iff_getElem?_ne_getElem?.1 hnd) a'.length a.length hlt (by omega)
      exact this (h2.trans h1.symm)
  · rcases addDeps_err deps (initGraph_inv nodes) hv with he | he <;>
      simp [toposort, he] at h

/-- C03, second half: nothing fails iff the dependencies are acyclic. -/
theorem toposort_failed_empty_iff {cmp : α → α → Ordering} (rt : Runtime α cmp) (nodes : List α)
    (deps : List (Dependency α)) (r) (h : toposort rt nodes deps = .ok r) :
    r.failed = [] ↔ ¬ ∃ c, OnCycle deps c := by
  have hmem := (toposort_partition rt nodes deps r h).2
  constructor
  · rintro he ⟨c, hc⟩
    have hcn : c ∈ nodes := by
      by_cases hv : Valid nodes deps
      · obtain ⟨b, hb, _⟩ := Relation.TransGen.head'_iff.1 hc
        exact (hv _ hb).1
      · rcases addDeps_err deps (initGraph_inv nodes) hv with he | he <;>
          simp [toposort, he] at h
    have := (toposort_failed_iff rt nodes deps r h c hcn).2 ⟨c, hc, .refl⟩
    rw [he] at this; simp at this
  · intro hno
    rw [List.eq_nil_iff_forall_not_mem]
    intro k hk
    have hkn := (hmem k).1 (by simp [hk])
    obtain ⟨c, hc, _⟩ := (toposort_failed_iff rt nodes deps r h k hkn).1 hk
    exact hno ⟨c, hc⟩

/-! ### C04 -/

/-- C04: `ordered` is the greedy best-preference order. -/
theorem toposort_greedy {cmp : α → α → Ordering} [htr : Std.TransCmp cmp] (rt : Runtime α cmp)
    (nodes : List α) (deps : List (Dependency α)) (r) (h : toposort rt nodes deps = .ok r) :
    GreedyOrder cmp nodes deps r.ordered := by
  by_cases hv : Valid nodes deps
  · obtain ⟨g, r', h1, hl, hf⟩ := toposort_ok rt hv
    rw [h] at h1
    simp only [Except.ok.injEq] at h1
    subst h1
    refine ⟨fun a x b hab => ⟨hl.avail a x b hab, hl.best htr a x b hab⟩, fun x hx => ?_⟩
    obtain ⟨n, hn, h0⟩ := (hl.ginv.available_iff x).1 hx
    have := (hl.rinv.mem ⟨x, n.input_index⟩).2 ⟨n, hn, h0, rfl⟩
    simp at this
  · rcases addDeps_err deps (initGraph_inv nodes) hv with he | he <;>
      simp [toposort, he] at h

/-- C04, documented consequence: if listing the nodes in the preferred order already satisfies all
dependencies, that listing is returned. -/
theorem toposort_keeps_preferred {cmp : α → α → Ordering} [Std.TransCmp cmp] (rt : Runtime α cmp)
    (nodes : List α) (deps : List (Dependency α)) (r) (h : toposort rt nodes deps = .ok r)
    (s : List α) (hs : ∀ k, k ∈ s ↔ k ∈ nodes) (hsorted : s.Pairwise (Prefer cmp nodes))
    (htopo : ∀ p k, Dep deps p k → ∀ a b, s = a ++ k :: b → p ∈ a) :
    r.ordered = s ∧ r.failed = [] := by
  have hirr : ∀ x, ¬ Prefer cmp nodes x x := by
    rintro x (hx | ⟨_, i, j, hi, hj, hij⟩)
    · rw [Std.ReflCmp.compare_self (cmp := cmp)] at hx; simp at hx
    · exact hi.2 j hij hj.1
  have hnd : s.Nodup := hsorted.imp (fun {a b} hab => by rintro rfl; exact hirr _ hab)
  have hg : GreedyOrder cmp nodes deps s := by
    constructor
    · intro a x b hab
      have hxs : x ∈ s := by rw [hab]; simp
      rw [hab, List.nodup_append] at hnd
      have hxa : x ∉ a := fun hxa => hnd.2.2 x hxa x (by simp) rfl
      refine ⟨⟨(hs x).1 hxs, hxa, fun p hp => htopo p x hp a b hab⟩, ?_⟩
      intro y hy hyx
      have hys := (hs y).2 hy.1
      rw [hab, List.mem_append, List.mem_cons] at hys
      rw [hab, List.pairwise_append, List.pairwise_cons] at hsorted
      rcases hys with hya | rfl | hyb
      · exact absurd hya hy.2.1
      · exact absurd rfl hyx
      · exact hsorted.2.1.1 y hyb
    · intro x hx; exact hx.2.1 ((hs x).2 hx.1)
  have heq := greedy_unique (toposort_greedy rt nodes deps r h) hg
  refine ⟨heq, ?_⟩
  have hp := toposort_partition rt nodes deps r h
  rw [List.eq_nil_iff_forall_not_mem]
  intro k hk
  have hkn := (hp.2 k).1 (by simp [hk])
  have hko : k ∈ r.ordered := by rw [heq]; exact (hs k).2 hkn
  exact (List.nodup_append.1 hp.1).2.2 k hko k hk rfl

/-! ### C05 -/

/-- C05: `ordered` does not depend on hash-map enumeration order (nor on heap internals). -/
theorem toposort_ordered_deterministic {cmp : α → α → Ordering} [Std.TransCmp cmp]
    (rt1 rt2 : Runtime α cmp) (nodes : List α) (deps : List (Dependency α)) (r1 r2)
    (h1 : toposort rt1 nodes deps = .ok r1) (h2 : toposort rt2 nodes deps = .ok r2) :
    r1.ordered = r2.ordered :=
  greedy_unique (toposort_greedy rt1 nodes deps r1 h1) (toposort_greedy rt2 nodes deps r2 h2)

/-- C05: if the preference never ties on distinct failed nodes the whole result is deterministic. -/
theorem toposort_deterministic {cmp : α → α → Ordering} [Std.TransCmp cmp]
    (rt1 rt2 : Runtime α cmp) (nodes : List α) (deps : List (Dependency α)) (r1 r2)
    (h1 : toposort rt1 nodes deps = .ok r1) (h2 : toposort rt2 nodes deps = .ok r2)
    (hstrict : ∀ x ∈ r1.failed, ∀ y ∈ r1.failed, cmp x y = .eq → x = y) : r1 = r2 := by
  have ho := toposort_ordered_deterministic rt1 rt2 nodes deps r1 r2 h1 h2
  have p1 := toposort_partition rt1 nodes deps r1 h1
  have p2 := toposort_partition rt2 nodes deps r2 h2
  have hsame : ∀ k, k ∈ r1.failed ↔ k ∈ r2.failed := by
    intro k
    by_cases hk : k ∈ nodes
    · rw [toposort_failed_iff rt1 nodes deps r1 h1 k hk, toposort_failed_iff rt2 nodes deps r2 h2 k hk]
    · constructor
      · intro h; exact absurd ((p1.2 k).1 (by simp [h])) hk
      · intro h; exact absurd ((p2.2 k).1 (by simp [h])) hk
  have hperm : r1.failed.Perm r2.failed :=
    (List.perm_ext_iff_of_nodup (List.nodup_append.1 p1.1).2.1 (List.nodup_append.1 p2.1).2.1).2 hsame
  by_cases hv : Valid nodes deps
  · have sorted : ∀ (rt : Runtime α cmp) r, toposort rt nodes deps = .ok r →
        r.failed.Pairwise (fun a b => (cmp a b).isLE = true) := by
      intro rt r h
      obtain ⟨g, r', h1, hl, hf⟩ := toposort_ok rt hv
      rw [h] at h1
      simp only [Except.ok.injEq] at h1
      subst h1
      rw [hf]
      apply List.pairwise_mergeSort (le := fun a b => (cmp a b).isLE)
      · intro a b c; exact Std.TransCmp.isLE_trans
      · intro a b
        have hsw : cmp b a = (cmp a b).swap := Std.OrientedCmp.eq_swap
        rw [hsw]; cases cmp a b <;> simp
    have hf : r1.failed = r2.failed := by
      refine List.Perm.eq_of_pairwise ?_ (sorted rt1 r1 h1) (sorted rt2 r2 h2) hperm
      intro a b ha hb hab hba
      apply hstrict a ha b ((hsame b).2 hb)
      have hsw : cmp b a = (cmp a b).swap := Std.OrientedCmp.eq_swap
      rw [hsw] at hba
      cases hc : cmp a b <;> simp_all
    cases r1; cases r2; simp_all
  · rcases addDeps_err deps (initGraph_inv nodes) hv with he | he <;>
      simp [toposort, he] at h1

/-- C05: `failed` is listed in the preferred order (ties in any order). -/
theorem toposort_failed_sorted {cmp : α → α → Ordering} [Std.TransCmp cmp] (rt : Runtime α cmp)
    (nodes : List α) (deps : List (Dependency α)) (r) (h : toposort rt nodes deps = .ok r) :
    r.failed.Pairwise (fun x y => cmp x y ≠ .gt) := by
  by_cases hv : Valid nodes deps
  · obtain ⟨g, r', h1, hl, hf⟩ := toposort_ok rt hv
    rw [h] at h1
    simp only [Except.ok.injEq] at h1
    subst h1
    rw [hf]
    refine (List.pairwise_mergeSort ?_ ?_ _).imp ?_
    · intro a b c hab hbc
      exact Std.TransCmp.isLE_trans hab hbc
    · intro a b
      have := Std.OrientedCmp.eq_swap (cmp := cmp) (a := a) (b := b)
      rw [this]; cases cmp b a <;> rfl
    · intro a b hab; cases hc : cmp a b <;> simp_all
  · rcases addDeps_err deps (initGraph_inv nodes) hv with he | he <;>
      simp [toposort, he] at h

/-- C05, the disagreement: when the preference ties two failed nodes, `failed` *does* depend on the
hash-map enumeration order (`ordered` breaks ties by input position, `failed` does not). -/
theorem toposort_failed_order_depends_on_hash :
    ∃ (cmp : Nat → Nat → Ordering) (_ : Std.TransCmp cmp) (rt1 rt2 : Runtime Nat cmp)
      (nodes : List Nat) (deps : List (Dependency Nat)) (r1 r2 : TopoSortResult Nat),
      toposort rt1 nodes deps = .ok r1 ∧ toposort rt2 nodes deps = .ok r2 ∧ r1.failed ≠ r2.failed := by
  let cmp : Nat → Nat → Ordering := fun _ _ => .eq
  have ht : Std.TransCmp cmp :=
    { eq_swap := by intros; rfl, isLE_trans := by intros; rfl }
  refine ⟨cmp, ht, mkRuntime cmp id (fun _ => .refl _), mkRuntime cmp List.reverse List.reverse_perm,
    [1, 2], [⟨1, 2⟩, ⟨2, 1⟩], ⟨[], [1, 2]⟩, ⟨[], [2, 1]⟩, ?_, ?_, ?_⟩
  · simp [toposort, addDeps, addDep, initGraph, AMap.insert, AMap.get?, initReady, mkRuntime, loop,
      popMax, cmp, List.zipIdx, List.mergeSort, List.MergeSort.Internal.splitInTwo]
  · simp [toposort, addDeps, addDep, initGraph, AMap.insert, AMap.get?, initReady, mkRuntime, loop,
      popMax, cmp, List.zipIdx, List.mergeSort, List.MergeSort.Internal.splitInTwo]
  · simp

/-! ### C06 -/

/-- C06: `toposort` panics iff a dependency mentions a node outside `nodes`, and then only with one
of the two documented panics. -/
theorem toposort_panics_iff {cmp : α → α → Ordering} (rt : Runtime α cmp) (nodes : List α)
    (deps : List (Dependency α)) :
    ((∃ e, toposort rt nodes deps = .error e) ↔
      ∃ d ∈ deps, d.predecessor ∉ nodes ∨ d.successor ∉ nodes) ∧
    ∀ e, toposort rt nodes deps = .error e → e = .unknownPredecessor ∨ e = .unknownSuccessor := by
  have hval : (∃ d ∈ deps, d.predecessor ∉ nodes ∨ d.successor ∉ nodes) ↔ ¬ Valid nodes deps := by
    simp only [Valid, not_forall]
    constructor
    · rintro ⟨d, hd, h⟩; exact ⟨d, hd, by tauto⟩
    · rintro ⟨d, hd, h⟩; exact ⟨d, hd, by tauto⟩
  rw [hval]
  by_cases hv : Valid nodes deps
  · obtain ⟨g, r', h1, _, _⟩ := toposort_ok rt hv
    simp [h1, hv]
  · rcases addDeps_err deps (initGraph_inv nodes) hv with he | he <;>
      simp [toposort, he, hv]

/-! ### Non-vacuity -/

/-- The documented example (toposort.rs:31-47, shortened): a run with a reordering and a cycle. -/
example : toposort (mkRuntime (compare : Nat → Nat → Ordering) id (fun _ => .refl _))
    [201, 202, 203, 901, 902, 903]
    [⟨203, 202⟩, ⟨901, 902⟩, ⟨902, 901⟩, ⟨901, 903⟩] = .ok ⟨[201, 203, 202], [901, 902, 903]⟩ := by
  simp [toposort, addDeps, addDep, initGraph, AMap.insert, AMap.get?, AMap.erase, initReady, mkRuntime,
    loop, relax, popMax, HeapNode.cmp, List.zipIdx, List.mergeSort,
    List.MergeSort.Internal.splitInTwo, compare, compareOfLessAndEq]

/-- The hypotheses of `toposort_keeps_preferred` are satisfiable with a non-trivial dependency. -/
example : ([1, 2, 3].Pairwise (Prefer (compare : Nat → Nat → Ordering) [3, 1, 2])) ∧
    ∀ p k, Dep [(⟨1, 3⟩ : Dependency Nat)] p k → ∀ a b, [1, 2, 3] = a ++ k :: b → p ∈ a := by
  constructor
  · simp [Prefer, compare, compareOfLessAndEq]
  · intro p k h a b hab
    simp [Dep] at h
    obtain ⟨rfl, rfl⟩ := h
    match a, hab with
    | [], hab => simp at hab
    | x :: a, hab => simp at hab; simp [hab.1]

/-- An invalid dependency really panics. -/
example : toposort (mkRuntime (compare : Nat → Nat → Ordering) id (fun _ => .refl _)) [1] [⟨1, 2⟩]
    = .error .unknownSuccessor := by
  simp [toposort, addDeps, addDep, initGraph, AMap.insert, AMap.get?, List.zipIdx]

end Verif.Toposort

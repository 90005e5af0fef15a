import Verif.NullMerge.Spec
import Mathlib.Data.List.Perm.Basic
import Mathlib.Data.List.Nodup
import Mathlib.Data.List.Sort
/- C38: conclusions do not depend on the order or grouping of evidence. C39: the decision rule. -/
namespace Verif.NullMerge
open Verif

section counts
variable {U L : Type} [DecidableEq U] [DecidableEq L]

/-- The count recorded for a kind. -/
def cnt (m : List (Kind × Nat)) (k : Kind) : Nat := (AMap.get? m k).getD 0

theorem cnt_addCount (m : List (Kind × Nat)) (kc : Kind × Nat) (k : Kind) :
    cnt (addCount m kc) k = if k = kc.1 then (cnt m k + kc.2) % 2 ^ 32 else cnt m k := by
  unfold cnt addCount
  rw [AMap.get?_insert]
  by_cases h : k = kc.1
  · subst h; simp
  · have : ¬ kc.1 = k := fun e => h e.symm
    simp [h, this]

theorem keys_addCount_nodup (m : List (Kind × Nat)) (kc : Kind × Nat) (h : (AMap.keys m).Nodup) :
    (AMap.keys (addCount m kc)).Nodup := AMap.nodup_insert _ _ _ h

theorem foldl_addCount (l : List (Kind × Nat)) : ∀ (m : List (Kind × Nat)), (AMap.keys m).Nodup →
    (AMap.keys l).Nodup → (∀ k, cnt m k < 2 ^ 32) →
    (AMap.keys (l.foldl addCount m)).Nodup ∧
    (∀ k, cnt (l.foldl addCount m) k = (cnt m k + cnt l k) % 2 ^ 32) ∧
    (∀ k, k ∈ AMap.keys (l.foldl addCount m) ↔ k ∈ AMap.keys m ∨ k ∈ AMap.keys l) := by
  induction l with
  | nil =>
    intro m hm _ hlt
    refine ⟨hm, fun k => ?_, fun k => by simp [AMap.keys]⟩
    simp only [List.foldl_nil]
    have : cnt ([] : List (Kind × Nat)) k = 0 := rfl
    rw [this, Nat.add_zero, Nat.mod_eq_of_lt (hlt k)]
  | cons kc l ih =>
    intro m hm hl hlt
    simp only [AMap.keys, List.map_cons, List.nodup_cons] at hl
    have hlt' : ∀ k, cnt (addCount m kc) k < 2 ^ 32 := by
      intro k; rw [cnt_addCount]; split
      · exact Nat.mod_lt _ (by decide)
      · exact hlt k
    obtain ⟨h1, h2, h3⟩ := ih (addCount m kc) (keys_addCount_nodup m kc hm) hl.2 hlt'
    refine ⟨h1, fun k => ?_, fun k => ?_⟩
    · rw [List.foldl_cons, h2 k, cnt_addCount]
      obtain ⟨a, b⟩ := kc
      have hc : cnt ((a, b) :: l) k = if a = k then b else cnt l k := by
        unfold cnt; simp only [AMap.get?]; split <;> rfl
      rw [hc]
      by_cases e : k = a
      · subst e
        have : cnt l k = 0 := by
          unfold cnt
          rw [(AMap.get?_eq_none_iff l k).mpr hl.1]; rfl
        simp [this]
      · have : ¬ a = k := fun h => e h.symm
        simp [e, this]
    · rw [List.foldl_cons, h3 k]
      unfold addCount
      rw [AMap.keys_insert_mem]
      simp only [AMap.keys, List.map_cons, List.mem_cons]
      tauto

theorem cnt_perm {m m' : List (Kind × Nat)} (h : m.Perm m') (hm : (AMap.keys m).Nodup) (k : Kind) : cnt m k = cnt m' k := by
  have hm' : (AMap.keys m').Nodup := (h.map Prod.fst).nodup_iff.mp hm
  unfold cnt
  congr 1
  apply Option.ext
  intro v
  rw [← AMap.mem_iff_get? m hm, ← AMap.mem_iff_get? m' hm']
  exact h.mem_iff

theorem kindCounts_eq (m : List (Kind × Nat)) (hm : (AMap.keys m).Nodup) (k : Kind) : kindCounts m k = cnt m k := by
  have key : ∀ (l : List (Kind × Nat)) (f : Kind → Nat), (AMap.keys l).Nodup →
      l.foldl (fun f kc k => if k = kc.1 then kc.2 else f k) f k = (AMap.get? l k).getD (f k) := by
    intro l
    induction l with
    | nil => intro f _; rfl
    | cons kc l ih =>
      intro f hl
      simp only [AMap.keys, List.map_cons, List.nodup_cons] at hl
      obtain ⟨a, b⟩ := kc
      rw [List.foldl_cons, ih _ hl.2]
      simp only [AMap.get?]
      by_cases e : a = k
      · subst e
        rw [(AMap.get?_eq_none_iff l a).mpr hl.1]; simp
      · have : ¬ k = a := fun h => e h.symm
        simp [e, this]
  exact key m _ hm

/-- Well-formedness of partials that arise. -/
structure Good (p : Partial U L) : Prop where
  nodup : (AMap.keys p.kindCount).Nodup
  lt : ∀ k, cnt p.kindCount k < 2 ^ 32
  ne : p.kindCount ≠ []

theorem good_from {e : Evidence U L} {p : Partial U L} (h : partialFromEvidence e = some p) : Good p := by
  unfold partialFromEvidence at h
  split at h
  · simp at h
  · simp only [Option.some.injEq] at h
    subst h
    refine ⟨by simp [AMap.keys], fun k => ?_, by simp⟩
    simp only [cnt, AMap.get?]
    split <;> simp

theorem good_merge (o : Order U L) {p q : Partial U L} (hp : Good p) (hq : Good q) :
    Good (mergePartials o p q) ∧
    ∀ k, cnt (mergePartials o p q).kindCount k = (cnt p.kindCount k + cnt q.kindCount k) % 2 ^ 32 := by
  have hperm := o.countsPerm q.kindCount
  have hn : (AMap.keys (o.counts q.kindCount)).Nodup := (hperm.map Prod.fst).nodup_iff.mpr hq.nodup
  obtain ⟨h1, h2, h3⟩ := foldl_addCount (o.counts q.kindCount) p.kindCount hp.nodup hn hp.lt
  have h2' : ∀ k, cnt (mergePartials o p q).kindCount k = (cnt p.kindCount k + cnt q.kindCount k) % 2 ^ 32 := by
    intro k
    show cnt (List.foldl addCount p.kindCount (o.counts q.kindCount)) k = _
    rw [h2 k, cnt_perm hperm hn]
  refine ⟨⟨h1, fun k => ?_, ?_⟩, h2'⟩
  · rw [h2' k]; exact Nat.mod_lt _ (by decide)
  · intro he
    cases hk : p.kindCount with
    | nil => exact hp.ne hk
    | cons a l =>
      have := (h3 a.1).mpr (Or.inl (by rw [hk]; simp [AMap.keys]))
      rw [show (List.foldl addCount p.kindCount (o.counts q.kindCount)) = [] from he] at this
      simp [AMap.keys] at this

/-- How many relevant pieces of evidence have this kind. -/
def total (es : List (Evidence U L)) (k : Kind) : Nat := ((relevant es).filter (fun e => e.kind = k)).length

theorem total_append (a b : List (Evidence U L)) (k : Kind) : total (a ++ b) k = total a k + total b k := by
  simp [total, relevant]

theorem total_perm {a b : List (Evidence U L)} (h : a.Perm b) (k : Kind) : total a k = total b k :=
  ((h.filter _).filter _).length_eq

theorem relevant_append (a b : List (Evidence U L)) : relevant (a ++ b) = relevant a ++ relevant b := by
  simp [relevant]

end counts

section
variable {U L : Type} [DecidableEq U] [LinearOrder L]

theorem eval_spec (o : Order U L) (t : Tree U L) :
    (t.eval o = none ∧ relevant t.leaves = []) ∨
    (∃ p, t.eval o = some p ∧ relevant t.leaves ≠ [] ∧ Good p ∧ ∀ k, cnt p.kindCount k = total t.leaves k % 2 ^ 32) := by
  induction t with
  | leaf e =>
    by_cases he : e.crossesFromTestToNontest = true
    · left
      simp [Tree.eval, partialFromEvidence, he, Tree.leaves, relevant]
    · right
      have hs : partialFromEvidence e = some { kindCount := [(e.kind, 1)], kindSamples := (if e.location.isSome then [(e.kind, [{ e with usr := none, slot := none }])] else []) } := by
        simp [partialFromEvidence, he]
      refine ⟨_, hs, by simp [Tree.leaves, relevant, he], good_from hs, fun k => ?_⟩
      simp only [cnt, AMap.get?, Tree.leaves, total, relevant]
      by_cases hk : e.kind = k
      · simp [hk, he]
      · simp [hk, he]
  | node l r ihl ihr =>
    simp only [Tree.eval, Tree.leaves, relevant_append]
    rcases ihl with ⟨hl, el⟩ | ⟨p, hl, nl, gp, cp⟩ <;> rcases ihr with ⟨hr, er⟩ | ⟨q, hr, nr, gq, cq⟩
    · left; simp [hl, hr, combine, el, er]
    · right
      refine ⟨q, by simp [hl, hr, combine], by simp [nr], gq, fun k => ?_⟩
      have : total l.leaves k = 0 := by simp [total, el]
      rw [total_append, this, Nat.zero_add, cq k]
    · right
      refine ⟨p, by simp [hl, hr, combine], by simp [nl], gp, fun k => ?_⟩
      have : total r.leaves k = 0 := by simp [total, er]
      rw [total_append, this, Nat.add_zero, cp k]
    · right
      obtain ⟨g, c⟩ := good_merge o gp gq
      refine ⟨mergePartials o p q, by simp [hl, hr, combine], by simp [nl], g, fun k => ?_⟩
      rw [c k, cp k, cq k, total_append, ← Nat.add_mod]

theorem finalize_verdict (o : Order U L) (p : Partial U L) (g : Good p) (soft : Bool) :
    (finalize o p soft).verdict =
      (some (infer (cnt p.kindCount) soft).nullability, (infer (cnt p.kindCount) soft).conflict, (infer (cnt p.kindCount) soft).trivial) := by
  unfold finalize
  have hne : p.kindCount.isEmpty = false := by simpa using g.ne
  have hperm := o.countsPerm p.kindCount
  have hn : (AMap.keys (o.counts p.kindCount)).Nodup := (hperm.map Prod.fst).nodup_iff.mpr g.nodup
  have hk : kindCounts (o.counts p.kindCount) = cnt p.kindCount := by
    funext k; rw [kindCounts_eq _ hn, cnt_perm hperm hn]
  simp [hne, hk, Inference.verdict]

/-- The verdict of a tree, as a function of how often each kind occurs among its leaves. -/
theorem conclude_verdict (o : Order U L) (t : Tree U L) (soft : Bool) :
    (t.conclude o soft).verdict = if relevant t.leaves = [] then (none, false, false) else
      let r := infer (fun k => total t.leaves k % 2 ^ 32) soft
      (some r.nullability, r.conflict, r.trivial) := by
  unfold Tree.conclude
  rcases eval_spec o t with ⟨h, e⟩ | ⟨p, h, e, g, c⟩
  · rw [h]; simp [e, Inference.verdict]
  · rw [h]
    simp only [e, if_false]
    rw [finalize_verdict o p g soft, show cnt p.kindCount = _ from funext c]

/-- C38: any two ways of merging the same evidence (any order, any grouping into partial results, any
iteration order of the maps) give the same nullability, conflict and trivial flags. -/
theorem conclusion_order_independent (o1 o2 : Order U L) (t1 t2 : Tree U L) (soft : Bool)
    (h : t1.leaves.Perm t2.leaves) : (t1.conclude o1 soft).verdict = (t2.conclude o2 soft).verdict := by
  rw [conclude_verdict, conclude_verdict]
  have hr : (relevant t1.leaves).Perm (relevant t2.leaves) := h.filter _
  have : relevant t1.leaves = [] ↔ relevant t2.leaves = [] := by
    constructor
    · intro e; rw [e] at hr; exact hr.symm.eq_nil
    · intro e; rw [e] at hr; exact hr.eq_nil
  simp only [this, total_perm h]

/-- `mergeEvidence` is the left-leaning tree. -/
def spine (t : Tree U L) : List (Evidence U L) → Tree U L
  | [] => t
  | e :: es => spine (.node t (.leaf e)) es

theorem spine_leaves (es : List (Evidence U L)) : ∀ t, (spine t es).leaves = t.leaves ++ es := by
  induction es with
  | nil => intro t; simp [spine]
  | cons e es ih => intro t; rw [spine, ih]; simp [Tree.leaves]

theorem mergeLoop_spine (o : Order U L) (es : List (Evidence U L)) : ∀ t : Tree U L,
    mergeLoop o (t.eval o) es = (spine t es).eval o := by
  induction es with
  | nil => intro t; rfl
  | cons e es ih =>
    intro t
    rw [spine, ← ih]
    simp only [mergeLoop, Tree.eval]
    cases he : partialFromEvidence e with
    | none => cases t.eval o <;> simp [combine]
    | some q => cases t.eval o <;> simp [combine]

theorem mergeLoop_none (o : Order U L) (e : Evidence U L) (es : List (Evidence U L)) :
    mergeLoop o none (e :: es) = (spine (.leaf e) es).eval o := by
  rw [← mergeLoop_spine]
  simp only [mergeLoop, Tree.eval]
  cases he : partialFromEvidence e <;> simp

theorem mergeEvidence_verdict (o : Order U L) (es : List (Evidence U L)) :
    (mergeEvidence o es).verdict = if relevant es = [] then (none, false, false) else
      let r := infer (fun k => total es k % 2 ^ 32) true
      (some r.nullability, r.conflict, r.trivial) := by
  cases es with
  | nil => rfl
  | cons e es =>
    have h := conclude_verdict o (spine (.leaf e) es) true
    rw [spine_leaves] at h
    have : mergeEvidence o (e :: es) = (spine (.leaf e) es).conclude o true := by
      unfold mergeEvidence Tree.conclude
      rw [mergeLoop_none]
    rw [this, h]; rfl

/-- C38: in particular the order of the evidence does not matter. -/
theorem merge_evidence_perm (o1 o2 : Order U L) (es1 es2 : List (Evidence U L)) (h : es1.Perm es2) :
    (mergeEvidence o1 es1).verdict = (mergeEvidence o2 es2).verdict := by
  rw [mergeEvidence_verdict, mergeEvidence_verdict]
  have hr : (relevant es1).Perm (relevant es2) := h.filter _
  have : relevant es1 = [] ↔ relevant es2 = [] := by
    constructor
    · intro e; rw [e] at hr; exact hr.symm.eq_nil
    · intro e; rw [e] at hr; exact hr.eq_nil
  simp only [this, total_perm h]

/-- What a run of `if (Counts[K]) update(Result, N)` lines computes: nothing if no line fires; otherwise the
implication of the first line that fires, with a conflict iff another line that fires disagrees. -/
theorem rules_spec (c : Kind → Bool) (rs : List (Kind × Nullability)) : ∀ r : InferResult,
    ∃ r', rules c rs (some r) = some r' ∧ r'.nullability = r.nullability ∧ r'.trivial = r.trivial ∧
      (r'.conflict = true ↔ r.conflict = true ∨ ∃ kn ∈ rs, c kn.1 = true ∧ kn.2 ≠ r.nullability) := by
  induction rs with
  | nil => intro r; exact ⟨r, rfl, rfl, rfl, by simp⟩
  | cons kn rs ih =>
    intro r
    obtain ⟨k, n⟩ := kn
    simp only [rules]
    by_cases hk : c k = true
    · simp only [hk, if_true, update]
      by_cases hn : r.nullability = n
      · simp only [hn, ne_eq, not_true_eq_false, if_false]
        obtain ⟨r', h1, h2, h3, h4⟩ := ih r
        refine ⟨r', h1, by rw [h2, hn], h3, ?_⟩
        rw [h4]
        subst hn
        simp [hk]
      · simp only [ne_eq, hn, not_false_eq_true, if_true]
        obtain ⟨r', h1, h2, h3, h4⟩ := ih { r with conflict := true }
        refine ⟨r', h1, h2, h3, ?_⟩
        rw [h4]
        simp [hk]; right; left; exact fun e => hn e.symm
    · simp only [hk, Bool.false_eq_true, if_false]
      obtain ⟨r', h1, h2, h3, h4⟩ := ih r
      refine ⟨r', h1, h2, h3, ?_⟩
      rw [h4]; simp [hk]

theorem rules_none_spec (c : Kind → Bool) (rs : List (Kind × Nullability)) :
    (rules c rs none = none ∧ ∀ kn ∈ rs, c kn.1 = false) ∨
    (∃ r, rules c rs none = some r ∧ r.trivial = false ∧ (∃ kn ∈ rs, c kn.1 = true ∧ kn.2 = r.nullability) ∧
      (r.conflict = true ↔ ∃ kn ∈ rs, c kn.1 = true ∧ kn.2 ≠ r.nullability)) := by
  induction rs with
  | nil => left; simp [rules]
  | cons kn rs ih =>
    obtain ⟨k, n⟩ := kn
    simp only [rules]
    by_cases hk : c k = true
    · right
      simp only [hk, if_true, update]
      obtain ⟨r', h1, h2, h3, h4⟩ := rules_spec c rs { nullability := n }
      refine ⟨r', h1, h3, ⟨(k, n), by simp, hk, h2.symm⟩, ?_⟩
      rw [h4]; simp only at h2
      simp [h2]
    · simp only [hk, Bool.false_eq_true, if_false]
      rcases ih with ⟨h1, h2⟩ | ⟨r, h1, h2, ⟨kn, h3, h4⟩, h5⟩
      · left; refine ⟨h1, ?_⟩
        intro kn hkn
        rcases List.mem_cons.mp hkn with rfl | h
        · simpa using hk
        · exact h2 kn h
      · right
        refine ⟨r, h1, h2, ⟨kn, by simp [h3], h4⟩, ?_⟩
        rw [h5]; simp [hk]

theorem rules_append (c : Kind → Bool) (a b : List (Kind × Nullability)) : ∀ r, rules c (a ++ b) r = rules c b (rules c a r) := by
  induction a with
  | nil => intro r; rfl
  | cons kn a ih => intro r; obtain ⟨k, n⟩ := kn; simp only [List.cons_append, rules]; exact ih _

/-- The confidence order of the mandatory rules. The constructor rule is represented by kind 13 under the
adjusted predicate `adj`. -/
def mandatory : List (Kind × Nullability) :=
  [(UNCHECKED_DEREFERENCE, .NONNULL), (NULLABLE_ARGUMENT, .NULLABLE),
   (NULLABLE_REFERENCE_ARGUMENT, .NULLABLE), (NONNULL_REFERENCE_ARGUMENT, .NONNULL)] ++
  [(ASSIGNED_FROM_NULLABLE, .NULLABLE)] ++
  [(NULLABLE_RETURN, .NULLABLE), (NULLABLE_REFERENCE_RETURN, .NULLABLE),
   (NONNULL_REFERENCE_RETURN, .NONNULL), (ASSIGNED_TO_NONNULL, .NONNULL),
   (ASSIGNED_TO_OR_FROM_INVARIANT_NONNULL, .NONNULL), (ASSIGNED_TO_OR_FROM_INVARIANT_NULLABLE, .NULLABLE),
   (ASSIGNED_TO_MUTABLE_NULLABLE, .NULLABLE), (ASSIGNED_TO_NONNULL_REFERENCE, .NONNULL),
   (ABORT_IF_NULL, .NONNULL), (ARITHMETIC, .NONNULL), (ARRAY_SUBSCRIPT, .NONNULL)]

def adj (c : Kind → Bool) : Kind → Bool := fun k =>
  if k = ASSIGNED_FROM_NULLABLE then
    c ASSIGNED_FROM_NULLABLE || (c LEFT_NULLABLE_BY_CONSTRUCTOR && !c LEFT_NOT_NULLABLE_BY_LATE_INITIALIZER)
  else c k

theorem rules_congr (c d : Kind → Bool) (rs : List (Kind × Nullability)) (h : ∀ kn ∈ rs, c kn.1 = d kn.1) :
    ∀ r, rules c rs r = rules d rs r := by
  induction rs with
  | nil => intro r; rfl
  | cons kn rs ih =>
    intro r; obtain ⟨k, n⟩ := kn
    simp only [rules]
    rw [h (k, n) (by simp)]
    exact ih (fun kn hkn => h kn (by simp [hkn])) _

theorem total_le (es : List (Evidence U L)) (k : Kind) : total es k ≤ es.length :=
  Nat.le_trans (List.length_filter_le _ _) (List.length_filter_le _ _)

theorem has_iff (es : List (Evidence U L)) (hlen : es.length < 2 ^ 32) (k : Kind) :
    decide (total es k % 2 ^ 32 ≠ 0) = true ↔ Has es k := by
  have := total_le es k
  rw [Nat.mod_eq_of_lt (by omega), decide_eq_true_iff]
  unfold total Has
  rw [← Nat.pos_iff_ne_zero, List.length_pos_iff_exists_mem]
  constructor
  · rintro ⟨e, he⟩
    simp only [List.mem_filter, decide_eq_true_eq] at he
    exact ⟨e, he.1, he.2⟩
  · rintro ⟨e, he, hk⟩
    exact ⟨e, by simp [List.mem_filter, he, hk]⟩

/-- The mandatory rules are one list of rules, under `adj c`. -/
theorem mandatoryRules_eq (c : Kind → Bool) : mandatoryRules c = rules (adj c) mandatory none := by
  unfold mandatory mandatoryRules
  rw [rules_append, rules_append]
  rw [rules_congr (adj c) c [(UNCHECKED_DEREFERENCE, .NONNULL), (NULLABLE_ARGUMENT, .NULLABLE),
        (NULLABLE_REFERENCE_ARGUMENT, .NULLABLE), (NONNULL_REFERENCE_ARGUMENT, .NONNULL)] (by
          intro kn hkn
          simp only [List.mem_cons, List.not_mem_nil, or_false] at hkn
          rcases hkn with rfl | rfl | rfl | rfl <;> rfl)]
  rw [rules_congr (adj c) c [(NULLABLE_RETURN, .NULLABLE), (NULLABLE_REFERENCE_RETURN, .NULLABLE),
    (NONNULL_REFERENCE_RETURN, .NONNULL), (ASSIGNED_TO_NONNULL, .NONNULL),
    (ASSIGNED_TO_OR_FROM_INVARIANT_NONNULL, .NONNULL), (ASSIGNED_TO_OR_FROM_INVARIANT_NULLABLE, .NULLABLE),
    (ASSIGNED_TO_MUTABLE_NULLABLE, .NULLABLE), (ASSIGNED_TO_NONNULL_REFERENCE, .NONNULL),
    (ABORT_IF_NULL, .NONNULL), (ARITHMETIC, .NONNULL), (ARRAY_SUBSCRIPT, .NONNULL)] (by
          intro kn hkn
          simp only [List.mem_cons, List.not_mem_nil, or_false] at hkn
          rcases hkn with rfl | rfl | rfl | rfl | rfl | rfl | rfl | rfl | rfl | rfl | rfl <;> rfl)]
  rfl

theorem mustNonnull_iff (es : List (Evidence U L)) (c : Kind → Bool) (hc : ∀ k, c k = true ↔ Has es k) :
    MustBeNonnull es ↔ ∃ kn ∈ mandatory, adj c kn.1 = true ∧ kn.2 = .NONNULL := by
  simp only [MustBeNonnull, demandsNonnull, mandatory, List.cons_append, List.nil_append, List.mem_cons, List.not_mem_nil, or_false,
    exists_eq_or_imp, exists_eq_left, ← hc, adj]
  simp [ASSIGNED_FROM_NULLABLE, UNCHECKED_DEREFERENCE, NONNULL_REFERENCE_ARGUMENT, NONNULL_REFERENCE_RETURN, ASSIGNED_TO_NONNULL,
    ASSIGNED_TO_OR_FROM_INVARIANT_NONNULL, ASSIGNED_TO_NONNULL_REFERENCE, ABORT_IF_NULL, ARITHMETIC, ARRAY_SUBSCRIPT]

theorem mustNullable_iff (es : List (Evidence U L)) (c : Kind → Bool) (hc : ∀ k, c k = true ↔ Has es k) :
    MustBeNullable es ↔ ∃ kn ∈ mandatory, adj c kn.1 = true ∧ kn.2 = .NULLABLE := by
  simp only [MustBeNullable, demandsNullable, mandatory, List.cons_append, List.nil_append, List.mem_cons, List.not_mem_nil, or_false,
    exists_eq_or_imp, exists_eq_left, ← hc, adj]
  simp [ASSIGNED_FROM_NULLABLE, NULLABLE_ARGUMENT, NULLABLE_REFERENCE_ARGUMENT, NULLABLE_RETURN, NULLABLE_REFERENCE_RETURN,
    ASSIGNED_TO_OR_FROM_INVARIANT_NULLABLE, ASSIGNED_TO_MUTABLE_NULLABLE, LEFT_NULLABLE_BY_CONSTRUCTOR, LEFT_NOT_NULLABLE_BY_LATE_INITIALIZER]
  tauto

/-- Evidence that speaks for Nonnull / Nullable without forcing it. -/
def suggestsNonnull : List Kind := [WELL_KNOWN_NONNULL, GCC_NONNULL_ATTRIBUTE, NONNULL_RETURN, NONNULL_ARGUMENT, ASSIGNED_FROM_NONNULL,
  NONNULL_REFERENCE_RETURN_AS_CONST, NONNULL_REFERENCE_ARGUMENT_AS_CONST]
def suggestsNullable : List Kind := [WELL_KNOWN_NULLABLE, NULLPTR_DEFAULT_MEMBER_INITIALIZER]

theorem softRules_spec (c : Kind → Bool) (soft : Bool) :
    (soft = false → softRules c soft = .UNKNOWN) ∧
    (softRules c soft = .NONNULL → ∃ k ∈ suggestsNonnull, c k = true) ∧
    (softRules c soft = .NULLABLE → ∃ k ∈ suggestsNullable, c k = true) := by
  unfold softRules
  refine ⟨fun h => by simp [h], ?_, ?_⟩
  · intro h
    simp only [suggestsNonnull, List.mem_cons, List.not_mem_nil, or_false, exists_eq_or_imp, exists_eq_left]
    (repeat' split at h) <;> simp_all
  · intro h
    simp only [suggestsNullable, List.mem_cons, List.not_mem_nil, or_false, exists_eq_or_imp, exists_eq_left]
    (repeat' split at h) <;> simp_all

/-- C39: how a conclusion follows from the evidence (fewer than 2^32 pieces). -/
theorem inference_decision (o : Order U L) (es : List (Evidence U L)) (hlen : es.length < 2 ^ 32)
    (hne : relevant es ≠ []) :
    let i := mergeEvidence o es
    -- annotations decide alone, and are not new information
    (Has es ANNOTATED_NONNULL → Has es ANNOTATED_NULLABLE → i.verdict = (some .UNKNOWN, true, false)) ∧
    (Has es ANNOTATED_NONNULL → ¬ Has es ANNOTATED_NULLABLE → i.verdict = (some .NONNULL, false, true)) ∧
    (¬ Has es ANNOTATED_NONNULL → Has es ANNOTATED_NULLABLE → i.verdict = (some .NULLABLE, false, true)) ∧
    -- otherwise
    (¬ Has es ANNOTATED_NONNULL → ¬ Has es ANNOTATED_NULLABLE →
      i.trivial = false ∧
      (i.conflict = true ↔ MustBeNonnull es ∧ MustBeNullable es) ∧
      (MustBeNonnull es → ¬ MustBeNullable es → i.nullability = some .NONNULL) ∧
      (MustBeNullable es → ¬ MustBeNonnull es → i.nullability = some .NULLABLE) ∧
      (Has es UNCHECKED_DEREFERENCE → i.nullability = some .NONNULL) ∧
      (i.nullability = some .NONNULL → MustBeNonnull es ∨ ∃ k ∈ suggestsNonnull, Has es k) ∧
      (i.nullability = some .NULLABLE → MustBeNullable es ∨ ∃ k ∈ suggestsNullable, Has es k)) := by
  intro i
  have hv : i.verdict = _ := mergeEvidence_verdict o es
  simp only [hne, if_false] at hv
  have hc' := has_iff es hlen
  obtain ⟨c, hcd⟩ : ∃ c : Kind → Bool, c = (fun k => decide (total es k % 2 ^ 32 ≠ 0)) := ⟨_, rfl⟩
  have hc : ∀ k, c k = true ↔ Has es k := by intro k; rw [hcd]; exact hc' k
  have hinf : infer (fun k => total es k % 2 ^ 32) true =
      if c ANNOTATED_NONNULL && c ANNOTATED_NULLABLE then { nullability := .UNKNOWN, conflict := true }
      else if c ANNOTATED_NONNULL then { nullability := .NONNULL, conflict := false, trivial := true }
      else if c ANNOTATED_NULLABLE then { nullability := .NULLABLE, conflict := false, trivial := true }
      else match mandatoryRules c with
        | some r => r
        | none => { nullability := softRules c true } := by rw [hcd]; rfl
  rw [hinf] at hv
  simp only [Inference.verdict, Prod.mk.injEq] at hv
  obtain ⟨v1, v2, v3⟩ := hv
  clear hinf hcd hc'
  refine ⟨?_, ?_, ?_, ?_⟩
  · intro h1 h2
    rw [← hc] at h1 h2
    simp only [h1, h2, Bool.and_self, if_true] at v1 v2 v3
    simp [Inference.verdict, v1, v2, v3]
  · intro h1 h2
    rw [← hc] at h1 h2
    simp only [h1, h2, Bool.and_false, Bool.false_eq_true, if_false, if_true] at v1 v2 v3
    simp [Inference.verdict, v1, v2, v3]
  · intro h1 h2
    rw [← hc] at h1 h2
    simp only [h1, h2, Bool.false_and, Bool.false_eq_true, if_false, if_true] at v1 v2 v3
    simp [Inference.verdict, v1, v2, v3]
  · intro h1 h2
    rw [← hc] at h1 h2
    simp only [h1, h2, Bool.false_and, Bool.false_eq_true, if_false, mandatoryRules_eq] at v1 v2 v3
    have hN := mustNonnull_iff es c hc
    have hL := mustNullable_iff es c hc
    have hmand : ∀ kn ∈ mandatory, kn.2 = .NONNULL ∨ kn.2 = .NULLABLE := by decide
    have hderef : adj c UNCHECKED_DEREFERENCE = c UNCHECKED_DEREFERENCE := rfl
    rcases rules_none_spec (adj c) mandatory with ⟨e1, e2⟩ | ⟨r, e1, e2, ⟨kn, e3, e4, e5⟩, e6⟩
    · -- no mandatory rule fires
      have hnN : ¬ MustBeNonnull es := by rw [hN]; rintro ⟨kn, a, b, -⟩; rw [e2 kn a] at b; simp at b
      have hnL : ¬ MustBeNullable es := by rw [hL]; rintro ⟨kn, a, b, -⟩; rw [e2 kn a] at b; simp at b
      simp only [e1] at v1 v2 v3
      obtain ⟨-, s1, s2⟩ := softRules_spec c true
      refine ⟨v3, ?_, fun h => absurd h hnN, fun h => absurd h hnL, fun h => ?_, ?_, ?_⟩
      · rw [v2]; simp [hnN]
      · exfalso; apply hnN; exact ⟨UNCHECKED_DEREFERENCE, by simp [demandsNonnull], h⟩
      · intro h
        rw [v1] at h
        simp only [Option.some.injEq] at h
        obtain ⟨k, a, b⟩ := s1 h
        exact Or.inr ⟨k, a, (hc k).mp b⟩
      · intro h
        rw [v1] at h
        simp only [Option.some.injEq] at h
        obtain ⟨k, a, b⟩ := s2 h
        exact Or.inr ⟨k, a, (hc k).mp b⟩
    · simp only [e1] at v1 v2 v3
      have hrn := hmand kn e3
      have hbin : ∀ kn ∈ mandatory, r.nullability = .NONNULL → (kn.2 ≠ r.nullability ↔ kn.2 = .NULLABLE) := by
        intro kn hkn hh; rw [hh]; rcases hmand kn hkn with h | h <;> simp [h]
      have hbin' : ∀ kn ∈ mandatory, r.nullability = .NULLABLE → (kn.2 ≠ r.nullability ↔ kn.2 = .NONNULL) := by
        intro kn hkn hh; rw [hh]; rcases hmand kn hkn with h | h <;> simp [h]
      rw [e5] at hrn
      refine ⟨by rw [v3, e2], ?_, ?_, ?_, ?_, ?_, ?_⟩
      · rw [v2, e6]
        rcases hrn with hh | hh
        · have hmN : MustBeNonnull es := hN.mpr ⟨kn, e3, e4, by rw [e5, hh]⟩
          simp only [hmN, true_and, hL]
          constructor
          · rintro ⟨x, a, b, d⟩; exact ⟨x, a, b, (hbin x a hh).mp d⟩
          · rintro ⟨x, a, b, d⟩; exact ⟨x, a, b, (hbin x a hh).mpr d⟩
        · have hmL : MustBeNullable es := hL.mpr ⟨kn, e3, e4, by rw [e5, hh]⟩
          simp only [hmL, and_true, hN]
          constructor
          · rintro ⟨x, a, b, d⟩; exact ⟨x, a, b, (hbin' x a hh).mp d⟩
          · rintro ⟨x, a, b, d⟩; exact ⟨x, a, b, (hbin' x a hh).mpr d⟩
      · intro _ hnL
        rcases hrn with hh | hh
        · rw [v1, hh]
        · exact absurd (hL.mpr ⟨kn, e3, e4, by rw [e5, hh]⟩) hnL
      · intro _ hnN
        rcases hrn with hh | hh
        · exact absurd (hN.mpr ⟨kn, e3, e4, by rw [e5, hh]⟩) hnN
        · rw [v1, hh]
      · intro hd
        rw [← hc, ← hderef] at hd
        have : rules (adj c) mandatory none = rules (adj c) mandatory.tail (some { nullability := .NONNULL }) := by
          simp only [mandatory, List.cons_append, List.nil_append, List.tail_cons]
          rw [rules]
          simp only [hd, if_true, update]
        obtain ⟨r', k1, k2, -, -⟩ := rules_spec (adj c) mandatory.tail { nullability := .NONNULL }
        rw [this, k1] at e1
        simp only [Option.some.injEq] at e1
        rw [v1, ← e1, k2]
      · intro h
        rw [v1] at h
        simp only [Option.some.injEq] at h
        exact Or.inl (hN.mpr ⟨kn, e3, e4, by rw [e5, h]⟩)
      · intro h
        rw [v1] at h
        simp only [Option.some.injEq] at h
        exact Or.inl (hL.mpr ⟨kn, e3, e4, by rw [e5, h]⟩)

/-- Disagreement: the per-kind count is a 32-bit number, so exactly 2^32 pieces of one kind count as none:
an unchecked dereference seen 2^32 times does not make the slot Nonnull. -/
theorem wraparound_forgets (o : Order U L) (es : List (Evidence U L)) (hlen : es.length = 2 ^ 32)
    (hes : ∀ e ∈ es, e.kind = UNCHECKED_DEREFERENCE ∧ e.crossesFromTestToNontest = false) :
    (mergeEvidence o es).verdict = (some .UNKNOWN, false, false) := by
  rw [mergeEvidence_verdict]
  have hrel : relevant es = es := List.filter_eq_self.mpr (by intro a ha; simp [(hes a ha).2])
  have hz : ∀ k, total es k % 2 ^ 32 = 0 := by
    intro k
    unfold total
    rw [hrel]
    by_cases hk : UNCHECKED_DEREFERENCE = k
    · rw [List.filter_eq_self.mpr (by intro a ha; rw [(hes a ha).1]; simpa using hk), hlen]
    · rw [List.filter_eq_nil_iff.mpr (by intro a ha; rw [(hes a ha).1]; simpa using hk)]; rfl
  have hne : es ≠ [] := by rintro rfl; simp at hlen
  rw [hrel, if_neg hne]
  simp only [hz]
  rfl

end
end Verif.NullMerge

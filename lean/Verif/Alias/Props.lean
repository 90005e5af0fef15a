import Verif.Alias.Spec
import Mathlib.Data.List.Sort
/- C36: the aliasing check accepts exactly the argument lists without mutable aliasing. -/
namespace Verif.Alias

theorem overlaps_iff (a b : PtrData) (ha : Valid a) (hb : Valid b) : overlaps a b = true ↔ Share a b := by
  simp only [overlaps, Bool.and_eq_true, decide_eq_true_eq, Share, Covers]
  constructor
  · rintro ⟨h1, h2⟩
    refine ⟨max a.start b.start, ?_⟩
    rcases ha with h | h <;> rcases hb with h' | h' <;> omega
  · rintro ⟨x, h1, h2⟩; omega

theorem share_comm (a b : PtrData) : Share a b ↔ Share b a := by
  unfold Share; constructor <;> (rintro ⟨x, h1, h2⟩; exact ⟨x, h2, h1⟩)

/-- Aliasing among mutable ranges, as a list predicate that does not mention positions. -/
theorem aliased_iff_not_pairwise (muts : List PtrData) :
    (∃ i j, ∃ (hi : i < muts.length) (hj : j < muts.length), i ≠ j ∧ Share muts[i] muts[j]) ↔
    ¬ muts.Pairwise (fun a b => ¬ Share a b) := by
  rw [List.pairwise_iff_getElem]
  constructor
  · rintro ⟨i, j, hi, hj, hne, hs⟩ h
    rcases Nat.lt_or_gt_of_ne hne with hlt | hlt
    · exact h i j hi hj hlt hs
    · exact h j i hj hi hlt ((share_comm _ _).mp hs)
  · intro h
    by_contra hc
    apply h
    intro i j hi hj hlt hs
    exact hc ⟨i, j, hi, hj, by omega, hs⟩

theorem innerLoop_iff (a : PtrData) (bs : List PtrData) (ha : Valid a) (hb : ∀ b ∈ bs, Valid b) :
    innerLoop a bs = true ↔ ∃ b ∈ bs, Share a b := by
  induction bs with
  | nil => simp [innerLoop]
  | cons b bs ih =>
    simp only [innerLoop]
    have h := overlaps_iff a b ha (hb b (by simp))
    have := ih (fun b hb' => hb b (by simp [hb']))
    by_cases ho : overlaps a b = true
    · simp [ho]; exact Or.inl (h.mp ho)
    · have : ¬ Share a b := fun x => ho (h.mpr x)
      simp [ho, *]

theorem mutLoop_iff (ms : List PtrData) (hm : ∀ m ∈ ms, Valid m) :
    mutLoop ms = true ↔ ¬ ms.Pairwise (fun a b => ¬ Share a b) := by
  induction ms with
  | nil => simp [mutLoop]
  | cons m ms ih =>
    simp only [mutLoop, List.pairwise_cons]
    have h := innerLoop_iff m ms (hm m (by simp)) (fun b hb => hm b (by simp [hb]))
    have ih := ih (fun b hb => hm b (by simp [hb]))
    by_cases hi : innerLoop m ms = true
    · obtain ⟨b, hb, hs⟩ := h.mp hi
      simp only [hi, if_true, true_iff]
      exact fun hc => hc.1 b hb hs
    · simp only [hi, Bool.false_eq_true, if_false, ih]
      have : ∀ b ∈ ms, ¬ Share m b := fun b hb hs => hi (h.mpr ⟨b, hb, hs⟩)
      constructor
      · intro h1 h2; exact h1 h2.2
      · intro h1 h2; exact h1 ⟨this, h2⟩

theorem constLoop_iff (cs ms : List PtrData) (hm : ∀ m ∈ ms, Valid m) (hc : ∀ c ∈ cs, Valid c) :
    constLoop cs ms = true ↔ ∃ m ∈ ms, ∃ c ∈ cs, Share m c := by
  induction ms with
  | nil => simp [constLoop]
  | cons m ms ih =>
    simp only [constLoop]
    have h := innerLoop_iff m cs (hm m (by simp)) hc
    have ih := ih (fun b hb => hm b (by simp [hb]))
    by_cases hi : innerLoop m cs = true
    · simp only [hi, if_true, true_iff]
      exact ⟨m, by simp, h.mp hi⟩
    · simp only [hi, Bool.false_eq_true, if_false, ih, List.mem_cons, exists_eq_or_imp]
      constructor
      · exact Or.inr
      · rintro (h' | h')
        · exact absurd (h.mpr h') hi
        · exact h'

/-- On sorted valid ranges, checking neighbours finds every overlap. -/
theorem adjacent_iff (ms : List PtrData) (hm : ∀ m ∈ ms, Valid m) (hs : ms.Pairwise (fun a b => a.start ≤ b.start)) :
    adjacent ms = true ↔ ¬ ms.Pairwise (fun a b => ¬ Share a b) := by
  constructor
  · intro h hp
    induction ms with
    | nil => simp [adjacent] at h
    | cons a r ih =>
      cases r with
      | nil => simp [adjacent] at h
      | cons b r =>
        simp only [adjacent] at h
        rw [List.pairwise_cons] at hs hp
        by_cases hlt : a.stop > b.start
        · apply hp.1 b (by simp)
          have h1 := hs.1 b (by simp)
          have h2 := hm a (by simp)
          have h3 := hm b (by simp)
          refine ⟨b.start, ⟨by omega, by omega⟩, ⟨by omega, ?_⟩⟩
          rcases h2 with h | h <;> rcases h3 with h' | h' <;> omega
        · rw [if_neg hlt] at h
          exact ih (fun m hm' => hm m (by simp [hm'])) hs.2 h hp.2
  · intro h
    by_contra hadj
    apply h
    have key : ∀ ms : List PtrData, (∀ m ∈ ms, Valid m) → ms.Pairwise (fun a b => a.start ≤ b.start) →
        ¬ adjacent ms = true → ms.Pairwise (fun a b => a.stop ≤ b.start) := by
      intro ms
      induction ms with
      | nil => simp
      | cons a r ih =>
        intro hm hs hadj
        rw [List.pairwise_cons] at hs ⊢
        cases r with
        | nil => simp
        | cons b r =>
          simp only [adjacent] at hadj
          by_cases hlt : a.stop > b.start
          · simp [hlt] at hadj
          · rw [if_neg hlt] at hadj
            refine ⟨fun c hc => ?_, ih (fun m hm' => hm m (by simp [hm'])) hs.2 hadj⟩
            rcases List.mem_cons.mp hc with rfl | hc
            · omega
            · have := (List.pairwise_cons.mp hs.2).1 c hc
              omega
    refine (key ms hm hs hadj).imp ?_
    rintro a b hab ⟨x, h1, h2⟩
    simp only [Covers] at h1 h2; omega

/-- On sorted ranges whose mutable part is already known to be disjoint, the sweep finds a mutable/const
overlap iff there is one. -/
theorem sweep_iff (ms cs : List PtrData) (hm : ∀ m ∈ ms, Valid m) (hc : ∀ c ∈ cs, Valid c)
    (hms : ms.Pairwise (fun a b => a.stop ≤ b.start)) (hcs : cs.Pairwise (fun a b => a.start ≤ b.start)) :
    sweep ms cs = true ↔ ∃ m ∈ ms, ∃ c ∈ cs, Share m c := by
  induction ms, cs using sweep.induct with
  | case1 cs => simp [sweep]
  | case2 m ms => simp [sweep]
  | case3 m ms c cs hle ih =>
    rw [sweep, if_pos hle, ih (fun b hb => hm b (by simp [hb])) hc (List.pairwise_cons.mp hms).2 hcs]
    constructor
    · rintro ⟨m', h1, h2⟩; exact ⟨m', by simp [h1], h2⟩
    · rintro ⟨m', h1, c', h2, x, h3, h4⟩
      rcases List.mem_cons.mp h1 with rfl | h1
      · exfalso
        simp only [Covers] at h3 h4
        rcases List.mem_cons.mp h2 with rfl | h2
        · omega
        · have := (List.pairwise_cons.mp hcs).1 c' h2; omega
      · exact ⟨m', h1, c', h2, x, h3, h4⟩
  | case4 m ms c cs hle hlt =>
    rw [sweep, if_neg hle, if_pos hlt]
    simp only [true_iff]
    refine ⟨m, by simp, c, by simp, max m.start c.start, ?_⟩
    have h2 := hm m (by simp)
    have h3 := hc c (by simp)
    simp only [Covers]
    rcases h2 with h | h <;> rcases h3 with h' | h' <;> omega
  | case5 m ms c cs hle hlt ih =>
    rw [sweep, if_neg hle, if_neg hlt, ih hm (fun b hb => hc b (by simp [hb])) hms (List.pairwise_cons.mp hcs).2]
    constructor
    · rintro ⟨m', h1, c', h2, h3⟩; exact ⟨m', h1, c', by simp [h2], h3⟩
    · rintro ⟨m', h1, c', h2, x, h3, h4⟩
      rcases List.mem_cons.mp h2 with rfl | h2
      · exfalso
        simp only [Covers] at h3 h4
        have hv := hm m (by simp)
        rcases List.mem_cons.mp h1 with rfl | h1
        · omega
        · have := (List.pairwise_cons.mp hms).1 m' h1
          rcases hv with h | h <;> omega
      · exact ⟨m', h1, c', h2, x, h3, h4⟩

theorem not_adjacent_sep (ms : List PtrData) (hm : ∀ m ∈ ms, Valid m)
    (hs : ms.Pairwise (fun a b => a.start ≤ b.start)) (h : ¬ adjacent ms = true) :
    ms.Pairwise (fun a b => a.stop ≤ b.start) := by
  induction ms with
  | nil => simp
  | cons a r ih =>
    rw [List.pairwise_cons] at hs ⊢
    cases r with
    | nil => simp
    | cons b r =>
      simp only [adjacent] at h
      by_cases hlt : a.stop > b.start
      · simp [hlt] at h
      · rw [if_neg hlt] at h
        refine ⟨fun c hc => ?_, ih (fun m hm' => hm m (by simp [hm'])) hs.2 h⟩
        rcases List.mem_cons.mp hc with rfl | hc
        · omega
        · have := (List.pairwise_cons.mp hs.2).1 c hc
          omega

theorem spans_iff (sortM sortC : List PtrData → List PtrData) (h1 : Sorts sortM) (h2 : Sorts sortC)
    (muts consts : List PtrData) (hm : ∀ m ∈ muts, Valid m) (hc : ∀ c ∈ consts, Valid c) :
    hasMutableAliasingSpans sortM sortC muts consts = true ↔ Aliased muts consts := by
  unfold hasMutableAliasingSpans Aliased
  rw [aliased_iff_not_pairwise]
  by_cases he : muts = []
  · subst he; simp
  · have he' : muts.isEmpty = false := by simp [he]
    simp only [he', Bool.false_eq_true, if_false]
    obtain ⟨p1, s1⟩ := h1 muts
    obtain ⟨p2, s2⟩ := h2 consts
    have hm' : ∀ m ∈ sortM muts, Valid m := fun m h => hm m (p1.mem_iff.mp h)
    have hc' : ∀ m ∈ sortC consts, Valid m := fun m h => hc m (p2.mem_iff.mp h)
    have hpw : (sortM muts).Pairwise (fun a b => ¬ Share a b) ↔ muts.Pairwise (fun a b => ¬ Share a b) :=
      p1.pairwise_iff (fun h hs => h ((share_comm _ _).mp hs))
    by_cases ha : adjacent (sortM muts) = true
    · simp only [ha, if_true, true_iff]
      exact Or.inl (fun h => (adjacent_iff _ hm' s1).mp ha (hpw.mpr h))
    · simp only [ha, Bool.false_eq_true, if_false]
      rw [sweep_iff _ _ hm' hc' (not_adjacent_sep _ hm' s1 ha) s2]
      have : muts.Pairwise (fun a b => ¬ Share a b) := by
        by_contra hp
        exact ha ((adjacent_iff _ hm' s1).mpr (fun h => hp (hpw.mp h)))
      constructor
      · rintro ⟨m, h1, c, h2, h3⟩
        exact Or.inr ⟨m, p1.mem_iff.mp h1, c, p2.mem_iff.mp h2, h3⟩
      · rintro (h | ⟨m, h1, c, h2, h3⟩)
        · exact absurd this h
        · exact ⟨m, p1.mem_iff.mpr h1, c, p2.mem_iff.mpr h2, h3⟩

theorem trivial_not_aliased (muts consts : List PtrData)
    (h : muts.length = 0 ∨ (muts.length = 1 ∧ consts.length = 0)) : ¬ Aliased muts consts := by
  rintro (⟨i, j, hi, hj, hne, -⟩ | ⟨m, hm, c, hc, -⟩)
  · omega
  · have h1 := List.length_pos_of_mem hm
    have h2 := List.length_pos_of_mem hc
    omega

/-- C36: for any number of arguments and any `std::sort`, the predicate answers exactly whether two
arguments illegally share a byte. -/
theorem has_mutable_aliasing_iff (sortM sortC : List PtrData → List PtrData) (h1 : Sorts sortM) (h2 : Sorts sortC)
    (muts consts : List PtrData) (hm : ∀ m ∈ muts, Valid m) (hc : ∀ c ∈ consts, Valid c) :
    hasMutableAliasing sortM sortC muts consts = true ↔ Aliased muts consts := by
  unfold hasMutableAliasing
  by_cases ht : muts.length = 0 ∨ (muts.length = 1 ∧ consts.length = 0)
  · have : (decide (muts.length = 0) || (decide (muts.length = 1) && decide (consts.length = 0))) = true := by
      simpa using ht
    simp only [this, if_true, Bool.false_eq_true, false_iff]
    exact trivial_not_aliased _ _ ht
  · have : (decide (muts.length = 0) || (decide (muts.length = 1) && decide (consts.length = 0))) = false := by
      simpa using ht
    simp only [this, Bool.false_eq_true, if_false]
    by_cases h3 : muts.length ≤ 3 ∧ consts.length ≤ 3
    · have h3' : (decide (muts.length ≤ 3) && decide (consts.length ≤ 3)) = true := by simpa using h3
      simp only [h3', if_true]
      unfold Aliased
      rw [aliased_iff_not_pairwise, ← mutLoop_iff _ hm, ← constLoop_iff _ _ hm hc]
      by_cases x : mutLoop muts = true <;> simp [x]
    · have h3' : (decide (muts.length ≤ 3) && decide (consts.length ≤ 3)) = false := by simpa using h3
      simp only [h3', Bool.false_eq_true, if_false]
      exact spans_iff sortM sortC h1 h2 muts consts hm hc

/-- C36: the check lets the call into Rust go ahead exactly when there is no illegal aliasing. -/
theorem check_passes_iff (sortM sortC : List PtrData → List PtrData) (h1 : Sorts sortM) (h2 : Sorts sortC)
    (muts consts : List PtrData) (hm : ∀ m ∈ muts, Valid m) (hc : ∀ c ∈ consts, Valid c) :
    checkNoMutableAliasing sortM sortC muts consts = true ↔ ¬ Aliased muts consts := by
  rw [← has_mutable_aliasing_iff sortM sortC h1 h2 muts consts hm hc]
  unfold checkNoMutableAliasing hasMutableAliasing
  by_cases ht : (decide (muts.length = 0) || (decide (muts.length = 1) && decide (consts.length = 0))) = true
  · simp only [ht, if_true]; simp
  · simp only [ht, Bool.false_eq_true, if_false]
    by_cases h3 : (decide (muts.length ≤ 3) && decide (consts.length ≤ 3)) = true
    · simp only [h3, if_true]; simp
    · simp only [h3, Bool.false_eq_true, if_false]; simp

/-- C36: every argument the bindings convert is of the assumed shape: non-null references and pointers to
objects (whose size is positive), and slices however they were built. -/
theorem arguments_valid (addr size : Nat) (ha : addr ≠ 0) (hs : 0 < size) (s : StrRef.Slice)
    (hb : s = StrRef.Slice.default size ∨ ∃ al p n, s = StrRef.Slice.new al p n) :
    Valid (ofPtr addr size) ∧ Valid (ofSlice s size) := by
  refine ⟨Or.inl ⟨by simp [ofPtr]; omega, by simp [ofPtr]; omega⟩, ?_⟩
  have key : s.data = 0 ∧ s.size = 0 ∨ 0 < s.data ∧ 0 < s.size := by
    rcases hb with rfl | ⟨al, p, n, rfl⟩
    · left; simp [StrRef.Slice.default, StrRef.Slice.data]
    · simp only [StrRef.Slice.new, StrRef.Slice.data]
      by_cases hp : p = 0
      · simp [hp]
      · by_cases hn : n > 0
        · simp [hp, hn]; omega
        · have : n = 0 := by omega
          subst this; simp
  rcases key with ⟨h1, h2⟩ | ⟨h1, h2⟩
  · right; simp [ofSlice, h1, h2]
  · left
    have : 0 < s.size * size := Nat.mul_pos h2 hs
    simp only [ofSlice]; omega

/-- Disagreement: with an empty range that is not (0, 0) the large-arity path answers according to the order
in which the unstable sort leaves equal starts (such ranges are not built by the bindings). -/
theorem empty_range_depends_on_sort :
    ∃ muts : List PtrData, ∃ s1 s2 : List PtrData → List PtrData,
      ((s1 muts).Perm muts ∧ (s1 muts).Pairwise (fun a b => a.start ≤ b.start)) ∧
      ((s2 muts).Perm muts ∧ (s2 muts).Pairwise (fun a b => a.start ≤ b.start)) ∧
      hasMutableAliasingSpans s1 id muts [] ≠ hasMutableAliasingSpans s2 id muts [] := by
  refine ⟨[⟨8, 8⟩, ⟨8, 12⟩], id, List.reverse, ?_, ?_, ?_⟩ <;> decide +kernel

theorem sorts_insertionSort : Sorts (List.insertionSort (fun a b => a.start ≤ b.start)) := by
  intro l
  haveI : Std.Total (fun a b : PtrData => a.start ≤ b.start) := ⟨fun a b => Nat.le_total _ _⟩
  haveI : IsTrans PtrData (fun a b : PtrData => a.start ≤ b.start) := ⟨fun a b c => Nat.le_trans⟩
  exact ⟨List.perm_insertionSort _ l, List.pairwise_insertionSort _ l⟩

/-- Non-vacuity: four mutable arguments (one an empty slice) and two const ones, disjoint; and with the last
const one overlapping. -/
example :
    let srt := List.insertionSort (fun a b : PtrData => a.start ≤ b.start)
    checkNoMutableAliasing srt srt [⟨40, 48⟩, ⟨0, 0⟩, ⟨8, 16⟩, ⟨24, 32⟩] [⟨16, 24⟩, ⟨32, 40⟩] = true ∧
    checkNoMutableAliasing srt srt [⟨40, 48⟩, ⟨0, 0⟩, ⟨8, 16⟩, ⟨24, 32⟩] [⟨16, 24⟩, ⟨32, 41⟩] = false := by
  decide +kernel

end Verif.Alias

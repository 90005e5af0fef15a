import Verif.Infer.VSpec
/- C129: the index of virtual methods. -/
namespace Verif.Infer

theorem mem_insertSet (s : List String) (x y : String) : y ∈ insertSet s x ↔ y ∈ s ∨ y = x := by
  unfold insertSet
  split
  next h =>
    have : x ∈ s := by simpa using h
    constructor
    · exact Or.inl
    · rintro (h | rfl)
      · exact h
      · exact this
  next => simp

theorem mem_foldl_insertSet (l : List String) : ∀ (s : List String) (y : String), y ∈ l.foldl insertSet s ↔ y ∈ s ∨ y ∈ l := by
  induction l with
  | nil => intro s y; simp
  | cons a l ih => intro s y; rw [List.foldl_cons, ih, mem_insertSet, List.mem_cons, or_assoc]

theorem mem_getOverridden (ix : VIndex) (m : Method) (y : String) : y ∈ getOverridden ix m ↔
    ∃ b ∈ m.overridden, b ≠ "" ∧ (y = b ∨ y ∈ (AMap.get? ix.bases b).getD []) := by
  have gen : ∀ (l : List String) (acc : List String), y ∈ l.foldl (fun acc b =>
      if b = "" then acc
      else ((AMap.get? ix.bases b).getD []).foldl insertSet (insertSet acc b)) acc ↔
      y ∈ acc ∨ ∃ b ∈ l, b ≠ "" ∧ (y = b ∨ y ∈ (AMap.get? ix.bases b).getD []) := by
    intro l
    induction l with
    | nil => intro acc; simp
    | cons a l ih =>
      intro acc
      rw [List.foldl_cons, ih]
      by_cases ha : a = ""
      · subst ha; simp
      · simp only [ha, if_false, mem_foldl_insertSet, mem_insertSet, List.mem_cons, exists_eq_or_imp, ne_eq, not_false_eq_true, true_and]
        rw [or_assoc, or_assoc]
        constructor
        · rintro (h | h | h | h)
          · exact Or.inl h
          · exact Or.inr (Or.inl (Or.inl h))
          · exact Or.inr (Or.inl (Or.inr h))
          · exact Or.inr (Or.inr h)
        · rintro (h | (h | h) | h)
          · exact Or.inl h
          · exact Or.inr (Or.inl h)
          · exact Or.inr (Or.inr (Or.inl h))
          · exact Or.inr (Or.inr (Or.inr h))
  exact (gen m.overridden []).trans (by simp)

/-- The set of overriding methods recorded for `b`. -/
def ovs (m : List (String × MethodSummary)) (b : String) : List String := ((AMap.get? m b).map (·.overriding)).getD []

theorem mem_addOverrides (usr : String) (slots : List Nat) (l : List String) : ∀ (m : List (String × MethodSummary)) (b y : String),
    y ∈ ovs (l.foldl (addOverride usr slots) m) b ↔ y ∈ ovs m b ∨ (y = usr ∧ b ∈ l) := by
  induction l with
  | nil => intro m b y; simp
  | cons a l ih =>
    intro m b y
    rw [List.foldl_cons, ih]
    have : y ∈ ovs (addOverride usr slots m a) b ↔ y ∈ ovs m b ∨ (y = usr ∧ b = a) := by
      unfold ovs addOverride
      by_cases h : b = a
      · subst h
        rw [AMap.get?_insert_self]
        simp only [Option.map_some, Option.getD_some, mem_insertSet, and_true]
      · rw [AMap.get?_insert_ne _ _ (Ne.symm h)]
        simp [h]
    rw [this, List.mem_cons]
    constructor
    · rintro ((h | ⟨h1, h2⟩) | ⟨h1, h2⟩)
      · exact Or.inl h
      · exact Or.inr ⟨h1, Or.inl h2⟩
      · exact Or.inr ⟨h1, Or.inr h2⟩
    · rintro (h | ⟨h1, h2 | h2⟩)
      · exact Or.inl (Or.inl h)
      · exact Or.inl (Or.inr ⟨h1, h2⟩)
      · exact Or.inr ⟨h1, h2⟩

/-- What the index records after the methods `pre` of `ms`. -/
structure Upto (ms pre : List Method) (ix : VIndex) : Prop where
  bases : ∀ u b, b ∈ (AMap.get? ix.bases u).getD [] ↔ Overrides ms u b ∧ ∃ m ∈ pre, m.Relevant ∧ m.usr = u
  overrides : ∀ b u, u ∈ ovs ix.overrides b ↔ Overrides ms u b ∧ ∃ m ∈ pre, m.Relevant ∧ m.usr = u
  inTest : ∀ u, u ∈ ix.inTest ↔ ∃ m ∈ pre, m.Relevant ∧ m.usr = u ∧ m.inTest = true

theorem relevant_from {ms : List Method} {u b : String} (h : Overrides ms u b) : ∃ m ∈ ms, m.Relevant ∧ m.usr = u := by
  induction h using Relation.TransGen.head_induction_on with
  | single h => obtain ⟨m, hm, hr, hu, -⟩ := h; exact ⟨m, hm, hr, hu⟩
  | head h _ _ => obtain ⟨m, hm, hr, hu, -⟩ := h; exact ⟨m, hm, hr, hu⟩

theorem upto_step {ms pre : List Method} {m : Method} {post : List Method} (hms : ms = pre ++ m :: post) (hb : BasesFirst ms)
    (hc : Consistent ms) {ix : VIndex} (hi : Upto ms pre ix) : Upto ms (pre ++ [m]) (visit ix m) := by
  have skip : ¬ m.Relevant → Upto ms (pre ++ [m]) ix := by
    intro hn
    refine ⟨fun u b => ?_, fun b u => ?_, fun u => ?_⟩
    · rw [hi.bases]; simp only [List.mem_append, List.mem_singleton, or_and_right, exists_or, exists_eq_left, hn, false_and, or_false]
    · rw [hi.overrides]; simp only [List.mem_append, List.mem_singleton, or_and_right, exists_or, exists_eq_left, hn, false_and, or_false]
    · rw [hi.inTest]; simp only [List.mem_append, List.mem_singleton, or_and_right, exists_or, exists_eq_left, hn, false_and, or_false]
  unfold visit
  by_cases h1 : m.isVirtual = true
  swap
  · rw [if_pos (by simpa using h1)]; exact skip (fun h => h1 h.1)
  rw [if_neg (by simp [h1])]
  by_cases h2 : m.slots = []
  · rw [if_pos (by simp [h2])]; exact skip (fun h => h.2.1 h2)
  rw [if_neg (by simpa using h2)]
  by_cases h3 : m.usr = ""
  · rw [if_pos h3]; exact skip (fun h => h.2.2 h3)
  rw [if_neg h3]
  have hrel : m.Relevant := ⟨h1, h2, h3⟩
  have hmem : m ∈ ms := by rw [hms]; simp
  -- the test set does not matter to the maps
  have hbases : (if m.inTest = true then { ix with inTest := insertSet ix.inTest m.usr } else ix : VIndex).bases = ix.bases := by
    split <;> rfl
  have hovs : (if m.inTest = true then { ix with inTest := insertSet ix.inTest m.usr } else ix : VIndex).overrides = ix.overrides := by
    split <;> rfl
  have htest : ∀ u, u ∈ (if m.inTest = true then { ix with inTest := insertSet ix.inTest m.usr } else ix : VIndex).inTest ↔
      ∃ m' ∈ pre ++ [m], m'.Relevant ∧ m'.usr = u ∧ m'.inTest = true := by
    intro u
    simp only [List.mem_append, List.mem_singleton, or_and_right, exists_or, exists_eq_left, hrel, true_and, ← hi.inTest]
    split
    next h => simp only [mem_insertSet, h, and_true]; exact or_congr Iff.rfl eq_comm
    next h => simp [h]
  generalize (if m.inTest = true then { ix with inTest := insertSet ix.inTest m.usr } else ix : VIndex) = ix1 at hbases hovs htest ⊢
  have hov : ∀ y, y ∈ getOverridden ix1 m ↔ Overrides ms m.usr y := by
    intro y
    rw [mem_getOverridden, hbases]
    constructor
    · rintro ⟨b, hbm, hb0, rfl | hy⟩
      · exact Relation.TransGen.single ⟨m, hmem, hrel, rfl, hbm, hb0⟩
      · exact Relation.TransGen.head ⟨m, hmem, hrel, rfl, hbm, hb0⟩ ((hi.bases b y).1 hy).1
    · intro h
      rcases Relation.TransGen.head'_iff.1 h with ⟨b, ⟨m', hm', hr', hu', hbm', hb0⟩, hby⟩
      have hbm : b ∈ m.overridden := (hc m' hm' m hmem hr' hrel hu' b).1 hbm'
      refine ⟨b, hbm, hb0, ?_⟩
      rcases Relation.reflTransGen_iff_eq_or_transGen.1 hby with rfl | hby
      · exact Or.inl rfl
      · exact Or.inr ((hi.bases b y).2 ⟨hby, hb pre m post hms hrel b hbm (relevant_from hby)⟩)
  have hpre : ∀ u, (∃ m' ∈ pre ++ [m], m'.Relevant ∧ m'.usr = u) ↔ (∃ m' ∈ pre, m'.Relevant ∧ m'.usr = u) ∨ m.usr = u := by
    intro u
    simp only [List.mem_append, List.mem_singleton, or_and_right, exists_or, exists_eq_left, hrel, true_and]
  show Upto ms (pre ++ [m]) (if (getOverridden ix1 m).isEmpty then ix1 else _)
  by_cases he : getOverridden ix1 m = []
  · rw [if_pos (by simp [he])]
    have hno : ∀ y, ¬ Overrides ms m.usr y := fun y h => by have := (hov y).2 h; rw [he] at this; simp at this
    refine ⟨fun u b => ?_, fun b u => ?_, htest⟩
    · rw [hbases, hi.bases, hpre]
      constructor
      · rintro ⟨h, h'⟩; exact ⟨h, Or.inl h'⟩
      · rintro ⟨h, h' | rfl⟩
        · exact ⟨h, h'⟩
        · exact absurd h (hno b)
    · rw [hovs, hi.overrides, hpre]
      constructor
      · rintro ⟨h, h'⟩; exact ⟨h, Or.inl h'⟩
      · rintro ⟨h, h' | rfl⟩
        · exact ⟨h, h'⟩
        · exact absurd h (hno b)
  · rw [if_neg (by simpa using he)]
    refine ⟨fun u b => ?_, fun b u => ?_, htest⟩
    · show b ∈ (AMap.get? (AMap.insert ix1.bases m.usr (getOverridden ix1 m)) u).getD [] ↔ _
      rw [hpre]
      by_cases hu : m.usr = u
      · subst hu
        rw [AMap.get?_insert_self, Option.getD_some, hov]
        simp
      · rw [AMap.get?_insert_ne _ _ hu, hbases, hi.bases]
        simp [hu]
    · show u ∈ ovs ((getOverridden ix1 m).foldl (addOverride m.usr m.slots) ix1.overrides) b ↔ _
      rw [mem_addOverrides, hovs, hi.overrides, hpre, hov]
      constructor
      · rintro (⟨h, h'⟩ | ⟨rfl, h⟩)
        · exact ⟨h, Or.inl h'⟩
        · exact ⟨h, Or.inr rfl⟩
      · rintro ⟨h, h' | rfl⟩
        · exact Or.inl ⟨h, h'⟩
        · exact Or.inr ⟨rfl, h⟩

/-- C129: the index built by one walk over the translation unit records exactly which methods override which (directly or not), and which
are in tests. -/
theorem index_exact {ms : List Method} (hb : BasesFirst ms) (hc : Consistent ms) : IndexOf ms (virtualIndex ms) := by
  have gen : ∀ (post pre : List Method) (ix : VIndex), ms = pre ++ post → Upto ms pre ix → Upto ms ms (post.foldl visit ix) := by
    intro post
    induction post with
    | nil => intro pre ix h hi; simp at h; subst h; exact hi
    | cons m post ih =>
      intro pre ix h hi
      exact ih (pre ++ [m]) (visit ix m) (by simp [h]) (upto_step h hb hc hi)
  have h0 : Upto ms [] ⟨[], [], []⟩ := by
    refine ⟨fun u b => ?_, fun b u => ?_, fun u => ?_⟩ <;> simp [AMap.get?, ovs]
  have h := gen ms [] _ rfl h0
  refine ⟨fun u b => ?_, fun b u => ?_, h.inTest⟩
  · exact (h.bases u b).trans ⟨And.left, fun h => ⟨h, relevant_from h⟩⟩
  · exact (h.overrides b u).trans ⟨And.left, fun h => ⟨h, relevant_from h⟩⟩

end Verif.Infer

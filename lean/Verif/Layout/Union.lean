import Verif.Layout.Struct
/-
C57: unions.
-/
namespace Verif.Layout

theorem le_maxSize {m : Mem} : ∀ {ms : List Mem}, m ∈ ms → m.size ≤ maxSize ms := by
  intro ms
  induction ms with
  | nil => intro h; simp at h
  | cons x ms ih =>
    intro h
    simp only [maxSize, List.foldr_cons] at ih ⊢
    rcases List.mem_cons.mp h with rfl | h
    · omega
    · have := ih h; omega

/-- The member for a bound. -/
def unionMem (b : Bound) : Mem :=
  match b.ir with
  | none => ⟨.bits, bytes (b.stop.getD 0), 1⟩
  | some f => ⟨.field f, bytes (b.stop.getD 0), f.known.getD 1⟩

/-- What is known of each bound. -/
structure UOk (align : Nat) (b : Bound) : Prop where
  offset : b.offset = 0
  stop : ∃ e, b.stop = some e ∧ 0 < e
  field : ∀ f, b.ir = some f → f.offset = 0 ∧ b.stop = some f.size ∧ ∀ a, f.known = some a → f.size % 8 = 0 ∧ 0 < a ∧ a ≤ align
  bits : b.ir = none → bytes (b.stop.getD 0) ≤ align

theorem union_defs (align size : Nat) : ∀ (bs : List Bound) (prev : Option Bound), (∀ b ∈ bs, UOk align b) →
    definitions true size prev bs = some (bs.map unionMem) := by
  intro bs
  induction bs with
  | nil => intro _ _; rfl
  | cons b bs ih =>
    intro prev h
    obtain ⟨h1, ⟨e, h2, h3⟩, h4, h5⟩ := h b (by simp)
    have hm : fieldMem b e = some (unionMem b) := by
      unfold fieldMem unionMem
      cases hi : b.ir with
      | none => simp [blob, h1, h2, h3]
      | some f =>
        obtain ⟨k1, k2, k3⟩ := h4 f hi
        rw [h2] at k2; cases k2
        cases hk : f.known with
        | none => simp [blob, k1, h2, h3, hk]
        | some a =>
          have := (k3 a hk).1
          simp [h2, hk, bytes]; omega
    have hc : checkedDefinition true prev b ((prev.bind (·.stop)).getD b.offset) e = some [unionMem b] := by
      unfold checkedDefinition fieldDefinition
      have ha : assertOk true prev b = true := by
        unfold assertOk; split <;> simp
      rw [if_pos ha, hm]
      simp [paddingBits]
    simp only [definitions, h2, Option.some_or, Option.getD_some, hc, ih (some b) fun c hc => h c (by simp [hc]),
      Option.bind_eq_bind, Option.bind_some, Option.pure_def, List.map_cons, List.singleton_append]

/-- The most bytes of a bound. -/
def mostStop (bs : List Bound) : Nat := bs.foldr (fun b n => max (bytes (b.stop.getD 0)) n) 0

theorem bytes_pos {e : Nat} (h : 0 < e) : 1 ≤ bytes e := by unfold bytes; omega

theorem union_coalesce (align : Nat) : ∀ (l : List Bound) (a : Bound), (∀ b ∈ a :: l, UOk align b) →
    (∀ b ∈ coalesceFrom a l, UOk align b) ∧ (coalesceFrom a l).filterMap (·.ir) = (a :: l).filterMap (·.ir) ∧
    mostStop (coalesceFrom a l) ≤ mostStop (a :: l) ∧ mostStop (a :: l) ≤ max (mostStop (coalesceFrom a l)) align ∧
    1 ≤ mostStop (coalesceFrom a l) ∧ ((coalesceFrom a l).any erased = (a :: l).any erased) := by
  intro l
  induction l with
  | nil =>
    intro a h
    obtain ⟨e, he, hp⟩ := (h a (by simp)).stop
    refine ⟨h, rfl, Nat.le_refl _, Nat.le_max_left _ _, ?_, rfl⟩
    have := bytes_pos hp
    simp only [coalesceFrom, mostStop, List.foldr_cons, he, Option.getD_some]; omega
  | cons b l ih =>
    intro a h
    unfold coalesceFrom
    split
    · rename_i hir
      simp only [Bool.and_eq_true, Option.isNone_iff_eq_none] at hir
      have ha := h a (by simp)
      have hb := h b (by simp)
      obtain ⟨i1, i2, i3, i4, i5, i6⟩ := ih ⟨none, a.offset, b.stop⟩ (by
        intro c hc
        rcases List.mem_cons.mp hc with rfl | hc
        · exact ⟨ha.offset, hb.stop, fun f hf => by simp at hf, fun _ => hb.bits hir.2⟩
        · exact h c (by simp [hc]))
      have := ha.bits hir.1
      refine ⟨i1, ?_, ?_, ?_, i5, ?_⟩
      · rw [i2]; simp [hir.1, hir.2]
      · simp only [mostStop, List.foldr_cons] at i3 ⊢; omega
      · simp only [mostStop, List.foldr_cons] at i4 ⊢; omega
      · rw [i6]; simp [erased, hir.1]
    · obtain ⟨i1, i2, i3, i4, i5, i6⟩ := ih b fun c hc => h c (by simp at hc ⊢; exact Or.inr hc)
      refine ⟨?_, ?_, ?_, ?_, ?_, ?_⟩
      · intro c hc
        rcases List.mem_cons.mp hc with rfl | hc
        · exact h c (by simp)
        · exact i1 c hc
      · cases hai : a.ir <;> simp [hai, i2]
      · simp only [mostStop, List.foldr_cons] at i3 ⊢; omega
      · simp only [mostStop, List.foldr_cons] at i4 ⊢; omega
      · simp only [mostStop, List.foldr_cons] at i5 ⊢; omega
      · simp only [List.any_cons, i6]

/-- `toBound` in a union, for a field that is not empty. -/
def ubound (f : Field) : Bound := ⟨if f.bitfield then none else some f, f.offset, some f.size⟩

theorem utoBound_eq : ∀ (fs : List Field), (∀ f ∈ fs, f.offset = 0) → fs.filterMap (toBound true) = (fs.filter fun f => decide (f.size ≠ 0)).map ubound := by
  intro fs
  induction fs with
  | nil => intro _; rfl
  | cons f fs ih =>
    intro h
    have h0 := h f (by simp)
    have ih := ih fun g hg => h g (by simp [hg])
    by_cases hs : f.size = 0
    · simp [toBound, hs, ih]
    · simp [toBound, hs, ih, ubound, h0]

theorem uir_fields (fs : List Field) : (fs.map ubound).filterMap (·.ir) = fs.filter fun f => !f.bitfield := by
  induction fs with
  | nil => rfl
  | cons f fs ih => cases hb : f.bitfield <;> simp [ubound, hb] at ih ⊢ <;> exact ih

theorem umost (fs : List Field) : mostStop ((fs.filter fun f => decide (f.size ≠ 0)).map ubound) = mostBytes fs := by
  induction fs with
  | nil => rfl
  | cons f fs ih =>
    by_cases hs : f.size = 0
    · simp [hs, ih, mostBytes, bytes]
      simp only [mostBytes, bytes, ne_eq, decide_not] at ih; exact ih
    · simp [hs, mostBytes, mostStop, ubound] at ih ⊢
      rw [ih]

theorem maxSize_map (bs : List Bound) : maxSize (bs.map unionMem) = mostStop bs := by
  induction bs with
  | nil => rfl
  | cons b bs ih =>
    simp only [maxSize, mostStop, List.map_cons, List.foldr_cons] at ih ⊢
    rw [ih]
    congr 1
    unfold unionMem; cases b.ir <;> rfl

theorem maxAlign_map (bs : List Bound) : maxAlign (bs.map unionMem) = bs.foldr (fun b a => max (b.known.getD 1) a) 1 := by
  induction bs with
  | nil => rfl
  | cons b bs ih =>
    simp only [maxAlign, List.map_cons, List.foldr_cons] at ih ⊢
    rw [ih]
    congr 1
    unfold unionMem Bound.known; cases b.ir <;> rfl

theorem tagged_union (align : Nat) : ∀ (bs : List Bound), (∀ b ∈ bs, UOk align b) →
    tagged ((bs.map unionMem).map fun m => (m, 0)) = (bs.filterMap (·.ir)).map fun f => (f, 0, bytes f.size) := by
  intro bs
  induction bs with
  | nil => intro _; rfl
  | cons b bs ih =>
    intro h
    have ih := ih fun c hc => h c (by simp [hc])
    have hb := h b (by simp)
    simp only [List.map_cons]
    rw [← List.singleton_append, tagged_append, ih]
    cases hi : b.ir with
    | none => simp [unionMem, hi, tagged]
    | some f => simp [unionMem, hi, tagged, (hb.field f hi).2.1]

theorem up_absorb {m M a : Nat} (ha : 0 < a) (h1 : 1 ≤ m) (h2 : m ≤ M) (h3 : M ≤ max m a) : up m a = up M a := by
  by_cases h : m ≤ a
  · have : ∀ n, 1 ≤ n → n ≤ a → up n a = a := by
      intro n hn hna
      unfold up
      have : (n + a - 1) / a = 1 := by
        rw [Nat.div_eq_iff ha]; omega
      rw [this, Nat.one_mul]
    rw [this m h1 h, this M (by omega) (by omega)]
  · have : m = M := by omega
    rw [this]

/-- C57: for every union as in `UnionOk`, generation does not panic, and the Rust type has the layout of the C++ union. -/
theorem union_layout (r : Record) (h : UnionOk r) (ht : r.threadSafe = false) :
    ∃ t, generate r = some t ∧ Matches r t ∧ fieldOffsets r = some (t.fieldsAt.map fun x => (x.1, x.2.1)) := by
  obtain ⟨hu, hstart, hknown, hbits, hsize, hpos, halign⟩ := h
  have hown : ownFields r = (r.fields.filter fun f => decide (f.size ≠ 0)).filter fun f => !f.bitfield := by
    unfold ownFields; rw [List.filter_filter]
    congr 1; funext f; exact Bool.and_comm _ _
  obtain ⟨bs, hbs, hok, hir, h1, h2, h3, hany⟩ : ∃ bs, bounds r = bs ∧ (∀ b ∈ bs, UOk r.align b) ∧ bs.filterMap (·.ir) = ownFields r ∧
      mostStop bs ≤ mostBytes r.fields ∧ mostBytes r.fields ≤ max (mostStop bs) r.align ∧ ((∃ f ∈ r.fields, f.size ≠ 0) → 1 ≤ mostStop bs) ∧
      bs.any erased = ((r.fields.filter fun f => decide (f.size ≠ 0)).map ubound).any erased := by
    refine ⟨bounds r, rfl, ?_⟩
    unfold bounds
    rw [hu, utoBound_eq _ hstart, hown, ← umost]
    have hfs : ∀ f ∈ r.fields.filter (fun f => decide (f.size ≠ 0)), f ∈ r.fields ∧ f.size ≠ 0 := by
      intro f hf; simpa using hf
    have hne : (∃ f ∈ r.fields, f.size ≠ 0) → r.fields.filter (fun f => decide (f.size ≠ 0)) ≠ [] := by
      rintro ⟨f, hf, hs⟩ hn
      have : f ∈ r.fields.filter (fun f => decide (f.size ≠ 0)) := by simp [hf, hs]
      rw [hn] at this; simp at this
    generalize r.fields.filter (fun f => decide (f.size ≠ 0)) = fs at hfs hne ⊢
    cases fs with
    | nil => exact ⟨by simp [coalesce], rfl, Nat.le_refl _, Nat.le_max_left _ _, fun h => absurd rfl (hne h), rfl⟩
    | cons f fs =>
      obtain ⟨i1, i2, i3, i4, i5, i6⟩ := union_coalesce r.align (fs.map ubound) (ubound f) (fun b hb => by
        rw [← List.map_cons] at hb
        obtain ⟨g, hg, rfl⟩ := List.mem_map.mp hb
        obtain ⟨hg, hs⟩ := hfs g hg
        refine ⟨hstart g hg, ⟨g.size, rfl, by omega⟩, ?_, ?_⟩
        · intro f' hf'
          simp only [ubound] at hf'
          split at hf'
          · cases hf'
          · rename_i hb
            cases hf'
            exact ⟨hstart g hg, rfl, fun a ha => hknown g hg (by simpa using hb) a ha⟩
        · intro hi
          simp only [ubound] at hi
          split at hi
          · rename_i hb; exact hbits g hg hb
          · cases hi)
      simp only [List.map_cons, coalesce]
      refine ⟨i1, ?_, i3, i4, fun _ => i5, i6⟩
      rw [i2, ← List.map_cons, uir_fields]
  have hdefs := union_defs r.align r.size bs none hok
  have hfold_ge := foldAlign_ge bs
  have hfold_le := fold_le hpos bs (fun b hb a ha => by
    unfold Bound.known at ha
    cases hi : b.ir with
    | none => rw [hi] at ha; cases ha
    | some f =>
      rw [hi] at ha
      exact ((((hok b hb).field f hi).2.2) a ha).2.2)
  have hhead : headPadding r = if r.fields = [] ∧ r.size > 0 then [⟨.nonField, r.size, 1⟩] else [] := by
    unfold headPadding headBytes
    cases hf : r.fields with
    | nil => simp [hu]
    | cons f fs =>
      have := hstart f (by rw [hf]; simp)
      simp [hu, this]
  have hheadA : ∀ ms : List Mem, maxAlign (headPadding r ++ ms) = maxAlign ms := by
    intro ms
    rw [maxAlign_append, hhead]
    have : 1 ≤ maxAlign ms := by
      have := maxAlign_append [] ms
      simp only [List.nil_append, maxAlign, List.foldr_nil] at this ⊢
      omega
    split <;> simp [maxAlign] at this ⊢ <;> omega
  have hfa : ∀ al, RustType.fieldsAt ⟨headPadding r ++ bs.map unionMem, al, true⟩ = (bs.filterMap (·.ir)).map fun f => (f, 0, bytes f.size) := by
    intro al
    rw [← tagged_union r.align bs hok]
    unfold RustType.fieldsAt RustType.offsets
    simp only [if_true, List.map_append]
    have := tagged_append ((headPadding r).map fun m => (m, 0)) ((bs.map unionMem).map fun m => (m, 0))
    rw [show tagged ((headPadding r).map fun m => (m, 0)) = [] by rw [hhead]; split <;> rfl, List.nil_append] at this
    exact this
  refine ⟨⟨headPadding r ++ bs.map unionMem, if (r.overrideAlign || bs.any erased) && decide (r.align > 1) then some r.align else none, true⟩, ?_, ?_, ?_⟩
  · unfold generate
    rw [hbs, hu, hdefs]
    simp only [Option.bind_eq_bind, Option.bind_some, Option.pure_def, ht, Bool.or_false]
    rfl
  · have halignOf : max (maxAlign (headPadding r ++ bs.map unionMem)) ((if (r.overrideAlign || bs.any erased) && decide (r.align > 1) then some r.align else none).getD 1) = r.align := by
      rw [hheadA, maxAlign_map]
      by_cases hov : (r.overrideAlign || bs.any erased) = true
      · rw [hov, Bool.true_and]
        by_cases h1 : r.align > 1
        · rw [if_pos (by simpa using h1)]; simp; omega
        · rw [if_neg (by simpa using h1)]; simp; omega
      · simp only [Bool.not_eq_true, Bool.or_eq_false_iff] at hov
        rw [hov.1, hov.2]
        simp only [Bool.or_self, Bool.false_and, Bool.false_eq_true, if_false, Option.getD_none]
        have hall : ∀ f ∈ r.fields, f.size ≠ 0 → f.bitfield = false ∧ f.known.isSome = true := by
          rw [hov.2] at hany
          intro f hf hs
          have := (List.any_eq_false.mp hany.symm) (ubound f) (List.mem_map.mpr ⟨f, by simp [hf, hs], rfl⟩)
          unfold erased ubound at this
          cases hb : f.bitfield with
          | true => rw [hb] at this; simp at this
          | false => rw [hb] at this; simp at this; exact ⟨rfl, by simp [Option.isSome_iff_ne_none, this]⟩
        rcases halign hov.1 hall with ⟨-, ha⟩ | ⟨f, hf, hs, ha⟩
        · omega
        · have hm : f ∈ bs.filterMap (·.ir) := by
            rw [hir]; unfold ownFields; rw [List.mem_filter]
            exact ⟨hf, by simp [(hall f hf hs).1, hs]⟩
          obtain ⟨b, hb, hbi⟩ := List.mem_filterMap.mp hm
          have := le_fold (b := b) (a := r.align) (by unfold Bound.known; rw [hbi]; exact ha) bs hb
          omega
    refine ⟨?_, halignOf, ?_, ?_⟩
    · unfold RustType.sizeOf RustType.alignOf
      simp only [if_true]
      rw [halignOf, hhead]
      by_cases hf : r.fields = []
      · rw [if_pos hf] at hsize
        have hb : bs = [] := by rw [← hbs]; unfold bounds; rw [hf]; rfl
        subst hb
        by_cases hs : r.size > 0
        · rw [if_pos ⟨hf, hs⟩]
          simp only [List.map_nil, List.append_nil, maxSize, List.foldr_cons, List.foldr_nil]
          rw [Nat.max_eq_left (by omega)]
          exact up_dvd hsize
        · rw [if_neg (by simp [hs])]
          have : r.size = 0 := by omega
          rw [this]
          simp only [List.map_nil, List.append_nil, maxSize, List.foldr_nil]
          exact up_dvd (Nat.dvd_zero _)
      · rw [if_neg hf] at hsize
        rw [if_neg (by simp [hf]), List.nil_append, maxSize_map, hsize.2]
        exact up_absorb hpos (h3 hsize.1) h1 h2
    · rw [hfa, List.map_map, ← hir]
      refine List.map_congr_left fun f hf => ?_
      obtain ⟨b, hb, hbi⟩ := List.mem_filterMap.mp hf
      simp [((hok b hb).field f hbi).1]
    · rw [hfa]
      intro x hx hk
      obtain ⟨f, hf, rfl⟩ := List.mem_map.mp hx
      obtain ⟨b, hb, hbi⟩ := List.mem_filterMap.mp hf
      obtain ⟨a, ha⟩ := Option.isSome_iff_exists.mp hk
      have := (((hok b hb).field f hbi).2.2 a ha).1
      simp only [bytes]; omega
  · unfold fieldOffsets
    rw [hbs, mapM_some (fun f => (f, f.offset / 8)) (fun f : Field => f.offset % 8 = 0)]
    · simp only [Option.bind_eq_bind, Option.bind_some, Option.pure_def, ht, Bool.false_eq_true, if_false]
      congr 1
      rw [hfa, List.map_map]
      refine List.map_congr_left fun f hf => ?_
      obtain ⟨b, hb, hbi⟩ := List.mem_filterMap.mp hf
      simp [((hok b hb).field f hbi).1]
    · intro f hf
      obtain ⟨b, hb, hbi⟩ := List.mem_filterMap.mp hf
      simp [((hok b hb).field f hbi).1]

end Verif.Layout

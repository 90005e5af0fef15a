import Verif.Layout.Props
/-
C56: structs.
-/
namespace Verif.Layout

theorem coalesce_spec (align : Nat) : ∀ (l : List Bound) (a : Bound), (∀ b ∈ a :: l, BOk align b) → BPairs BNext (a :: l) →
    (∀ b ∈ coalesceFrom a l, BOk align b) ∧ BPairs (fun x y => BNext x y ∧ (x.ir = none → y.ir ≠ none)) (coalesceFrom a l) ∧
    (∃ h r, coalesceFrom a l = h :: r ∧ h.offset = a.offset ∧ h.ir = a.ir) ∧
    (coalesceFrom a l).filterMap (·.ir) = (a :: l).filterMap (·.ir) ∧
    (∃ x y, (coalesceFrom a l).getLast? = some x ∧ (a :: l).getLast? = some y ∧ x.stop = y.stop ∧ x.offset ≤ y.offset) ∧
    ((coalesceFrom a l).any erased = (a :: l).any erased) := by
  intro l
  induction l with
  | nil =>
    intro a hok _
    exact ⟨hok, trivial, ⟨a, [], rfl, rfl, rfl⟩, rfl, ⟨a, a, rfl, rfl, rfl, Nat.le_refl _⟩, rfl⟩
  | cons b l ih =>
    intro a hok hp
    obtain ⟨hab, hp⟩ := hp
    unfold coalesceFrom
    split
    · rename_i hir
      simp only [Bool.and_eq_true, Option.isNone_iff_eq_none] at hir
      have ha := hok a (by simp)
      have hb := hok b (by simp)
      have hlt : a.offset + 1 ≤ b.offset := by
        have := hab.order
        cases hs : a.stop with
        | none => rw [hs] at this; simpa using this
        | some e => rw [hs] at this; have := ha.order e hs; simp at *; omega
      have hm : BOk align ⟨none, a.offset, b.stop⟩ := by
        refine ⟨fun f hf => by simp at hf, fun e he => ?_⟩
        have := hb.order e he
        simp; omega
      have hmn : BPairs BNext (⟨none, a.offset, b.stop⟩ :: l) := by
        cases l with
        | nil => trivial
        | cons c l =>
          obtain ⟨⟨n1, n2, n3⟩, hp⟩ := hp
          refine ⟨⟨?_, by simp, fun g x e hg hk he => n3 g x e hg hk he⟩, hp⟩
          cases hs : b.stop with
          | none => rw [hs] at n1; simp at n1 ⊢; omega
          | some e => rw [hs] at n1; simpa using n1
      obtain ⟨i1, i2, ⟨h, r, i3, i4, i5⟩, i6, ⟨x, y, i7, i8, i9, i10⟩, i11⟩ := ih ⟨none, a.offset, b.stop⟩
        (fun c hc => by
          rcases List.mem_cons.mp hc with rfl | hc
          · exact hm
          · exact hok c (by simp [hc])) hmn
      refine ⟨i1, i2, ⟨h, r, i3, i4, by rw [i5, hir.1]⟩, ?_, ?_, ?_⟩
      · rw [i6]; simp [hir.1, hir.2]
      · cases l with
        | nil =>
          simp only [List.getLast?_singleton, Option.some.injEq] at i8
          subst i8
          refine ⟨x, b, i7, by simp, i9, ?_⟩
          simp at i10; omega
        | cons c l =>
          rw [List.getLast?_cons_cons] at i8
          exact ⟨x, y, i7, by rw [List.getLast?_cons_cons, List.getLast?_cons_cons]; exact i8, i9, i10⟩
      · rw [i11]; simp [erased, hir.1]
    · rename_i hir
      obtain ⟨i1, i2, ⟨h, r, i3, i4, i5⟩, i6, ⟨x, y, i7, i8, i9, i10⟩, i11⟩ := ih b (fun c hc => hok c (by simp at hc ⊢; exact Or.inr hc)) hp
      refine ⟨?_, ?_, ⟨a, _, rfl, rfl, rfl⟩, ?_, ⟨x, y, ?_, ?_, i9, i10⟩, ?_⟩
      · intro c hc
        rcases List.mem_cons.mp hc with rfl | hc
        · exact hok c (by simp)
        · exact i1 c hc
      · rw [i3] at i2 ⊢
        refine ⟨⟨⟨?_, ?_, ?_⟩, ?_⟩, i2⟩
        · rw [i4]; exact hab.order
        · rw [i4]; exact hab.start
        · rw [i4, i5]; exact hab.natural
        · intro ha hh
          rw [i5] at hh
          exact hir (by simp [ha, hh])
      · cases hai : a.ir <;> simp [hai, i6]
      · rw [i3] at i7 ⊢; rw [List.getLast?_cons_cons]; exact i7
      · rw [List.getLast?_cons_cons]; exact i8
      · simp only [List.any_cons, i11]

/-- `toBound` for a field that is not empty. -/
def bound (f : Field) : Bound :=
  ⟨if f.bitfield then none else some f, f.offset, if f.known.isSome then some (f.offset + f.size) else none⟩

theorem toBound_eq (fs : List Field) : fs.filterMap (toBound false) = (fs.filter fun f => decide (f.size ≠ 0)).map bound := by
  induction fs with
  | nil => rfl
  | cons f fs ih =>
    by_cases h : f.size = 0
    · simp [toBound, h, ih]
    · simp [toBound, h, ih, bound]

theorem bound_ok {align : Nat} {f : Field} (h : FieldOk align f) (hs : f.size ≠ 0) : BOk align (bound f) := by
  refine ⟨?_, ?_⟩
  · intro g hg
    simp only [bound] at hg
    split at hg
    · cases hg
    · rename_i hb
      cases hg
      have hb : f.bitfield = false := by simpa using hb
      exact ⟨rfl, h.byte hb, hs, rfl, fun a ha => h.known a ha hb⟩
  · intro e he
    simp only [bound] at he ⊢
    split at he
    · cases he; omega
    · cases he

theorem bound_next {f g : Field} (h : Next f g) : BNext (bound f) (bound g) := by
  refine ⟨?_, ?_, ?_⟩
  · have := h.order
    simp only [bound]
    split
    · rename_i hk; rw [if_pos hk] at this; exact this
    · rename_i hk; rw [if_neg hk] at this; exact this
  · intro hi
    refine h.start ?_
    simp only [bound] at hi
    cases hb : f.bitfield with
    | true => rw [hb] at hi; simp at hi
    | false => rfl
  · intro k a e hk hka he
    simp only [bound] at hk he
    split at hk
    · cases hk
    · rename_i hb
      cases hk
      split at he
      · rename_i hf
        cases he
        exact h.natural a hka (by simpa using hb) hf
      · cases he

theorem bound_pairs : ∀ {fs : List Field}, Pairs Next fs → BPairs BNext (fs.map bound) := by
  intro fs
  induction fs with
  | nil => intro _; trivial
  | cons f fs ih =>
    intro h
    cases fs with
    | nil => trivial
    | cons g fs => exact ⟨bound_next h.1, ih h.2⟩

theorem fold_le {align : Nat} (h1 : 1 ≤ align) : ∀ (bs : List Bound), (∀ b ∈ bs, ∀ a, b.known = some a → a ≤ align) →
    bs.foldr (fun b a => max (b.known.getD 1) a) 1 ≤ align := by
  intro bs
  induction bs with
  | nil => intro _; simpa using h1
  | cons b bs ih =>
    intro h
    have := ih fun c hc => h c (by simp [hc])
    simp only [List.foldr_cons]
    cases hk : b.known with
    | none => simp; omega
    | some a => have := h b (by simp) a hk; simp; omega

theorem le_fold {b : Bound} {a : Nat} (hk : b.known = some a) : ∀ (bs : List Bound), b ∈ bs →
    a ≤ bs.foldr (fun b a => max (b.known.getD 1) a) 1 := by
  intro bs
  induction bs with
  | nil => intro h; simp at h
  | cons c bs ih =>
    intro h
    simp only [List.foldr_cons]
    rcases List.mem_cons.mp h with rfl | h
    · rw [hk]; simp; omega
    · have := ih h; omega

theorem mapM_some {α β} (f : α → β) (p : α → Prop) [DecidablePred p] : ∀ (l : List α), (∀ x ∈ l, p x) →
    l.mapM (fun x => if p x then some (f x) else none) = some (l.map f) := by
  intro l
  induction l with
  | nil => intro _; rfl
  | cons x l ih =>
    intro h
    rw [List.mapM_cons, if_pos (h x (by simp)), ih fun y hy => h y (by simp [hy])]
    rfl

theorem ir_fields (fs : List Field) : (fs.map bound).filterMap (·.ir) = fs.filter fun f => !f.bitfield := by
  induction fs with
  | nil => rfl
  | cons f fs ih => cases hb : f.bitfield <;> simp [bound, hb] at ih ⊢ <;> exact ih

/-- C56: for every struct with a C++ layout as in `StructOk`, generation does not panic, and the Rust type has the layout of the
C++ record; so all generated assertions hold. -/
theorem struct_layout (r : Record) (fs : List Field) (h : StructOk r fs) (ht : r.threadSafe = false) :
    ∃ t, generate r = some t ∧ Matches r t ∧ fieldOffsets r = some (t.fieldsAt.map fun x => (x.1, x.2.1)) := by
  obtain ⟨hne, hst, heach, hnext, hfirst, hlast, ⟨hal, hdv⟩, halign⟩ := h
  have hsz : ∀ f ∈ fs, f.size ≠ 0 := by
    intro f hf; rw [hne, List.mem_filter] at hf; simpa using hf.2
  have hbounds : bounds r = coalesce (fs.map bound) := by
    unfold bounds; rw [hst, toBound_eq, hne]
  have hown : ownFields r = fs.filter fun f => !f.bitfield := by
    unfold ownFields; rw [hne, List.filter_filter]
    congr 1; funext f; exact Bool.and_comm _ _
  -- facts about the bounds
  obtain ⟨bs, hbs, hok, hpairs, hir, hany, hlast', hhead⟩ : ∃ bs, bounds r = bs ∧ (∀ b ∈ bs, BOk r.align b) ∧
      BPairs (fun x y => BNext x y ∧ y.offset % 8 = 0) bs ∧ bs.filterMap (·.ir) = ownFields r ∧ bs.any erased = (fs.map bound).any erased ∧
      (∀ b, bs.getLast? = some b → ∃ f, fs.getLast? = some f ∧ b.stop = (bound f).stop ∧ b.offset ≤ f.offset) ∧
      (match fs with | [] => bs = [] | f :: _ => ∃ b rest, bs = b :: rest ∧ b.offset = f.offset ∧ b.ir = (bound f).ir) := by
    refine ⟨bounds r, rfl, ?_⟩
    rw [hbounds]
    cases fs with
    | nil => exact ⟨by simp [coalesce], trivial, by rw [hown]; rfl, rfl, by simp [coalesce], rfl⟩
    | cons f fs =>
      obtain ⟨i1, i2, ⟨hh, rr, i3, i4, i5⟩, i6, ⟨x, y, i7, i8, i9, i10⟩, i11⟩ := coalesce_spec r.align (fs.map bound) (bound f)
        (fun b hb => by
          rw [← List.map_cons] at hb
          obtain ⟨g, hg, rfl⟩ := List.mem_map.mp hb
          exact bound_ok (heach g hg) (hsz g hg))
        (by rw [← List.map_cons]; exact bound_pairs hnext)
      simp only [List.map_cons, coalesce]
      refine ⟨i1, ?_, ?_, i11, ?_, ⟨hh, rr, i3, i4, i5⟩⟩
      · have : ∀ l : List Bound, (∀ b ∈ l, BOk r.align b) → BPairs (fun x y => BNext x y ∧ (x.ir = none → y.ir ≠ none)) l →
            BPairs (fun x y => BNext x y ∧ y.offset % 8 = 0) l := by
          intro l
          induction l with
          | nil => intros; trivial
          | cons a l ih =>
            intro hok hp
            cases l with
            | nil => trivial
            | cons b l =>
              refine ⟨⟨hp.1.1, ?_⟩, ih (fun c hc => hok c (by simp at hc ⊢; exact Or.inr hc)) hp.2⟩
              cases ha : a.ir with
              | some _ => exact hp.1.1.start (by simp [ha])
              | none =>
                cases hb : b.ir with
                | none => exact absurd hb (hp.1.2 ha)
                | some g => exact ((hok b (by simp)).field g hb).2.1
        exact this _ i1 i2
      · rw [i6, ← List.map_cons, ir_fields, hown]
      · intro b hb
        rw [hb] at i7; cases i7
        rw [← List.map_cons, List.getLast?_map] at i8
        obtain ⟨g, hg, rfl⟩ := Option.map_eq_some_iff.mp i8
        exact ⟨g, hg, i9, i10⟩
  rw [hbs] at hbounds
  -- position of the first field
  have hhp : ∀ (ms : List Mem) (pos : Nat), headBytes r = pos →
      place 0 (headPadding r ++ ms) = ((place 0 (headPadding r)).1 ++ (place pos ms).1, (place pos ms).2) ∧ tagged (place 0 (headPadding r)).1 = [] ∧
      maxAlign (headPadding r ++ ms) = maxAlign ms := by
    intro ms pos hpos
    rw [place_append, maxAlign_append]
    have hma : 1 ≤ maxAlign ms := by
      unfold maxAlign
      cases ms with
      | nil => simp
      | cons m ms =>
        simp only [List.foldr_cons]
        have : ∀ l : List Mem, 1 ≤ l.foldr (fun m a => max m.align a) 1 := by
          intro l; induction l with
          | nil => simp
          | cons m l ih => simp only [List.foldr_cons]; omega
        have := this ms
        omega
    unfold headPadding
    simp only [hpos]
    split
    · simp only [place, up_one, Nat.zero_add, maxAlign, List.foldr_cons, List.foldr_nil]
      refine ⟨trivial, rfl, ?_⟩
      unfold maxAlign at hma; omega
    · rename_i hp
      have : pos = 0 := by omega
      subst this
      simp only [place, maxAlign, List.foldr_nil]
      refine ⟨trivial, rfl, ?_⟩
      unfold maxAlign at hma; omega
  generalize hpos : headBytes r = pos at hhp
  have hat : ∀ b, bs.head? = some b → At pos none b := by
    intro b hb
    cases fs with
    | nil => simp only at hhead; rw [hhead] at hb; simp at hb
    | cons f fs =>
      simp only at hhead
      obtain ⟨b', rest, hb', ho, hi⟩ := hhead
      rw [hb'] at hb
      simp only [List.head?_cons, Option.some.injEq] at hb
      subst hb
      have hf := hfirst
      cases hrf : r.fields with
      | nil => rw [hrf] at hne; simp at hne
      | cons g gs =>
        rw [hrf] at hf
        simp only [FirstOk] at hf
        simp only [headBytes, hrf] at hpos
        have hbo := hok b' (by rw [hb']; simp)
        by_cases hk : f.bitfield = false ∧ f.known.isSome = true
        · rw [if_pos hk] at hf
          obtain ⟨a, hka, hfo⟩ := hf
          have hbi : b'.ir = some f := by rw [hi]; simp [bound, hk.1]
          refine ⟨(hbo.field f hbi).2.1, ?_, ?_, rfl⟩
          · intro f' a' hf' hk'
            rw [hbi] at hf'; cases hf'
            rw [hka] at hk'; cases hk'
            rw [ho, hfo, hpos]
          · intro he
            simp [erased, hbi, hka] at he
        · rw [if_neg hk] at hf
          refine ⟨by rw [ho]; exact hf.1, ?_, ?_, rfl⟩
          · intro f' a' hf' hk'
            rw [hi] at hf'
            simp only [bound] at hf'
            split at hf'
            · cases hf'
            · rename_i hbf
              cases hf'
              exact absurd ⟨by simpa using hbf, by simp [hk']⟩ hk
          · intro _
            simp only [Option.bind_none, Option.getD_none, ho, ← hpos, hf.2]
            unfold bytes; omega
  obtain ⟨ms, m1, m2, m3, m4, m5, m6⟩ := defs_spec r.size r.align bs none pos hok hpairs hat (by
    intro b hb hs
    obtain ⟨f, hf, hfs, hfo⟩ := hlast' b hb
    have := hlast f hf
    rw [hs] at hfs
    simp only [bound] at hfs
    split at hfs
    · cases hfs
    · rename_i hk; rw [if_neg hk] at this; omega)
  obtain ⟨p1, p2, p3⟩ := hhp ms pos rfl
  have hend : (place pos ms).2 = r.size ∨ up (place pos ms).2 r.align = r.size := by
    cases hg : bs.getLast? with
    | none =>
      have hbn : bs = [] := by simpa using hg
      have : ms = [] := m5 hbn
      subst this
      refine Or.inl ?_
      simp only [place]
      cases fs with
      | nil =>
        cases hrf : r.fields with
        | nil => simp only [headBytes, hrf] at hpos; exact hpos.symm
        | cons g gs => rw [hrf] at hfirst; exact hfirst.elim
      | cons f fs =>
        obtain ⟨b', rest, hb', -⟩ := hhead
        rw [hb'] at hbn; cases hbn
    | some b =>
      rw [m4 b hg]
      obtain ⟨f, hf, hfs, -⟩ := hlast' b hg
      have := hlast f hf
      rw [hfs]
      simp only [bound]
      split
      · rename_i hk
        rw [if_pos hk] at this
        exact Or.inr this.symm
      · refine Or.inl ?_
        simp only [Option.getD_none]; unfold bytes; omega
  have hend' : up (place pos ms).2 r.align = r.size := by
    rcases hend with e | e
    · rw [e]; exact up_dvd hdv
    · exact e
  have hfold_le := fold_le hal bs (fun b hb a ha => by
    unfold Bound.known at ha
    cases hi : b.ir with
    | none => rw [hi] at ha; cases ha
    | some f =>
      rw [hi] at ha
      exact (((hok b hb).field f hi).2.2.2.2 a ha).2.2.1)
  have hfold_ge := foldAlign_ge bs
  refine ⟨⟨headPadding r ++ ms, if (r.overrideAlign || bs.any erased) && decide (r.align > 1) then some r.align else none, false⟩, ?_, ?_, ?_⟩
  · unfold generate
    rw [hbs, hst, m1]
    simp only [Option.bind_eq_bind, Option.bind_some, Option.pure_def, ht, Bool.or_false]
    rfl
  · have halignOf : max (maxAlign (headPadding r ++ ms)) ((if (r.overrideAlign || bs.any erased) && decide (r.align > 1) then some r.align else none).getD 1) = r.align := by
      rw [p3, m6]
      by_cases hov : (r.overrideAlign || bs.any erased) = true
      · rw [hov, Bool.true_and]
        by_cases h1 : r.align > 1
        · rw [if_pos (by simpa using h1)]; simp; omega
        · rw [if_neg (by simpa using h1)]; simp; omega
      · simp only [Bool.not_eq_true, Bool.or_eq_false_iff] at hov
        rw [hov.1, hov.2]
        simp only [Bool.or_self, Bool.false_and, Bool.false_eq_true, if_false, Option.getD_none]
        have hall : ∀ f ∈ fs, f.bitfield = false ∧ f.known.isSome = true := by
          rw [hov.2] at hany
          intro f hf
          have := (List.any_eq_false.mp hany.symm) (bound f) (List.mem_map.mpr ⟨f, hf, rfl⟩)
          unfold erased bound at this
          cases hb : f.bitfield with
          | true => rw [hb] at this; simp at this
          | false => rw [hb] at this; simp at this; exact ⟨rfl, by simp [Option.isSome_iff_ne_none, this]⟩
        rcases halign hov.1 hall with ⟨-, ha⟩ | ⟨f, hf, ha⟩
        · omega
        · have hm : f ∈ bs.filterMap (·.ir) := by
            rw [hir, hown, List.mem_filter]
            exact ⟨hf, by simp [(hall f hf).1]⟩
          obtain ⟨b, hb, hbi⟩ := List.mem_filterMap.mp hm
          have := le_fold (b := b) (a := r.align) (by unfold Bound.known; rw [hbi]; exact ha) bs hb
          omega
    refine ⟨?_, halignOf, ?_, ?_⟩
    · unfold RustType.sizeOf RustType.alignOf
      simp only [Bool.false_eq_true, if_false]
      rw [halignOf, p1]
      exact hend'
    · unfold RustType.fieldsAt RustType.offsets
      simp only [Bool.false_eq_true, if_false, p1]
      rw [← hir, ← m2]
      have := tagged_append (place 0 (headPadding r)).1 (place pos ms).1
      rw [p2, List.nil_append] at this
      exact congrArg _ this
    · unfold RustType.fieldsAt RustType.offsets
      simp only [Bool.false_eq_true, if_false, p1]
      have := tagged_append (place 0 (headPadding r)).1 (place pos ms).1
      rw [p2, List.nil_append] at this
      intro x hx
      have hx : x ∈ tagged ((place 0 (headPadding r)).1 ++ (place pos ms).1) := hx
      rw [this] at hx
      exact m3 x hx
  · unfold fieldOffsets
    rw [hbs, mapM_some (fun f => (f, f.offset / 8)) (fun f : Field => f.offset % 8 = 0)]
    · simp only [Option.bind_eq_bind, Option.bind_some, Option.pure_def, ht, Bool.false_eq_true, if_false]
      congr 1
      unfold RustType.fieldsAt RustType.offsets
      simp only [Bool.false_eq_true, if_false, p1]
      rw [← m2]
      have := tagged_append (place 0 (headPadding r)).1 (place pos ms).1
      rw [p2, List.nil_append] at this
      exact (congrArg _ this).symm
    · intro f hf
      obtain ⟨b, hb, hbi⟩ := List.mem_filterMap.mp hf
      obtain ⟨e1, e2, -⟩ := (hok b hb).field f hbi
      rw [e1]; exact e2

end Verif.Layout

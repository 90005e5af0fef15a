import Verif.Report.Hide

/-
Error reports and fatal errors (C177).
-/

namespace Verif.Report

variable {h : Str → Str}

/-- The entry of an item, or an empty one -/
def Report.entry (R : Report) (n : Nat) : Entry := (R.map n).getD {}

/-- How an error is reported -/
def shown (h : Str → Str) (x : Str × Str) : Formatted := .new x.1 (h x.2)

/-- What does not change when an entry is changed -/
structure Same (R R' : Report) : Prop where
  current : R'.current = R.current
  name : ∀ n, (R'.entry n).name = (R.entry n).name
  unique : ∀ n, (R'.entry n).unique = (R.entry n).unique
  target : ∀ n, (R'.entry n).target = (R.entry n).target
  keep : ∀ n, (R.map n).isSome → (R'.map n).isSome
  others : ∀ n, n ≠ R.cur → R'.map n = R.map n

theorem Same.refl (R : Report) : Same R R := ⟨rfl, fun _ => rfl, fun _ => rfl, fun _ => rfl, fun _ h => h, fun _ _ => rfl⟩

theorem Same.cur {R R' : Report} (s : Same R R') : R'.cur = R.cur := by
  unfold Report.cur; rw [s.current]

theorem Same.trans {R R' R'' : Report} (s : Same R R') (t : Same R' R'') : Same R R'' :=
  ⟨t.current.trans s.current, fun n => (t.name n).trans (s.name n), fun n => (t.unique n).trans (s.unique n),
    fun n => (t.target n).trans (s.target n), fun n hn => t.keep n (s.keep n hn),
    fun n hn => (t.others n (by rw [s.cur]; exact hn)).trans (s.others n hn)⟩

theorem entry_update (R : Report) (f : Entry → Entry) (n : Nat) :
    (R.update f).entry n = if n = R.cur then f (R.entry n) else R.entry n := by
  unfold Report.entry Report.update
  dsimp only
  split <;> rfl

theorem same_update (R : Report) {f : Entry → Entry}
    (hf : ∀ e, (f e).name = e.name ∧ (f e).unique = e.unique ∧ (f e).target = e.target) : Same R (R.update f) := by
  refine ⟨rfl, fun n => ?_, fun n => ?_, fun n => ?_, fun n hn => ?_, fun n hn => ?_⟩
  · rw [entry_update]; split; exact (hf _).1; rfl
  · rw [entry_update]; split; exact (hf _).2.1; rfl
  · rw [entry_update]; split; exact (hf _).2.2; rfl
  · unfold Report.update; dsimp only; split; rfl; exact hn
  · unfold Report.update; dsimp only; rw [if_neg hn]

mutual
theorem report_spec (R : Report) : ∀ (e : Err), Same R (R.report h e) ∧
    (∀ n, ((R.report h e).entry n).errors = (R.entry n).errors ++ if R.cur = n then e.all.map (shown h) else []) ∧
    ∀ n, ((R.report h e).entry n).category = (R.entry n).category
  | .formatted f m => by
      rw [Report.report]
      refine ⟨same_update R fun _ => ⟨rfl, rfl, rfl⟩, fun n => ?_, fun n => ?_⟩
      · rw [entry_update]
        by_cases hn : n = R.cur
        · rw [if_pos hn, if_pos hn.symm]; rfl
        · rw [if_neg hn, if_neg fun e => hn e.symm, List.append_nil]
      · rw [entry_update]; split <;> rfl
  | .other m => by
      rw [Report.report]
      refine ⟨same_update R fun _ => ⟨rfl, rfl, rfl⟩, fun n => ?_, fun n => ?_⟩
      · rw [entry_update]
        by_cases hn : n = R.cur
        · rw [if_pos hn, if_pos hn.symm]; rfl
        · rw [if_neg hn, if_neg fun e => hn e.symm, List.append_nil]
      · rw [entry_update]; split <;> rfl
  | .context _ e => by
      rw [Report.report, Err.all]
      exact report_spec R e
  | .list es => by
      rw [Report.report, Err.all]
      exact reportL_spec R es
theorem reportL_spec (R : Report) : ∀ (es : List Err), Same R (R.reportL h es) ∧
    (∀ n, ((R.reportL h es).entry n).errors = (R.entry n).errors ++ if R.cur = n then (Err.allL es).map (shown h) else []) ∧
    ∀ n, ((R.reportL h es).entry n).category = (R.entry n).category
  | [] => by
      rw [Report.reportL, Err.allL]
      exact ⟨.refl R, fun n => by simp, fun _ => rfl⟩
  | e :: es => by
      rw [Report.reportL, Err.allL]
      obtain ⟨s1, e1, c1⟩ := report_spec R e
      obtain ⟨s2, e2, c2⟩ := reportL_spec (R.report h e) es
      refine ⟨s1.trans s2, fun n => ?_, fun n => (c2 n).trans (c1 n)⟩
      rw [e2, e1, s1.cur]
      by_cases hn : R.cur = n
      · simp [hn]
      · simp [hn]
end

theorem enter_spec {R R' : Report} {i : Item} {old : Option Item} (he : R.enter i = some (old, R')) :
    old = R.current ∧ R'.current = some i ∧ (∀ n, (R'.entry n).errors = (R.entry n).errors) ∧
      (∀ n, (R'.entry n).category = (R.entry n).category) ∧ (∃ e, R'.map i.id = some e ∧ e.name = i.name) ∧
      (∀ n e, R.map n = some e → R'.map n = some e) ∧ (∀ n, n ≠ i.id → R'.map n = R.map n) ∧
      (R.map i.id = none → ∃ e, R'.map i.id = some e ∧ e.unique = i.unique ∧ e.target = i.target) := by
  unfold Report.enter at he
  cases hm : R.map i.id with
  | none =>
    rw [hm] at he
    simp only [Option.some.injEq, Prod.mk.injEq] at he
    obtain ⟨rfl, rfl⟩ := he
    refine ⟨rfl, rfl, fun n => ?_, fun n => ?_, ⟨_, if_pos rfl, rfl⟩, fun n e hn => ?_, fun n hn => if_neg hn,
      fun _ => ⟨_, if_pos rfl, rfl, rfl⟩⟩
    · unfold Report.entry; dsimp only; split
      · rename_i e; rw [e, hm]; rfl
      · rfl
    · unfold Report.entry; dsimp only; split
      · rename_i e; rw [e, hm]; rfl
      · rfl
    · dsimp only; split
      · rename_i e'; rw [e', hm] at hn; cases hn
      · exact hn
  | some e =>
    rw [hm] at he
    dsimp only at he
    split at he
    · rename_i hname
      simp only [Option.some.injEq, Prod.mk.injEq] at he
      obtain ⟨rfl, rfl⟩ := he
      exact ⟨rfl, rfl, fun _ => rfl, fun _ => rfl, ⟨e, hm, hname⟩, fun _ _ h => h, fun _ _ => rfl,
        fun hn => by cases hn⟩
    · cases he

/-- What is known after something was done -/
structure Done (h : Str → Str) (R R' : Report) (errs : Nat → List (Str × Str)) (cats : Nat → List Nat) (is : List Item) : Prop where
  current : R'.current = R.current
  errors : ∀ n, (R'.entry n).errors = (R.entry n).errors ++ (errs n).map (shown h)
  categories : ∀ n, (R'.entry n).category = (cats n).foldl (· ||| ·) (R.entry n).category
  names : ∀ n e, R.map n = some e → ∃ e', R'.map n = some e' ∧ e'.name = e.name ∧ e'.unique = e.unique ∧ e'.target = e.target
  items : ∀ i ∈ is, ∃ e, R'.map i.id = some e ∧ e.name = i.name
  first : ∀ n, R.map n = none → n ≠ R.cur → ∀ i, is.find? (fun i => i.id = n) = some i →
    ∃ e, R'.map n = some e ∧ e.unique = i.unique ∧ e.target = i.target
  only : ∀ n, R.map n = none → n ≠ R.cur → (∀ i ∈ is, i.id ≠ n) → R'.map n = none

theorem Done.trans {R R1 R2 : Report} {e1 e2 : Nat → List (Str × Str)} {c1 c2 : Nat → List Nat} {i1 i2 : List Item}
    (a : Done h R R1 e1 c1 i1) (b : Done h R1 R2 e2 c2 i2) :
    Done h R R2 (fun n => e1 n ++ e2 n) (fun n => c1 n ++ c2 n) (i1 ++ i2) := by
  have hcur : R1.cur = R.cur := by unfold Report.cur; rw [a.current]
  refine ⟨b.current.trans a.current, fun n => ?_, fun n => ?_, fun n e hn => ?_, fun i hi => ?_,
    fun n h0 h1 i hi => ?_, fun n h0 h1 h2 => ?_⟩
  · rw [b.errors, a.errors, List.map_append, List.append_assoc]
  · rw [b.categories, a.categories, List.foldl_append]
  · obtain ⟨e', he', x1, x2, x3⟩ := a.names n e hn
    obtain ⟨e'', he'', y1, y2, y3⟩ := b.names n e' he'
    exact ⟨e'', he'', y1.trans x1, y2.trans x2, y3.trans x3⟩
  · rcases List.mem_append.mp hi with hi | hi
    · obtain ⟨e, he, hn⟩ := a.items i hi
      obtain ⟨e', he', x1, -, -⟩ := b.names _ e he
      exact ⟨e', he', x1.trans hn⟩
    · exact b.items i hi
  · rw [List.find?_append] at hi
    cases hf : i1.find? (fun i => i.id = n) with
    | some j =>
      rw [hf] at hi
      cases hi
      obtain ⟨e, he, x1, x2⟩ := a.first n h0 h1 _ hf
      obtain ⟨e', he', -, y2, y3⟩ := b.names n e he
      exact ⟨e', he', y2.trans x1, y3.trans x2⟩
    | none =>
      rw [hf] at hi
      have hno : ∀ j ∈ i1, j.id ≠ n := by
        intro j hj
        have := List.find?_eq_none.mp hf j hj
        simpa using this
      exact b.first n (a.only n h0 h1 hno) (by rw [hcur]; exact h1) i hi
  · exact b.only n (a.only n h0 h1 fun i hi => h2 i (List.mem_append_left _ hi)) (by rw [hcur]; exact h1)
      fun i hi => h2 i (List.mem_append_right _ hi)

theorem Same.done {R R' : Report} (s : Same R R') {errs : Nat → List (Str × Str)} {cats : Nat → List Nat}
    (he : ∀ n, (R'.entry n).errors = (R.entry n).errors ++ (errs n).map (shown h))
    (hc : ∀ n, (R'.entry n).category = (cats n).foldl (· ||| ·) (R.entry n).category) : Done h R R' errs cats [] := by
  refine ⟨s.current, he, hc, fun n e hn => ?_, nofun, fun _ _ _ _ hf => (by cases hf), fun n h0 h1 _ => (s.others n h1).trans h0⟩
  have k := s.keep n (by rw [hn]; rfl)
  obtain ⟨e', he'⟩ := Option.isSome_iff_exists.mp k
  have x1 := s.name n
  have x2 := s.unique n
  have x3 := s.target n
  unfold Report.entry at x1 x2 x3
  rw [hn, he'] at x1 x2 x3
  exact ⟨e', he', x1, x2, x3⟩

mutual
theorem act_spec {R R' : Report} : ∀ {a : Act}, R.act h a = some R' →
    Done h R R' (fun n => a.errors n R.cur) (fun n => a.categories n R.cur) a.items
  | .report e, ha => by
      rw [Report.act, Option.some.injEq] at ha
      subst ha
      obtain ⟨s, he, hc⟩ := report_spec (h := h) R e
      refine s.done (fun n => ?_) fun n => hc n
      rw [he, Act.errors]
      split <;> rfl
  | .category c, ha => by
      rw [Report.act, Option.some.injEq] at ha
      subst ha
      refine Same.done (R' := R.category c) (same_update R fun _ => ⟨rfl, rfl, rfl⟩) (fun n => ?_) fun n => ?_
      · rw [Report.category, entry_update, Act.errors]; split <;> simp
      · rw [Report.category, entry_update, Act.categories]
        by_cases hn : n = R.cur
        · rw [if_pos hn, if_pos hn.symm]; rfl
        · rw [if_neg hn, if_neg fun e => hn e.symm]; rfl
  | .item i body, ha => by
      rw [Report.act] at ha
      cases he : R.enter i with
      | none => rw [he] at ha; cases ha
      | some p =>
        obtain ⟨old, R1⟩ := p
        rw [he] at ha
        dsimp only at ha
        cases hb : R1.actL h body with
        | none => rw [hb] at ha; cases ha
        | some R2 =>
          rw [hb] at ha
          dsimp only at ha
          unfold Report.exit at ha
          obtain ⟨rfl, hc, x1, x2, ⟨e, x3, x3'⟩, x4, x5, x6⟩ := enter_spec he
          have d := actL_spec hb
          have hcur : R1.cur = i.id := by unfold Report.cur; rw [hc]
          split at ha
          · cases ha
            refine ⟨rfl, fun n => ?_, fun n => ?_, fun n e hn => d.names n e (x4 n e hn), fun j hj => ?_,
              fun n h0 h1 j hj => ?_, fun n h0 h1 h2 => ?_⟩
            · refine (d.errors n).trans ?_
              rw [x1, hcur, Act.errors]
            · refine (d.categories n).trans ?_
              rw [x2, hcur, Act.categories]
            · rw [Act.items] at hj
              rcases List.mem_cons.mp hj with rfl | hj
              · obtain ⟨e', y1, y2, -, -⟩ := d.names _ e x3
                exact ⟨e', y1, y2.trans x3'⟩
              · exact d.items j hj
            · rw [Act.items] at hj
              by_cases hni : i.id = n
              · rw [List.find?_cons_of_pos (by simpa using hni)] at hj
                cases hj
                subst hni
                obtain ⟨e', y1, y2, y3⟩ := x6 h0
                obtain ⟨e'', z1, -, z2, z3⟩ := d.names _ e' y1
                exact ⟨e'', z1, z2.trans y2, z3.trans y3⟩
              · rw [List.find?_cons_of_neg (by simpa using hni)] at hj
                exact d.first n ((x5 n (Ne.symm hni)).trans h0) (by rw [hcur]; exact Ne.symm hni) j hj
            · rw [Act.items] at h2
              have hni : n ≠ i.id := fun e => h2 i (List.mem_cons_self ..) e.symm
              exact d.only n ((x5 n hni).trans h0) (by rw [hcur]; exact hni) fun j hj => h2 j (List.mem_cons_of_mem _ hj)
          · cases ha
theorem actL_spec {R R' : Report} : ∀ {as : List Act}, R.actL h as = some R' →
    Done h R R' (fun n => errorsL n R.cur as) (fun n => categoriesL n R.cur as) (itemsL as)
  | [], ha => by
      rw [Report.actL, Option.some.injEq] at ha
      subst ha
      refine (Same.refl R).done (fun n => ?_) fun n => ?_
      · rw [errorsL]; simp
      · rw [categoriesL]; rfl
  | a :: as, ha => by
      rw [Report.actL] at ha
      cases hb : R.act h a with
      | none => rw [hb] at ha; cases ha
      | some R1 =>
        rw [hb] at ha
        have d1 := act_spec hb
        have d2 := actL_spec ha
        have hcur : R1.cur = R.cur := by unfold Report.cur; rw [d1.current]
        rw [hcur] at d2
        simp only [errorsL, categoriesL, itemsL]
        exact d1.trans d2
end

/-- C177: All errors, and only they, are reported, in order, each for the innermost item in which it was found. -/
theorem errors_reported {as : List Act} {R : Report} (ha : Report.empty.actL h as = some R) (n : Nat) :
    (R.entry n).errors = (errorsL n 0 as).map (shown h) :=
  (actL_spec ha).errors n

/-- C177: Each item has the categories that were added in it. -/
theorem categories_reported {as : List Act} {R : Report} (ha : Report.empty.actL h as = some R) (n : Nat) :
    (R.entry n).category = (categoriesL n 0 as).foldl (· ||| ·) 0 :=
  (actL_spec ha).categories n

/-- C177: Each item is in the report with its name, whether there are errors or not. -/
theorem items_reported {as : List Act} {R : Report} (ha : Report.empty.actL h as = some R) {i : Item} (hi : i ∈ itemsL as) :
    ∃ e, R.map i.id = some e ∧ e.name = i.name :=
  (actL_spec ha).items i hi

/-- C177: Its unique name and its target are those with which it was entered first. -/
theorem items_named {as : List Act} {R : Report} (ha : Report.empty.actL h as = some R) {before after : List Item} {i : Item}
    (hi : itemsL as = before ++ i :: after) (hb : ∀ j ∈ before, j.id ≠ i.id) (h0 : i.id ≠ 0) :
    ∃ e, R.map i.id = some e ∧ e.name = i.name ∧ e.unique = i.unique ∧ e.target = i.target := by
  have d := actL_spec ha
  have hf : (itemsL as).find? (fun j => j.id = i.id) = some i := by
    rw [hi, List.find?_append, List.find?_eq_none.mpr (fun j hj => by simpa using hb j hj)]
    simp
  obtain ⟨e, he, h1, h2⟩ := d.first i.id rfl h0 i hf
  obtain ⟨e', he', h3⟩ := d.items i (by rw [hi]; simp)
  rw [he] at he'
  cases he'
  exact ⟨e, he, h3, h1, h2⟩

/-- C177: and no others, except for what is reported outside of all items. -/
theorem only_items {as : List Act} {R : Report} (ha : Report.empty.actL h as = some R) {n : Nat} (hn : n ≠ 0)
    (hi : ∀ i ∈ itemsL as, i.id ≠ n) : R.map n = none :=
  (actL_spec ha).only n rfl hn hi

/-! ### Panics -/

/-- The names in the report do not clash with items. -/
def Fits (R : Report) (is : List Item) : Prop := ∀ i ∈ is, ∀ e, R.map i.id = some e → e.name = i.name

theorem Fits.after {R R' : Report} {errs : Nat → List (Str × Str)} {cats : Nat → List Nat} {is js : List Item}
    (d : Done h R R' errs cats is) (hf : Fits R js) (hc : ∀ i ∈ is, ∀ j ∈ js, i.id = j.id → i.name = j.name)
    (h0 : ∀ j ∈ js, j.id = R.cur → (R.map R.cur).isSome) : Fits R' js := by
  intro j hj e he
  cases hm : R.map j.id with
  | some e0 =>
    obtain ⟨e', x1, x2, -, -⟩ := d.names _ _ hm
    rw [he] at x1
    cases x1
    exact x2.trans (hf j hj _ hm)
  | none =>
    by_cases hex : ∃ i ∈ is, i.id = j.id
    · obtain ⟨i, hi, hij⟩ := hex
      obtain ⟨e', x1, x2⟩ := d.items i hi
      rw [hij, he] at x1
      cases x1
      exact x2.trans (hc i hi j hj hij)
    · have := d.only j.id hm (fun e => by have := h0 j hj e; rw [← e, hm] at this; cases this)
        (fun i hi e => hex ⟨i, hi, e⟩)
      rw [this] at he
      cases he

mutual
theorem act_ok {R : Report} : ∀ {a : Act}, Fits R a.items → Consistent a.items → (∀ i ∈ a.items, i.id ≠ 0) →
    (∀ i, R.current = some i → (R.map i.id).isSome) → ∃ R', R.act h a = some R'
  | .report _, _, _, _, _ => ⟨_, by rw [Report.act]⟩
  | .category _, _, _, _, _ => ⟨_, by rw [Report.act]⟩
  | .item i body, hf, hc, h0, _ => by
      rw [Act.items] at hf hc h0
      have hen : ∃ p, R.enter i = some p := by
        unfold Report.enter
        cases hm : R.map i.id with
        | none => exact ⟨_, rfl⟩
        | some e => exact ⟨_, if_pos (hf i (List.mem_cons_self ..) e hm)⟩
      obtain ⟨⟨old, R1⟩, he⟩ := hen
      obtain ⟨rfl, hcu, -, -, ⟨e, x3, x3'⟩, x4, x5, x6⟩ := enter_spec he
      have hf1 : Fits R1 (itemsL body) := by
        intro j hj e' he'
        by_cases hij : j.id = i.id
        · rw [hij, x3] at he'
          cases he'
          exact x3'.trans (hc i (List.mem_cons_self ..) j (List.mem_cons_of_mem _ hj) hij.symm)
        · rw [x5 _ hij] at he'
          exact hf j (List.mem_cons_of_mem _ hj) e' he'
      obtain ⟨R2, hb⟩ := actL_ok (as := body) hf1
        (fun a ha b hb => hc a (List.mem_cons_of_mem _ ha) b (List.mem_cons_of_mem _ hb))
        (fun j hj => h0 j (List.mem_cons_of_mem _ hj)) (fun j hj => by rw [hcu] at hj; cases hj; rw [x3]; rfl)
      have d := actL_spec hb
      refine ⟨{ R2 with current := R.current }, ?_⟩
      rw [Report.act, he]
      dsimp only
      rw [hb]
      dsimp only
      rw [Report.exit, if_pos (d.current.trans hcu)]
theorem actL_ok {R : Report} : ∀ {as : List Act}, Fits R (itemsL as) → Consistent (itemsL as) → (∀ i ∈ itemsL as, i.id ≠ 0) →
    (∀ i, R.current = some i → (R.map i.id).isSome) → ∃ R', R.actL h as = some R'
  | [], _, _, _, _ => ⟨R, by rw [Report.actL]⟩
  | a :: as, hf, hc, h0, hk => by
      rw [itemsL] at hf hc h0
      obtain ⟨R1, ha⟩ := act_ok (a := a) (fun i hi => hf i (List.mem_append_left _ hi))
        (fun i hi j hj => hc i (List.mem_append_left _ hi) j (List.mem_append_left _ hj))
        (fun i hi => h0 i (List.mem_append_left _ hi)) hk
      have d := act_spec ha
      obtain ⟨R2, hb⟩ := actL_ok (as := as) (R := R1)
        (Fits.after d (fun i hi => hf i (List.mem_append_right _ hi))
          (fun i hi j hj => hc i (List.mem_append_left _ hi) j (List.mem_append_right _ hj))
          (fun j hj e => by
            unfold Report.cur at e ⊢
            cases hcu : R.current with
            | none => rw [hcu] at e; exact absurd e (h0 j (List.mem_append_right _ hj))
            | some i => exact hk i hcu))
        (fun i hi j hj => hc i (List.mem_append_right _ hi) j (List.mem_append_right _ hj))
        (fun i hi => h0 i (List.mem_append_right _ hi))
        (fun i hi => by
          rw [d.current] at hi
          obtain ⟨e, he⟩ := Option.isSome_iff_exists.mp (hk i hi)
          obtain ⟨e', he', -⟩ := d.names _ _ he
          rw [he']; rfl)
      exact ⟨R2, by rw [Report.actL, ha]; exact hb⟩
end

/-- C177: A report panics exactly if two items have the same number but different names. -/
theorem panics_iff {as : List Act} (h0 : ∀ i ∈ itemsL as, i.id ≠ 0) :
    Report.empty.actL h as = none ↔ ¬ Consistent (itemsL as) := by
  constructor
  · intro hn hc
    obtain ⟨R, hR⟩ := actL_ok (h := h) (R := .empty) (as := as) (fun _ _ _ h => by cases h) hc h0 (fun _ h => by cases h)
    rw [hR] at hn
    cases hn
  · intro hc
    cases hR : Report.empty.actL h as with
    | none => rfl
    | some R =>
      refine absurd (fun i hi j hj hij => ?_) hc
      obtain ⟨e, x1, x2⟩ := items_reported hR hi
      obtain ⟨e', y1, y2⟩ := items_reported hR hj
      rw [hij, y1] at x1
      cases x1
      exact x2.symm.trans y2

/-! ### Messages -/

/-- C177: An error is displayed as its message, unless that is empty. -/
theorem displayed (f : Str) {m : Str} (hm : m ≠ []) : (Formatted.newStatic f m).display = m := by
  unfold Formatted.newStatic Formatted.new Formatted.display
  dsimp only
  by_cases e : m = f
  · rw [if_pos e, e]; rfl
  · rw [if_neg e, if_neg]
    simpa using hm

theorem displayed_dynamic (m : Str) : (Formatted.newDynamic m).display = m := by
  unfold Formatted.newDynamic Formatted.new Formatted.display
  dsimp only
  split <;> rfl

/-- C178: What is shown in a report for an error with a format string is its message, without what is hidden. -/
theorem shown_static (f : Str) {m : Str} (hm : m ≠ f) (hh : h m ≠ []) :
    (shown h ((Formatted.newStatic f m).fmt, (Formatted.newStatic f m).full)).display = h m := by
  unfold Formatted.newStatic Formatted.new
  dsimp only
  rw [if_neg hm]
  exact displayed f hh

/-- Disagreement: nothing is hidden in messages without a format string. -/
theorem dynamic_not_hidden : (shown (hide Char.isDigit) ((Formatted.newDynamic "[1234]".toList).fmt,
    (Formatted.newDynamic "[1234]".toList).full)).display = "[1234]".toList := by decide +kernel

/-- Disagreement: an empty message is displayed as the format string. -/
theorem empty_message : (Formatted.newStatic "{}".toList []).display = "{}".toList := by decide +kernel

/-! ### Fatal errors -/

/-- C177: Fatal errors are all in the string that is taken, and forgetting to take them panics. -/
theorem fatal_taken (ms : List Str) :
    (fatalTake (ms.foldl fatalReport [])).1 = ms.flatMap (fun m => '\n' :: m ++ ['\n']) ∧
      fatalDropPanics (fatalTake (ms.foldl fatalReport [])).2 = false ∧
      (fatalDropPanics (ms.foldl fatalReport []) = true ↔ ms ≠ []) := by
  have key : ∀ s, ms.foldl fatalReport s = s ++ ms.flatMap (fun m => '\n' :: m ++ ['\n']) := by
    induction ms with
    | nil => intro s; simp
    | cons m ms ih => intro s; rw [List.foldl_cons, ih, fatalReport]; simp
  refine ⟨by rw [key]; rfl, rfl, ?_⟩
  rw [key]
  cases ms <;> simp [fatalDropPanics]

/-! ### Example -/

def ex : List Act := [.category 1, .item ⟨"f".toList, 1, none, none⟩ [.report (.other "a".toList),
  .item ⟨"g".toList, 2, none, none⟩ [.report (.list [.formatted "b {}".toList "b [12ab]".toList,
    .context "c".toList (.other "d".toList)])], .category 2, .category 4], .item ⟨"f".toList, 1, none, none⟩
    [.report (.formatted "e".toList [])]]

example : Consistent (itemsL ex) ∧ (∀ i ∈ itemsL ex, i.id ≠ 0) ∧
    errorsL 1 0 ex = [("{}".toList, "a".toList), ("e".toList, [])] ∧ categoriesL 1 0 ex = [2, 4] ∧
    (errorsL 2 0 ex).map (shown (hide Char.isDigit)) = [⟨"b {}".toList, "b ".toList⟩, ⟨"{}".toList, "d".toList⟩] := by
  refine ⟨?_, ?_, by decide +kernel, by decide +kernel, by decide +kernel⟩
  · simp [Consistent, ex, itemsL, Act.items]
  · simp [ex, itemsL, Act.items]

def ex' : List Act := [.item ⟨"f".toList, 1, some "u".toList, some "//a:b".toList⟩ [.item ⟨"g".toList, 2, none, none⟩ []],
  .item ⟨"f".toList, 1, none, none⟩ []]

example : ∃ R, Report.empty.actL (hide Char.isDigit) ex' = some R ∧
    ∃ e, R.map 1 = some e ∧ e.name = "f".toList ∧ e.unique = some "u".toList ∧ e.target = some "//a:b".toList := by
  have hs : (Report.empty.actL (hide Char.isDigit) ex').isSome = true := by decide +kernel
  obtain ⟨R, hR⟩ := Option.isSome_iff_exists.mp hs
  exact ⟨R, hR, items_named hR (before := []) rfl nofun (by decide)⟩

end Verif.Report

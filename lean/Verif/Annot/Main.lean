import Verif.Annot.Spec

/-!
# Theorems: reading annotations
-/

namespace Verif.Annot
open Spec

/-! ## Arguments -/

theorem ite_some {p : Prop} [Decidable p] {a b : Err} :
    ¬ (if p then some a else some b) = none := by
  split <;> simp

theorem sameConstant_iff {a b : Arg} : sameConstant a b = none ↔ SameArg a b := by
  unfold sameConstant SameArg
  by_cases ht : a.type = b.type
  · rw [if_neg (by simpa using ht)]
    rcases a with ⟨ta, va⟩
    rcases b with ⟨tb, vb⟩
    simp only at ht
    subst ht
    cases va with
    | none => simp
    | some u =>
      cases vb with
      | none => simp
      | some v =>
        cases u <;> cases v <;>
          simp [Val.kind, Val.string]
        all_goals first | exact eq_comm | exact ite_some
  · rw [if_pos ht]
    simp [ht]

theorem agree_cons {a b : Arg} {as bs : List Arg} :
    Agree (a :: as) (b :: bs) ↔ SameArg a b ∧ Agree as bs := by
  constructor
  · rintro ⟨h1, h2⟩
    refine ⟨h2 0 (by simp) (by simp), by simpa using h1, fun i h h' => ?_⟩
    exact h2 (i + 1) (by simpa using h) (by simpa using h')
  · rintro ⟨h0, h1, h2⟩
    refine ⟨by simp [h1], fun i h h' => ?_⟩
    cases i with
    | zero => exact h0
    | succ i => exact h2 i (by simpa using h) (by simpa using h')

theorem consistent_iff {a b : Attr} : consistent a b = none ↔ Agree a.args b.args := by
  unfold consistent
  generalize a.args = as
  generalize b.args = bs
  by_cases hl : as.length = bs.length
  · rw [if_neg (by simpa using hl)]
    induction as generalizing bs with
    | nil =>
      cases bs with
      | nil => simp [sameArgs, Agree]
      | cons b bs => simp at hl
    | cons a as ih =>
      cases bs with
      | nil => simp at hl
      | cons b bs =>
        rw [agree_cons, ← sameConstant_iff, ← ih bs (by simpa using hl)]
        rw [sameArgs]
        cases sameConstant a b <;> simp
  · rw [if_pos hl]
    simp [Agree, hl]

theorem sameArg_symm {a b : Arg} (h : SameArg a b) : SameArg b a := by
  obtain ⟨h1, ⟨n, h2, h3⟩ | ⟨s, h2, h3⟩ | ⟨m, n, h2, h3⟩⟩ := h
  · exact ⟨h1.symm, .inl ⟨n, h3, h2⟩⟩
  · exact ⟨h1.symm, .inr (.inl ⟨s, h3, h2⟩)⟩
  · exact ⟨h1.symm, .inr (.inr ⟨n, m, h3, h2⟩)⟩

theorem sameArg_trans {a b c : Arg} (h : SameArg a b) (h' : SameArg b c) : SameArg a c := by
  obtain ⟨h1, h⟩ := h
  obtain ⟨h1', h'⟩ := h'
  refine ⟨h1.trans h1', ?_⟩
  rcases h with ⟨n, h2, h3⟩ | ⟨s, h2, h3⟩ | ⟨m, n, h2, h3⟩ <;>
    rcases h' with ⟨n', h2', h3'⟩ | ⟨s', h2', h3'⟩ | ⟨m', n', h2', h3'⟩ <;>
    rw [h3] at h2' <;> simp at h2'
  · subst h2'; exact .inl ⟨_, h2, h3'⟩
  · subst h2'; exact .inr (.inl ⟨_, h2, h3'⟩)
  · exact .inr (.inr ⟨_, _, h2, h3'⟩)

theorem agree_symm {as bs : List Arg} (h : Agree as bs) : Agree bs as :=
  ⟨h.1.symm, fun i hi hi' => sameArg_symm (h.2 i hi' hi)⟩

theorem agree_trans {as bs cs : List Arg} (h : Agree as bs) (h' : Agree bs cs) : Agree as cs :=
  ⟨h.1.trans h'.1, fun i hi hi' =>
    sameArg_trans (h.2 i hi (h.1 ▸ hi)) (h'.2 i (h.1 ▸ hi) hi')⟩

/-! ## One declaration -/

theorem atMostOnce_iff {name : Str} {d : Decl} :
    AtMostOnce name d ↔ (d.filter (·.name = name)).length ≤ 1 := by
  constructor
  · intro h
    induction d with
    | nil => simp
    | cons a d ih =>
      have h' : AtMostOnce name d := fun x b y c z e => h (a :: x) b y c z (by rw [e]; rfl)
      by_cases ha : a.name = name
      · rw [List.filter_cons_of_pos (by simpa using ha)]
        have : d.filter (·.name = name) = [] := by
          rw [List.filter_eq_nil_iff]
          intro b hb hn
          obtain ⟨y, z, rfl⟩ := List.append_of_mem hb
          exact h [] a y b z rfl ha (by simpa using hn)
        simp [this]
      · rw [List.filter_cons_of_neg (by simpa using ha)]
        exact ih h'
  · rintro h x a y b z rfl ha hb
    simp only [List.filter_append, List.length_append, List.filter_cons_of_pos, ha, hb,
      decide_true, List.length_cons, List.append_assoc, List.cons_append] at h
    omega

theorem single_iff {name : Str} {d : Decl} {f : Option Attr} {r : Option Attr} :
    single name f d = .ok r ↔
      r.toList = f.toList ++ d.filter (·.name = name) := by
  induction d generalizing f with
  | nil =>
    cases f <;> cases r <;> simp [single]
    exact eq_comm
  | cons a d ih =>
    unfold single
    by_cases ha : a.name = name
    · rw [if_neg (by simpa using ha), List.filter_cons_of_pos (by simpa using ha)]
      cases f with
      | none =>
        simp only
        rw [ih]
        simp
      | some g =>
        simp only [reduceCtorEq, false_iff]
        cases r <;> simp
    · rw [if_pos ha, List.filter_cons_of_neg (by simpa using ha), ih]

theorem single_ok {name : Str} {d : Decl} :
    (∃ r, single name none d = .ok r) ↔ AtMostOnce name d := by
  rw [atMostOnce_iff]
  constructor
  · rintro ⟨r, h⟩
    rw [single_iff] at h
    simp only [Option.toList_none, List.nil_append] at h
    rw [← h]
    cases r <;> simp
  · intro h
    cases hf : d.filter (·.name = name) with
    | nil => exact ⟨none, by rw [single_iff, hf]; rfl⟩
    | cons a as =>
      cases as with
      | nil => exact ⟨some a, by rw [single_iff, hf]; rfl⟩
      | cons b as => rw [hf] at h; simp at h

/-! ## All declarations -/

theorem marks_cons {name : Str} {d : Decl} {ds : List Decl} :
    marks name (d :: ds) = d.filter (·.name = name) ++ marks name ds := rfl

theorem loop_some {name : Str} {ds : List Decl} {g : Attr} {n : Nat} {r : Option Attr × Nat} :
    loop name (some g) n ds = .ok r ↔
      r = (some g, n + (marks name ds).length) ∧ (∀ d ∈ ds, AtMostOnce name d) ∧
      ∀ b ∈ marks name ds, Agree g.args b.args := by
  induction ds generalizing n with
  | nil => simp [loop, marks, eq_comm]
  | cons d ds ih =>
    unfold loop
    cases hs : single name none d with
    | error e =>
      have : ¬ AtMostOnce name d := by
        rw [← single_ok]
        rintro ⟨r, h⟩
        rw [hs] at h
        cases h
      simp [this]
    | ok o =>
      have hd : AtMostOnce name d := single_ok.1 ⟨_, hs⟩
      have hf := single_iff.1 hs
      simp only [Option.toList_none, List.nil_append] at hf
      cases o with
      | none =>
        simp only
        rw [ih, marks_cons, ← hf]
        simp [hd]
      | some a =>
        simp only
        rw [marks_cons, ← hf]
        cases hc : consistent g a with
        | some e =>
          have : ¬ Agree g.args a.args := by
            rw [← consistent_iff, hc]
            simp
          simp [this]
        | none =>
          have := consistent_iff.1 hc
          simp only
          rw [ih]
          simp [hd, this, Nat.add_assoc, Nat.add_comm 1]

theorem loop_none {name : Str} {ds : List Decl} {r : Option Attr × Nat} :
    loop name none 0 ds = .ok r ↔
      (∀ d ∈ ds, AtMostOnce name d) ∧
      ((marks name ds = [] ∧ r = (none, 0)) ∨
       ∃ a as, marks name ds = a :: as ∧ r = (some a, 1 + as.length) ∧
         ∀ b ∈ as, Agree a.args b.args) := by
  induction ds with
  | nil => simp [loop, marks, eq_comm]
  | cons d ds ih =>
    unfold loop
    cases hs : single name none d with
    | error e =>
      have : ¬ AtMostOnce name d := by
        rw [← single_ok]
        rintro ⟨r, h⟩
        rw [hs] at h
        cases h
      simp [this]
    | ok o =>
      have hd : AtMostOnce name d := single_ok.1 ⟨_, hs⟩
      have hf := single_iff.1 hs
      simp only [Option.toList_none, List.nil_append] at hf
      cases o with
      | none =>
        simp only
        rw [ih, marks_cons, ← hf]
        simp [hd]
      | some a =>
        simp only
        rw [loop_some, marks_cons, ← hf]
        simp only [Option.toList_some, List.cons_append, List.nil_append, reduceCtorEq, false_and,
          false_or, List.mem_cons, forall_eq_or_imp, hd, true_and, List.cons.injEq]
        constructor
        · rintro ⟨h1, h2, h3⟩
          exact ⟨h2, a, _, ⟨rfl, rfl⟩, by simpa using h1, h3⟩
        · rintro ⟨h2, a', as, ⟨rfl, rfl⟩, h1, h3⟩
          exact ⟨by simpa using h1, h2, h3⟩

/-- An entity is annotated, with the arguments of the first annotation, exactly if it
is annotated at all, no declaration twice, and all of the annotations agree in
arguments that are numbers, string literals or objects. -/
theorem read_some_iff {name : Str} {ds : List Decl} {args : List Arg} :
    readArgs name ds = .ok (some args) ↔
      (∀ d ∈ ds, AtMostOnce name d) ∧
      (∃ a as, marks name ds = a :: as ∧ a.args = args) ∧
      ∀ a ∈ marks name ds, ∀ b ∈ marks name ds, Agree a.args b.args := by
  have pairs : ∀ {a : Attr} {as : List Attr}, (∀ b ∈ a :: as, Agree a.args b.args) →
      ∀ b ∈ a :: as, ∀ c ∈ a :: as, Agree b.args c.args := fun h b hb c hc =>
    agree_trans (agree_symm (h b hb)) (h c hc)
  unfold readArgs
  cases hl : loop name none 0 ds with
  | error e =>
    simp only [reduceCtorEq, false_iff]
    rintro ⟨h1, ⟨a, as, h2, -⟩, h3⟩
    have := loop_none.2 ⟨h1, .inr ⟨a, as, h2, rfl, fun b hb =>
      h3 a (by rw [h2]; simp) b (by rw [h2]; simp [hb])⟩⟩
    rw [hl] at this
    cases this
  | ok r =>
    obtain ⟨h1, ⟨h2, rfl⟩ | ⟨a, as, h2, rfl, h3⟩⟩ := loop_none.1 hl
    · simp [h2]
    · simp only
      cases as with
      | nil =>
        rw [if_pos (by rfl)]
        cases hc : consistent a a with
        | some e =>
          simp only [reduceCtorEq, false_iff]
          rintro ⟨-, -, h⟩
          have := consistent_iff.2 (h a (by simp [h2]) a (by simp [h2]))
          rw [hc] at this
          cases this
        | none =>
          have := consistent_iff.1 hc
          simp only [Except.ok.injEq, Option.some.injEq]
          constructor
          · rintro rfl
            refine ⟨h1, ⟨a, [], h2, rfl⟩, ?_⟩
            rw [h2]
            exact pairs (by simpa using this)
          · rintro ⟨-, ⟨a', as', h, rfl⟩, -⟩
            rw [h2] at h
            cases h
            rfl
      | cons b bs =>
        rw [if_neg (by simp)]
        have hab := h3 b (by simp)
        have haa := agree_trans hab (agree_symm hab)
        simp only [Except.ok.injEq, Option.some.injEq]
        constructor
        · rintro rfl
          refine ⟨h1, ⟨a, _, h2, rfl⟩, ?_⟩
          rw [h2]
          refine pairs fun c hc => ?_
          rcases List.mem_cons.1 hc with rfl | hc
          · exact haa
          · exact h3 c hc
        · rintro ⟨-, ⟨a', as', h, rfl⟩, -⟩
          rw [h2] at h
          cases h
          rfl

/-- It is not annotated exactly if no declaration is. -/
theorem read_none_iff {name : Str} {ds : List Decl} :
    readArgs name ds = .ok none ↔ ∀ d ∈ ds, ∀ a ∈ d, a.name ≠ name := by
  have hm : marks name ds = [] ↔ ∀ d ∈ ds, ∀ a ∈ d, a.name ≠ name := by
    simp [marks, List.flatMap_eq_nil_iff, List.filter_eq_nil_iff]
  rw [← hm]
  constructor
  · intro h
    unfold readArgs at h
    cases hl : loop name none 0 ds with
    | error e => rw [hl] at h; cases h
    | ok r =>
      obtain ⟨-, ⟨h2, rfl⟩ | ⟨a, as, h2, rfl, h3⟩⟩ := loop_none.1 hl
      · exact h2
      · rw [hl] at h
        simp only at h
        split at h
        · split at h <;> cases h
        · cases h
  · intro h
    have h1 : ∀ d ∈ ds, AtMostOnce name d := by
      rintro d hd x a y b z rfl ha -
      exact hm.1 h _ hd a (by simp) ha
    have := loop_none.2 ⟨h1, .inl ⟨h, rfl⟩⟩
    unfold readArgs
    rw [this]

/-- Reading does not depend on the order of the declarations, up to arguments that
agree. -/
theorem order_free {name : Str} {ds es : List Decl} (h : ds.Perm es) {args : List Arg}
    (hr : readArgs name ds = .ok (some args)) :
    ∃ args', readArgs name es = .ok (some args') ∧ Agree args args' := by
  obtain ⟨h1, ⟨a, as, h2, rfl⟩, h3⟩ := read_some_iff.1 hr
  have hp : (marks name ds).Perm (marks name es) := h.flatMap_right _
  cases hm : marks name es with
  | nil =>
    rw [h2, hm] at hp
    exact absurd hp.length_eq (by simp)
  | cons b bs =>
    have hb : b ∈ marks name ds := hp.mem_iff.2 (by rw [hm]; simp)
    refine ⟨b.args, read_some_iff.2 ⟨fun d hd => h1 d (h.mem_iff.2 hd), ⟨b, bs, hm, rfl⟩, ?_⟩,
      h3 a (by rw [h2]; simp) b hb⟩
    exact fun c hc d hd => h3 c (hp.mem_iff.2 hc) d (hp.mem_iff.2 hd)

/-! ## Kinds of annotations -/

/-- A flag is set exactly if it is there, nowhere with arguments and on no declaration
twice; it is not set exactly if it is nowhere. -/
theorem flag_exact {name : Str} {ds : List Decl} :
    (hasFlag name ds = .ok true ↔ (∃ d ∈ ds, ∃ a ∈ d, a.name = name) ∧
      (∀ d ∈ ds, AtMostOnce name d) ∧ ∀ d ∈ ds, ∀ a ∈ d, a.name = name → a.args = []) ∧
    (hasFlag name ds = .ok false ↔ ∀ d ∈ ds, ∀ a ∈ d, a.name ≠ name) := by
  have mem : ∀ a, a ∈ marks name ds ↔ ∃ d ∈ ds, a ∈ d ∧ a.name = name := by
    intro a
    simp [marks]
  have h1 : hasFlag name ds = .ok true ↔ readArgs name ds = .ok (some []) := by
    unfold hasFlag
    split
    · rename_i e; simp [e]
    · rename_i e; simp [e]
    · rename_i args e
      cases args <;> simp [e]
  have h2 : hasFlag name ds = .ok false ↔ readArgs name ds = .ok none := by
    unfold hasFlag
    split
    · rename_i e; simp [e]
    · rename_i e; simp [e]
    · rename_i args e
      cases args <;> simp [e]
  refine ⟨?_, h2.trans read_none_iff⟩
  rw [h1, read_some_iff]
  constructor
  · rintro ⟨h1, ⟨a, as, h2, h3⟩, h4⟩
    have ha : a ∈ marks name ds := by rw [h2]; simp
    obtain ⟨d, hd, had, hn⟩ := (mem a).1 ha
    refine ⟨⟨d, hd, a, had, hn⟩, h1, fun e he b hb hbn => ?_⟩
    have := (h4 a ha b ((mem b).2 ⟨e, he, hb, hbn⟩)).1
    rw [h3] at this
    exact List.length_eq_zero_iff.1 this.symm
  · rintro ⟨⟨d, hd, a, ha, hn⟩, h1, h2⟩
    have nil : ∀ b ∈ marks name ds, b.args = [] := fun b hb => by
      obtain ⟨e, he, hbe, hbn⟩ := (mem b).1 hb
      exact h2 e he b hbe hbn
    refine ⟨h1, ?_, fun b hb c hc => ?_⟩
    · cases hm : marks name ds with
      | nil => exact absurd ((mem a).2 ⟨d, hd, ha, hn⟩) (by rw [hm]; simp)
      | cons b bs => exact ⟨b, bs, rfl, nil b (by rw [hm]; simp)⟩
    · rw [nil b hb, nil c hc]
      exact ⟨rfl, fun i hi => absurd hi (by simp)⟩

theorem strings_iff {args : List Arg} {ss : List Str} :
    strings args = .ok ss ↔ AreStrings args ss := by
  induction args generalizing ss with
  | nil => cases ss <;> simp [strings, AreStrings]
  | cons a as ih =>
    unfold strings
    rcases a with ⟨t, v⟩
    have other : (∀ s, v ≠ some (.str s)) → ¬ AreStrings (⟨t, v⟩ :: as) ss := by
      intro h he
      cases ss with
      | nil => simp [AreStrings] at he
      | cons s ss => simp [AreStrings] at he; exact h s he.1
    cases v with
    | none => simp [other]
    | some v =>
      cases v with
      | str s =>
        simp only [Option.bind_some, Val.string]
        cases hs : strings as with
        | error e =>
          simp only [reduceCtorEq, false_iff]
          intro he
          cases ss with
          | nil => simp [AreStrings] at he
          | cons s' ss =>
            have : AreStrings as ss := by
              simp [AreStrings] at he ⊢
              exact he.2
            rw [← ih, hs] at this
            cases this
        | ok ts =>
          have ht := ih.1 hs
          simp only [Except.ok.injEq]
          constructor
          · rintro rfl
            simp [AreStrings] at ht ⊢
            exact ht
          · intro he
            cases ss with
            | nil => simp [AreStrings] at he
            | cons s' ss =>
              simp [AreStrings] at he
              have : strings as = .ok ss := ih.2 (by simpa [AreStrings] using he.2)
              rw [hs] at this
              cases this
              rw [he.1]
      | int n => simp [Val.string, other]
      | struct n => simp [Val.string, other]
      | lvalue n => simp [Val.string, other]
      | other n => simp [Val.string, other]

/-- An annotation has these string arguments exactly if it can be read and its
arguments are these literals; whichever declaration is looked at, they are the same. -/
theorem strings_exact {name : Str} {ds : List Decl} {ss : List Str} :
    stringArgs name ds = .ok (some ss) ↔
      (∃ d ∈ ds, ∃ a ∈ d, a.name = name) ∧ (∀ d ∈ ds, AtMostOnce name d) ∧
      (∃ ts : List Nat, ∀ d ∈ ds, ∀ a ∈ d, a.name = name →
        AreStrings a.args ss ∧ a.args.map Arg.type = ts) := by
  have mem : ∀ a, a ∈ marks name ds ↔ ∃ d ∈ ds, a ∈ d ∧ a.name = name := by
    intro a
    simp [marks]
  have h0 : stringArgs name ds = .ok (some ss) ↔
      ∃ args, readArgs name ds = .ok (some args) ∧ AreStrings args ss := by
    unfold stringArgs
    split
    · rename_i e; simp [e]
    · rename_i e; simp [e]
    · rename_i args e
      simp only [e, Except.ok.injEq, Option.some.injEq, exists_eq_left']
      rw [← strings_iff]
      cases strings args <;> simp
  have tr : ∀ {as bs : List Arg} {ss : List Str}, AreStrings as ss → Agree as bs →
      AreStrings bs ss ∧ bs.map Arg.type = as.map Arg.type := by
    intro as
    induction as with
    | nil =>
      intro bs ss h ha
      have : bs = [] := List.length_eq_zero_iff.1 ha.1.symm
      subst this
      exact ⟨h, rfl⟩
    | cons a as ih =>
      intro bs ss h ha
      cases bs with
      | nil => exact absurd ha.1 (by simp)
      | cons b bs =>
        cases ss with
        | nil => simp [AreStrings] at h
        | cons s ss =>
          obtain ⟨h1, h2⟩ := agree_cons.1 ha
          simp only [AreStrings, List.map_cons, List.cons.injEq] at h ⊢
          obtain ⟨i1, i2⟩ := ih (ss := ss) h.2 h2
          obtain ⟨ht, ⟨n, e, -⟩ | ⟨s', e, e'⟩ | ⟨m, n, e, -⟩⟩ := h1
          · rw [h.1] at e; simp at e
          · rw [h.1] at e
            simp at e
            subst e
            exact ⟨⟨e', i1⟩, ht.symm, i2⟩
          · rw [h.1] at e; simp at e
  have rt : ∀ {as bs : List Arg} {ss : List Str}, AreStrings as ss → AreStrings bs ss →
      as.map Arg.type = bs.map Arg.type → Agree as bs := by
    intro as
    induction as with
    | nil =>
      intro bs ss h h' ht
      cases bs with
      | nil => exact ⟨rfl, fun i hi => absurd hi (by simp)⟩
      | cons b bs => simp at ht
    | cons a as ih =>
      intro bs ss h h' ht
      cases bs with
      | nil => simp at ht
      | cons b bs =>
        cases ss with
        | nil => simp [AreStrings] at h
        | cons s ss =>
          simp only [AreStrings, List.map_cons, List.cons.injEq] at h h' ht
          exact agree_cons.2 ⟨⟨ht.1, .inr (.inl ⟨s, h.1, h'.1⟩)⟩, ih h.2 h'.2 ht.2⟩
  rw [h0]
  constructor
  · rintro ⟨args, hr, hs⟩
    obtain ⟨h1, ⟨a, as, h2, rfl⟩, h3⟩ := read_some_iff.1 hr
    have ha : a ∈ marks name ds := by rw [h2]; simp
    obtain ⟨d, hd, had, hn⟩ := (mem a).1 ha
    refine ⟨⟨d, hd, a, had, hn⟩, h1, a.args.map Arg.type, fun e he b hb hbn => ?_⟩
    exact tr hs (h3 a ha b ((mem b).2 ⟨e, he, hb, hbn⟩))
  · rintro ⟨⟨d, hd, a, ha, hn⟩, h1, ts, h2⟩
    have all : ∀ b ∈ marks name ds, AreStrings b.args ss ∧ b.args.map Arg.type = ts :=
      fun b hb => by
        obtain ⟨e, he, hbe, hbn⟩ := (mem b).1 hb
        exact h2 e he b hbe hbn
    cases hm : marks name ds with
    | nil => exact absurd ((mem a).2 ⟨d, hd, ha, hn⟩) (by rw [hm]; simp)
    | cons b bs =>
      refine ⟨b.args, read_some_iff.2 ⟨h1, ⟨b, bs, hm, rfl⟩, fun x hx y hy => ?_⟩,
        (all b (by rw [hm]; simp)).1⟩
      exact rt (all x hx).1 (all y hy).1 ((all x hx).2.trans (all y hy).2.symm)

/-- One string is read exactly if one string argument is there. -/
theorem string_exact {name : Str} {ds : List Decl} {s : Str} :
    stringArg name ds = .ok (some s) ↔ stringArgs name ds = .ok (some [s]) := by
  unfold stringArg
  split
  · rename_i e; simp [e]
  · rename_i e; simp [e]
  · rename_i s' e; simp [e]
  · rename_i ss hss e
    rw [e]
    simp only [reduceCtorEq, Except.ok.injEq, Option.some.injEq, false_iff]
    exact fun h => hss s h

/-- A type has the annotation that is around it once. -/
theorem type_exact {name : Str} {t : Sugar} {r : Option Attr} :
    typeAttr name none t = .ok r ↔
      r.toList = (t.filterMap id).filter (·.name = name) := by
  have main : ∀ (t : Sugar) (f : Option Attr), typeAttr name f t = .ok r ↔
      r.toList = f.toList ++ (t.filterMap id).filter (·.name = name) := by
    intro t
    induction t with
    | nil =>
      intro f
      cases f <;> cases r <;> simp [typeAttr]
      exact eq_comm
    | cons o t ih =>
      intro f
      cases o with
      | none =>
        unfold typeAttr
        rw [ih]
        simp
      | some a =>
        unfold typeAttr
        have hfm : List.filterMap id (some a :: t) = a :: List.filterMap id t := rfl
        rw [hfm]
        by_cases ha : a.name = name
        · rw [if_pos ha, List.filter_cons_of_pos (by simpa using ha)]
          cases f with
          | none => simp only; rw [ih]; simp
          | some g => simp only [reduceCtorEq, false_iff]; cases r <;> simp
        · rw [if_neg ha, List.filter_cons_of_neg (by simpa using ha), ih]
  exact main t none

/-- A truth value is read exactly from a constant of type `bool`. -/
theorem bool_exact {boolType : Nat} {a : Arg} {b : Bool} :
    asBool boolType a = .ok b ↔
      a.type = boolType ∧ ∃ n : Int, a.value = some (.int n) ∧ (b = true ↔ n ≠ 0) := by
  unfold asBool
  rcases a with ⟨t, v⟩
  by_cases ht : t = boolType
  · rw [if_neg (by simpa using ht)]
    cases v with
    | none => simp
    | some v =>
      cases v <;> simp [ht]
      rename_i n
      by_cases hn : n = 0 <;> cases b <;> simp [hn]
  · rw [if_pos ht]
    simp [ht]

end Verif.Annot

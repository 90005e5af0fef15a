import Verif.Ops.Overload
/-
C150-C151: the operators of Rust and the C++ operators behind them; conflicting impls.
-/
namespace Verif.Ops

/-! ### Symbols -/

theorem lookup_some {op : String} {n : Nat} {e : Entry} (h : lookup op n = some e) :
    e ∈ entries ∧ e.ccName = op ∧ e.ccParams = n := by
  unfold lookup at h
  have h1 := List.mem_of_find?_eq_some h
  have h2 := List.find?_some h
  simp at h2
  exact ⟨h1, h2.1, h2.2⟩

/-- The use of an entry of the table. -/
def Entry.use (e : Entry) : Use := if e.compound then .assign else if e.ccParams = 1 then .unary else .binary

theorem entries_ok : ∀ e ∈ entries, ("::core::ops::" ++ e.traitName, e.ccName, e.use) ∈ rustOps ∧
    e.use.arity = e.ccParams := by decide

theorem materializeGo_length (env : Env) (used ns : List Name) (ts : List Ty) :
    (materializeGo env used ns ts).length = ts.length := by
  induction ts generalizing used ns with
  | nil => cases ns <;> simp [materializeGo]
  | cons t ts ih =>
    cases ns with
    | nil => simp [materializeGo]
    | cons n ns =>
      simp only [materializeGo]
      split <;> simp [ih]

/-- The shapes that can come out, by operator. -/
theorem shape_cases {env : Env} {lib : List Func} {f : Func} {s : Shape} {e : Bool}
    (h : shape env lib f = (some s, e)) :
    (∃ r t, s = .trait r (.partialEq t false) none "eq" false true ∧ f.op = "==" ∧
        shapeEq false f.params = (some s, e)) ∨
    (∃ r t, s = .trait r (.partialEq t true) none "eq" false true ∧ f.op = "!=" ∧
        shapeEq true f.params = (some s, e)) ∨
    (∃ r t, s = .trait r (.partialOrd t) none "lt" false true ∧ f.op = "<" ∧ shapeLt lib f.params = (some s, e)) ∨
    (∃ r rhs, s = .trait r (.other "::ctor::UnpinAssign" [rhs]) none "unpin_assign" true false ∧ f.op = "=") ∨
    (∃ r rhs, s = .trait r (.other "::ctor::Assign" [rhs]) none "assign" true false ∧ f.op = "=") ∨
    (∃ r, s = .inherent r "unary_plus" ∧ f.op = "+") ∨
    (∃ r i o, s = .trait r (.ccIndex i o) none "cc_index" false false ∧ f.op = "[]") ∨
    (∃ r i o, s = .trait r (.ccIndexMut i o) none "cc_index_mut" false false ∧ f.op = "[]") ∨
    (∃ r en p ps impl, lookup f.op f.params.length = some en ∧
      materialize env f.names f.params = p :: ps ∧
      s = .trait r (.other ("::core::ops::" ++ en.traitName) ps) impl en.method en.compound false ∧
      ((en.compound = true ∧ impl = none) ∨ (en.compound = false ∧ firstOperand p = some (r, impl)))) := by
  have hEq : ∀ neg ps, shapeEq neg ps = (some s, e) →
      ∃ r t, s = .trait r (.partialEq t neg) none "eq" false true := by
    intro neg ps h
    unfold shapeEq at h
    split at h
    · split at h
      · simp at h; exact ⟨_, _, h.1.symm⟩
      · simp at h
    · simp at h
  unfold shape at h
  split at h
  · simp at h
  split at h
  · rename_i ho
    obtain ⟨r, t, hs⟩ := hEq _ _ h
    exact Or.inl ⟨r, t, hs, ho, h⟩
  split at h
  · rename_i ho
    unfold shapeNe at h
    split at h
    · simp at h
    · obtain ⟨r, t, hs⟩ := hEq _ _ h
      exact Or.inr (Or.inl ⟨r, t, hs, ho, h⟩)
  split at h
  · simp at h
  split at h
  · rename_i ho
    refine Or.inr (Or.inr (Or.inl ?_))
    have h0 := h
    unfold shapeLt at h
    split at h
    · split at h
      · split at h
        · simp at h
        · simp at h; exact ⟨_, _, h.1.symm, ho, h0⟩
      · simp at h
    · simp at h
  split at h
  · rename_i ho
    unfold shapeAssign at h
    split at h
    · split at h
      · split at h
        · simp at h
        · simp at h; exact Or.inr (Or.inr (Or.inr (Or.inl ⟨_, _, h.1.symm, ho⟩)))
      · simp at h; exact Or.inr (Or.inr (Or.inr (Or.inr (Or.inl ⟨_, _, h.1.symm, ho⟩))))
    · simp at h
  split at h
  · rename_i ho
    unfold shapePlus at h
    split at h
    · split at h
      · simp at h; exact Or.inr (Or.inr (Or.inr (Or.inr (Or.inr (Or.inl ⟨_, h.1.symm, ho.1⟩)))))
      · simp at h
    · simp at h
  split at h
  · rename_i ho
    unfold shapeIndex at h
    split at h
    · split at h
      · simp at h
      · split at h
        · split at h
          · simp at h
            exact Or.inr (Or.inr (Or.inr (Or.inr (Or.inr (Or.inr (Or.inl ⟨_, _, _, h.1.symm, ho⟩))))))
          · split at h
            · simp at h
              exact Or.inr (Or.inr (Or.inr (Or.inr (Or.inr (Or.inr (Or.inr (Or.inl ⟨_, _, _, h.1.symm, ho⟩)))))))
            · simp at h
        · split at h
          · simp at h
            exact Or.inr (Or.inr (Or.inr (Or.inr (Or.inr (Or.inr (Or.inl ⟨_, _, _, h.1.symm, ho⟩))))))
          · split at h
            · simp at h
              exact Or.inr (Or.inr (Or.inr (Or.inr (Or.inr (Or.inr (Or.inr (Or.inl ⟨_, _, _, h.1.symm, ho⟩)))))))
            · simp at h
        · simp at h
    · simp at h
  · refine Or.inr (Or.inr (Or.inr (Or.inr (Or.inr (Or.inr (Or.inr (Or.inr ?_)))))))
    unfold shapeOther at h
    split at h
    · simp at h
    · rename_i en hen
      split at h
      · simp at h
      · rename_i p ps hm
        split at h
        · rename_i hc
          split at h
          · simp at h; exact ⟨_, en, p, ps, none, hen, hm, by rw [hc]; exact h.1.symm, Or.inl ⟨hc, rfl⟩⟩
          · simp at h
        · rename_i hc
          have hc : en.compound = false := by simpa using hc
          split at h
          · rename_i r impl hfo
            simp at h; exact ⟨_, en, p, ps, impl, hen, hm, by rw [hc]; exact h.1.symm, Or.inr ⟨hc, hfo⟩⟩
          · simp at h

theorem generate_some {env : Env} {lib : List Func} {f : Func} {s : Shape} {c : Bool}
    (hg : generate env lib f = .some s c) :
    f.fatal = false ∧ ∃ e, shape env lib f = (some s, e) ∧
      c = !(e || f.soft || cloneErr env f.params s.forceConst) ∧
      (s.isPartialOrd = true → c = true) := by
  unfold generate at hg
  split at hg
  · simp at hg
  rename_i hfat
  refine ⟨by simpa using hfat, ?_⟩
  split at hg
  · simp at hg
  · simp at hg
  · rename_i s'' e hsh
    simp only at hg
    split at hg
    · simp at hg
    · rename_i hpo
      split at hg
      · simp at hg
      · simp only [Gen.some.injEq] at hg
        obtain ⟨rfl, rfl⟩ := hg
        refine ⟨e, hsh, rfl, fun h => ?_⟩
        rw [h] at hpo
        simpa using hpo

theorem generate_of_emitted {env : Env} {lib : List Func} {f : Func} {s : Shape} {c : Bool}
    (h : emitted env lib f = some (s, c)) :
    generate env lib f = .some s c ∧ isAmbiguous (generated env lib) s.id f.item = false := by
  unfold emitted at h
  split at h
  · rename_i s' c' hg
    split at h
    · simp at h
    · rename_i ha
      simp at h
      obtain ⟨rfl, rfl⟩ := h
      exact ⟨hg, by simpa using ha⟩
  · simp at h

theorem shape_of_emitted {env : Env} {lib : List Func} {f : Func} {s : Shape} {c : Bool}
    (h : emitted env lib f = some (s, c)) : ∃ e, shape env lib f = (some s, e) := by
  obtain ⟨_, e, h1, _⟩ := generate_some (generate_of_emitted h).1
  exact ⟨e, h1⟩

/-- C150: whatever C++ function is behind a Rust operator trait, it is the operator with the same symbol
and the same number of operands. -/
theorem operator_symbol {env : Env} {lib : List Func} {f : Func} {s : Shape} {c : Bool}
    (h : emitted env lib f = some (s, c)) :
    (∀ r ps impl m d fc n sym u, s = .trait r (.other n ps) impl m d fc → (n, sym, u) ∈ rustOps →
      f.op = sym ∧ f.params.length = u.arity ∧ ps.length + 1 = f.params.length ∧
      (d = true ↔ u = .assign)) ∧
    (∀ r t neg impl m d fc, s = .trait r (.partialEq t neg) impl m d fc →
      f.op = (if neg then "!=" else "==") ∧ m = "eq") ∧
    (∀ r t impl m d fc, s = .trait r (.partialOrd t) impl m d fc → f.op = "<" ∧ m = "lt") := by
  obtain ⟨e, hs⟩ := shape_of_emitted h
  have hcase := shape_cases hs
  have hentry0 : ∀ en ∈ entries, ∀ x ∈ rustOps, x.1 = "::core::ops::" ++ en.traitName →
      en.ccName = x.2.1 ∧ en.use = x.2.2 := by
    decide +kernel
  have hentry : ∀ en ∈ entries, ∀ sym u, ("::core::ops::" ++ en.traitName, sym, u) ∈ rustOps →
      en.ccName = sym ∧ en.use = u := fun en hen sym u hx => hentry0 en hen _ hx rfl
  have hA0 : ∀ x ∈ rustOps, x.1 ≠ "::ctor::UnpinAssign" ∧ x.1 ≠ "::ctor::Assign" := by decide +kernel
  have hA : ∀ sym u, ("::ctor::UnpinAssign", sym, u) ∉ rustOps := fun sym u hx => (hA0 _ hx).1 rfl
  have hB : ∀ sym u, ("::ctor::Assign", sym, u) ∉ rustOps := fun sym u hx => (hA0 _ hx).2 rfl
  refine ⟨?_, ?_, ?_⟩
  · intro r ps impl m d fc n sym u hse hn
    rcases hcase with ⟨_, _, h1, _⟩ | ⟨_, _, h1, _⟩ | ⟨_, _, h1, _⟩ | ⟨_, _, h1, _⟩ | ⟨_, _, h1, _⟩ |
      ⟨_, h1, _⟩ | ⟨_, _, _, h1, _⟩ | ⟨_, _, _, h1, _⟩ | ⟨r', en, p, ps', impl', hl, hm, h1, h2⟩
    all_goals (rw [hse] at h1)
    all_goals try (simp at h1; done)
    · simp at h1; rw [h1.2.1.1] at hn; exact absurd hn (hA _ _)
    · simp at h1; rw [h1.2.1.1] at hn; exact absurd hn (hB _ _)
    · simp at h1
      obtain ⟨hr, ⟨hn', hps⟩, himpl, hmm, hd, hfc⟩ := h1
      obtain ⟨hmem, hop, hpar⟩ := lookup_some hl
      rw [hn'] at hn
      obtain ⟨h3, h4⟩ := hentry en hmem sym u hn
      have h5 := (entries_ok en hmem).2
      have hlen : (p :: ps').length = f.params.length := by
        rw [← hm]; exact materializeGo_length _ _ _ _
      refine ⟨by rw [← h3, hop], by rw [← hpar, ← h5, h4], by rw [hps]; simpa using hlen, ?_⟩
      rw [hd, ← h4]
      unfold Entry.use
      cases en.compound
      · simp; split <;> simp
      · simp
  · intro r t neg impl m d fc hse
    rcases hcase with ⟨_, _, h1, h2, _⟩ | ⟨_, _, h1, h2, _⟩ | ⟨_, _, h1, _⟩ | ⟨_, _, h1, _⟩ | ⟨_, _, h1, _⟩ |
      ⟨_, h1, _⟩ | ⟨_, _, _, h1, _⟩ | ⟨_, _, _, h1, _⟩ | ⟨r', en, p, ps', impl', hl, hm, h1, _⟩
    all_goals (rw [hse] at h1)
    all_goals try (simp at h1; done)
    · simp at h1; simp [h1, h2]
    · simp at h1; simp [h1, h2]
  · intro r t impl m d fc hse
    rcases hcase with ⟨_, _, h1, h2, _⟩ | ⟨_, _, h1, h2, _⟩ | ⟨_, _, h1, h2, _⟩ | ⟨_, _, h1, _⟩ | ⟨_, _, h1, _⟩ |
      ⟨_, h1, _⟩ | ⟨_, _, _, h1, _⟩ | ⟨_, _, _, h1, _⟩ | ⟨r', en, p, ps', impl', hl, hm, h1, _⟩
    all_goals (rw [hse] at h1)
    all_goals try (simp at h1; done)
    · simp at h1; simp [h1, h2]

/-- C150: the operands keep their order: `impl Trait<Rhs> for Self` has the first C++ parameter as `Self` and
the others as trait arguments (parameters that cannot be moved in Rust have become rvalue references). -/
theorem operands_in_order {env : Env} {lib : List Func} {f : Func} {s : Shape} {c : Bool} {h : Header}
    (hem : emitted env lib f = some (s, c)) (hh : s.header = some h) (sym : String) (u : Use)
    (hu : (h.traitName, sym, u) ∈ rustOps) (hna : u ≠ .assign) :
    h.self :: h.params = materialize env f.names f.params := by
  obtain ⟨e, hs⟩ := shape_of_emitted hem
  have hx : ∀ x ∈ rustOps, x.1 ≠ "::ctor::UnpinAssign" ∧ x.1 ≠ "::ctor::Assign" ∧ x.1 ≠ "PartialEq" ∧
    x.1 ≠ "PartialOrd" ∧ x.1 ≠ "::operator::CcIndex" ∧ x.1 ≠ "::operator::CcIndexMut" := by decide +kernel
  have hx := hx _ hu
  rcases shape_cases hs with ⟨_, _, h1, _⟩ | ⟨_, _, h1, _⟩ | ⟨_, _, h1, _⟩ | ⟨_, _, h1, _⟩ | ⟨_, _, h1, _⟩ |
      ⟨_, h1, _⟩ | ⟨_, _, _, h1, _⟩ | ⟨_, _, _, h1, _⟩ | ⟨r', en, p, ps', impl', hl, hm, h1, h2⟩
  all_goals (rw [h1] at hh; simp [Shape.header] at hh)
  all_goals try (rw [← hh] at hx; simp [Trait.name] at hx; done)
  subst hh
  simp only [Trait.params, hm]
  congr 1
  rcases h2 with ⟨hc, _⟩ | ⟨_, h2⟩
  · exfalso
    apply hna
    have := (operator_symbol hem).1 _ _ _ _ _ _ _ sym u h1 hu
    exact this.2.2.2.1 hc
  · unfold firstOperand at h2
    split at h2
    · simp at h2; obtain ⟨rfl, rfl⟩ := h2; rfl
    · split at h2
      · simp at h2; obtain ⟨rfl, rfl⟩ := h2; rfl
      · simp at h2
    · simp at h2

/-- C150: every overloadable operator of Rust is available: a C++ operator with that symbol and number of
operands, whose first operand is a reference to a Rust-movable class and whose others are movable, gets
that trait, without an error. -/
theorem operator_available (env : Env) (lib : List Func) (f : Func) (n : String) (u : Use)
    (hu : (n, f.op, u) ∈ rustOps) (harity : f.params.length = u.arity) (hskip : skipped f = false)
    (m : Bool) (lt : Name) (r : Nat) (ps : List Ty) (hp : f.params = .ref m lt (.record r) :: ps)
    (hunpin : env.unpin r = true) (hps : ∀ t ∈ ps, t.isUnpin env = true) (hm : u = .assign → m = true) :
    ∃ impl method, shape env lib f = (some (.trait r (.other n ps) impl method (u == .assign) false), false) := by
  have hmat : ∀ (ts : List Ty) used ns, (∀ t ∈ ts, t.isUnpin env = true) → materializeGo env used ns ts = ts := by
    intro ts
    induction ts with
    | nil => intro used ns _; cases ns <;> simp [materializeGo]
    | cons t ts ih =>
      intro used ns h
      cases ns with
      | nil => simp [materializeGo]
      | cons n ns =>
        simp only [materializeGo, h t (by simp), if_true]
        rw [ih _ _ (fun t ht => h t (by simp [ht]))]
  have hmat' : materialize env f.names f.params = .ref m lt (.record r) :: ps := by
    unfold materialize
    rw [hmat, hp]
    intro t ht
    rw [hp] at ht
    rcases List.mem_cons.1 ht with rfl | ht
    · simp [Ty.isUnpin, Ty.unalias]
    · exact hps t ht
  have htab : ∀ x ∈ rustOps, x.2.1 ≠ "==" ∧ x.2.1 ≠ "!=" ∧ x.2.1 ≠ "<=>" ∧ x.2.1 ≠ "<" ∧ x.2.1 ≠ "=" ∧ x.2.1 ≠ "[]" ∧
      ¬ (x.2.1 = "+" ∧ x.2.2.arity = 1) ∧
      ∃ en ∈ entries, lookup x.2.1 x.2.2.arity = some en ∧ x.1 = "::core::ops::" ++ en.traitName ∧
        en.compound = (x.2.2 == .assign) := by decide +kernel
  obtain ⟨h1, h2, h3, h4, h5, h6, h7, en, _, hl, hn, hc⟩ := htab _ hu
  simp only at h1 h2 h3 h4 h5 h6 h7 hl hn hc
  unfold shape
  rw [hskip, if_neg (by simp), if_neg h1, if_neg h2, if_neg h3, if_neg h4, if_neg h5, harity, if_neg h7, if_neg h6]
  unfold shapeOther
  rw [harity, hl]
  simp only [hmat']
  cases hcc : en.compound with
  | true =>
    have hua : u = .assign := by rw [hcc] at hc; simpa using hc.symm
    simp only [if_true, compoundRecord, hunpin, hn, hm hua, hua]
    exact ⟨none, en.method, by simp⟩
  | false =>
    rw [hcc] at hc
    simp only [firstOperand, hn, ← hc]
    exact ⟨some (.ref m lt (.record r)), en.method, by simp⟩

/-! ### Conflicting impls -/

/-- The name of the method of each operator trait. -/
def methodOf (n : String) : String :=
  if n = "PartialEq" then "eq" else if n = "PartialOrd" then "lt"
  else if n = "::operator::CcIndex" then "cc_index"
  else if n = "::operator::CcIndexMut" then "cc_index_mut"
  else if n = "::ctor::UnpinAssign" then "unpin_assign"
  else if n = "::ctor::Assign" then "assign"
  else ((entries.find? fun en => "::core::ops::" ++ en.traitName == n).map (·.method)).getD ""

/-- The method name is determined by the trait; the type after `for` determines the record. -/
theorem shape_id {env : Env} {lib : List Func} {f : Func} {s : Shape} {e : Bool} {a : Header}
    (hs : shape env lib f = (some s, e)) (ha : s.header = some a) :
    ∃ r, s.id = .trait r a.traitName a.params (methodOf a.traitName) ∧
      (a.self = .record r ∨ ∃ m l, a.self = .ref m l (.record r)) := by
  have htab : ∀ en ∈ entries, en.method = methodOf ("::core::ops::" ++ en.traitName) := by decide +kernel
  have t1 : methodOf "PartialEq" = "eq" := by decide +kernel
  have t2 : methodOf "PartialOrd" = "lt" := by decide +kernel
  have t3 : methodOf "::operator::CcIndex" = "cc_index" := by decide +kernel
  have t4 : methodOf "::operator::CcIndexMut" = "cc_index_mut" := by decide +kernel
  have t5 : methodOf "::ctor::UnpinAssign" = "unpin_assign" := by decide +kernel
  have t6 : methodOf "::ctor::Assign" = "assign" := by decide +kernel
  rcases shape_cases hs with ⟨r, _, h1, _⟩ | ⟨r, _, h1, _⟩ | ⟨r, _, h1, _⟩ | ⟨r, _, h1, _⟩ | ⟨r, _, h1, _⟩ |
      ⟨r, h1, _⟩ | ⟨r, _, _, h1, _⟩ | ⟨r, _, _, h1, _⟩ | ⟨r, en, p, ps', impl', hl, hm, h1, h2⟩
  all_goals subst h1
  all_goals simp only [Shape.header, Option.some.injEq, reduceCtorEq] at ha
  all_goals subst ha
  all_goals refine ⟨r, ?_, ?_⟩
  all_goals try (exact Or.inl rfl)
  · simp only [Shape.id, Trait.name, Trait.params, t1]
  · simp only [Shape.id, Trait.name, Trait.params, t1]
  · simp only [Shape.id, Trait.name, Trait.params, t2]
  · simp only [Shape.id, Trait.name, Trait.params, t5]
  · simp only [Shape.id, Trait.name, Trait.params, t6]
  · simp only [Shape.id, Trait.name, Trait.params, t3]
  · simp only [Shape.id, Trait.name, Trait.params, t4]
  · simp only [Shape.id, Trait.name, Trait.params, ← htab en (lookup_some hl).1]
  · rcases h2 with ⟨_, rfl⟩ | ⟨_, h2⟩
    · exact Or.inl rfl
    · unfold firstOperand at h2
      split at h2
      · simp at h2; obtain ⟨rfl, rfl⟩ := h2; exact Or.inl rfl
      · split at h2
        · simp at h2; obtain ⟨rfl, rfl⟩ := h2; exact Or.inr ⟨_, _, rfl⟩
        · simp at h2
      · simp at h2

theorem generated_mem {env : Env} {lib : List Func} {f : Func} {s : Shape} {c : Bool} (hf : f ∈ lib)
    (h : generate env lib f = .some s c) : (f.item, s.id, rank f) ∈ generated env lib := by
  unfold generated
  rw [List.mem_filterMap]
  exact ⟨f, hf, by rw [h]⟩

theorem generated_fun {env : Env} {lib : List Func} (hitem : ∀ f ∈ lib, ∀ g ∈ lib, f.item = g.item → f = g) :
    ∀ x ∈ generated env lib, ∀ y ∈ generated env lib, x.1 = y.1 → x = y := by
  intro x hx y hy hxy
  unfold generated at hx hy
  rw [List.mem_filterMap] at hx hy
  obtain ⟨f, hf, hfx⟩ := hx
  obtain ⟨g, hg, hgy⟩ := hy
  have h1 : x.1 = f.item := by
    split at hfx
    · simp at hfx; rw [← hfx]
    · simp at hfx
  have h2 : y.1 = g.item := by
    split at hgy
    · simp at hgy; rw [← hgy]
    · simp at hgy
  have : f = g := hitem f hf g hg (by rw [← h1, ← h2, hxy])
  subst this
  rw [hfx] at hgy
  exact Option.some.inj hgy

/-- C149: a function that can be bound is bound exactly if every other function with the same Rust path is
deprecated and it is not. -/
theorem emitted_iff (env : Env) (lib : List Func) (hitem : ∀ f ∈ lib, ∀ g ∈ lib, f.item = g.item → f = g)
    (f : Func) (hf : f ∈ lib) (s : Shape) (c : Bool) (hs : generate env lib f = .some s c) :
    emitted env lib f = some (s, c) ↔
      ∀ g ∈ lib, g ≠ f → ∀ t d, generate env lib g = .some t d → t.id = s.id → g.deprecated = true ∧ f.deprecated = false := by
  have hm := generated_mem hf hs
  have hb := bound_iff_canonical (generated env lib) (generated_fun hitem) _ hm
  have hem : emitted env lib f = some (s, c) ↔ isAmbiguous (generated env lib) s.id f.item = false := by
    unfold emitted
    rw [hs]
    simp only
    cases isAmbiguous (generated env lib) s.id f.item <;> simp
  rw [hem]
  refine hb.trans ⟨fun h g hg hne t d ht hid => ?_, fun h => ⟨⟨hm, rfl⟩, ?_⟩⟩
  · have := h.2 (g.item, t.id, rank g) ⟨generated_mem hg ht, hid⟩ (fun e => hne (hitem g hg f hf (congrArg Prod.fst e)))
    simp only [rank] at this
    cases h1 : g.deprecated <;> cases h2 : f.deprecated <;> simp_all
  · rintro y ⟨hy, hyk⟩ hne
    unfold generated at hy
    rw [List.mem_filterMap] at hy
    obtain ⟨g, hg, hgy⟩ := hy
    split at hgy
    · rename_i t d ht
      simp only [Option.some.injEq] at hgy
      subst hgy
      have hgf : g ≠ f := by
        rintro rfl
        rw [hs] at ht
        simp only [Gen.some.injEq] at ht
        exact hne (by rw [ht.1])
      have := h g hg hgf t d ht hyk
      simp [rank, this]
    · simp at hgy

/-- C151: the operator impls of a library never conflict, when the parameter types are written without
aliases and without named lifetimes. -/
theorem no_conflicting_impls (env : Env) (lib : List Func)
    (hitem : ∀ f ∈ lib, ∀ g ∈ lib, f.item = g.item → f = g)
    (f g : Func) (hf : f ∈ lib) (hg : g ∈ lib) (hne : f ≠ g)
    (s t : Shape) (c d : Bool) (a b : Header)
    (hs : emitted env lib f = some (s, c)) (ht : emitted env lib g = some (t, d))
    (ha : s.header = some a) (hb : t.header = some b)
    (pa : ∀ p ∈ a.params, p.Plain) (pb : ∀ p ∈ b.params, p.Plain) : ¬ a.Conflict b := by
  rintro ⟨h1, h2, h3⟩
  have hmapid : ∀ l : List Ty, (∀ p ∈ l, p.Plain) → l.map Ty.erase = l := by
    intro l hl
    induction l with
    | nil => rfl
    | cons x l ih =>
      simp only [List.map_cons]
      rw [hl x (by simp), ih (fun p hp => hl p (by simp [hp]))]
  rw [hmapid _ pa, hmapid _ pb] at h3
  obtain ⟨e, hsh⟩ := shape_of_emitted hs
  obtain ⟨e', hth⟩ := shape_of_emitted ht
  obtain ⟨r, hid, hself⟩ := shape_id hsh ha
  obtain ⟨r', hid', hself'⟩ := shape_id hth hb
  have hr : r = r' := by
    rcases hself with h | ⟨m, l, h⟩ <;> rcases hself' with h' | ⟨m', l', h'⟩ <;> rw [h, h'] at h2 <;>
      simp [Ty.erase] at h2
    · exact h2
    · exact h2.2
  have hidd : s.id = t.id := by rw [hid, hid', hr, h1, h3]
  obtain ⟨gs, as⟩ := generate_of_emitted hs
  obtain ⟨gt, at'⟩ := generate_of_emitted ht
  have := bound_unique (generated env lib) (generated_fun hitem) _ _ (generated_mem hf gs) (generated_mem hg gt)
    hidd as at'
  simp at this
  exact hne (hitem f hf g hg this.1)

end Verif.Ops

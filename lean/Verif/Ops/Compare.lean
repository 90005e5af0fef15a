import Verif.Ops.Impls
/-
C151-C152: comparisons.
-/
namespace Verif.Ops

/-- A parameter that is a value of, or a constant reference to, the class `r`, possibly through an
alias. -/
def Operand (t : Ty) (r : Nat) : Prop := t.erase = .record r ∨ t.erase = .ref false [] (.record r)

theorem erase_of_unalias {t : Ty} {r : Nat} (h : t.unalias = .record r) : t.erase = .record r := by
  induction t with
  | named n t ih => exact ih h
  | record _ => simpa [Ty.unalias, Ty.erase] using h
  | _ => simp [Ty.unalias] at h

theorem byValueOrConstRef_ok {p t : Ty} {r : Nat} (h : byValueOrConstRef p = (some (t, r), false)) :
    Operand p r ∧ t.erase = .record r := by
  unfold byValueOrConstRef at h
  split at h
  · split at h
    · rename_i hu
      simp at h
      obtain ⟨⟨rfl, rfl⟩, rfl⟩ := h
      have := erase_of_unalias hu
      exact ⟨Or.inr (by simp [Ty.erase, this]), this⟩
    · simp at h
  · split at h
    · rename_i hu
      simp at h
      obtain ⟨rfl, rfl⟩ := h
      have := erase_of_unalias hu
      exact ⟨Or.inl this, this⟩
    · simp at h

theorem shapeEq_ok {neg : Bool} {ps : List Ty} {s : Shape} (h : shapeEq neg ps = (some s, false)) :
    ∃ p q r r' t, ps = [p, q] ∧ s = .trait r (.partialEq t neg) none "eq" false true ∧
      Operand p r ∧ Operand q r' ∧ t.erase = .record r' := by
  unfold shapeEq at h
  split at h
  · rename_i p q
    split at h
    · rename_i t0 r e1 t r' e2 h1 h2
      simp at h
      obtain ⟨rfl, rfl, rfl⟩ := h
      exact ⟨p, q, r, r', t, rfl, rfl, (byValueOrConstRef_ok h1).1, (byValueOrConstRef_ok h2).1,
        (byValueOrConstRef_ok h2).2⟩
    · simp at h
  · simp at h

/-- A parameter that is a value of, or a reference of any kind but rvalue to, the class `r`. -/
def Mentions (t : Ty) (r : Nat) : Prop := t.erase = .record r ∨ ∃ m, t.erase = .ref m [] (.record r)

theorem byValueOrConstRef_mentions {p t : Ty} {r : Nat} {e : Bool} (h : byValueOrConstRef p = (some (t, r), e)) :
    Mentions p r ∧ t.erase = .record r := by
  unfold byValueOrConstRef at h
  split at h
  · split at h
    · rename_i hu
      simp at h
      obtain ⟨⟨rfl, rfl⟩, rfl⟩ := h
      have := erase_of_unalias hu
      exact ⟨Or.inr ⟨_, by rw [Ty.erase, this]⟩, this⟩
    · simp at h
  · split at h
    · rename_i hu
      simp at h
      obtain ⟨⟨rfl, rfl⟩, rfl⟩ := h
      have := erase_of_unalias hu
      exact ⟨Or.inl this, this⟩
    · simp at h

theorem shapeEq_mentions {neg e : Bool} {ps : List Ty} {s : Shape} (h : shapeEq neg ps = (some s, e)) :
    ∃ p q r r' t, ps = [p, q] ∧ s = .trait r (.partialEq t neg) none "eq" false true ∧
      Mentions p r ∧ Mentions q r' ∧ t.erase = .record r' := by
  unfold shapeEq at h
  split at h
  · rename_i p q
    split at h
    · rename_i t0 r e1 t r' e2 h1 h2
      simp at h
      obtain ⟨rfl, rfl⟩ := h
      exact ⟨p, q, r, r', t, rfl, rfl, (byValueOrConstRef_mentions h1).1, (byValueOrConstRef_mentions h2).1,
        (byValueOrConstRef_mentions h2).2⟩
    · simp at h
  · simp at h

theorem getEq_some {lib : List Func} {ps : List Ty} {s : Shape} (h : getEq lib ps = some s) :
    ∃ g ∈ lib, g.op = "==" ∧ g.fatal = false ∧ g.params = ps ∧ skipped g = false ∧
      shapeEq false ps = (some s, false) := by
  unfold getEq at h
  obtain ⟨g, hg, hgs⟩ := List.exists_of_findSome?_eq_some h
  rw [List.mem_filter] at hg
  obtain ⟨hgl, hgc⟩ := hg
  simp at hgc
  split at hgs
  · rename_i hp
    split at hgs
    · rename_i s' hs'
      simp at hgs; subst hgs
      unfold shapeOfEq at hs'
      split at hs'
      · simp at hs'
      · rename_i hsk
        refine ⟨g, hgl, hgc.1.1, hgc.1.2, hp, by simpa using hsk, by rw [← hp]; exact hs'⟩
    · simp at hgs
  · simp at hgs

theorem getEq_isSome {lib : List Func} {ps : List Ty} {g : Func} {s : Shape} (hg : g ∈ lib) (ho : g.op = "==")
    (hf : g.fatal = false) (hp : g.params = ps) (hsk : skipped g = false)
    (hs : shapeEq false ps = (some s, false)) : getEq lib ps = some s := by
  have hsg : shapeOfEq g = (some s, false) := by unfold shapeOfEq; rw [hsk, hp]; simpa using hs
  unfold getEq
  cases hq : (lib.filter fun g => g.op == "==" && !g.fatal && (shapeOfEq g).1.isSome).findSome? (fun g =>
    if g.params = ps then
      match shapeOfEq g with
      | (some s, false) => some s
      | _ => none
    else none) with
  | none =>
    rw [List.findSome?_eq_none_iff] at hq
    have := hq g (by rw [List.mem_filter]; exact ⟨hg, by simp [ho, hf, hsg]⟩)
    rw [if_pos hp, hsg] at this
    simp at this
  | some s' =>
    obtain ⟨g', _, hgs⟩ := List.exists_of_findSome?_eq_some hq
    split at hgs
    · rename_i hp'
      split at hgs
      · rename_i s'' hs'
        simp at hgs; subst hgs
        unfold shapeOfEq at hs'
        split at hs'
        · simp at hs'
        · rw [hp', hs] at hs'
          simp at hs'; rw [hs']
      · simp at hgs
    · simp at hgs

/-- The Rust expression `a == b` for values of classes `A` and `B` compiles, and runs the body generated for
the C++ function `f` (`neg`: with the result negated). -/
def RustEq (env : Env) (lib : List Func) (A B : Nat) (f : Func) (neg : Bool) : Prop :=
  f ∈ lib ∧ ∃ s m d fc t, emitted env lib f = some (s, true) ∧
    s = .trait A (.partialEq t neg) none m d fc ∧ t.erase = .record B

/-- C151: a Rust `==` that compiles is the C++ `==` for these classes, or, only when C++ has no usable `==` with
the same parameters, the negated C++ `!=`. Arguments are passed in order; copies are only made for parameters
that C++ takes by value. -/
theorem rust_eq_is_cpp_eq {V : Type} (clone : V → V) (den : V → V → Bool)
    (env : Env) (lib : List Func) (A B : Nat) (f : Func) (neg : Bool) (h : RustEq env lib A B f neg) :
    (∃ p q, f.params = [p, q] ∧ Operand p A ∧ Operand q B) ∧
    ((neg = false ∧ f.op = "==" ∧
        ((∀ v, clone v = v) → ∀ a b, eqBody clone den f.params neg a b = den a b)) ∨
     (neg = true ∧ f.op = "!=" ∧
        ((∀ v, clone v = v) → ∀ a b, eqBody clone den f.params neg a b = !(den a b)) ∧
        ∀ g ∈ lib, g.op = "==" → g.params = f.params → g.fatal = true ∨ skipped g = true)) := by
  obtain ⟨hf, s, m, d, fc, t, hem, rfl, ht⟩ := h
  obtain ⟨hgen, _⟩ := generate_of_emitted hem
  obtain ⟨_, e, hsh, hc, _⟩ := generate_some hgen
  have he : e = false := by
    cases e
    · rfl
    · simp at hc
  subst he
  have hpass : ∀ (t : Ty) (v : V), (∀ v, clone v = v) → passArg clone t v = v := by
    intro t v hcl; unfold passArg; split <;> simp [hcl]
  rcases shape_cases hsh with ⟨_, _, h1, ho, h2⟩ | ⟨_, _, h1, ho, h2⟩ | ⟨_, _, h1, _⟩ | ⟨_, _, h1, _⟩ | ⟨_, _, h1, _⟩ |
      ⟨_, h1, _⟩ | ⟨_, _, _, h1, _⟩ | ⟨_, _, _, h1, _⟩ | ⟨r', en, p, ps', impl', hl, hm, h1, _⟩
  all_goals try (simp at h1; done)
  · simp at h1
    obtain ⟨p, q, r, r', t', hp, hs, hop, hoq, ht'⟩ := shapeEq_ok h2
    simp at hs
    obtain ⟨rfl, ⟨rfl, rfl⟩, _⟩ := hs
    rw [ht] at ht'; simp at ht'; subst ht'
    refine ⟨⟨p, q, hp, hop, hoq⟩, Or.inl ⟨rfl, ho, fun hcl a b => ?_⟩⟩
    rw [hp]; simp [eqBody, hpass _ _ hcl]
  · simp at h1
    obtain ⟨p, q, r, r', t', hp, hs, hop, hoq, ht'⟩ := shapeEq_ok h2
    simp at hs
    obtain ⟨rfl, ⟨rfl, rfl⟩, _⟩ := hs
    rw [ht] at ht'; simp at ht'; subst ht'
    refine ⟨⟨p, q, hp, hop, hoq⟩, Or.inr ⟨rfl, ho, fun hcl a b => ?_, ?_⟩⟩
    · rw [hp]; simp [eqBody, hpass _ _ hcl]
    · intro g hg hgo hgp
      by_cases hfat : g.fatal = true
      · exact Or.inl hfat
      by_cases hsk : skipped g = true
      · exact Or.inr hsk
      exfalso
      have h2' : ∃ s', shapeEq false f.params = (some s', false) := by
        rw [hp] at h2 ⊢
        unfold shapeEq at h2 ⊢
        simp only at h2 ⊢
        split at h2
        · simp only [Prod.mk.injEq] at h2
          exact ⟨_, by rw [h2.2]⟩
        · simp at h2
      obtain ⟨s', hs'⟩ := h2'
      have hget := getEq_isSome hg hgo (by simpa using hfat) hgp (by simpa using hsk) hs'
      obtain ⟨_, _, _, _, _, _, hss, _⟩ := shapeEq_ok hs'
      unfold shape at hsh
      split at hsh
      · simp at hsh
      · rw [if_neg (by rw [ho]; decide)] at hsh
        try simp only [if_true, ho] at hsh
        unfold shapeNe at hsh
        rw [hget, hss] at hsh
        simp at hsh

/-- C151: for each pair of classes there is at most one Rust `==`, when parameters are written without
aliases. -/
theorem rust_eq_unique (env : Env) (lib : List Func)
    (hitem : ∀ f ∈ lib, ∀ g ∈ lib, f.item = g.item → f = g) (A B : Nat) (f g : Func) (n n' : Bool)
    (hal : ∀ f ∈ lib, ∀ p ∈ f.params, p.erase = .record B → p = .record B)
    (hal' : ∀ f ∈ lib, ∀ p ∈ f.params, p.erase = .ref false [] (.record B) → ∃ l, p = .ref false l (.record B))
    (hf : RustEq env lib A B f n) (hg : RustEq env lib A B g n') : f = g ∧ n = n' := by
  have plain : ∀ f n, RustEq env lib A B f n → ∃ s c m d fc, emitted env lib f = some (s, c) ∧
      s = .trait A (.partialEq (.record B) n) none m d fc := by
    intro f n h
    obtain ⟨hfl, s, m, d, fc, t, hem, rfl, ht⟩ := h
    refine ⟨_, _, m, d, fc, hem, ?_⟩
    obtain ⟨hgen, _⟩ := generate_of_emitted hem
    obtain ⟨_, e, hsh, hc, _⟩ := generate_some hgen
    have he : e = false := by
      cases e
      · rfl
      · simp at hc
    subst he
    have : ∃ neg, shapeEq neg f.params = (some (.trait A (.partialEq t n) none m d fc), false) := by
      rcases shape_cases hsh with ⟨_, _, h1, ho, h2⟩ | ⟨_, _, h1, ho, h2⟩ | ⟨_, _, h1, _⟩ | ⟨_, _, h1, _⟩ | ⟨_, _, h1, _⟩ |
        ⟨_, h1, _⟩ | ⟨_, _, _, h1, _⟩ | ⟨_, _, _, h1, _⟩ | ⟨r', en, p, ps', impl', hl, hm, h1, _⟩
      all_goals try (simp at h1; done)
      · exact ⟨_, h2⟩
      · exact ⟨_, h2⟩
    obtain ⟨neg, hse⟩ := this
    obtain ⟨p, q, r, r', t', hp, hs, hop, hoq, ht'⟩ := shapeEq_ok hse
    simp at hs
    obtain ⟨rfl, ⟨rfl, rfl⟩, rfl, rfl, rfl⟩ := hs
    rw [ht] at ht'; simp at ht'; subst ht'
    have htB : t = .record B := by
      rw [hp] at hse
      unfold shapeEq at hse
      simp only at hse
      split at hse
      · rename_i t0 r0 e1 t1 r1 e2 h1 h2
        simp at hse
        obtain ⟨⟨_, rfl⟩, rfl, rfl⟩ := hse
        rcases hoq with hq | hq
        · have := hal f hfl q (by rw [hp]; simp) hq
          subst this
          simp [byValueOrConstRef, Ty.unalias] at h2
          exact h2.1.symm
        · obtain ⟨l, rfl⟩ := hal' f hfl q (by rw [hp]; simp) hq
          simp [byValueOrConstRef, Ty.unalias] at h2
          exact h2.1.symm
      · simp at hse
    rw [htB]
  obtain ⟨s, c, m, d, fc, hs, rfl⟩ := plain f n hf
  obtain ⟨s', c', m', d', fc', hs', rfl⟩ := plain g n' hg
  have hfg : f = g := by
    by_cases e : f = g
    · exact e
    · exfalso
      refine no_conflicting_impls env lib hitem f g hf.1 hg.1 e _ _ _ _ _ _ hs hs' rfl rfl ?_ ?_ ⟨rfl, rfl, rfl⟩
      · intro p hp; simp [Trait.params] at hp; subst hp; rfl
      · intro p hp; simp [Trait.params] at hp; subst hp; rfl
  subst hfg
  rw [hs] at hs'
  simp at hs'
  exact ⟨rfl, hs'.1.1⟩

/-- C151: where C++ has a usable `==`, and no other function takes its place, Rust has that `==`. -/
theorem cpp_eq_reaches_rust (env : Env) (lib : List Func)
    (hitem : ∀ f ∈ lib, ∀ g ∈ lib, f.item = g.item → f = g) (f : Func) (hf : f ∈ lib) (ho : f.op = "==")
    (hfat : f.fatal = false) (hsoft : f.soft = false) (hsk : skipped f = false) (l l' : Name) (A B : Nat)
    (hp : f.params = [.ref false l (.record A), .ref false l' (.record B)])
    (halone : ∀ g ∈ lib, g.op = "==" ∨ g.op = "!=" → ∀ p q, g.params = [p, q] → Mentions p A → Mentions q B →
      g.params = f.params)
    (honly : ∀ g ∈ lib, g.op = "==" → g.params = f.params → g = f) :
    RustEq env lib A B f false := by
  have hse : shapeEq false f.params = (some (.trait A (.partialEq (.record B) false) none "eq" false true), false) := by
    rw [hp]; simp [shapeEq, byValueOrConstRef, Ty.unalias]
  have hsh : shape env lib f = (some (.trait A (.partialEq (.record B) false) none "eq" false true), false) := by
    unfold shape; rw [hsk, ho]; simpa using hse
  have hgen : generate env lib f = .some (.trait A (.partialEq (.record B) false) none "eq" false true) true := by
    unfold generate
    rw [hfat, hsh, hsoft]
    simp [Shape.isPartialOrd, Shape.isIndex, cloneErr, hp, Ty.unalias]
  have hamb : isAmbiguous (generated env lib) (.trait A "PartialEq" [.record B] "eq") f.item = false := by
    have hm := generated_mem hf hgen
    have := (bound_iff_canonical (generated env lib) (generated_fun hitem) _ hm).2 ?_
    · exact this
    · refine ⟨⟨hm, rfl⟩, ?_⟩
      rintro y ⟨hy, hyk⟩ hne
      exfalso
      unfold generated at hy
      rw [List.mem_filterMap] at hy
      obtain ⟨g, hg, hgy⟩ := hy
      split at hgy
      · rename_i s c hgs
        simp at hgy
        have hgf : g ≠ f := by
          rintro rfl
          rw [hgen] at hgs
          simp at hgs
          apply hne
          rw [← hgy, ← hgs.1]
        have hid : s.id = .trait A "PartialEq" [.record B] "eq" := by
          rw [← hgy] at hyk; exact hyk
        obtain ⟨hgfat, e, hgsh, _⟩ := generate_some hgs
        have hgop : g.op = "==" ∨ g.op = "!=" := by
          rcases shape_cases hgsh with ⟨_, _, h1, ho, h2⟩ | ⟨_, _, h1, ho, h2⟩ | ⟨_, _, h1, _⟩ | ⟨_, _, h1, _⟩ | ⟨_, _, h1, _⟩ |
            ⟨_, h1, _⟩ | ⟨_, _, _, h1, _⟩ | ⟨_, _, _, h1, _⟩ | ⟨r', en, p, ps', impl', hl, hm, h1, _⟩
          · exact Or.inl ho
          · exact Or.inr ho
          all_goals exfalso
          all_goals (rw [h1] at hid; simp [Shape.id, Trait.name] at hid)
          have htab : ∀ en ∈ entries, "::core::ops::" ++ en.traitName ≠ "PartialEq" := by decide +kernel
          exact htab en (lookup_some hl).1 hid.2.1
        by_cases hpp : g.params = f.params
        · rcases hgop with hgo | hgo
          · exact hgf (honly g hg hgo hpp)
          · have hget := getEq_isSome hf ho hfat rfl hsk hse
            unfold shape at hgsh
            split at hgsh
            · simp at hgsh
            · rw [if_neg (by rw [hgo]; decide)] at hgsh
              try simp only [if_true, hgo] at hgsh
              unfold shapeNe at hgsh
              rw [hpp, hget] at hgsh
              simp at hgsh
        · have : ∃ neg, shapeEq neg g.params = (some s, e) := by
            unfold shape at hgsh
            split at hgsh
            · simp at hgsh
            · rcases hgop with hgo | hgo
              · simp only [if_true, hgo] at hgsh; exact ⟨_, hgsh⟩
              · rw [if_neg (by rw [hgo]; decide)] at hgsh
                try simp only [if_true, hgo] at hgsh
                unfold shapeNe at hgsh
                split at hgsh
                · simp at hgsh
                · exact ⟨_, hgsh⟩
          obtain ⟨neg, hse'⟩ := this
          obtain ⟨p, q, r, r', t, hpq, hs, hmp, hmq, ht⟩ := shapeEq_mentions hse'
          rw [hs] at hid
          simp [Shape.id, Trait.name, Trait.params] at hid
          obtain ⟨rfl, rfl⟩ := hid
          simp [Ty.erase] at ht
          subst ht
          exact hpp (halone g hg hgop p q hpq hmp hmq)
      · simp at hgy
  refine ⟨hf, _, "eq", false, true, .record B, ?_, rfl, rfl⟩
  unfold emitted
  rw [hgen]
  simp only [Shape.id, Trait.name, Trait.params, hamb]
  simp

/-! ### Ordering -/

/-- C152: Rust's `<`, `<=`, `>`, `>=`, `==`, `!=` and `partial_cmp` fit together as documented if and only if the C++
operators never say both `a == b` and `a < b`. -/
theorem contract_iff {V : Type} (eq lt : V → V → Bool) :
    Contract V eq (rustNe eq) lt (rustLe (partialCmp eq lt)) (rustGt (partialCmp eq lt))
      (rustGe (partialCmp eq lt)) (partialCmp eq lt) ↔ ∀ a b, ¬ (eq a b = true ∧ lt a b = true) := by
  constructor
  · intro h a b ⟨h1, h2⟩
    have := (h.lt_iff a b).1 h2
    simp [partialCmp, h1] at this
  · intro h
    have key : ∀ a b, eq a b = true → lt a b = false := by
      intro a b h1
      cases h2 : lt a b
      · rfl
      · exact absurd ⟨h1, h2⟩ (h a b)
    constructor
    all_goals intro a b
    all_goals
      simp only [rustNe, rustLe, rustGt, rustGe, partialCmp]
      have := key a b
      cases h1 : eq a b <;> cases h2 : lt a b <;> cases h3 : lt b a <;> simp_all

/-- C152: and `a < b` is the same as `b > a` in Rust if and only if the C++ `<` excludes both its converse and the
converse equality. -/
theorem dual_iff {V : Type} (eq lt : V → V → Bool) :
    Dual V lt (rustGt (partialCmp eq lt)) ↔ ∀ a b, lt a b = true → eq b a = false ∧ lt b a = false := by
  constructor
  · intro h a b hab
    have := (h a b).1 hab
    simp only [rustGt, partialCmp] at this
    cases h1 : eq b a <;> cases h2 : lt b a <;> simp_all
  · intro h a b
    have := h a b
    simp only [rustGt, partialCmp]
    cases h0 : lt a b <;> cases h1 : eq b a <;> cases h2 : lt b a <;> simp_all

/-- C152: when the C++ `<` is a strict total order that goes with `==` as equality of values, Rust's comparison
is that order: it never answers "not comparable", and `a > b`, `a <= b`, `a >= b` mean `b < a`, not `b < a`, not
`a < b`. -/
theorem total_order {V : Type} (eq lt : V → V → Bool)
    (heq : ∀ a b, eq a b = true ↔ a = b) (hirr : ∀ a, lt a a = false)
    (htrans : ∀ a b c, lt a b = true → lt b c = true → lt a c = true)
    (htri : ∀ a b, lt a b = true ∨ a = b ∨ lt b a = true) (a b : V) :
    partialCmp eq lt a b ≠ none ∧ (rustGt (partialCmp eq lt) a b = lt b a) ∧
    (rustLe (partialCmp eq lt) a b = !(lt b a)) ∧ (rustGe (partialCmp eq lt) a b = !(lt a b)) := by
  have hasym : lt a b = true → lt b a = false := by
    intro h
    cases h2 : lt b a
    · rfl
    · have := htrans _ _ _ h h2; rw [hirr] at this; exact absurd this (by simp)
  have h1 := heq a b
  have h2 := htri a b
  have h3 : a = b → lt a b = false ∧ lt b a = false := by rintro rfl; exact ⟨hirr _, hirr _⟩
  simp only [rustGt, rustLe, rustGe, partialCmp]
  cases he : eq a b <;> cases hl : lt a b <;> cases hr : lt b a <;> simp_all

/-- C152: values that C++ orders neither way are "not comparable" in Rust, unless they are equal. -/
theorem none_iff {V : Type} (eq lt : V → V → Bool) (a b : V) :
    partialCmp eq lt a b = none ↔ eq a b = false ∧ lt a b = false ∧ lt b a = false := by
  simp only [partialCmp]
  cases eq a b <;> cases lt a b <;> cases lt b a <;> simp

theorem constRef_of_ok {p : Ty} {x : Ty × Nat} (h : byValueOrConstRef p = (some x, false)) : constRef p = p := by
  cases p with
  | ref m l t =>
    simp only [byValueOrConstRef] at h
    split at h
    · simp at h; rw [h.2]; rfl
    · simp at h
  | _ => rfl

/-- C152: ordering is offered only for two operands of one class, and only beside an `operator==` with the same
parameters that gets a binding for that class. -/
theorem partialOrd_has_eq (env : Env) (lib : List Func) (f : Func) (s : Shape) (c : Bool)
    (h : emitted env lib f = some (s, c)) (hpo : s.isPartialOrd = true) :
    c = true ∧ f.op = "<" ∧ ∃ A p q t, f.params = [p, q] ∧ Operand p A ∧ Operand q A ∧
      s = .trait A (.partialOrd t) none "lt" false true ∧ t.erase = .record A ∧
      ∃ g ∈ lib, g.op = "==" ∧ g.params = f.params ∧
        generate env lib g = .some (.trait A (.partialEq t false) none "eq" false true) (!g.soft) := by
  obtain ⟨hgen, _⟩ := generate_of_emitted h
  obtain ⟨_, e, hsh, hc, hct⟩ := generate_some hgen
  have hct := hct hpo
  subst hct
  have he : e = false := by
    cases e
    · rfl
    · simp at hc
  subst he
  rcases shape_cases hsh with ⟨_, _, h1, _⟩ | ⟨_, _, h1, _⟩ | ⟨A, t, h1, ho, h2⟩ | ⟨_, _, h1, _⟩ | ⟨_, _, h1, _⟩ |
      ⟨_, h1, _⟩ | ⟨_, _, _, h1, _⟩ | ⟨_, _, _, h1, _⟩ | ⟨r', en, p, ps', impl', hl, hm, h1, _⟩
  all_goals try (rw [h1] at hpo; simp [Shape.isPartialOrd] at hpo; done)
  refine ⟨rfl, ho, ?_⟩
  subst h1
  unfold shapeLt at h2
  split at h2
  · rename_i p q hpq
    split at h2
    · rename_i t0 l e1 t1 r e2 hp hq
      split at h2
      · simp at h2
      · rename_i hlr
        have hlr : l = r := by simpa using hlr
        subst hlr
        simp at h2
        obtain ⟨⟨rfl, rfl⟩, ⟨rfl, rfl⟩, hmiss⟩ := h2
        rw [constRef_of_ok hp, constRef_of_ok hq] at hmiss
        split at hmiss
        · rename_i hget
          obtain ⟨g, hg, hgo, hgf, hgp, hgs, hse⟩ := getEq_some hget
          obtain ⟨p', q', r, r', t', hpq', hs, hop, hoq, ht'⟩ := shapeEq_ok hse
          simp at hs
          obtain ⟨rfl, ⟨rfl, rfl⟩, rfl, rfl, rfl, rfl⟩ := hs
          have hp2 := byValueOrConstRef_ok hp
          have hq2 := byValueOrConstRef_ok hq
          have hrt : (some (Shape.trait l (.partialEq t1 false) none "eq" false true), false) = shapeEq false [p, q] := by
            simp [shapeEq, hp, hq]
          rw [hse] at hrt
          simp at hrt
          obtain ⟨rfl, rfl⟩ := hrt
          refine ⟨l, p, q, t1, hpq, hp2.1, hq2.1, rfl, hq2.2, g, hg, hgo, by rw [hgp, hpq], ?_⟩
          have hgsh : shape env lib g = (some (.trait l (.partialEq t1 false) none "eq" false true), false) := by
            unfold shape; rw [hgs, hgo, hgp]; simpa using hse
          have hcl : cloneErr env g.params true = false := by
            rw [hgp]
            rw [hpq] at hc
            simp [Shape.forceConst] at hc
            exact hc.2
          unfold generate
          rw [hgf, hgsh]
          simp [Shape.isPartialOrd, Shape.isIndex, Shape.forceConst, hcl]
        · simp at hmiss
    · simp at h2
  · simp at h2

/-! ### Where the generated code is not what one would like -/

/-- A C++ operator in a namespace, with everything else unremarkable. -/
def freeOp (item : Nat) (op : String) (params : List Ty) : Func :=
  { item, op, params, names := [['a'], ['b']], ccRet := ⟨false, false, false⟩, ret := .prim 0, method := none,
    rvalueThis := false, parent := .none, adlRecord := none, deprecated := false, fatal := false, soft := false }

/-- Classes that can be moved and copied. -/
def plainEnv : Env := ⟨fun _ => true, fun _ => true, fun _ => false⟩

/-- `const A&` with the lifetime left out. -/
def cref (r : Nat) : Ty := .ref false ['_'] (.record r)

/-- A library with `==` and `<` for class 1 and `!=` for class 2: all are bound. -/
theorem compare_example :
    let lib := [freeOp 1 "==" [cref 1, cref 1], freeOp 2 "!=" [cref 1, cref 1], freeOp 3 "<" [cref 1, cref 1],
      freeOp 4 "!=" [.record 2, cref 1], freeOp 5 "+" [cref 1, cref 2]]
    RustEq plainEnv lib 1 1 (freeOp 1 "==" [cref 1, cref 1]) false ∧
    emitted plainEnv lib (freeOp 2 "!=" [cref 1, cref 1]) = none ∧
    emitted plainEnv lib (freeOp 3 "<" [cref 1, cref 1]) =
      some (.trait 1 (.partialOrd (.record 1)) none "lt" false true, true) ∧
    RustEq plainEnv lib 2 1 (freeOp 4 "!=" [.record 2, cref 1]) true ∧
    emitted plainEnv lib (freeOp 5 "+" [cref 1, cref 2]) =
      some (.trait 1 (.other "::core::ops::Add" [cref 2]) (some (cref 1)) "add" false false, true) := by
  refine ⟨⟨by simp, .trait 1 (.partialEq (.record 1) false) none "eq" false true, "eq", false, true, .record 1, ?_, rfl, rfl⟩,
    ?_, ?_, ⟨by simp, .trait 2 (.partialEq (.record 1) true) none "eq" false true, "eq", false, true, .record 1, ?_, rfl, rfl⟩, ?_⟩
  all_goals decide +kernel

/-- C151, disagreement: `operator==(const A&, const A&)` next to `operator!=(A, A)` makes both disappear from Rust. -/
theorem mixed_params_lose_both :
    let lib := [freeOp 1 "==" [cref 1, cref 1], freeOp 2 "!=" [.record 1, .record 1]]
    ∀ f ∈ lib, emitted plainEnv lib f = none := by decide +kernel

/-- C152, disagreement: with an `operator<` as well, Rust gets an `impl PartialOrd` for a class without any
`impl PartialEq`, which the Rust compiler rejects. -/
theorem partialOrd_without_partialEq :
    let lib := [freeOp 1 "==" [cref 1, cref 1], freeOp 2 "!=" [.record 1, .record 1], freeOp 3 "<" [cref 1, cref 1]]
    (∃ s, emitted plainEnv lib (freeOp 3 "<" [cref 1, cref 1]) = some (s, true) ∧ s.isPartialOrd = true) ∧
    ∀ f n, ¬ RustEq plainEnv lib 1 1 f n := by
  refine ⟨⟨.trait 1 (.partialOrd (.record 1)) none "lt" false true, by decide +kernel, rfl⟩, ?_⟩
  rintro f n ⟨hf, s, m, d, fc, t, hem, rfl, _⟩
  have h12 : ∀ f ∈ [freeOp 1 "==" [cref 1, cref 1], freeOp 2 "!=" [.record 1, .record 1], freeOp 3 "<" [cref 1, cref 1]],
      f.op = "<" ∨ emitted plainEnv [freeOp 1 "==" [cref 1, cref 1], freeOp 2 "!=" [.record 1, .record 1],
        freeOp 3 "<" [cref 1, cref 1]] f = none := by decide +kernel
  rcases h12 f hf with h | h
  · have := (operator_symbol hem).2.1 _ _ _ _ _ _ _ rfl
    rw [h] at this
    cases n <;> simp at this
  · rw [hem] at h; simp at h

/-- C151, disagreement: with `using B = A`, `operator==(const A&, const A&)` and `operator!=(const B&, const B&)`
are both bound, as `impl PartialEq for A` and `impl PartialEq<B> for A`: conflicting impls, the crate does not compile. -/
theorem alias_conflict :
    let f := freeOp 1 "==" [cref 1, cref 1]
    let g := freeOp 2 "!=" [.ref false ['_'] (.named 7 (.record 1)), .ref false ['_'] (.named 7 (.record 1))]
    ∃ s t a b, emitted plainEnv [f, g] f = some (s, true) ∧ emitted plainEnv [f, g] g = some (t, true) ∧
      s.header = some a ∧ t.header = some b ∧ a.Conflict b := by
  refine ⟨.trait 1 (.partialEq (.record 1) false) none "eq" false true,
    .trait 1 (.partialEq (.named 7 (.record 1)) true) none "eq" false true, _, _, by decide +kernel, by decide +kernel,
    rfl, rfl, ?_⟩
  exact ⟨rfl, rfl, rfl⟩

end Verif.Ops

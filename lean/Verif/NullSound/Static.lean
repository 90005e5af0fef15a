import Verif.NullSound.Facts
/- Facts for C121-C125: every step of the checker mentions old numbers and new ones only, and loses no diagnostic. -/
namespace Verif.NullSound
open NullFlow (Formula Solver Status)

theorem Grow.assume' {a b : St} (h : Grow a b) {f : Formula}
    (hf : ∀ P : Nat → Prop, P 0 → P 1 → (∀ x, a.n ≤ x → x < b.n → P x) → EIn P a.env → FIn P f) : Grow a (b.assume f) where
  le := h.le
  ds := h.ds
  len := h.len
  vals := h.vals
  fc := fun P p0 p1 hp he h' => FIn.and.2 ⟨h.fc P p0 p1 hp he h', hf P p0 p1 hp he⟩

theorem Grow.set' {a b : St} (h : Grow a b) {v : PVal} (hv : VGrow a b v) (x : Nat) : Grow a { b with env := b.env.set x v } where
  le := h.le
  ds := h.ds
  len := by simpa [Env.set] using h.len
  vals := fun P p0 p1 hp he => (h.vals P p0 p1 hp he).set (hv P p0 p1 hp he) x
  fc := h.fc

theorem Grow.next' {a b : St} (h : Grow a b) {m : Nat} (hm : b.n ≤ m) : Grow a { b with n := m } := h.trans (Grow.next b hm)

theorem Grow.report' {a b : St} (h : Grow a b) (c : Bool) (w : Fault) : Grow a (b.report c w) := h.trans (Grow.report b c w)

/-- A step that gives a value. -/
structure VG (a : St) (r : PVal × St) : Prop where
  g : Grow a r.2
  v : VGrow a r.2 r.1

theorem vgrow_null (a b : St) : VGrow a b nullVal := fun _ p0 _ _ _ => VIn.nullVal p0

theorem VG.seq {a b : St} (h : Grow a b) {r : PVal × St} (hr : VG b r) : VG a r :=
  ⟨h.trans hr.g, VGrow.earlier h hr.g hr.v⟩

theorem VG.report {a b : St} {v : PVal} (h : VG a (v, b)) (c : Bool) (w : Fault) : VG a (v, b.report c w) :=
  ⟨h.g.report' c w, h.v.later (Grow.report b c w)⟩

theorem vg_fromKind (st : St) (k : Kind) : VG st (st.fromKind k) := by
  cases k <;> refine ⟨Grow.next st (Nat.le_succ _), fun P p0 p1 hp he => ⟨hp _ (Nat.le_refl _) (Nat.lt_succ_self _), ?_, ?_⟩⟩ <;>
    simp [St.fromKind] <;> exact hp _ (Nat.le_refl _) (Nat.lt_succ_self _)

theorem freshIfTop_le (o : Option Formula) (n : Nat) : n ≤ (freshIfTop o n).2 := by cases o <;> simp [freshIfTop]

theorem freshIfTop_in (o : Option Formula) (n m : Nat) (hm : (freshIfTop o n).2 ≤ m) {P : Nat → Prop} (hp : ∀ a, n ≤ a → a < m → P a) (ho : OIn P o) :
    FIn P (freshIfTop o n).1 := by
  cases o with
  | none => simp [freshIfTop] at hm ⊢; exact hp n (Nat.le_refl _) (by omega)
  | some f => simpa [freshIfTop] using ho

theorem vg_unpack (st : St) (x : Nat) : VG st (st.unpack x) := by
  unfold St.unpack
  simp only
  split
  · exact ⟨Grow.refl st, fun P p0 _ _ he => he.get p0 x⟩
  · have h1 := freshIfTop_le (st.env.get x).fn st.n
    have h2 := freshIfTop_le (st.env.get x).nl (freshIfTop (st.env.get x).fn st.n).2
    have hv : ∀ P : Nat → Prop, P 0 → (∀ a, st.n ≤ a → a < (freshIfTop (st.env.get x).nl (freshIfTop (st.env.get x).fn st.n).2).2 → P a) → EIn P st.env →
        VIn P ⟨(st.env.get x).loc, some (freshIfTop (st.env.get x).fn st.n).1, some (freshIfTop (st.env.get x).nl (freshIfTop (st.env.get x).fn st.n).2).1⟩ := by
      intro P p0 hp he
      have hx := he.get p0 x
      refine ⟨hx.loc, OIn.some.2 (freshIfTop_in _ _ _ h2 hp hx.fn), OIn.some.2 (freshIfTop_in _ _ _ (Nat.le_refl _) (fun a ha hb => hp a (Nat.le_trans h1 ha) hb) hx.nl)⟩
    exact ⟨⟨Nat.le_trans h1 h2, fun _ h => h, by simp [Env.set], fun P p0 _ hp he => he.set (hv P p0 hp he) x, fun _ _ _ _ _ h => h⟩,
      fun P p0 _ hp he => hv P p0 hp he⟩

theorem vg_operand (s : Solver) (d : Decls) (st : St) (o : Operand) : VG st (operand s d st o) := by
  cases o with
  | var x => exact (vg_unpack st x).report _ _
  | null => exact ⟨Grow.refl st, vgrow_null _ _⟩
  | obj => exact vg_fromKind st .nonnull

theorem grow_argVals (s : Solver) (d : Decls) (as : List Arg) : ∀ st : St, Grow st (argVals s d st as).2 := by
  induction as with
  | nil => exact fun st => Grow.refl st
  | cons a as ih =>
    intro st
    cases a with
    | val o k => exact (vg_operand s d st o).g.trans (ih _)
    | out x k => exact ih st

theorem grow_reportArgs (s : Solver) (vs : List (PVal × Kind)) : ∀ st : St, Grow st (reportArgs s st vs) := by
  induction vs with
  | nil => exact fun st => Grow.refl st
  | cons a vs ih => exact fun st => (Grow.report st _ _).trans (ih _)

theorem grow_outParams (as : List Arg) : ∀ st : St, Grow st (outParams st as) := by
  induction as with
  | nil => exact fun st => Grow.refl st
  | cons a as ih =>
    intro st
    cases a with
    | val o k => exact ih st
    | out x k =>
      unfold outParams
      split
      · exact Grow.trans ((vg_fromKind st .unspecified).g.set' (vg_fromKind st .unspecified).v x) (ih _)
      · exact ih st

theorem vg_valueOrArg {a : St} (s : Solver) (st : St) (o : Operand) (v : PVal) (g : Grow a st) (hv : VGrow a st v) : VG a (valueOrArg s st o v) := by
  unfold valueOrArg
  split
  · split
    · exact ⟨g, vgrow_null _ _⟩
    · exact VG.seq g (vg_fromKind st .unspecified)
  · exact ⟨g, hv⟩

theorem grow_eitherProp {a : St} (st : St) (ok : Formula) (f h : Option Formula) (g : Grow a st)
    (hok : ∀ P : Nat → Prop, P 0 → P 1 → (∀ x, a.n ≤ x → x < st.n → P x) → EIn P a.env → FIn P ok)
    (hf : ∀ P : Nat → Prop, P 0 → P 1 → (∀ x, a.n ≤ x → x < st.n → P x) → EIn P a.env → OIn P f)
    (hh : ∀ P : Nat → Prop, P 0 → P 1 → (∀ x, a.n ≤ x → x < st.n → P x) → EIn P a.env → OIn P h) :
    Grow a (eitherProp st ok f h).2 ∧ st.n ≤ (eitherProp st ok f h).2.n ∧
      ∀ P : Nat → Prop, P 0 → P 1 → (∀ x, a.n ≤ x → x < (eitherProp st ok f h).2.n → P x) → EIn P a.env → OIn P (eitherProp st ok f h).1 := by
  unfold eitherProp
  split
  · rename_i f h
    have key : ∀ P : Nat → Prop, P 0 → P 1 → (∀ x, a.n ≤ x → x < st.n + 1 → P x) → EIn P a.env → FIn P ok ∧ FIn P f ∧ FIn P h ∧ P st.n := by
      intro P p0 p1 hp he
      have hp' : ∀ x, a.n ≤ x → x < st.n → P x := fun x h1 h2 => hp x h1 (by omega)
      exact ⟨hok P p0 p1 hp' he, OIn.some.1 (hf P p0 p1 hp' he), OIn.some.1 (hh P p0 p1 hp' he), hp _ g.le (by omega)⟩
    refine ⟨(Grow.assume' (g.next' (Nat.le_succ _)) fun P p0 p1 hp he => ?_).assume' fun P p0 p1 hp he => ?_, Nat.le_succ _, fun P p0 p1 hp he => ?_⟩
    · have := key P p0 p1 hp he; simp [this]
    · have := key P p0 p1 hp he; simp [this]
    · have := key P p0 p1 hp he; simp [this]
  · exact ⟨g, Nat.le_refl _, fun _ _ _ _ _ => OIn.none _⟩

theorem grow_ppc {a : St} (st : St) (cf : Formula) (l r : Option Formula) (neg : Bool) (g : Grow a st)
    (hcf : ∀ P : Nat → Prop, P 0 → P 1 → (∀ x, a.n ≤ x → x < st.n → P x) → EIn P a.env → FIn P cf)
    (hl : ∀ P : Nat → Prop, P 0 → P 1 → (∀ x, a.n ≤ x → x < st.n → P x) → EIn P a.env → OIn P l)
    (hr : ∀ P : Nat → Prop, P 0 → P 1 → (∀ x, a.n ≤ x → x < st.n → P x) → EIn P a.env → OIn P r) :
    Grow a (processPointerComparison st cf l r neg).2 ∧ st.n ≤ (processPointerComparison st cf l r neg).2.n ∧
      ∀ P : Nat → Prop, P 0 → P 1 → (∀ x, a.n ≤ x → x < (processPointerComparison st cf l r neg).2.n → P x) → EIn P a.env →
        OIn P (processPointerComparison st cf l r neg).1 := by
  unfold processPointerComparison
  split
  · rename_i l r
    split
    · refine ⟨g, Nat.le_refl _, fun P p0 p1 hp he => ?_⟩
      have := hr P p0 p1 hp he
      cases neg <;> simpa using this
    · split
      · refine ⟨g, Nat.le_refl _, fun P p0 p1 hp he => ?_⟩
        have := hl P p0 p1 hp he
        cases neg <;> simpa using this
      · have key : ∀ P : Nat → Prop, P 0 → P 1 → (∀ x, a.n ≤ x → x < st.n → P x) → EIn P a.env → FIn P cf ∧ FIn P l ∧ FIn P r :=
          fun P p0 p1 hp he => ⟨hcf P p0 p1 hp he, OIn.some.1 (hl P p0 p1 hp he), OIn.some.1 (hr P p0 p1 hp he)⟩
        refine ⟨((g.assume' fun P p0 p1 hp he => ?_).assume' fun P p0 p1 hp he => ?_).assume' fun P p0 p1 hp he => ?_, Nat.le_refl _, fun _ _ _ _ _ => OIn.none _⟩ <;>
          (have := key P p0 p1 hp he; cases neg <;> simp [this])
  · refine ⟨g.next' (Nat.le_succ _), Nat.le_succ _, fun P p0 p1 hp he => ?_⟩
    simp
    exact hp _ g.le (Nat.lt_succ_self _)

theorem vg_rhs (s : Solver) (d : Decls) (st : St) (r : Rhs) : VG st (rhs s d st r) := by
  cases r with
  | use o => exact vg_operand s d st o
  | call as k =>
    simp only [rhs]
    have g1 := grow_argVals s d as st
    have g2 := g1.trans (grow_reportArgs s (argVals s d st as).1 (argVals s d st as).2)
    have v3 := VG.seq g2 (vg_fromKind _ k)
    exact ⟨v3.g.trans (grow_outParams as _), v3.v.later (grow_outParams as _)⟩
  | cast o =>
    simp only [rhs]
    have h := vg_operand s d st o
    refine ⟨h.g.next' (Nat.le_succ _), fun P p0 p1 hp he => ?_⟩
    have hv := h.v P p0 p1 (fun x h1 h2 => hp x h1 (by show x < (operand s d st o).2.n + 1; omega)) he
    exact ⟨hp _ h.g.le (Nat.lt_succ_self _), hv.fn, hv.nl⟩
  | offset o zero =>
    simp only [rhs]
    exact VG.seq ((vg_operand s d st o).g.report' _ _) (vg_fromKind _ _)
  | release x =>
    simp only [rhs]
    have h := vg_operand s d st (.var x)
    exact ⟨h.g.set' (vgrow_null _ _) x, h.v⟩
  | spCast x dyn =>
    simp only [rhs]
    have h := vg_operand s d st (.var x)
    generalize operand s d st (.var x) = R at h ⊢
    obtain ⟨v, st1⟩ := R
    have hg : Grow st { st1 with n := st1.n + 2 } := h.g.next' (by show st1.n ≤ st1.n + 2; omega)
    have key : ∀ P : Nat → Prop, P 0 → P 1 → (∀ x, st.n ≤ x → x < st1.n + 2 → P x) → EIn P st.env → OIn P v.fn ∧ OIn P v.nl ∧ P st1.n ∧ P (st1.n + 1) := by
      intro P p0 p1 hp he
      have hv := h.v P p0 p1 (fun x h1 (h2 : x < st1.n) => hp x h1 (by omega)) he
      have := h.g.le
      exact ⟨hv.fn, hv.nl, hp _ this (by omega), hp _ (by have : st.n ≤ st1.n := this; omega) (by omega)⟩
    have hvg : ∀ st2 : St, st2.n = st1.n + 2 → VGrow st st2 ⟨st1.n, some (.atom st1.n), some (.atom (st1.n + 1))⟩ := by
      intro st2 h2 P p0 p1 hp he
      have := key P p0 p1 (by rw [← h2]; exact hp) he
      exact ⟨this.2.2.1, by simp [this], by simp [this]⟩
    rcases hvn : v.nl with _ | f <;> rcases hvf : v.fn with _ | f' <;> rw [hvn, hvf] at key <;> cases dyn <;>
      simp only [if_true, if_false, Bool.false_eq_true] <;>
      refine ⟨?_, hvg _ rfl⟩ <;>
      first
      | exact hg
      | (refine hg.assume' fun P p0 p1 hp he => ?_; have := key P p0 p1 hp he; simp at this; simp [this]; done)
      | (refine (hg.assume' fun P p0 p1 hp he => ?_).assume' fun P p0 p1 hp he => ?_ <;> (have := key P p0 p1 hp he; simp at this; simp [this]))
  | valueOr k o =>
    simp only [rhs]
    have h1 := vg_operand s d st o
    generalize operand s d st o = R at h1 ⊢
    obtain ⟨a, st1⟩ := R
    have h2 := VG.seq h1.g (vg_fromKind st1 k)
    have h2' := (vg_fromKind st1 k).g
    generalize st1.fromKind k = R at h2 h2' ⊢
    obtain ⟨r, st2⟩ := R
    have h3 := vg_valueOrArg s st2 o a h2.g (h1.v.later h2')
    have h3' : st2.n ≤ (valueOrArg s st2 o a).2.n := by unfold valueOrArg; split <;> (try split) <;> simp
    generalize valueOrArg s st2 o a = R at h3 h3' ⊢
    obtain ⟨a', st3⟩ := R
    simp only at h3 h3' h2 ⊢
    have g4 : Grow st { st3 with n := st3.n + 1 } := h3.g.next' (Nat.le_succ _)
    have c1 := grow_eitherProp { st3 with n := st3.n + 1 } (.atom st3.n) r.fn a'.fn g4
      (fun P p0 p1 hp he => FIn.atom.2 (hp _ h3.g.le (Nat.lt_succ_self _)))
      (fun P p0 p1 hp he => (h2.v P p0 p1 (fun x x1 x2 => hp x x1 (by simp only at x2 ⊢; omega)) he).fn)
      (fun P p0 p1 hp he => (h3.v P p0 p1 (fun x x1 x2 => hp x x1 (by simp only at x2 ⊢; omega)) he).fn)
    generalize eitherProp { st3 with n := st3.n + 1 } (.atom st3.n) r.fn a'.fn = R at c1 ⊢
    obtain ⟨fn, st5⟩ := R
    obtain ⟨g5, l5, w5⟩ := c1
    simp only at g5 l5 w5 ⊢
    have c2 := grow_eitherProp st5 (.atom st3.n) r.nl a'.nl g5
      (fun P p0 p1 hp he => FIn.atom.2 (hp _ h3.g.le (by omega)))
      (fun P p0 p1 hp he => (h2.v P p0 p1 (fun x x1 x2 => hp x x1 (by simp only at x2; omega)) he).nl)
      (fun P p0 p1 hp he => (h3.v P p0 p1 (fun x x1 x2 => hp x x1 (by simp only at x2; omega)) he).nl)
    generalize eitherProp st5 (.atom st3.n) r.nl a'.nl = R at c2 ⊢
    obtain ⟨nl, st6⟩ := R
    obtain ⟨g6, l6, w6⟩ := c2
    simp only at g6 l6 w6 ⊢
    refine ⟨g6, fun P p0 p1 hp he => ⟨?_, ?_, ?_⟩⟩
    · exact (h2.v P p0 p1 (fun x x1 x2 => hp x x1 (by simp only at x2 ⊢; omega)) he).loc
    · exact w5 P p0 p1 (fun x x1 x2 => hp x x1 (by simp only; omega)) he
    · exact w6 P p0 p1 hp he
  | checkNe o1 o2 =>
    simp only [rhs]
    have h1 := vg_operand s d st o1
    generalize operand s d st o1 = R at h1 ⊢
    obtain ⟨v1, st1⟩ := R
    have h2 := VG.seq h1.g (vg_operand s d st1 o2)
    have h2' := (vg_operand s d st1 o2).g
    generalize operand s d st1 o2 = R at h2 h2' ⊢
    obtain ⟨v2, st2⟩ := R
    have h3 := VG.seq h2.g (vg_fromKind st2 .nullable)
    have h3' := (vg_fromKind st2 .nullable).g
    have h3n : (st2.fromKind .nullable).2.n = st2.n + 1 := rfl
    generalize st2.fromKind .nullable = R at h3 h3' h3n ⊢
    obtain ⟨r, st3⟩ := R
    simp only at h1 h2 h2' h3 h3' h3n ⊢
    have c := grow_ppc st3 (.atom st2.n) v1.nl v2.nl true h3.g
      (fun P p0 p1 hp he => FIn.atom.2 (hp _ h2.g.le (by omega)))
      (fun P p0 p1 hp he => (((h1.v.later h2').later h3') P p0 p1 hp he).nl)
      (fun P p0 p1 hp he => ((h2.v.later h3') P p0 p1 hp he).nl)
    generalize processPointerComparison st3 (.atom st2.n) v1.nl v2.nl true = R at c ⊢
    obtain ⟨res, st4⟩ := R
    obtain ⟨g4, l4, w4⟩ := c
    simp only at g4 l4 w4 ⊢
    have hv : ∀ st5 : St, st5.n = st4.n → VGrow st st5 r := fun st5 h5 P p0 p1 hp he => h3.v P p0 p1 (fun x x1 x2 => hp x x1 (by simp only at x2; omega)) he
    cases res with
    | none => exact ⟨g4, hv _ rfl⟩
    | some f =>
      refine ⟨g4.assume' fun P p0 p1 hp he => ?_, hv _ rfl⟩
      have := w4 P p0 p1 hp he
      simp at this ⊢
      have hlt := h2.g.le
      simp only at hlt
      exact ⟨this, hp _ hlt (by omega)⟩

/-! ### Join and widening -/

theorem mergeFormulas_in (s : Solver) (e1 e2 : Env) (n : Nat) (fc : Formula) (b1 b2 : Option Formula) :
    n ≤ (mergeFormulas s e1 e2 n fc b1 b2).2.1 ∧ ∀ P : Nat → Prop, (∀ a, n ≤ a → a < (mergeFormulas s e1 e2 n fc b1 b2).2.1 → P a) →
      (OIn P b1 → OIn P (mergeFormulas s e1 e2 n fc b1 b2).1) ∧
      (OIn P b1 → OIn P b2 → FIn P e1.fc → FIn P e2.fc → FIn P fc → FIn P (mergeFormulas s e1 e2 n fc b1 b2).2.2) := by
  unfold mergeFormulas
  simp only
  split
  · exact ⟨Nat.le_refl _, fun P _ => ⟨fun h => h, fun _ _ _ _ h => h⟩⟩
  · rename_i hne
    cases b1 <;> cases b2 <;> simp only <;> try exact ⟨Nat.le_refl _, fun P _ => ⟨fun _ => OIn.none _, fun _ _ _ _ h => h⟩⟩
    rename_i f1 f2
    have lit : ∀ b : Bool, n ≤ n ∧ ∀ P : Nat → Prop, (∀ a, n ≤ a → a < n → P a) → (OIn P (some f1) → OIn P (some (Formula.lit b))) ∧
        (OIn P (some f1) → OIn P (some f2) → FIn P e1.fc → FIn P e2.fc → FIn P fc → FIn P fc) :=
      fun b => ⟨Nat.le_refl _, fun P _ => ⟨fun _ => by simp, fun _ _ _ _ h => h⟩⟩
    have rest : n ≤ n + 1 ∧ ∀ P : Nat → Prop, (∀ a, n ≤ a → a < n + 1 → P a) → (OIn P (some f1) → OIn P (some (Formula.atom n))) ∧
        (OIn P (some f1) → OIn P (some f2) → FIn P e1.fc → FIn P e2.fc → FIn P fc →
          FIn P (.and fc (.or (.and e1.fc (.equals (.atom n) f1)) (.and e2.fc (.equals (.atom n) f2))))) := by
      refine ⟨Nat.le_succ _, fun P hp => ?_⟩
      have := hp n (Nat.le_refl _) (Nat.lt_succ_self _)
      simp only [OIn.some, FIn.atom, FIn.and, FIn.or, FIn.equals]
      exact ⟨fun _ => this, fun a b c d e => ⟨e, ⟨c, this, a⟩, d, this, b⟩⟩
    split
    · split
      · exact lit true
      · exact rest
    · split
      · exact lit false
      · exact rest

theorem joinVal_in (s : Solver) (e1 e2 : Env) (n : Nat) (fc : Formula) (v1 v2 : PVal) :
    n ≤ (joinVal s e1 e2 n fc v1 v2).2.1 ∧ ∀ P : Nat → Prop, (∀ a, n ≤ a → a < (joinVal s e1 e2 n fc v1 v2).2.1 → P a) →
      (VIn P v1 → VIn P (joinVal s e1 e2 n fc v1 v2).1) ∧
      (VIn P v1 → VIn P v2 → FIn P e1.fc → FIn P e2.fc → FIn P fc → FIn P (joinVal s e1 e2 n fc v1 v2).2.2) := by
  unfold joinVal
  simp only
  split
  · exact ⟨Nat.le_refl _, fun P _ => ⟨fun h => h, fun _ _ _ _ h => h⟩⟩
  · have m1 := mergeFormulas_in s e1 e2 (n + 1) fc v1.fn v2.fn
    generalize mergeFormulas s e1 e2 (n + 1) fc v1.fn v2.fn = R at m1 ⊢
    obtain ⟨fn, n1, fc1⟩ := R
    simp only at m1 ⊢
    have m2 := mergeFormulas_in s e1 e2 n1 fc1 v1.nl v2.nl
    generalize mergeFormulas s e1 e2 n1 fc1 v1.nl v2.nl = R at m2 ⊢
    obtain ⟨nl, n2, fc2⟩ := R
    simp only at m2 ⊢
    refine ⟨by omega, fun P hp => ?_⟩
    have k1 := m1.2 P (fun a h1 h2 => hp a (by omega) (by omega))
    have k2 := m2.2 P (fun a h1 h2 => hp a (by omega) (by omega))
    exact ⟨fun h => ⟨hp n (Nat.le_refl _) (by omega), k1.1 h.fn, k2.1 h.nl⟩,
      fun h h' f1 f2 f => k2.2 h.nl h'.nl f1 f2 (k1.2 h.fn h'.fn f1 f2 f)⟩

theorem joinVals_in (s : Solver) (e1 e2 : Env) (vs1 : List PVal) : ∀ (vs2 : List PVal) (n : Nat) (fc : Formula),
    n ≤ (joinVals s e1 e2 vs1 vs2 n fc).2.1 ∧ (vs1.length = vs2.length → (joinVals s e1 e2 vs1 vs2 n fc).1.length = vs1.length) ∧
    ∀ P : Nat → Prop, (∀ a, n ≤ a → a < (joinVals s e1 e2 vs1 vs2 n fc).2.1 → P a) →
      ((∀ v ∈ vs1, VIn P v) → ∀ v ∈ (joinVals s e1 e2 vs1 vs2 n fc).1, VIn P v) ∧
      ((∀ v ∈ vs1, VIn P v) → (∀ v ∈ vs2, VIn P v) → FIn P e1.fc → FIn P e2.fc → FIn P fc → FIn P (joinVals s e1 e2 vs1 vs2 n fc).2.2) := by
  induction vs1 with
  | nil => intro vs2 n fc; exact ⟨Nat.le_refl _, fun _ => rfl, fun P _ => ⟨fun h => h, fun _ _ _ _ h => h⟩⟩
  | cons v1 vs1 ih =>
    intro vs2 n fc
    cases vs2 with
    | nil => exact ⟨Nat.le_refl _, fun h => by simp at h, fun P _ => ⟨fun _ v hv => by simp [joinVals] at hv, fun _ _ _ _ h => h⟩⟩
    | cons v2 vs2 =>
      simp only [joinVals]
      have m1 := joinVal_in s e1 e2 n fc v1 v2
      generalize joinVal s e1 e2 n fc v1 v2 = R at m1 ⊢
      obtain ⟨v, n1, fc1⟩ := R
      simp only at m1 ⊢
      have m2 := ih vs2 n1 fc1
      generalize joinVals s e1 e2 vs1 vs2 n1 fc1 = R at m2 ⊢
      obtain ⟨vs, n2, fc2⟩ := R
      simp only at m2 ⊢
      refine ⟨by omega, fun h => by simp at h ⊢; exact m2.2.1 h, fun P hp => ?_⟩
      have k1 := m1.2 P (fun a h1 h2 => hp a (by omega) (by omega))
      have k2 := m2.2.2 P (fun a h1 h2 => hp a (by omega) (by omega))
      constructor
      · intro h u hu
        rcases List.mem_cons.1 hu with rfl | hu
        · exact k1.1 (h _ (by simp))
        · exact k2.1 (fun w hw => h w (by simp [hw])) u hu
      · intro h h' f1 f2 f
        exact k2.2 (fun w hw => h w (by simp [hw])) (fun w hw => h' w (by simp [hw])) f1 f2 (k1.2 (h _ (by simp)) (h' _ (by simp)) f1 f2 f)

theorem join_le (s : Solver) (n : Nat) (e1 e2 : Env) : n ≤ (join s n e1 e2).1 := (joinVals_in s e1 e2 e1.vals e2.vals n _).1

theorem join_len (s : Solver) (n : Nat) (e1 e2 : Env) (h : e1.vals.length = e2.vals.length) : (join s n e1 e2).2.vals.length = e1.vals.length :=
  (joinVals_in s e1 e2 e1.vals e2.vals n _).2.1 h

/-- The values of a join mention the numbers of the first environment and new ones only. -/
theorem join_vals (s : Solver) (n : Nat) (e1 e2 : Env) {P : Nat → Prop} (hp : ∀ a, n ≤ a → a < (join s n e1 e2).1 → P a) (h : EIn P e1) :
    EIn P (join s n e1 e2).2 := ((joinVals_in s e1 e2 e1.vals e2.vals n _).2.2 P hp).1 h

theorem join_fc (s : Solver) (n : Nat) (e1 e2 : Env) {P : Nat → Prop} (hp : ∀ a, n ≤ a → a < (join s n e1 e2).1 → P a)
    (h1 : EIn P e1) (h2 : EIn P e2) (f1 : FIn P e1.fc) (f2 : FIn P e2.fc) : FIn P (join s n e1 e2).2.fc :=
  ((joinVals_in s e1 e2 e1.vals e2.vals n _).2.2 P hp).2 h1 h2 f1 f2 (FIn.or.2 ⟨f1, f2⟩)

/-- The join of two states that follow from the same one. -/
theorem grow_join (s : Solver) {a : St} {n1 n2 : Nat} {e1 e2 : Env} {ds1 ds2 : List Fault} (h1 : Grow a ⟨n1, e1, ds1⟩) (h2 : Grow a ⟨n2, e2, ds2⟩)
    {n : Nat} (l1 : n1 ≤ n) (l2 : n2 ≤ n) {ds : List Fault} (hds : ∀ w ∈ a.ds, w ∈ ds) :
    Grow a ⟨(join s n e1 e2).1, (join s n e1 e2).2, ds⟩ where
  le := Nat.le_trans h1.le (Nat.le_trans l1 (join_le s n e1 e2))
  ds := hds
  len := (join_len s n e1 e2 (h1.len.trans h2.len.symm)).trans h1.len
  vals := fun P p0 p1 hp he => by
    have hj := join_le s n e1 e2
    have ha := h1.le
    simp only at ha hp
    exact join_vals s n e1 e2 (fun x x1 x2 => hp x (by omega) x2) (h1.vals P p0 p1 (fun x x1 (x2 : x < n1) => hp x x1 (by omega)) he)
  fc := fun P p0 p1 hp he hf => by
    have hj := join_le s n e1 e2
    have ha := h1.le
    simp only at ha hp
    have q1 : ∀ x, a.n ≤ x → x < n1 → P x := fun x x1 x2 => hp x x1 (by omega)
    have q2 : ∀ x, a.n ≤ x → x < n2 → P x := fun x x1 x2 => hp x x1 (by omega)
    exact join_fc s n e1 e2 (fun x x1 x2 => hp x (by omega) x2) (h1.vals P p0 p1 q1 he) (h2.vals P p0 p1 q2 he)
      (h1.fc P p0 p1 q1 he hf) (h2.fc P p0 p1 q2 he hf)

theorem widenProperty_in (s : Solver) (p c : Env) (a b : Option Formula) {P : Nat → Prop} (h : OIn P b) : OIn P (widenProperty s p c a b).1 := by
  unfold widenProperty
  split
  · exact h
  · cases a <;> cases b <;> simp only <;> try exact OIn.none _
    split
    · exact h
    · exact OIn.none _

theorem widenVals_in (s : Solver) (p c : Env) {P : Nat → Prop} (p1 : P 1) : ∀ (ps qs : List PVal), ps.length = qs.length →
    (widenVals s p c ps qs).1.length = qs.length ∧ ((∀ v ∈ qs, VIn P v) → ∀ v ∈ (widenVals s p c ps qs).1, VIn P v)
  | [], [], _ => ⟨rfl, fun h => h⟩
  | _ :: _, [], h => by simp at h
  | [], _ :: _, h => by simp at h
  | a :: ps, b :: qs, h => by
    have ih := widenVals_in s p c p1 ps qs (by simpa using h)
    simp only [widenVals]
    refine ⟨by simp [ih.1], fun hb v hv => ?_⟩
    rcases List.mem_cons.1 hv with rfl | hv
    · have hb := hb b (by simp)
      unfold widenVal
      simp only
      split
      · exact hb
      · split
        · exact hb
        · refine ⟨?_, widenProperty_in s p c _ _ hb.fn, widenProperty_in s p c _ _ hb.nl⟩
          simp only
          split
          · exact hb.loc
          · exact p1
    · exact ih.2 (fun u hu => hb u (by simp [hu])) v hv

theorem grow_widen (s : Solver) {a : St} {n : Nat} {e : Env} {ds : List Fault} (h : Grow a ⟨n, e, ds⟩) (p : Env) (hp : p.vals.length = e.vals.length) :
    Grow a ⟨n, (widen s p e).1, ds⟩ where
  le := h.le
  ds := h.ds
  len := (widenVals_in s p e (P := fun _ => True) trivial p.vals e.vals hp).1.trans h.len
  vals := fun P p0 p1 hq he => (widenVals_in s p e p1 p.vals e.vals hp).2 (h.vals P p0 p1 hq he)
  fc := h.fc

/-! ### Conditions and statements -/

/-- Both ways out of a condition follow from the state before it. -/
structure BG (a : St) (B : Br) : Prop where
  t : Grow a ⟨B.n, B.t, B.ds⟩
  f : Grow a ⟨B.n, B.f, B.ds⟩

theorem bg_split {a st : St} (g : Grow a st) {h : Formula}
    (hh : ∀ P : Nat → Prop, P 0 → P 1 → (∀ x, a.n ≤ x → x < st.n → P x) → EIn P a.env → FIn P h) : BG a (st.split h) :=
  ⟨g.assume' hh, g.assume' fun P p0 p1 hp he => FIn.not.2 (hh P p0 p1 hp he)⟩

theorem BG.seq {a b : St} (g : Grow a b) {B : Br} (h : BG b B) : BG a B := ⟨g.trans h.t, g.trans h.f⟩

theorem bg_branch (s : Solver) (d : Decls) : ∀ (c : Cond) (st : St), BG st (branch s d c st)
  | .nz o, st => by
    simp only [branch]
    have h := vg_operand s d st o
    generalize operand s d st o = R at h ⊢
    obtain ⟨v, st1⟩ := R
    simp only at h ⊢
    cases hv : v.nl with
    | none => exact bg_split (h.g.next' (Nat.le_succ _)) fun P p0 p1 hp he => FIn.atom.2 (hp _ h.g.le (Nat.lt_succ_self _))
    | some f => exact bg_split h.g fun P p0 p1 hp he => FIn.not.2 ((h.v P p0 p1 hp he).nl f hv)
  | .isz o, st => by
    simp only [branch]
    have h := vg_operand s d st o
    generalize operand s d st o = R at h ⊢
    obtain ⟨v, st1⟩ := R
    simp only at h ⊢
    cases hv : v.nl with
    | none => exact bg_split (h.g.next' (Nat.le_succ _)) fun P p0 p1 hp he => FIn.atom.2 (hp _ h.g.le (Nat.lt_succ_self _))
    | some f => exact bg_split h.g fun P p0 p1 hp he => (h.v P p0 p1 hp he).nl f hv
  | .eq neg o1 o2, st => by
    simp only [branch]
    have h1 := vg_operand s d st o1
    generalize operand s d st o1 = R at h1 ⊢
    obtain ⟨v1, st1⟩ := R
    have h2 := VG.seq h1.g (vg_operand s d st1 o2)
    have h2' := (vg_operand s d st1 o2).g
    simp only at h1 h2 h2' ⊢
    generalize operand s d st1 o2 = R at h2 h2' ⊢
    obtain ⟨v2, st2⟩ := R
    simp only at h2 h2' ⊢
    have g3 : Grow st2 { st2 with n := st2.n + 1 } := Grow.next st2 (Nat.le_succ _)
    have hcf : ∀ P : Nat → Prop, P 0 → P 1 → (∀ x, st.n ≤ x → x < st2.n + 1 → P x) → EIn P st.env →
        FIn P (if neg then Formula.not (if v1.loc = v2.loc then .lit true else .atom st2.n) else if v1.loc = v2.loc then .lit true else .atom st2.n) := by
      intro P p0 p1 hp he
      have := hp st2.n h2.g.le (Nat.lt_succ_self _)
      cases neg <;> simp <;> split <;> simp [this]
    have c := grow_ppc { st2 with n := st2.n + 1 } _ v1.nl v2.nl neg (h2.g.trans g3) hcf
      (fun P p0 p1 hp he => ((h1.v.later (h2'.trans g3)) P p0 p1 hp he).nl)
      (fun P p0 p1 hp he => ((h2.v.later g3) P p0 p1 hp he).nl)
    generalize processPointerComparison { st2 with n := st2.n + 1 } _ v1.nl v2.nl neg = R at c ⊢
    obtain ⟨res, st4⟩ := R
    obtain ⟨g4, l4, w4⟩ := c
    simp only at g4 l4 w4 ⊢
    refine bg_split g4 fun P p0 p1 hp he => ?_
    cases res with
    | none => exact hcf P p0 p1 (fun x x1 x2 => hp x x1 (by omega)) he
    | some f => exact OIn.some.1 (w4 P p0 p1 hp he)
  | .eqSmart neg x y, st => by
    simp only [branch]
    refine bg_split (VG.seq (vg_operand s d st (.var x)).g (vg_operand s d _ (.var y))).g fun P _ _ _ _ => ?_
    cases neg <;> simp
  | .other, st => by
    exact bg_split (Grow.next st (Nat.le_succ _)) fun P p0 p1 hp he => FIn.atom.2 (hp _ (Nat.le_refl _) (Nat.lt_succ_self _))
  | .and a b, st => by
    simp only [branch]
    have ha := bg_branch s d a st
    generalize branch s d a st = A at ha ⊢
    have hb := BG.seq ha.t (bg_branch s d b ⟨A.n, A.t, A.ds⟩)
    have hb' := (bg_branch s d b ⟨A.n, A.t, A.ds⟩).t
    generalize branch s d b ⟨A.n, A.t, A.ds⟩ = B at hb hb' ⊢
    have hj := join_le s B.n A.f B.f
    exact ⟨hb.t.next' hj, grow_join s ha.f hb.f hb'.le (Nat.le_refl _) hb.t.ds⟩
  | .or a b, st => by
    simp only [branch]
    have ha := bg_branch s d a st
    generalize branch s d a st = A at ha ⊢
    have hb := BG.seq ha.f (bg_branch s d b ⟨A.n, A.f, A.ds⟩)
    have hb' := (bg_branch s d b ⟨A.n, A.f, A.ds⟩).t
    generalize branch s d b ⟨A.n, A.f, A.ds⟩ = B at hb hb' ⊢
    have hj := join_le s B.n A.t B.t
    exact ⟨grow_join s ha.t hb.t hb'.le (Nat.le_refl _) hb.t.ds, hb.f.next' hj⟩

/-- The result of a statement follows from the state before it. -/
structure SG (a : St) (r : SR) : Prop where
  le : a.n ≤ r.n
  ds : ∀ w ∈ a.ds, w ∈ r.ds
  g : ∀ e, r.env = some e → Grow a ⟨r.n, e, r.ds⟩

theorem SG.of {a b : St} (g : Grow a b) : SG a ⟨b.n, some b.env, b.ds⟩ := ⟨g.le, g.ds, fun _ h => Option.some.inj h ▸ g⟩

/-- One pass over a loop follows from the head of the loop. -/
structure PG (n : Nat) (head : Env) (p : Pass) : Prop where
  back : ∀ b, p.back = some b → Grow ⟨n, head, []⟩ ⟨p.n, b, []⟩
  exit : Grow ⟨n, head, []⟩ ⟨p.n, p.exit, []⟩

theorem Grow.nods {n m : Nat} {e e' : Env} {ds ds' : List Fault} (h : Grow ⟨n, e, ds⟩ ⟨m, e', ds'⟩) : Grow ⟨n, e, []⟩ ⟨m, e', []⟩ :=
  ⟨h.le, fun _ h => h, h.len, h.vals, h.fc⟩

/-- The next head of a loop. -/
theorem grow_head (s : Solver) {ne : Nat} {entry : Env} {m : Nat} {w : Env} (h : Grow ⟨ne, entry, []⟩ ⟨m, w, []⟩) :
    Grow ⟨ne, entry, []⟩ ⟨(join s m entry w).1, (join s m entry w).2, []⟩ :=
  grow_join s (Grow.refl _) h h.le (Nat.le_refl _) fun _ h => h

theorem grow_loop (s : Solver) (pass : Nat → Env → Option Pass) (hpass : ∀ n head p, pass n head = some p → PG n head p) (ne : Nat) (entry : Env) :
    ∀ (fuel n : Nat) (head : Env) (old : Option Env) (p : Pass), Grow ⟨ne, entry, []⟩ ⟨n, head, []⟩ →
      (∀ o, old = some o → o.vals.length = entry.vals.length) → loop s pass entry fuel n head old = some p →
      Grow ⟨ne, entry, []⟩ ⟨p.n, p.exit, []⟩ := by
  intro fuel
  induction fuel with
  | zero => intro n head old p _ _ h; simp [loop] at h
  | succ fuel ih =>
    intro n head old p hg ho h
    simp only [loop] at h
    cases hp : pass n head with
    | none => simp [hp] at h
    | some q =>
      have pg := hpass n head q hp
      simp only [hp] at h
      cases hb : q.back with
      | none =>
        simp only [hb] at h
        exact Option.some.inj h ▸ hg.trans pg.exit
      | some b =>
        simp only [hb] at h
        have gb := hg.trans (pg.back b hb)
        have gw : ∀ (w : Env) (c : Bool), Grow ⟨ne, entry, []⟩ ⟨q.n, w, []⟩ →
            (if c = true then if (join s q.n entry w).2.vals = head.vals then some ⟨(join s q.n entry w).1, some b, q.exit, q.ds⟩
              else loop s pass entry fuel (join s q.n entry w).1 (join s q.n entry w).2 (some w) else some q) = some p →
            Grow ⟨ne, entry, []⟩ ⟨p.n, p.exit, []⟩ := by
          intro w c gw h
          split at h
          · split at h
            · have := Option.some.inj h; subst this
              exact (hg.trans pg.exit).next' (join_le s q.n entry w)
            · exact ih _ _ _ _ (grow_head s gw) (fun o ho => Option.some.inj ho ▸ gw.len) h
          · exact Option.some.inj h ▸ hg.trans pg.exit
        cases old with
        | none => exact gw b true gb h
        | some o => exact gw _ _ (grow_widen s gb o ((ho o rfl).trans gb.len.symm)) h

theorem sg_stmt (s : Solver) (d : Decls) (fuel : Nat) : ∀ (S : Stmt) (st : St) (r : SR), stmt s d fuel S st = some r → SG st r
  | .skip, st, r, h => by simp only [stmt] at h; exact Option.some.inj h ▸ SG.of (Grow.refl st)
  | .seq a b, st, r, h => by
    simp only [stmt] at h
    cases ha : stmt s d fuel a st with
    | none => simp [ha] at h
    | some ra =>
      have ia := sg_stmt s d fuel a st ra ha
      simp only [ha] at h
      cases he : ra.env with
      | none => simp only [he] at h; exact Option.some.inj h ▸ ia
      | some e =>
        simp only [he] at h
        have ib := sg_stmt s d fuel b _ r h
        exact ⟨Nat.le_trans ia.le ib.le, fun w hw => ib.ds w (ia.ds w hw), fun e' he' => (ia.g e he).trans (ib.g e' he')⟩
  | .assign x R, st, r, h => by
    simp only [stmt] at h
    have hv := vg_rhs s d st R
    exact Option.some.inj h ▸ SG.of ((hv.report _ _).g.set' (hv.report _ _).v x)
  | .deref o, st, r, h => by
    simp only [stmt] at h
    exact Option.some.inj h ▸ SG.of ((vg_operand s d st o).report _ _).g
  | .bump x zero, st, r, h => by
    simp only [stmt] at h
    have hv := VG.seq (Grow.report st (!zero && isNullable s st.env (st.env.get x)) .arith) (vg_fromKind _ .nonnull)
    exact Option.some.inj h ▸ SG.of (hv.g.set' hv.v x)
  | .reset x, st, r, h => by
    simp only [stmt] at h
    exact Option.some.inj h ▸ SG.of ((Grow.report st _ _).set' (vgrow_null _ _) x)
  | .move x y, st, r, h => by
    simp only [stmt] at h
    have hv := vg_operand s d st (.var y)
    exact Option.some.inj h ▸ SG.of (Grow.set' ((hv.report _ _).g.set' (hv.report _ _).v x) (vgrow_null _ _) y)
  | .swap x y, st, r, h => by
    simp only [stmt] at h
    have hv := vg_operand s d st (.var x)
    have hw := VG.seq hv.g (vg_operand s d _ (.var y))
    exact Option.some.inj h ▸ SG.of (Grow.set' (hw.g.set' hw.v x) (fun P p0 p1 hp he => (hv.v.later (vg_operand s d _ (.var y)).g) P p0 p1 hp he) y)
  | .ite c a b, st, r, h => by
    simp only [stmt] at h
    have hB := bg_branch s d c st
    generalize branch s d c st = B at hB h
    cases ha : stmt s d fuel a ⟨B.n, B.t, B.ds⟩ with
    | none => simp [ha] at h
    | some r1 =>
      have ia := sg_stmt s d fuel a _ r1 ha
      simp only [ha] at h
      cases hb : stmt s d fuel b ⟨r1.n, B.f, r1.ds⟩ with
      | none => simp [hb] at h
      | some r2 =>
        have ib := sg_stmt s d fuel b _ r2 hb
        simp only [hb] at h
        have l1 : B.n ≤ r1.n := ia.le
        have l2 : r1.n ≤ r2.n := ib.le
        have gf : Grow st ⟨r1.n, B.f, r1.ds⟩ := ⟨Nat.le_trans hB.f.le ia.le, fun w hw => ia.ds w (hB.f.ds w hw), hB.f.len, (hB.f.next' ia.le).vals, (hB.f.next' ia.le).fc⟩
        have ds2 : ∀ w ∈ st.ds, w ∈ r2.ds := fun w hw => ib.ds w (ia.ds w (hB.t.ds w hw))
        have g1 : ∀ e, r1.env = some e → Grow st ⟨r2.n, e, r2.ds⟩ := fun e he =>
          let g := (hB.t.trans (ia.g e he)).next' l2
          ⟨g.le, ds2, g.len, g.vals, g.fc⟩
        have g2 : ∀ e, r2.env = some e → Grow st ⟨r2.n, e, r2.ds⟩ := fun e he => gf.trans (ib.g e he)
        have le2 : st.n ≤ r2.n := Nat.le_trans hB.t.le (Nat.le_trans l1 l2)
        cases e1 : r1.env with
        | none =>
          cases e2 : r2.env with
          | none => simp only [e1, e2] at h; exact Option.some.inj h ▸ ⟨le2, ds2, fun _ h => by simp at h⟩
          | some u => simp only [e1, e2] at h; exact Option.some.inj h ▸ ⟨le2, ds2, fun _ h => Option.some.inj h ▸ g2 u e2⟩
        | some u1 =>
          cases e2 : r2.env with
          | none => simp only [e1, e2] at h; exact Option.some.inj h ▸ ⟨le2, ds2, fun _ h => Option.some.inj h ▸ g1 u1 e1⟩
          | some u2 =>
            simp only [e1, e2] at h
            exact Option.some.inj h ▸ SG.of (b := ⟨_, _, r2.ds⟩) (grow_join s (g1 u1 e1) (g2 u2 e2) (Nat.le_refl _) (Nat.le_refl _) ds2)
  | .while c b, st, r, h => by
    simp only [stmt] at h
    have hpass : ∀ n head p, (match stmt s d fuel b ⟨(branch s d c ⟨n, head, []⟩).n, (branch s d c ⟨n, head, []⟩).t, (branch s d c ⟨n, head, []⟩).ds⟩ with
        | none => none
        | some r => some (⟨r.n, r.env, (branch s d c ⟨n, head, []⟩).f, r.ds⟩ : Pass)) = some p → PG n head p := by
      intro n head p hp
      have hB := bg_branch s d c ⟨n, head, []⟩
      generalize branch s d c ⟨n, head, []⟩ = B at hB hp
      cases hb : stmt s d fuel b ⟨B.n, B.t, B.ds⟩ with
      | none => simp [hb] at hp
      | some rb =>
        have ib := sg_stmt s d fuel b _ rb hb
        simp only [hb] at hp
        have := Option.some.inj hp; subst this
        exact ⟨fun e he => (hB.t.trans (ib.g e he)).nods, (hB.f.next' ib.le).nods⟩
    generalize hl : loop s _ st.env fuel st.n st.env none = P at h
    cases P with
    | none => simp at h
    | some p =>
      simp only at h
      have g := grow_loop s _ hpass st.n st.env fuel st.n st.env none p (Grow.refl _) (fun o ho => by cases ho) hl
      have ds : ∀ w ∈ st.ds, w ∈ st.ds ++ p.ds := fun w hw => by simp [hw]
      exact Option.some.inj h ▸ ⟨g.le, ds, fun e he => Option.some.inj he ▸ ⟨g.le, ds, g.len, g.vals, g.fc⟩⟩
  | .ret o, st, r, h => by
    simp only [stmt] at h
    have g := ((vg_operand s d st o).report (decide (d.ret = .nonnull) && isNullable s (operand s d st o).2.env (operand s d st o).1) .ret).g
    exact Option.some.inj h ▸ ⟨g.le, g.ds, fun _ h => by simp at h⟩
  | .abort, st, r, h => by
    simp only [stmt] at h
    exact Option.some.inj h ▸ ⟨Nat.le_refl _, fun _ h => h, fun _ h => by simp at h⟩

end Verif.NullSound

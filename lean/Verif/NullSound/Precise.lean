import Verif.NullSound.NoTop
import Verif.NullSound.Active
/- C123: a pointer that has just been checked is not reported. -/
namespace Verif.NullSound
open NullFlow (Formula Solver Status)

theorem proves_true (s : Solver) (hs : NullFlow.Solver.Complete s) {e : Env} {f : Formula} (h : ∀ ρ, e.fc.eval ρ = true → f.eval ρ = true) : proves s e f = true := by
  unfold proves
  apply decide_eq_true
  cases hr : s.solve (fun g => g = e.fc ∨ g = .not f) with
  | unsatisfiable => rfl
  | timedOut => exact absurd hr (hs _)
  | satisfiable =>
    obtain ⟨ρ, hρ⟩ := s.sat_sound _ hr
    have h1 := h ρ (hρ _ (.inl rfl))
    have h2 := hρ _ (.inr rfl)
    simp [NullFlow.Formula.eval, h1] at h2

theorem proves_false (s : Solver) {e : Env} {f : Formula} (ρ : Nat → Bool) (h1 : e.fc.eval ρ = true) (h2 : f.eval ρ = false) : proves s e f = false := by
  cases hp : proves s e f with
  | false => rfl
  | true => have := proves_sound s hp h1; simp [h2] at this

theorem allows_true (s : Solver) (hs : NullFlow.Solver.Complete s) {e : Env} {f : Formula} (ρ : Nat → Bool) (h1 : e.fc.eval ρ = true) (h2 : f.eval ρ = true) : allows s e f = true := by
  unfold allows
  apply decide_eq_true
  cases hr : s.solve (fun g => g = e.fc ∨ g = f) with
  | satisfiable => rfl
  | timedOut => exact absurd hr (hs _)
  | unsatisfiable =>
    refine absurd ⟨ρ, fun g hg => ?_⟩ (s.unsat_sound _ hr)
    rcases hg with rfl | rfl
    · exact h1
    · exact h2

theorem allows_false (s : Solver) {e : Env} {f : Formula} (h : ∀ ρ, e.fc.eval ρ = true → f.eval ρ = false) : allows s e f = false := by
  cases ha : allows s e f with
  | false => rfl
  | true =>
    obtain ⟨ρ, hρ⟩ := s.sat_sound _ (of_decide_eq_true ha)
    have h1 := h ρ (hρ _ (.inl rfl))
    have h2 := hρ _ (.inr rfl)
    simp [h1] at h2

/-- The flow condition excludes that the pointer is null. -/
structure SafeV (e : Env) (v : PVal) : Prop where
  full : (v.fn.isSome && v.nl.isSome) = true
  no : ∀ f, v.nl = some f → ∀ ρ, e.fc.eval ρ = true → f.eval ρ = false

theorem SafeV.notNullable (s : Solver) (hs : NullFlow.Solver.Complete s) {e : Env} {v : PVal} (h : SafeV e v) : isNullable s e v = false := by
  unfold isNullable
  cases hn : v.nl with
  | none => have := h.full; simp [hn] at this
  | some f =>
    have hf := h.no f hn
    have ha : allows s e (mayBeNull v) = false := allows_false s fun ρ hρ => by
      unfold mayBeNull; simp [hn, NullFlow.Formula.eval, hf ρ hρ]
    by_cases hl : f = .lit false
    · simp [hl]
    · by_cases hp : proves s e f = true
      · have : proves s e (.lit false) = true := proves_true s hs fun ρ hρ => by
          have h1 := proves_sound s hp hρ; rw [hf ρ hρ] at h1; simp at h1
        simp [hl, hp, this]
      · simp [hl, hp, ha]

/-- `e'` knows what `e` knows, and has the same fully known values. -/
structure Keep (e e' : Env) : Prop where
  len : e'.vals.length = e.vals.length
  fc : ∀ ρ, e'.fc.eval ρ = true → e.fc.eval ρ = true
  get : ∀ x, x < e.vals.length → ((e.get x).fn.isSome && (e.get x).nl.isSome) = true → e'.get x = e.get x

theorem Keep.refl (e : Env) : Keep e e := ⟨rfl, fun _ h => h, fun _ _ _ => rfl⟩

theorem Keep.trans {a b c : Env} (h1 : Keep a b) (h2 : Keep b c) : Keep a c :=
  ⟨h2.len.trans h1.len, fun ρ h => h1.fc ρ (h2.fc ρ h), fun x hx hc => by
    have e1 := h1.get x hx hc
    exact (h2.get x (h1.len ▸ hx) (e1 ▸ hc)).trans e1⟩

theorem Keep.assume (e : Env) (f : Formula) : Keep e (e.assume f) :=
  ⟨rfl, fun ρ h => by simp [Env.assume, NullFlow.Formula.eval] at h; exact h.1, fun _ _ _ => rfl⟩

theorem Keep.safe {a b : Env} (h : Keep a b) {x : Nat} (hx : x < a.vals.length) (hs : SafeV a (a.get x)) : SafeV b (b.get x) := by
  rw [h.get x hx hs.full]
  exact ⟨hs.full, fun f hf ρ hρ => hs.no f hf ρ (h.fc ρ hρ)⟩

theorem get_set_self {e : Env} {x : Nat} (hx : x < e.vals.length) (v : PVal) : (e.set x v).get x = v := by
  simp [Env.get, Env.set, List.getD_eq_getElem?_getD, hx]

theorem get_set_ne {e : Env} {x y : Nat} (h : x ≠ y) (v : PVal) : (e.set x v).get y = e.get y := by
  simp [Env.get, Env.set, List.getD_eq_getElem?_getD, h]

/-- What reading a variable does. -/
structure UnpackFacts (st : St) (x : Nat) : Prop where
  keep : Keep st.env (st.unpack x).2.env
  full : ((st.unpack x).1.fn.isSome && (st.unpack x).1.nl.isSome) = true
  got : x < st.env.vals.length → (st.unpack x).2.env.get x = (st.unpack x).1

theorem unpack_facts (st : St) (x : Nat) : UnpackFacts st x := by
  by_cases h : ((st.env.get x).fn.isSome && (st.env.get x).nl.isSome) = true
  · have e : st.unpack x = (st.env.get x, st) := by unfold St.unpack; simp only; rw [if_pos h]
    exact ⟨by rw [e]; exact Keep.refl _, by rw [e]; exact h, fun _ => by rw [e]⟩
  · refine ⟨?_, ?_, ?_⟩
    · unfold St.unpack; simp only; rw [if_neg h]
      refine ⟨by simp [Env.set], fun ρ hρ => hρ, fun y hy hc => ?_⟩
      by_cases hxy : x = y
      · subst hxy; exact absurd hc h
      · exact get_set_ne hxy _
    · unfold St.unpack; simp only; rw [if_neg h]; rfl
    · intro hx; unfold St.unpack; simp only; rw [if_neg h]; exact get_set_self hx _

theorem operand_keep (s : Solver) (d : Decls) (st : St) (o : Operand) : Keep st.env (operand s d st o).2.env := by
  cases o with
  | var x => simp only [operand, report_env]; exact (unpack_facts st x).keep
  | null => exact Keep.refl _
  | obj => simp only [operand, fromKind_env]; exact Keep.refl _

theorem ppc_keep (st : St) (cf : Formula) (l r : Option Formula) (neg : Bool) : Keep st.env (processPointerComparison st cf l r neg).2.env := by
  unfold processPointerComparison
  split
  · split
    · exact Keep.refl _
    · split
      · exact Keep.refl _
      · exact ((Keep.assume _ _).trans (Keep.assume _ _)).trans (Keep.assume _ _)
  · exact Keep.refl _

theorem mergeFormulas_fc (s : Solver) (e1 e2 : Env) (n : Nat) (fc : Formula) (b1 b2 : Option Formula) (ρ : Nat → Bool)
    (h : (mergeFormulas s e1 e2 n fc b1 b2).2.2.eval ρ = true) : fc.eval ρ = true := by
  unfold mergeFormulas at h
  split at h
  · exact h
  · split at h
    · simp only at h
      split at h
      · split at h
        · exact h
        · simp only [NullFlow.Formula.eval, Bool.and_eq_true] at h; exact h.1
      · split at h
        · exact h
        · simp only [NullFlow.Formula.eval, Bool.and_eq_true] at h; exact h.1
    · exact h

theorem joinVal_fc (s : Solver) (e1 e2 : Env) (n : Nat) (fc : Formula) (v1 v2 : PVal) (ρ : Nat → Bool)
    (h : (joinVal s e1 e2 n fc v1 v2).2.2.eval ρ = true) : fc.eval ρ = true := by
  unfold joinVal at h
  split at h
  · exact h
  · exact mergeFormulas_fc _ _ _ _ _ _ _ _ (mergeFormulas_fc _ _ _ _ _ _ _ _ h)

theorem joinVals_keep (s : Solver) (e1 e2 : Env) : ∀ (vs1 vs2 : List PVal) (n : Nat) (fc : Formula),
    (∀ ρ, (joinVals s e1 e2 vs1 vs2 n fc).2.2.eval ρ = true → fc.eval ρ = true) ∧
    ∀ (x : Nat) (v : PVal), vs1[x]? = some v → vs2[x]? = some v → (joinVals s e1 e2 vs1 vs2 n fc).1[x]? = some v
  | [], _, _, _ => ⟨fun ρ h => by simpa [joinVals] using h, fun x v h => by simp at h⟩
  | _ :: _, [], _, _ => ⟨fun ρ h => by simpa [joinVals] using h, fun x v _ h => by simp at h⟩
  | v1 :: vs1, v2 :: vs2, n, fc => by
    simp only [joinVals]
    refine ⟨fun ρ h => joinVal_fc _ _ _ _ _ _ _ _ ((joinVals_keep s e1 e2 vs1 vs2 _ _).1 ρ h), fun x v h1 h2 => ?_⟩
    cases x with
    | zero =>
      simp only [List.getElem?_cons_zero, Option.some.injEq] at h1 h2 ⊢
      subst h1; subst h2
      simp [joinVal]
    | succ x =>
      simp only [List.getElem?_cons_succ] at h1 h2 ⊢
      exact (joinVals_keep s e1 e2 vs1 vs2 _ _).2 x v h1 h2

theorem join_keep (s : Solver) (n : Nat) {e e1 e2 : Env} (h1 : Keep e e1) (h2 : Keep e e2) : Keep e (join s n e1 e2).2 := by
  have hj := joinVals_keep s e1 e2 e1.vals e2.vals n (.or e1.fc e2.fc)
  refine ⟨(join_len s n e1 e2 (h1.len.trans h2.len.symm)).trans h1.len, fun ρ h => ?_, fun x hx hc => ?_⟩
  · have := hj.1 ρ h
    simp only [NullFlow.Formula.eval, Bool.or_eq_true] at this
    exact this.elim (h1.fc ρ) (h2.fc ρ)
  · have g1 := h1.get x hx hc
    have g2 := h2.get x hx hc
    have x1 : e1.vals[x]? = some (e.get x) := by
      have : x < e1.vals.length := h1.len ▸ hx
      simp only [Env.get, List.getD_eq_getElem?_getD, List.getElem?_eq_getElem this, Option.getD_some] at g1 ⊢
      rw [g1]
    have x2 : e2.vals[x]? = some (e.get x) := by
      have : x < e2.vals.length := h2.len ▸ hx
      simp only [Env.get, List.getD_eq_getElem?_getD, List.getElem?_eq_getElem this, Option.getD_some] at g2 ⊢
      rw [g2]
    have := hj.2 x _ x1 x2
    show ((join s n e1 e2).2.vals.getD x nullVal) = _
    rw [List.getD_eq_getElem?_getD]
    show ((joinVals s e1 e2 e1.vals e2.vals n (.or e1.fc e2.fc)).1[x]?).getD nullVal = _
    rw [this]; rfl

theorem branch_keep (s : Solver) (d : Decls) : ∀ (c : Cond) (st : St), Keep st.env (branch s d c st).t ∧ Keep st.env (branch s d c st).f
  | .nz o, st => by
    have h := operand_keep s d st o
    simp only [branch]
    cases (operand s d st o).1.nl <;> exact ⟨h.trans (Keep.assume _ _), h.trans (Keep.assume _ _)⟩
  | .isz o, st => by
    have h := operand_keep s d st o
    simp only [branch]
    cases (operand s d st o).1.nl <;> exact ⟨h.trans (Keep.assume _ _), h.trans (Keep.assume _ _)⟩
  | .eq neg o1 o2, st => by
    have h1 := operand_keep s d st o1
    have h2 := operand_keep s d (operand s d st o1).2 o2
    have h := h1.trans h2
    simp only [branch, St.split]
    exact ⟨h.trans ((ppc_keep { (operand s d (operand s d st o1).2 o2).2 with n := (operand s d (operand s d st o1).2 o2).2.n + 1 } _ _ _ _).trans (Keep.assume _ _)),
      h.trans ((ppc_keep { (operand s d (operand s d st o1).2 o2).2 with n := (operand s d (operand s d st o1).2 o2).2.n + 1 } _ _ _ _).trans (Keep.assume _ _))⟩
  | .eqSmart neg x y, st => by
    have h1 := operand_keep s d st (.var x)
    have h2 := operand_keep s d (operand s d st (.var x)).2 (.var y)
    exact ⟨(h1.trans h2).trans (Keep.assume _ _), (h1.trans h2).trans (Keep.assume _ _)⟩
  | .other, st => ⟨Keep.assume _ _, Keep.assume _ _⟩
  | .and a b, st => by
    have ha := branch_keep s d a st
    have hb := branch_keep s d b ⟨(branch s d a st).n, (branch s d a st).t, (branch s d a st).ds⟩
    exact ⟨ha.1.trans hb.1, join_keep s _ ha.2 (ha.1.trans hb.2)⟩
  | .or a b, st => by
    have ha := branch_keep s d a st
    have hb := branch_keep s d b ⟨(branch s d a st).n, (branch s d a st).f, (branch s d a st).ds⟩
    exact ⟨join_keep s _ ha.1 (ha.2.trans hb.1), ha.2.trans hb.2⟩

/-- The environment behind a condition that came out as `b`. -/
def Br.side (B : Br) (b : Bool) : Env := if b then B.t else B.f

theorem safe_split {st : St} {x : Nat} {v : PVal} (hv : st.env.get x = v) (hfull : (v.fn.isSome && v.nl.isSome) = true) {g : Formula}
    (hg : ∀ f, v.nl = some f → ∀ ρ, g.eval ρ = true → f.eval ρ = false) : SafeV (st.env.assume g) ((st.env.assume g).get x) := by
  have : (st.env.assume g).get x = v := hv
  rw [this]
  exact ⟨hfull, fun f hf ρ hρ => hg f hf ρ (by simp only [Env.assume, NullFlow.Formula.eval, Bool.and_eq_true] at hρ; exact hρ.2)⟩

theorem ppc_null_left (st : St) (cf l r : Formula) (neg : Bool) (hr : r = .lit true) :
    ∃ g, processPointerComparison st cf (some l) (some r) neg = (some g, st) ∧ ∀ ρ, g.eval ρ = (l.eval ρ != neg) := by
  subst hr
  unfold processPointerComparison
  by_cases hl : l = .lit true
  · subst hl; refine ⟨_, by simp; rfl, fun ρ => ?_⟩; cases neg <;> rfl
  · refine ⟨_, by simp [hl]; rfl, fun ρ => ?_⟩; cases neg <;> simp [NullFlow.Formula.eval]

theorem ppc_null_right (st : St) (cf r : Formula) (neg : Bool) :
    ∃ g, processPointerComparison st cf (some (.lit true)) (some r) neg = (some g, st) ∧ ∀ ρ, g.eval ρ = (r.eval ρ != neg) := by
  unfold processPointerComparison
  refine ⟨_, by simp; rfl, fun ρ => ?_⟩; cases neg <;> simp [NullFlow.Formula.eval]

theorem guards_safe (s : Solver) (d : Decls) {x : Nat} {b : Bool} {c : Cond} (h : Guards x b c) : ∀ st : St, x < st.env.vals.length →
    SafeV ((branch s d c st).side b) (((branch s d c st).side b).get x) := by
  induction h with
  | nz | isz =>
    intro st hx
    have hu := unpack_facts st x
    obtain ⟨f, hf⟩ := (unpack_some st x).1
    have hg : (operand s d st (.var x)).2.env.get x = (st.unpack x).1 := by
      simp only [operand, report_env]; exact hu.got hx
    have e : (operand s d st (.var x)).1 = (st.unpack x).1 := rfl
    simp only [branch, e, hf, St.split, Br.side]
    refine safe_split hg hu.full fun f' hf' ρ hρ => ?_
    rw [hf] at hf'; cases hf'
    simpa [NullFlow.Formula.eval] using hρ
  | ne1 | eq1 =>
    intro st hx
    have hu := unpack_facts st x
    obtain ⟨f, hf⟩ := (unpack_some st x).1
    have hg : (operand s d st (.var x)).2.env.get x = (st.unpack x).1 := by
      simp only [operand, report_env]; exact hu.got hx
    have e : (operand s d st (.var x)).1 = (st.unpack x).1 := rfl
    simp only [branch, operand] at hg ⊢
    simp only [e, hf, nullVal]
    generalize (st.unpack x).2.report _ _ = st1 at hg ⊢
    obtain ⟨g, hpp, he⟩ := ppc_null_left { st1 with n := st1.n + 1 } _ f (.lit true) _ rfl
    rw [hpp]
    simp only [St.split, Br.side, Option.getD_some]
    refine safe_split (st := { st1 with n := st1.n + 1 }) hg hu.full fun f' hf' ρ hρ => ?_
    rw [hf] at hf'; cases hf'
    have := he ρ
    simp [NullFlow.Formula.eval] at hρ this
    simpa [this] using hρ
  | ne2 | eq2 =>
    intro st hx
    have hu := unpack_facts st x
    obtain ⟨f, hf⟩ := (unpack_some st x).1
    have hg : (operand s d st (.var x)).2.env.get x = (st.unpack x).1 := by
      simp only [operand, report_env]; exact hu.got hx
    simp only [branch, operand] at hg ⊢
    simp only [hf, nullVal]
    generalize (st.unpack x).2.report _ _ = st1 at hg ⊢
    obtain ⟨g, hpp, he⟩ := ppc_null_right { st1 with n := st1.n + 1 } _ f _
    rw [hpp]
    simp only [St.split, Br.side, Option.getD_some]
    refine safe_split (st := { st1 with n := st1.n + 1 }) hg hu.full fun f' hf' ρ hρ => ?_
    rw [hf] at hf'; cases hf'
    have := he ρ
    simp [NullFlow.Formula.eval] at hρ this
    simpa [this] using hρ
  | @and1 a b _ ih =>
    intro st hx
    have ha := ih st hx
    have hk := branch_keep s d a st
    exact (branch_keep s d b ⟨(branch s d a st).n, (branch s d a st).t, (branch s d a st).ds⟩).1.safe (x := x) (hk.1.len ▸ hx) ha
  | @and2 a b _ ih =>
    intro st hx
    have hk := branch_keep s d a st
    exact ih ⟨(branch s d a st).n, (branch s d a st).t, (branch s d a st).ds⟩ (hk.1.len ▸ hx)
  | @or1 a b _ ih =>
    intro st hx
    have ha := ih st hx
    have hk := branch_keep s d a st
    exact (branch_keep s d b ⟨(branch s d a st).n, (branch s d a st).f, (branch s d a st).ds⟩).2.safe (x := x) (hk.2.len ▸ hx) ha
  | @or2 a b _ ih =>
    intro st hx
    have hk := branch_keep s d a st
    exact ih ⟨(branch s d a st).n, (branch s d a st).f, (branch s d a st).ds⟩ (hk.2.len ▸ hx)

/-- Reading a safe variable reports nothing. -/
theorem operand_safe (s : Solver) (hs : NullFlow.Solver.Complete s) (d : Decls) {st : St} {x : Nat} (h : SafeV st.env (st.env.get x)) :
    operand s d st (.var x) = (st.env.get x, st) := by
  have e : st.unpack x = (st.env.get x, st) := by unfold St.unpack; simp only; rw [if_pos h.full]
  simp only [operand, e, h.notNullable s hs, Bool.and_false, St.report]
  simp

/-- The outcome of a use: no new diagnostics, and the variable is still safe. -/
structure UseRes (x : Nat) (st : St) (r : SR) : Prop where
  ds : r.ds = st.ds
  env : ∀ e, r.env = some e → e.vals.length = st.env.vals.length ∧ SafeV e (e.get x)

theorem safe_fresh (e : Env) (n : Nat) : SafeV e ⟨n, some (.lit false), some (.lit false)⟩ :=
  ⟨rfl, fun f hf ρ _ => by cases hf; rfl⟩

theorem safe_set {e : Env} {x y : Nat} {v : PVal} (hx : x < e.vals.length) (h : SafeV e (e.get x)) (hv : y = x → SafeV e v) : SafeV (e.set y v) ((e.set y v).get x) := by
  by_cases hy : y = x
  · subst hy; rw [get_set_self hx]; exact ⟨(hv rfl).full, (hv rfl).no⟩
  · rw [get_set_ne hy]; exact ⟨h.full, h.no⟩

theorem uses_safe (s : Solver) (hs : NullFlow.Solver.Complete s) (d : Decls) (fuel : Nat) {x : Nat} {S : Stmt} (h : Uses d x S) :
    ∀ st : St, x < st.env.vals.length → SafeV st.env (st.env.get x) → ∃ r, stmt s d fuel S st = some r ∧ UseRes x st r := by
  induction h with
  | skip => intro st hx h; exact ⟨_, rfl, rfl, fun e he => Option.some.inj he ▸ ⟨rfl, h⟩⟩
  | @seq a b _ _ iha ihb =>
    intro st hx h
    obtain ⟨r, hr, u⟩ := iha st hx h
    simp only [stmt, hr]
    cases he : r.env with
    | none => exact ⟨r, rfl, u.ds, fun e h' => by rw [he] at h'; cases h'⟩
    | some e =>
      obtain ⟨hl, hsafe⟩ := u.env e he
      obtain ⟨r', hr', u'⟩ := ihb ⟨r.n, e, r.ds⟩ (hl ▸ hx) hsafe
      exact ⟨r', hr', u'.ds.trans u.ds, fun e' h' => ⟨(u'.env e' h').1.trans hl, (u'.env e' h').2⟩⟩
  | deref =>
    intro st hx h
    have hn := h.notNullable s hs
    simp only [stmt, operand_safe s hs d h, hn, St.report]
    exact ⟨_, rfl, by simp, fun e he => by simp at he; subst he; exact ⟨rfl, h⟩⟩
  | @copy y =>
    intro st hx h
    have hn := h.notNullable s hs
    simp only [stmt, rhs, operand_safe s hs d h, hn, St.report, Bool.and_false]
    exact ⟨_, rfl, by simp, fun e he => by simp at he; subst he; exact ⟨by simp [Env.set], safe_set hx h fun _ => h⟩⟩
  | @cast y =>
    intro st hx h
    have h' : SafeV st.env ⟨st.n, (st.env.get x).fn, (st.env.get x).nl⟩ := ⟨h.full, h.no⟩
    have hn := h'.notNullable s hs
    simp only [stmt, rhs, operand_safe s hs d h, hn, St.report, Bool.and_false]
    exact ⟨_, rfl, by simp, fun e he => by simp at he; subst he; exact ⟨by simp [Env.set], safe_set hx h fun _ => h'⟩⟩
  | @offset y =>
    intro st hx h
    have hn := h.notNullable s hs
    have hn' := (safe_fresh st.env st.n).notNullable s hs
    simp only [stmt, rhs, operand_safe s hs d h, hn, St.report, Bool.and_false, St.fromKind, Bool.false_eq_true, if_false, hn']
    exact ⟨_, rfl, rfl, fun e he => by simp at he; subst he; exact ⟨by simp [Env.set], safe_set hx h fun _ => safe_fresh _ _⟩⟩
  | @call y k k' hk =>
    intro st hx h
    have hn := h.notNullable s hs
    have hn' := (safe_fresh st.env st.n).notNullable s hs
    simp only [stmt, rhs, argVals, operand_safe s hs d h, reportArgs, hn, St.report, Bool.and_false, Bool.false_eq_true, if_false, outParams]
    rcases hk with rfl | ⟨hk, hy⟩
    · simp only [St.fromKind, hn', Bool.and_false, Bool.false_eq_true, if_false]
      exact ⟨_, rfl, rfl, fun e he => by simp at he; subst he; exact ⟨by simp [Env.set], safe_set hx h fun _ => safe_fresh _ _⟩⟩
    · simp only [hk, decide_false, Bool.false_and, Bool.false_eq_true, if_false]
      refine ⟨_, rfl, ?_, fun e he => ?_⟩
      · cases k' <;> rfl
      · simp only [Option.some.injEq, fromKind_env] at he; subst he; exact ⟨by simp [Env.set], safe_set hx h fun e => absurd e hy⟩
  | bump =>
    intro st hx h
    have hn := h.notNullable s hs
    simp only [stmt, hn, St.report, Bool.and_false, St.fromKind, Bool.false_eq_true, if_false]
    exact ⟨_, rfl, rfl, fun e he => by simp at he; subst he; exact ⟨by simp [Env.set], safe_set hx h fun _ => safe_fresh _ _⟩⟩
  | ret =>
    intro st hx h
    have hn := h.notNullable s hs
    simp only [stmt, operand_safe s hs d h, hn, St.report, Bool.and_false]
    exact ⟨_, rfl, by simp, fun e he => by simp at he⟩

/-- The diagnostics of a statement in a state. -/
def diagnostics (s : Solver) (d : Decls) (fuel : Nat) (S : Stmt) (st : St) : Option (List Fault) := (stmt s d fuel S st).map SR.ds

/-- C123: uses of a pointer under a null check add nothing to the diagnostics of the check. -/
theorem checked_use_not_reported (s : Solver) (hs : NullFlow.Solver.Complete s) (d : Decls) (fuel : Nat) {x : Nat} {c : Cond} {S : Stmt}
    (hc : Guards x true c) (hu : Uses d x S) (st : St) (hx : x < st.env.vals.length) :
    diagnostics s d fuel (.ite c S .skip) st = diagnostics s d fuel (.ite c .skip .skip) st := by
  have hk := branch_keep s d c st
  obtain ⟨r, hr, u⟩ := uses_safe s hs d fuel hu ⟨(branch s d c st).n, (branch s d c st).t, (branch s d c st).ds⟩ (hk.1.len ▸ hx) (guards_safe s d hc st hx)
  have e := u.ds
  simp only at e
  simp only [diagnostics, stmt, hr]
  cases r.env <;> simp [e]

/-- C123: uses of a pointer after `if (null check fails) return;` add nothing to the diagnostics of the check. -/
theorem use_after_check_not_reported (s : Solver) (hs : NullFlow.Solver.Complete s) (d : Decls) (fuel : Nat) {x : Nat} {c : Cond} {S : Stmt}
    (hc : Guards x false c) (hu : Uses d x S) (st : St) (hx : x < st.env.vals.length) :
    diagnostics s d fuel (.seq (.ite c .abort .skip) S) st = diagnostics s d fuel (.ite c .abort .skip) st := by
  have hk := branch_keep s d c st
  obtain ⟨r, hr, u⟩ := uses_safe s hs d fuel hu ⟨(branch s d c st).n, (branch s d c st).f, (branch s d c st).ds⟩ (hk.2.len ▸ hx) (guards_safe s d hc st hx)
  have e := u.ds
  simp only at e
  simp only [diagnostics, stmt, hr]
  simp [e]

end Verif.NullSound

import Verif.NullSound.Static
/- Facts for C121-C125: outside the state kept for widening, no value has the shared "top" location. -/
namespace Verif.NullSound
open NullFlow (Formula Solver Status)

/-- Every value with location `ℓ` satisfies `C`. -/
def QL (ℓ : Nat) (C : PVal → Prop) (e : Env) : Prop := ∀ v ∈ e.vals, v.loc = ℓ → C v

/-- No variable has the shared location. -/
def NT (e : Env) : Prop := ∀ v ∈ e.vals, v.loc ≠ 1

section
variable {ℓ : Nat} {C : PVal → Prop} (h0 : ℓ ≠ 0) (hC : ∀ v, C v → (v.fn.isSome && v.nl.isSome) = true)

include h0 in
theorem QL.get {e : Env} (h : QL ℓ C e) (x : Nat) : (e.get x).loc = ℓ → C (e.get x) := by
  unfold Env.get
  rw [List.getD_eq_getElem?_getD]
  cases hx : e.vals[x]? with
  | none => intro h; exact absurd h.symm h0
  | some v => exact h v (List.mem_of_getElem? hx)

theorem QL.set {e : Env} (h : QL ℓ C e) {v : PVal} (hv : v.loc = ℓ → C v) (x : Nat) : QL ℓ C (e.set x v) := by
  intro u hu
  rcases List.mem_or_eq_of_mem_set hu with h' | rfl
  · exact h u h'
  · exact hv

/-- The value and the environment. -/
structure NV (ℓ : Nat) (C : PVal → Prop) (r : PVal × St) : Prop where
  lt : ℓ < r.2.n
  v : r.1.loc = ℓ → C r.1
  e : QL ℓ C r.2.env

theorem fromKind_loc (st : St) (k : Kind) : (st.fromKind k).1.loc = st.n := by cases k <;> rfl
theorem fromKind_n (st : St) (k : Kind) : (st.fromKind k).2.n = st.n + 1 := by cases k <;> rfl
theorem fromKind_env (st : St) (k : Kind) : (st.fromKind k).2.env = st.env := by cases k <;> rfl

theorem nv_fromKind {st : St} (hl : ℓ < st.n) (h : QL ℓ C st.env) (k : Kind) : NV ℓ C (st.fromKind k) :=
  ⟨by rw [fromKind_n]; omega, fun he => by rw [fromKind_loc] at he; omega, by rw [fromKind_env]; exact h⟩

include h0 hC in
theorem nv_unpack {st : St} (hl : ℓ < st.n) (h : QL ℓ C st.env) (x : Nat) : NV ℓ C (st.unpack x) := by
  have hg := (vg_unpack st x).g.le
  have hx := h.get h0 x
  refine ⟨Nat.lt_of_lt_of_le hl hg, ?_, ?_⟩ <;> unfold St.unpack <;> simp only <;> split
  · exact hx
  · rename_i hc; exact fun he => absurd (hC _ (hx he)) hc
  · exact h
  · rename_i hc
    refine QL.set h ?_ x
    exact fun he => absurd (hC _ (hx he)) hc

theorem NV.report {v : PVal} {st : St} (h : NV ℓ C (v, st)) (b : Bool) (w : Fault) : NV ℓ C (v, st.report b w) :=
  ⟨by simpa using h.lt, h.v, by simpa using h.e⟩

include h0 hC in
theorem nv_operand (s : Solver) (d : Decls) {st : St} (hl : ℓ < st.n) (h : QL ℓ C st.env) (o : Operand) : NV ℓ C (operand s d st o) := by
  cases o with
  | var x => exact (nv_unpack h0 hC hl h x).report _ _
  | null => exact ⟨hl, fun he => absurd he.symm h0, h⟩
  | obj => exact nv_fromKind hl h .nonnull

include h0 hC in
theorem nt_argVals (s : Solver) (d : Decls) (as : List Arg) : ∀ {st : St}, ℓ < st.n → QL ℓ C st.env → QL ℓ C (argVals s d st as).2.env := by
  induction as with
  | nil => intro st _ h; exact h
  | cons a as ih =>
    intro st h2 h
    cases a with
    | val o k => exact ih (nv_operand h0 hC s d h2 h o).lt (nv_operand h0 hC s d h2 h o).e
    | out x k => exact ih h2 h

theorem nt_reportArgs (s : Solver) (vs : List (PVal × Kind)) : ∀ {st : St}, QL ℓ C st.env → QL ℓ C (reportArgs s st vs).env := by
  induction vs with
  | nil => intro st h; exact h
  | cons a as ih => intro st h; exact ih (by simpa using h)

theorem nt_outParams (as : List Arg) : ∀ {st : St}, ℓ < st.n → QL ℓ C st.env → QL ℓ C (outParams st as).env := by
  induction as with
  | nil => intro st _ h; exact h
  | cons a as ih =>
    intro st h2 h
    cases a with
    | val o k => exact ih h2 h
    | out x k =>
      simp only [outParams]
      split
      · have hv := nv_fromKind h2 h .unspecified
        exact ih hv.lt (hv.e.set hv.v x)
      · exact ih h2 h

theorem eitherProp_env (st : St) (ok : Formula) (f g : Option Formula) : (eitherProp st ok f g).2.env.vals = st.env.vals := by
  unfold eitherProp; split <;> rfl

theorem ppc_env (st : St) (cf : Formula) (l r : Option Formula) (neg : Bool) : (processPointerComparison st cf l r neg).2.env.vals = st.env.vals := by
  unfold processPointerComparison
  split
  · split
    · rfl
    · split <;> rfl
  · rfl

theorem QL.of {e e' : Env} (h : QL ℓ C e) (he : e'.vals = e.vals) : QL ℓ C e' := by unfold QL; rw [he]; exact h

include h0 hC in
theorem nv_rhs (s : Solver) (d : Decls) {st : St} (h2 : ℓ < st.n) (h : QL ℓ C st.env) (r : Rhs) : NV ℓ C (rhs s d st r) := by
  refine ⟨Nat.lt_of_lt_of_le h2 (vg_rhs s d st r).g.le, ?_, ?_⟩ <;> cases r with
  | use o => first | exact (nv_operand h0 hC s d h2 h o).v | exact (nv_operand h0 hC s d h2 h o).e
  | call as k =>
    have g1 := (grow_argVals s d as st).le
    have g2 := (grow_reportArgs s (argVals s d st as).1 (argVals s d st as).2).le
    have hv := nv_fromKind (st := reportArgs s (argVals s d st as).2 (argVals s d st as).1) (by omega) (nt_reportArgs s _ (nt_argVals h0 hC s d as h2 h)) k
    first | exact hv.v | exact nt_outParams as hv.lt hv.e
  | cast o =>
    have hv := nv_operand h0 hC s d h2 h o
    first
    | exact hv.e
    | exact fun he => absurd he (by have := hv.lt; show (operand s d st o).2.n ≠ ℓ; omega)
  | offset o zero =>
    have hv := (nv_operand h0 hC s d h2 h o).report (!zero && isNullable s (operand s d st o).2.env (operand s d st o).1) .arith
    have hw := nv_fromKind hv.lt hv.e .nonnull
    first | exact hw.v | exact hw.e
  | release x =>
    have hv := nv_operand h0 hC s d h2 h (.var x)
    first | exact hv.v | exact hv.e.set (fun he => absurd he.symm h0) x
  | spCast x dyn =>
    have hv := nv_operand h0 hC s d h2 h (.var x)
    simp only [rhs]
    generalize operand s d st (.var x) = R at hv ⊢
    obtain ⟨v, st1⟩ := R
    have two := hv.lt
    have he := hv.e
    simp only at two he ⊢
    cases dyn <;> cases hn : v.nl <;> cases hf : v.fn <;> simp only [hn, hf, if_true, if_false, Bool.false_eq_true] <;>
      first | exact he | exact fun he => absurd he (by show st1.n ≠ ℓ; omega)
  | valueOr k o =>
    simp only [rhs]
    have h1 := nv_operand h0 hC s d h2 h o
    generalize operand s d st o = R at h1 ⊢
    obtain ⟨a, st1⟩ := R
    have hk := nv_fromKind h1.lt h1.e k
    have hkl := fromKind_loc st1 k
    have h1l := h1.lt
    simp only at h1 h1l hk ⊢
    generalize st1.fromKind k = R at hk hkl ⊢
    obtain ⟨r, st2⟩ := R
    have h3 : QL ℓ C (valueOrArg s st2 o a).2.env := by
      unfold valueOrArg
      split
      · split
        · exact hk.e
        · exact hk.e
      · exact hk.e
    simp only at hk hkl ⊢
    first
    | exact fun he => absurd he (by show r.loc ≠ ℓ; omega)
    | exact (h3.of (eitherProp_env { (valueOrArg s st2 o a).2 with n := (valueOrArg s st2 o a).2.n + 1 } _ _ _)).of (eitherProp_env _ _ _ _)
  | checkNe o1 o2 =>
    simp only [rhs]
    have h1 := nv_operand h0 hC s d h2 h o1
    generalize operand s d st o1 = R at h1 ⊢
    obtain ⟨a, st1⟩ := R
    have h2 := nv_operand h0 hC s d h1.lt h1.e o2
    simp only at h1 h2 ⊢
    generalize operand s d st1 o2 = R at h2 ⊢
    obtain ⟨b, st2⟩ := R
    have h3 := nv_fromKind h2.lt h2.e .nullable
    simp only at h3 ⊢
    generalize st2.fromKind .nullable = R at h3 ⊢
    obtain ⟨r, st3⟩ := R
    simp only at h3 ⊢
    first
    | exact h3.v
    | (have h4 := h3.e.of (ppc_env st3 (.atom st2.n) a.nl b.nl true)
       generalize processPointerComparison st3 (.atom st2.n) a.nl b.nl true = R at h4 ⊢
       obtain ⟨res, st4⟩ := R
       cases res <;> exact h4)

theorem nt_joinVals (s : Solver) (e1 e2 : Env) : ∀ (vs1 vs2 : List PVal) (n : Nat) (fc : Formula), ℓ < n → (∀ v ∈ vs1, v.loc = ℓ → C v) →
    ∀ v ∈ (joinVals s e1 e2 vs1 vs2 n fc).1, v.loc = ℓ → C v
  | [], _, _, _, _, _ => by simp [joinVals]
  | _ :: _, [], _, _, _, _ => by simp [joinVals]
  | v1 :: vs1, v2 :: vs2, n, fc, h2, h => by
    simp only [joinVals]
    intro v hv
    rcases List.mem_cons.1 hv with rfl | hv
    · unfold joinVal
      split
      · exact h v1 (by simp)
      · exact fun he => absurd he (by show n ≠ ℓ; omega)
    · have := (joinVal_in s e1 e2 n fc v1 v2).1
      exact nt_joinVals s e1 e2 vs1 vs2 _ _ (Nat.lt_of_lt_of_le h2 this) (fun v hv => h v (by simp [hv])) v hv

theorem nt_join (s : Solver) {n : Nat} {e1 e2 : Env} (h2 : ℓ < n) (h : QL ℓ C e1) : QL ℓ C (join s n e1 e2).2 :=
  nt_joinVals s e1 e2 e1.vals e2.vals n _ h2 h

include h0 hC in
theorem nt_branch (s : Solver) (d : Decls) : ∀ (c : Cond) {st : St}, ℓ < st.n → QL ℓ C st.env → QL ℓ C (branch s d c st).t ∧ QL ℓ C (branch s d c st).f
  | .nz o, st, h2, h => by
    have hv := nv_operand h0 hC s d h2 h o
    simp only [branch]
    cases (operand s d st o).1.nl <;> exact ⟨hv.e, hv.e⟩
  | .isz o, st, h2, h => by
    have hv := nv_operand h0 hC s d h2 h o
    simp only [branch]
    cases (operand s d st o).1.nl <;> exact ⟨hv.e, hv.e⟩
  | .eq neg o1 o2, st, h2, h => by
    simp only [branch]
    have h1 := nv_operand h0 hC s d h2 h o1
    generalize operand s d st o1 = R at h1 ⊢
    obtain ⟨a, st1⟩ := R
    have h2 := nv_operand h0 hC s d h1.lt h1.e o2
    simp only at h1 h2 ⊢
    generalize operand s d st1 o2 = R at h2 ⊢
    obtain ⟨b, st2⟩ := R
    have h3 := QL.of (e' := (processPointerComparison { st2 with n := st2.n + 1 } (if neg = true then Formula.not (if a.loc = b.loc then .lit true else .atom st2.n) else if a.loc = b.loc then .lit true else .atom st2.n) a.nl b.nl neg).2.env) h2.e (ppc_env _ _ _ _ _)
    exact ⟨h3, h3⟩
  | .eqSmart neg x y, st, h2, h => by
    have h1 := nv_operand h0 hC s d h2 h (.var x)
    have h2 := nv_operand h0 hC s d h1.lt h1.e (.var y)
    exact ⟨h2.e, h2.e⟩
  | .other, st, h2, h => ⟨h, h⟩
  | .and a b, st, h2, h => by
    have ha := nt_branch s d a h2 h
    have la : st.n ≤ (branch s d a st).n := (bg_branch s d a st).t.le
    have hb := nt_branch s d b (st := ⟨(branch s d a st).n, (branch s d a st).t, (branch s d a st).ds⟩) (Nat.lt_of_lt_of_le h2 la) ha.1
    have lb := (bg_branch s d b ⟨(branch s d a st).n, (branch s d a st).t, (branch s d a st).ds⟩).t.le
    exact ⟨hb.1, nt_join s (Nat.lt_of_lt_of_le h2 (Nat.le_trans la lb)) ha.2⟩
  | .or a b, st, h2, h => by
    have ha := nt_branch s d a h2 h
    have la : st.n ≤ (branch s d a st).n := (bg_branch s d a st).t.le
    have hb := nt_branch s d b (st := ⟨(branch s d a st).n, (branch s d a st).f, (branch s d a st).ds⟩) (Nat.lt_of_lt_of_le h2 la) ha.2
    have lb := (bg_branch s d b ⟨(branch s d a st).n, (branch s d a st).f, (branch s d a st).ds⟩).t.le
    exact ⟨nt_join s (Nat.lt_of_lt_of_le h2 (Nat.le_trans la lb)) ha.1, hb.2⟩

theorem nt_loop (s : Solver) (pass : Nat → Env → Option Pass) (hpass : ∀ n head p, pass n head = some p → n ≤ p.n ∧ (ℓ < n → QL ℓ C head → QL ℓ C p.exit))
    (entry : Env) (he : QL ℓ C entry) :
    ∀ (fuel n : Nat) (head : Env) (old : Option Env) (p : Pass), ℓ < n → QL ℓ C head → loop s pass entry fuel n head old = some p → QL ℓ C p.exit := by
  intro fuel
  induction fuel with
  | zero => intro n head old p _ _ h; simp [loop] at h
  | succ fuel ih =>
    intro n head old p h2 hn h
    simp only [loop] at h
    cases hp : pass n head with
    | none => simp [hp] at h
    | some q =>
      obtain ⟨lq, hq⟩ := hpass n head q hp
      have hq := hq h2 hn
      simp only [hp] at h
      cases hb : q.back with
      | none => simp only [hb] at h; exact Option.some.inj h ▸ hq
      | some b =>
        simp only [hb] at h
        have key : ∀ (w : Env) (c : Bool),
            (if c = true then if (join s q.n entry w).2.vals = head.vals then some ⟨(join s q.n entry w).1, some b, q.exit, q.ds⟩
              else loop s pass entry fuel (join s q.n entry w).1 (join s q.n entry w).2 (some w) else some q) = some p → QL ℓ C p.exit := by
          intro w c h
          split at h
          · split at h
            · have := Option.some.inj h; subst this; exact hq
            · exact ih _ _ _ _ (Nat.lt_of_lt_of_le h2 (Nat.le_trans lq (join_le s q.n entry w))) (nt_join s (Nat.lt_of_lt_of_le h2 lq) he) h
          · exact Option.some.inj h ▸ hq
        cases old with
        | none => exact key b true h
        | some o => exact key _ _ h

include h0 hC in
theorem nt_stmt (s : Solver) (d : Decls) (fuel : Nat) : ∀ (S : Stmt) (st : St) (r : SR), stmt s d fuel S st = some r → ℓ < st.n → QL ℓ C st.env →
    ∀ e, r.env = some e → QL ℓ C e
  | .skip, st, r, h, h2, hn, e, he => by
    simp only [stmt] at h
    have := Option.some.inj h; subst this
    exact Option.some.inj he ▸ hn
  | .seq a b, st, r, h, h2, hn, e, he => by
    simp only [stmt] at h
    cases ha : stmt s d fuel a st with
    | none => simp [ha] at h
    | some ra =>
      have ia := nt_stmt s d fuel a st ra ha h2 hn
      have la := (sg_stmt s d fuel a st ra ha).le
      simp only [ha] at h
      cases hra : ra.env with
      | none => simp only [hra] at h; have := Option.some.inj h; subst this; rw [hra] at he; cases he
      | some e1 =>
        simp only [hra] at h
        exact nt_stmt s d fuel b _ r h (Nat.lt_of_lt_of_le h2 la) (ia e1 hra) e he
  | .assign x R, st, r, h, h2, hn, e, he => by
    simp only [stmt] at h
    have hv := nv_rhs h0 hC s d h2 hn R
    have := Option.some.inj h; subst this
    have := Option.some.inj he; subst this
    simp only [report_env]
    exact hv.e.set hv.v x
  | .deref o, st, r, h, h2, hn, e, he => by
    simp only [stmt] at h
    have := Option.some.inj h; subst this
    have := Option.some.inj he; subst this
    simp only [report_env]
    exact (nv_operand h0 hC s d h2 hn o).e
  | .bump x zero, st, r, h, h2, hn, e, he => by
    simp only [stmt] at h
    have hv := nv_fromKind (st := st.report (!zero && isNullable s st.env (st.env.get x)) .arith) (by simpa using h2) (by simpa using hn) .nonnull
    have := Option.some.inj h; subst this
    have := Option.some.inj he; subst this
    exact hv.e.set hv.v x
  | .reset x, st, r, h, h2, hn, e, he => by
    simp only [stmt] at h
    have := Option.some.inj h; subst this
    have := Option.some.inj he; subst this
    simp only [report_env]
    exact hn.set (fun he => absurd he.symm h0) x
  | .move x y, st, r, h, h2, hn, e, he => by
    simp only [stmt] at h
    have hv := nv_operand h0 hC s d h2 hn (.var y)
    have := Option.some.inj h; subst this
    have := Option.some.inj he; subst this
    simp only [report_env]
    exact (hv.e.set hv.v x).set (fun he => absurd he.symm h0) y
  | .swap x y, st, r, h, h2, hn, e, he => by
    simp only [stmt] at h
    have hv := nv_operand h0 hC s d h2 hn (.var x)
    have hw := nv_operand h0 hC s d hv.lt hv.e (.var y)
    have := Option.some.inj h; subst this
    have := Option.some.inj he; subst this
    exact (hw.e.set hw.v x).set hv.v y
  | .ite c a b, st, r, h, h2, hn, e, he => by
    simp only [stmt] at h
    have hB := nt_branch h0 hC s d c h2 hn
    have lB := (bg_branch s d c st).t.le
    generalize branch s d c st = B at hB h lB
    simp only at lB
    cases ha : stmt s d fuel a ⟨B.n, B.t, B.ds⟩ with
    | none => simp [ha] at h
    | some r1 =>
      have ia := nt_stmt s d fuel a _ r1 ha (Nat.lt_of_lt_of_le h2 lB) hB.1
      have la := (sg_stmt s d fuel a _ r1 ha).le
      simp only [ha] at h
      simp only at la
      cases hb : stmt s d fuel b ⟨r1.n, B.f, r1.ds⟩ with
      | none => simp [hb] at h
      | some r2 =>
        have ib := nt_stmt s d fuel b _ r2 hb (Nat.lt_of_lt_of_le h2 (Nat.le_trans lB la)) hB.2
        have lb := (sg_stmt s d fuel b _ r2 hb).le
        simp only [hb] at h
        simp only at lb
        cases e1 : r1.env with
        | none =>
          cases e2 : r2.env with
          | none => simp only [e1, e2] at h; have := Option.some.inj h; subst this; cases he
          | some u => simp only [e1, e2] at h; have := Option.some.inj h; subst this; exact Option.some.inj he ▸ ib u e2
        | some u1 =>
          cases e2 : r2.env with
          | none => simp only [e1, e2] at h; have := Option.some.inj h; subst this; exact Option.some.inj he ▸ ia u1 e1
          | some u2 =>
            simp only [e1, e2] at h; have := Option.some.inj h; subst this
            exact Option.some.inj he ▸ nt_join s (by omega) (ia u1 e1)
  | .while c b, st, r, h, h2, hn, e, he => by
    simp only [stmt] at h
    generalize hl : loop s _ st.env fuel st.n st.env none = P at h
    cases P with
    | none => simp at h
    | some p =>
      simp only at h
      have := Option.some.inj h; subst this
      refine Option.some.inj he ▸ nt_loop s _ ?_ st.env hn fuel st.n st.env none p h2 hn hl
      intro n head q hq
      have hB := @nt_branch ℓ C h0 hC s d c ⟨n, head, []⟩
      have lB := (bg_branch s d c ⟨n, head, []⟩).t.le
      generalize branch s d c ⟨n, head, []⟩ = B at hB hq lB
      cases hb : stmt s d fuel b ⟨B.n, B.t, B.ds⟩ with
      | none => simp [hb] at hq
      | some rb =>
        have lb := (sg_stmt s d fuel b _ rb hb).le
        simp only [hb] at hq
        have := Option.some.inj hq; subst this
        exact ⟨Nat.le_trans lB lb, fun h2 hn => (hB h2 hn).2⟩
  | .ret o, st, r, h, h2, hn, e, he => by
    simp only [stmt] at h
    have := Option.some.inj h; subst this; cases he
  | .abort, st, r, h, h2, hn, e, he => by
    simp only [stmt] at h
    have := Option.some.inj h; subst this; cases he

end

theorem nt_iff {e : Env} : NT e ↔ QL 1 (fun _ => False) e := Iff.rfl

theorem NT.branch (s : Solver) (d : Decls) (c : Cond) {st : St} (h2 : 2 ≤ st.n) (h : NT st.env) : NT (branch s d c st).t ∧ NT (branch s d c st).f :=
  nt_branch (ℓ := 1) (C := fun _ => False) (by omega) (fun _ h => h.elim) s d c h2 h

theorem NT.stmt (s : Solver) (d : Decls) (fuel : Nat) (S : Stmt) (st : St) (r : SR) (h : stmt s d fuel S st = some r) (h2 : 2 ≤ st.n) (hn : NT st.env)
    (e : Env) (he : r.env = some e) : NT e :=
  nt_stmt (ℓ := 1) (C := fun _ => False) (by omega) (fun _ h => h.elim) s d fuel S st r h h2 hn e he

theorem NT.operand (s : Solver) (d : Decls) {st : St} (h2 : 2 ≤ st.n) (h : NT st.env) (o : Operand) :
    2 ≤ (operand s d st o).2.n ∧ (operand s d st o).1.loc ≠ 1 ∧ NT (operand s d st o).2.env :=
  have := nv_operand (ℓ := 1) (C := fun _ => False) (by omega) (fun _ h => h.elim) s d h2 h o
  ⟨this.lt, fun h => this.v h, this.e⟩

theorem NT.join (s : Solver) {n : Nat} {e1 e2 : Env} (h2 : 2 ≤ n) (h : NT e1) : NT (join s n e1 e2).2 :=
  nt_join (ℓ := 1) (C := fun _ => False) s h2 h

end Verif.NullSound

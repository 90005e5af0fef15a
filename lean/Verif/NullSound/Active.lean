import Verif.NullSound.Static
/- Facts for C121-C125: each step of the checker describes what the program does. -/
namespace Verif.NullSound
open NullFlow (Formula Solver Status)

variable {ρ : Rho} {σ : State} {st : St}

theorem relV_null {c : Val} (hc : c.addr = none) (h0 : ρ.l 0 = none) : RelV ρ c nullVal :=
  ⟨fun f hf => by simp [nullVal] at hf; subst hf; simp [NullFlow.Formula.eval, hc], fun _ f hf => by simp [nullVal] at hf; subst hf; rfl,
    fun _ => h0.trans hc.symm⟩

/-- Same environment, other diagnostics. -/
theorem Inv.ds (h : Inv ρ σ st) (ds : List Fault) : Inv ρ σ ⟨st.n, st.env, ds⟩ := ⟨⟨h.wf.two, h.wf.vals, h.wf.fc⟩, h.sat, h.rel, h.l0⟩

theorem Inv.set {σ' : State} (h : Inv ρ σ st) {v : PVal} (hv : VIn (· < st.n) v) {x : Nat} (hr : Rel ρ σ' (st.env.set x v)) :
    Inv ρ σ' { st with env := st.env.set x v } := ⟨⟨h.wf.two, h.wf.vals.set hv x, h.wf.fc⟩, h.sat, hr, h.l0⟩

theorem fromKind_sound (h : Inv ρ σ st) (k : Kind) (c : Val) :
    ∃ ρ', Agree st.n ρ ρ' ∧ Inv ρ' σ (st.fromKind k).2 ∧ ρ'.l (st.fromKind k).1.loc = c.addr ∧ (FromKind k c → RelV ρ' c (st.fromKind k).1) := by
  have ha := Agree.upd ρ st.n c.addr.isNone c.addr
  have hn : ∀ k, Inv (ρ.upd st.n c.addr.isNone c.addr) σ (st.fromKind k).2 := by
    intro k; cases k <;> exact (h.agree ha).next (Nat.le_succ _)
  have hl : ∀ k, (st.fromKind k).1.loc = st.n := by intro k; cases k <;> rfl
  refine ⟨_, ha, hn k, by rw [hl]; simp, fun hc => ⟨?_, ?_, fun _ => by rw [hl]; simp⟩⟩
  · intro f hf
    cases k <;> simp [St.fromKind] at hf <;> subst hf <;> simp [NullFlow.Formula.eval]
    have : c.addr ≠ none := hc
    cases hc' : c.addr <;> simp_all
  · intro hk f hf
    cases k <;> simp [St.fromKind] at hf <;> subst hf <;> simp [NullFlow.Formula.eval]
    · exact hc hk.1
    · have : c.known = false := hc
      have := hk.2
      simp_all

theorem freshIfTop_eval (o : Option Formula) (n : Nat) (ρ : Rho) (b : Bool) : ∃ ρ', Agree n ρ ρ' ∧ (o = none → (freshIfTop o n).1.eval ρ'.b = b) := by
  cases o with
  | some f => exact ⟨ρ, Agree.refl _ _, fun h => by cases h⟩
  | none => exact ⟨_, Agree.upd ρ n b none, fun _ => by simp [freshIfTop, NullFlow.Formula.eval]⟩

theorem unpack_some (st : St) (x : Nat) : (∃ f, (st.unpack x).1.nl = some f) ∧ ∃ f, (st.unpack x).1.fn = some f := by
  unfold St.unpack
  simp only
  split
  · rename_i h; simp [Option.isSome_iff_exists] at h; exact ⟨h.2, h.1⟩
  · exact ⟨⟨_, rfl⟩, ⟨_, rfl⟩⟩

theorem unpack_sound (h : Inv ρ σ st) (x : Nat) :
    ∃ ρ', Agree st.n ρ ρ' ∧ Inv ρ' σ (st.unpack x).2 ∧ ∀ c, σ[x]? = some c → RelV ρ' c (st.unpack x).1 := by
  have hvg := vg_unpack st x
  have hwf := hvg.g.wf h.wf
  have hv := hvg.v.below hvg.g.le h.wf
  unfold St.unpack at hvg hwf hv ⊢
  simp only at hvg hwf hv ⊢
  split
  · exact ⟨ρ, Agree.refl _ _, h, fun c hc => h.rel.get hc⟩
  · rename_i hs
    simp only [hs] at hwf hv
    have hb : ∃ b : Bool, ∀ c, σ[x]? = some c → b = c.addr.isNone := by
      cases hx : σ[x]? with
      | none => exact ⟨true, fun c hc => by cases hc⟩
      | some c => exact ⟨c.addr.isNone, fun c' hc' => by cases hc'; rfl⟩
    obtain ⟨b, hb⟩ := hb
    obtain ⟨ρ1, a1, f1⟩ := freshIfTop_eval (st.env.get x).fn st.n ρ true
    obtain ⟨ρ2, a2, f2⟩ := freshIfTop_eval (st.env.get x).nl (freshIfTop (st.env.get x).fn st.n).2 ρ1 b
    have le1 := freshIfTop_le (st.env.get x).fn st.n
    have le2 := freshIfTop_le (st.env.get x).nl (freshIfTop (st.env.get x).fn st.n).2
    have ha := a1.trans a2 le1
    have hx := h.wf.vals.get (by have := h.wf.two; show 0 < st.n; omega) x
    have hr : ∀ c, σ[x]? = some c → RelV ρ2 c ⟨(st.env.get x).loc, some (freshIfTop (st.env.get x).fn st.n).1,
        some (freshIfTop (st.env.get x).nl (freshIfTop (st.env.get x).fn st.n).2).1⟩ := by
      intro c hc
      have r := (h.rel.get hc).agree ha hx
      refine ⟨fun f hf => ?_, fun hk f hf => ?_, r.loc⟩
      · cases hf
        cases hnl : (st.env.get x).nl with
        | none => rw [← hb c hc, ← f2 hnl, hnl]
        | some g => exact r.nl g hnl
      · cases hf
        cases hfn : (st.env.get x).fn with
        | none =>
          rw [hfn] at f1 a2
          rw [← f1 rfl]
          exact eval_agree a2 (by simp [freshIfTop])
        | some g => exact r.fn hk g hfn
    refine ⟨ρ2, ha, ⟨hwf, ?_, (h.rel.agree ha h.wf.vals).setAbs hr, (h.agree ha).l0⟩, hr⟩
    exact (h.agree ha).sat

/-- The pointer an operand stands for, whether or not it may be used. -/
inductive Reads (σ : State) : Operand → Val → Prop
  | var {x v} : σ[x]? = some v → Reads σ (.var x) v
  | null : Reads σ .null ⟨none, true⟩
  | obj {v} : v.addr ≠ none → Reads σ .obj v

theorem OpVal.reads {bad : Val → Prop} {d : Decls} {o : Operand} {v : Val} (h : OpVal bad d σ o v) : Reads σ o v := by
  cases h with
  | var h _ => exact .var h
  | null => exact .null
  | obj h => exact .obj h

theorem operand_some (s : Solver) (d : Decls) (st : St) (o : Operand) : ∃ f, (operand s d st o).1.nl = some f := by
  cases o with
  | var x => exact (unpack_some st x).1
  | null => exact ⟨_, rfl⟩
  | obj => exact ⟨_, rfl⟩

theorem operand_sound (s : Solver) (d : Decls) (h : Inv ρ σ st) (o : Operand) (c : Val) :
    ∃ ρ', Agree st.n ρ ρ' ∧ Inv ρ' σ (operand s d st o).2 ∧ (Reads σ o c → RelV ρ' c (operand s d st o).1) := by
  cases o with
  | var x =>
    obtain ⟨ρ', a, i, r⟩ := unpack_sound h x
    exact ⟨ρ', a, i.report _ _, fun hr => by cases hr with | var hx => exact r c hx⟩
  | null => exact ⟨ρ, Agree.refl _ _, h, fun hr => by cases hr; exact relV_null rfl h.l0⟩
  | obj =>
    obtain ⟨ρ', a, i, _, r⟩ := fromKind_sound h .nonnull c
    exact ⟨ρ', a, i, fun hr => by cases hr with | obj hx => exact r hx⟩

theorem operand_fault (s : Solver) (hs : ∀ Q, s.solve Q ≠ .timedOut) (d : Decls) (h : Inv ρ σ st) {o : Operand} (hf : OpFault KnownNull d σ o) :
    Fault.movedFrom ∈ (operand s d st o).2.ds := by
  cases hf with
  | @var x v hx hu =>
    obtain ⟨ρ', a, i, r⟩ := unpack_sound h x
    have hu : d.smart x = true ∧ d.kind x = .nonnull ∧ KnownNull v := by
      by_contra hc; exact hu hc
    have := nullable_of_knownNull s hs i.sat (r v hx) hu.2.2
    simp only [operand, hu.1, hu.2.1, this, decide_true, Bool.and_self]
    exact mem_report _ _

/-! ### Calls -/

theorem argVals_sound (s : Solver) (d : Decls) (as : List Arg) : ∀ {ρ : Rho} {st : St}, Inv ρ σ st → ∀ cvs : List (Val × Kind),
    ∃ ρ', Agree st.n ρ ρ' ∧ Inv ρ' σ (argVals s d st as).2 ∧
      (∀ {bad}, ArgVals bad d σ as cvs → List.Forall₂ (fun c p => RelV ρ' c.1 p.1 ∧ c.2 = p.2) cvs (argVals s d st as).1) := by
  induction as with
  | nil => intro ρ st h cvs; exact ⟨ρ, Agree.refl _ _, h, fun hv => by cases hv; exact .nil⟩
  | cons a as ih =>
    intro ρ st h cvs
    cases a with
    | out x k =>
      obtain ⟨ρ', a, i, r⟩ := ih h cvs
      exact ⟨ρ', a, i, fun hv => by cases hv with | out hv => exact r hv⟩
    | val o k =>
      obtain ⟨ρ1, a1, i1, r1⟩ := operand_sound s d h o (cvs.headD (⟨none, true⟩, .nonnull)).1
      obtain ⟨ρ2, a2, i2, r2⟩ := ih i1 cvs.tail
      have vg := vg_operand s d st o
      refine ⟨ρ2, a1.trans a2 vg.g.le, i2, fun hv => ?_⟩
      cases hv with
      | val ho hv => exact .cons ⟨(r1 ho.reads).agree a2 (vg.v.below vg.g.le h.wf), rfl⟩ (r2 hv)

theorem argVals_fault (s : Solver) (hs : ∀ Q, s.solve Q ≠ .timedOut) (d : Decls) (as : List Arg) {o : Operand} {k : Kind} (hf : OpFault KnownNull d σ o) :
    ∀ {ρ : Rho} {st : St}, Inv ρ σ st → Arg.val o k ∈ as → Fault.movedFrom ∈ (argVals s d st as).2.ds := by
  induction as with
  | nil => intro ρ st _ ho; simp at ho
  | cons a as ih =>
    intro ρ st h ho
    rcases List.mem_cons.1 ho with rfl | ho'
    · exact (grow_argVals s d as _).ds _ (operand_fault s hs d h hf)
    · cases a with
      | out x k => exact ih h ho'
      | val o' k' =>
        obtain ⟨ρ1, _, i1, _⟩ := operand_sound s d h o' ⟨none, true⟩
        exact ih i1 ho'

theorem reportArgs_env (s : Solver) (vs : List (PVal × Kind)) : ∀ st : St, (reportArgs s st vs).env = st.env ∧ (reportArgs s st vs).n = st.n := by
  induction vs with
  | nil => exact fun st => ⟨rfl, rfl⟩
  | cons a vs ih =>
    intro st
    obtain ⟨v, k⟩ := a
    simp only [reportArgs]
    exact ⟨(ih _).1.trans (report_env _ _ _), (ih _).2.trans (report_n _ _ _)⟩

theorem reportArgs_sound (s : Solver) (vs : List (PVal × Kind)) (h : Inv ρ σ st) : Inv ρ σ (reportArgs s st vs) := by
  have e := reportArgs_env s vs st
  have := h.ds (reportArgs s st vs).ds
  rw [← e.1, ← e.2] at this
  exact this

theorem reportArgs_fault (s : Solver) (vs : List (PVal × Kind)) {v : PVal} : ∀ st : St, (v, Kind.nonnull) ∈ vs → isNullable s st.env v = true →
    Fault.arg ∈ (reportArgs s st vs).ds := by
  induction vs with
  | nil => intro st h; simp at h
  | cons a vs ih =>
    intro st h hn
    rcases List.mem_cons.1 h with rfl | h'
    · simp only [reportArgs, hn, decide_true, Bool.and_self]
      exact (grow_reportArgs s vs _).ds _ (mem_report st _)
    · obtain ⟨u, k⟩ := a
      simp only [reportArgs]
      exact ih _ h' (by simpa using hn)

theorem outParams_sound (as : List Arg) : ∀ {ρ : Rho} {σ σ' : State} {st : St}, (∀ x k, Arg.out x k ∈ as → k = .unspecified) → Outs as σ σ' →
    Inv ρ σ st → ∃ ρ', Agree st.n ρ ρ' ∧ Inv ρ' σ' (outParams st as) := by
  induction as with
  | nil => intro ρ σ σ' st _ ho h; cases ho; exact ⟨ρ, Agree.refl _ _, h⟩
  | cons a as ih =>
    intro ρ σ σ' st hk ho h
    cases ho with
    | val ho => exact ih (fun x k hx => hk x k (by simp [hx])) ho h
    | @out x k _ _ _ v hv ho =>
      have hu := hk x k (by simp)
      subst hu
      obtain ⟨ρ1, a1, i1, _, r1⟩ := fromKind_sound h .unspecified v
      have vg := vg_fromKind st .unspecified
      have i2 : Inv ρ1 (σ.set x v) { (st.fromKind .unspecified).2 with env := (st.fromKind .unspecified).2.env.set x (st.fromKind .unspecified).1 } :=
        i1.set (vg.v.below vg.g.le h.wf) (i1.rel.set (r1 hv) x)
      obtain ⟨ρ2, a2, i3⟩ := ih (fun x k hx => hk x k (by simp [hx])) ho i2
      refine ⟨ρ2, a1.trans a2 vg.g.le, ?_⟩
      simp only [outParams, if_true]
      exact i3

/-! ### Comparisons -/

/-- If the comparison of the null properties and the comparison of the pointers agree, the facts added hold and the
result is right. -/
theorem ppc_sound (h : Inv ρ σ st) {cf : Formula} {l r : Formula} {neg : Bool} {c1 c2 : Val} (hcf : FIn (· < st.n) cf) (hl : FIn (· < st.n) l)
    (hr : FIn (· < st.n) r) (el : l.eval ρ.b = c1.addr.isNone) (er : r.eval ρ.b = c2.addr.isNone)
    (ec : l ≠ .lit true → r ≠ .lit true → cf.eval ρ.b = (decide (c1.addr = c2.addr) != neg)) :
    Inv ρ σ (processPointerComparison st cf (some l) (some r) neg).2 ∧
      (∀ f, (processPointerComparison st cf (some l) (some r) neg).1 = some f → FIn (· < st.n) f ∧ f.eval ρ.b = (decide (c1.addr = c2.addr) != neg)) ∧
      ((processPointerComparison st cf (some l) (some r) neg).1 = none → cf.eval ρ.b = (decide (c1.addr = c2.addr) != neg)) ∧
      (processPointerComparison st cf (some l) (some r) neg).2.n = st.n := by
  unfold processPointerComparison
  simp only
  split
  · rename_i hlit
    subst hlit
    simp [NullFlow.Formula.eval] at el
    refine ⟨h, fun f hf => ?_, fun hf => by cases neg <;> simp at hf, rfl⟩
    cases neg <;> simp at hf <;> subst hf <;> simp [hr, NullFlow.Formula.eval, er, el] <;> cases c2.addr <;> simp
  · split
    · rename_i hlit
      subst hlit
      simp [NullFlow.Formula.eval] at er
      refine ⟨h, fun f hf => ?_, fun hf => by cases neg <;> simp at hf, rfl⟩
      cases neg <;> simp at hf <;> subst hf <;> simp [hl, NullFlow.Formula.eval, er, el] <;> cases c1.addr <;> simp
    · rename_i h1 h2
      have ec := ec h1 h2
      refine ⟨((h.assume (by cases neg <;> simp [hcf, hl, hr]) ?_).assume (by cases neg <;> simp [St.assume, hcf, hl, hr]) ?_).assume (by cases neg <;> simp [St.assume, hcf, hl, hr]) ?_,
        fun f hf => absurd hf (by simp), fun _ => ec, rfl⟩ <;>
        cases neg <;> simp [NullFlow.Formula.eval, el, er, ec] <;> cases c1.addr <;> cases c2.addr <;> simp

/-! ### Expressions -/

theorem RelV.forget {c : Val} {v : PVal} (h : RelV ρ ⟨c.addr, true⟩ v) : RelV ρ c v := ⟨h.nl, fun hk => h.fn ⟨hk.1, rfl⟩, h.loc⟩

theorem eitherProp_sound (h : Inv ρ σ st) {ok : Formula} (hok : FIn (· < st.n) ok) {f g : Option Formula} (hf : OIn (· < st.n) f) (hg : OIn (· < st.n) g) :
    ∃ ρ', Agree st.n ρ ρ' ∧ Inv ρ' σ (eitherProp st ok f g).2 ∧
      ∀ m, (eitherProp st ok f g).1 = some m → ∃ u, (if ok.eval ρ.b then f else g) = some u ∧ m.eval ρ'.b = u.eval ρ.b := by
  unfold eitherProp
  cases f with
  | none => exact ⟨ρ, Agree.refl _ _, h, fun m hm => by cases hm⟩
  | some f =>
    cases g with
    | none => exact ⟨ρ, Agree.refl _ _, h, fun m hm => by cases hm⟩
    | some g =>
      have hf := OIn.some.1 hf
      have hg := OIn.some.1 hg
      have ha := Agree.upd ρ st.n (if ok.eval ρ.b then f.eval ρ.b else g.eval ρ.b) none
      have eok := eval_agree ha hok
      have ef := eval_agree ha hf
      have eg := eval_agree ha hg
      have up : ∀ {f : Formula}, FIn (· < st.n) f → FIn (· < st.n + 1) f := fun h => h.mono fun a ha => by omega
      refine ⟨_, ha, (((h.agree ha).next (Nat.le_succ _)).assume (f := .implies ok (.equals (.atom st.n) f)) (by simp [up hok, up hf]) ?_).assume
        (by simp [St.assume, up hok, up hg]) ?_, fun m hm => ?_⟩
      · simp [NullFlow.Formula.eval, eok, ef]; cases ok.eval ρ.b <;> simp
      · simp [NullFlow.Formula.eval, eok, eg]; cases ok.eval ρ.b <;> simp
      · simp at hm; subst hm
        cases ho : ok.eval ρ.b <;> simp [NullFlow.Formula.eval]

theorem eitherProp_le (st : St) (ok : Formula) (f g : Option Formula) : st.n ≤ (eitherProp st ok f g).2.n := by
  unfold eitherProp
  split
  · exact Nat.le_succ _
  · exact Nat.le_refl _

theorem eitherProp_fin (st : St) (ok : Formula) (f g : Option Formula) : OIn (· < (eitherProp st ok f g).2.n) (eitherProp st ok f g).1 := by
  unfold eitherProp
  split
  · simp [St.assume]
  · exact OIn.none _

theorem valueOrArg_eq (s : Solver) (hs : ∀ Q, s.solve Q ≠ .timedOut) (h : Inv ρ σ st) {o : Operand} {a : PVal} (ha : o = .null → a = nullVal) :
    valueOrArg s st o a = (a, st) := by
  unfold valueOrArg
  split
  · rename_i ho
    rw [nullable_of_knownNull s hs h.sat (relV_null (c := ⟨none, true⟩) rfl h.l0) ⟨rfl, rfl⟩, ha ho]
    rfl
  · rfl

theorem rhs_sound (s : Solver) (hs : ∀ Q, s.solve Q ≠ .timedOut) (d : Decls) {r : Rhs} (hp : r.plainOuts) (h : Inv ρ σ st) {σ' : State} {c : Val}
    (he : Eval KnownNull d r σ (.ok σ' c)) : ∃ ρ', Agree st.n ρ ρ' ∧ Inv ρ' σ' (rhs s d st r).2 ∧ RelV ρ' c (rhs s d st r).1 := by
  cases he with
  | @use o _ _ ho =>
    obtain ⟨ρ1, a1, i1, r1⟩ := operand_sound s d h o c
    exact ⟨ρ1, a1, i1, r1 ho.reads⟩
  | @call as k _ vs _ _ hv hn hout hk =>
    obtain ⟨ρ1, a1, i1, _⟩ := argVals_sound s d as h vs
    have i2 := reportArgs_sound s (argVals s d st as).1 i1
    obtain ⟨ρ3, a3, i3, _, r3⟩ := fromKind_sound i2 k c
    obtain ⟨ρ4, a4, i4⟩ := outParams_sound as hp hout i3
    have g1 := grow_argVals s d as st
    have g2 := grow_reportArgs s (argVals s d st as).1 (argVals s d st as).2
    have vg := vg_fromKind (reportArgs s (argVals s d st as).2 (argVals s d st as).1) k
    exact ⟨ρ4, (a1.trans a3 (g1.trans g2).le).trans a4 ((g1.trans g2).trans vg.g).le, i4, (r3 hk).agree a4 (vg.v.below vg.g.le i2.wf)⟩
  | @cast o _ _ ho =>
    obtain ⟨ρ1, a1, i1, r1⟩ := operand_sound s d h o c
    have vg := vg_operand s d st o
    have a2 := Agree.upd ρ1 (operand s d st o).2.n true c.addr
    have r2 := (r1 ho.reads).agree a2 (vg.v.below vg.g.le h.wf)
    exact ⟨_, a1.trans a2 vg.g.le, (i1.agree a2).next (Nat.le_succ _), r2.nl, r2.fn, fun _ => Rho.upd_l _ _ _ _⟩
  | @offset o _ v _ ho hb hc =>
    obtain ⟨ρ1, a1, i1, r1⟩ := operand_sound s d h o v
    obtain ⟨ρ2, a2, i2, _, r2⟩ := fromKind_sound (i1.report (!false && isNullable s (operand s d st o).2.env (operand s d st o).1) .arith) .nonnull c
    have g := (vg_operand s d st o).report (!false && isNullable s (operand s d st o).2.env (operand s d st o).1) .arith
    exact ⟨ρ2, a1.trans a2 g.g.le, i2, r2 hc⟩
  | offsetZero ho => cases hp
  | @release x _ _ ho =>
    obtain ⟨ρ1, a1, i1, r1⟩ := operand_sound s d h (.var x) c
    have z : 0 < (operand s d st (.var x)).2.n := by have := i1.wf.two; omega
    exact ⟨ρ1, a1, i1.set (VIn.nullVal z) (i1.rel.set (relV_null rfl i1.l0) x), r1 ho.reads⟩
  | @spCast x dyn _ _ ho =>
    obtain ⟨ρ1, a1, i1, r1⟩ := operand_sound s d h (.var x) c
    have vg := vg_operand s d st (.var x)
    have hv := vg.v.below vg.g.le h.wf
    have r1 := r1 ho.reads
    simp only [rhs]
    have le := vg.g.le
    generalize operand s d st (.var x) = R at i1 r1 hv le ⊢
    obtain ⟨v, st1⟩ := R
    simp only at i1 r1 hv le ⊢
    have a2 := (Agree.upd ρ1 st1.n (dyn || (match v.fn with | some f => f.eval ρ1.b | none => true)) c.addr).trans
      (Agree.upd _ (st1.n + 1) c.addr.isNone none) (Nat.le_succ _)
    generalize hρ2 : (ρ1.upd st1.n (dyn || (match v.fn with | some f => f.eval ρ1.b | none => true)) c.addr).upd (st1.n + 1) c.addr.isNone none = ρ2 at a2
    have b1 : ρ2.b st1.n = (dyn || (match v.fn with | some f => f.eval ρ1.b | none => true)) := by rw [← hρ2]; simp [Rho.upd]
    have b2 : ρ2.b (st1.n + 1) = c.addr.isNone := by rw [← hρ2]; simp
    have bl : ρ2.l st1.n = c.addr := by rw [← hρ2]; simp [Rho.upd]
    have i2 : Inv ρ2 σ { st1 with n := st1.n + 2 } := (i1.agree a2).next (by omega)
    have r2 := r1.agree a2 hv
    have up : ∀ {f : Formula}, FIn (· < st1.n) f → FIn (· < st1.n + 2) f := fun h => h.mono fun a ha => by omega
    have hr : RelV ρ2 c ⟨st1.n, some (.atom st1.n), some (.atom (st1.n + 1))⟩ := by
      refine ⟨fun f hf => by cases hf; exact b2, fun hk f hf => ?_, fun _ => bl⟩
      cases hf
      show ρ2.b st1.n = true
      rw [b1]
      cases hfn : v.fn with
      | none => simp
      | some f => simp [r1.fn hk f hfn]
    cases hnl : v.nl with
    | none =>
      cases hfn : v.fn with
      | none =>
        cases dyn <;> simp only [if_true, if_false, Bool.false_eq_true]
        · exact ⟨ρ2, a1.trans a2 le, i2, hr⟩
        · exact ⟨ρ2, a1.trans a2 le, i2.assume (by simp) (by simp [NullFlow.Formula.eval, b1]), hr⟩
      | some g =>
        cases dyn <;> simp only [if_true, if_false, Bool.false_eq_true]
        · refine ⟨ρ2, a1.trans a2 le, i2.assume (by simp [up (hv.fn g hfn)]) ?_, hr⟩
          simp [NullFlow.Formula.eval, b1, hfn, eval_agree a2 (hv.fn g hfn)]
        · exact ⟨ρ2, a1.trans a2 le, i2.assume (by simp) (by simp [NullFlow.Formula.eval, b1]), hr⟩
    | some f =>
      have ef := r2.nl f hnl
      cases hfn : v.fn with
      | none =>
        cases dyn <;> simp only [if_true, if_false, Bool.false_eq_true]
        · exact ⟨ρ2, a1.trans a2 le, i2.assume (by simp [up (hv.nl f hnl)]) (by simp [NullFlow.Formula.eval, b2, ef]), hr⟩
        · exact ⟨ρ2, a1.trans a2 le, (i2.assume (f := .implies f (.atom (st1.n + 1))) (by simp [up (hv.nl f hnl)]) (by simp [NullFlow.Formula.eval, b2, ef]; cases c.addr <;> simp)).assume
            (by simp [St.assume]) (by simp [NullFlow.Formula.eval, b1]), hr⟩
      | some g =>
        cases dyn <;> simp only [if_true, if_false, Bool.false_eq_true]
        · refine ⟨ρ2, a1.trans a2 le, (i2.assume (f := .equals f (.atom (st1.n + 1))) (by simp [up (hv.nl f hnl)]) (by simp [NullFlow.Formula.eval, b2, ef])).assume (by simp [St.assume, up (hv.fn g hfn)]) ?_, hr⟩
          simp [NullFlow.Formula.eval, b1, hfn, eval_agree a2 (hv.fn g hfn)]
        · exact ⟨ρ2, a1.trans a2 le, (i2.assume (f := .implies f (.atom (st1.n + 1))) (by simp [up (hv.nl f hnl)]) (by simp [NullFlow.Formula.eval, b2, ef]; cases c.addr <;> simp)).assume
            (by simp [St.assume]) (by simp [NullFlow.Formula.eval, b1]), hr⟩
  | @spCastFails x _ v0 ho =>
    obtain ⟨ρ1, a1, i1, r1⟩ := operand_sound s d h (.var x) v0
    have vg := vg_operand s d st (.var x)
    have hv := vg.v.below vg.g.le h.wf
    have r1 := r1 ho.reads
    simp only [rhs]
    have le := vg.g.le
    generalize operand s d st (.var x) = R at i1 r1 hv le ⊢
    obtain ⟨v, st1⟩ := R
    simp only [if_true] at i1 r1 hv le ⊢
    have a2 := (Agree.upd ρ1 st1.n true none).trans (Agree.upd _ (st1.n + 1) true none) (Nat.le_succ _)
    generalize hρ2 : (ρ1.upd st1.n true none).upd (st1.n + 1) true none = ρ2 at a2
    have b1 : ρ2.b st1.n = true := by rw [← hρ2]; simp [Rho.upd]
    have b2 : ρ2.b (st1.n + 1) = true := by rw [← hρ2]; simp
    have bl : ρ2.l st1.n = none := by rw [← hρ2]; simp [Rho.upd]
    have i2 : Inv ρ2 σ { st1 with n := st1.n + 2 } := (i1.agree a2).next (by omega)
    have up : ∀ {f : Formula}, FIn (· < st1.n) f → FIn (· < st1.n + 2) f := fun h => h.mono fun a ha => by omega
    have hr : RelV ρ2 ⟨none, true⟩ ⟨st1.n, some (.atom st1.n), some (.atom (st1.n + 1))⟩ :=
      ⟨fun f hf => by cases hf; exact b2, fun _ f hf => by cases hf; exact b1, fun _ => bl⟩
    cases hnl : v.nl with
    | none => exact ⟨ρ2, a1.trans a2 le, i2.assume (by simp) (by simp [NullFlow.Formula.eval, b1]), hr⟩
    | some f =>
      exact ⟨ρ2, a1.trans a2 le, (i2.assume (f := .implies f (.atom (st1.n + 1))) (by simp [up (hv.nl f hnl)]) (by simp [NullFlow.Formula.eval, b2])).assume
            (by simp [St.assume]) (by simp [NullFlow.Formula.eval, b1]), hr⟩
  | @valueOrOk k o _ _ w ho hk => exact valueOr_sound s hs d h ho.reads (.inl hk)
  | @valueOrElse k o _ _ ho => exact valueOr_sound s hs d h ho.reads (.inr rfl)
  | @checkNe o1 o2 _ v1 v2 _ h1 h2 hc =>
    obtain ⟨ρ1, a1, i1, r1⟩ := operand_sound s d h o1 v1
    have vg1 := vg_operand s d st o1
    have hv1 := vg1.v.below vg1.g.le h.wf
    have r1 := r1 h1.reads
    obtain ⟨l, hl⟩ := operand_some s d st o1
    simp only [rhs]
    have le1 := vg1.g.le
    generalize operand s d st o1 = R at i1 r1 hv1 le1 hl ⊢
    obtain ⟨p1, st1⟩ := R
    simp only at i1 r1 hv1 le1 hl ⊢
    obtain ⟨ρ2, a2, i2, r2⟩ := operand_sound s d i1 o2 v2
    have vg2 := vg_operand s d st1 o2
    have hv2 := vg2.v.below vg2.g.le i1.wf
    have r2 := r2 h2.reads
    have r1 := r1.agree a2 hv1
    obtain ⟨u, hu⟩ := operand_some s d st1 o2
    have le2 := vg2.g.le
    generalize operand s d st1 o2 = R at i2 r2 hv2 le2 hu ⊢
    obtain ⟨p2, st2⟩ := R
    simp only at i2 r2 hv2 le2 hu ⊢
    have hv1 := hv1.mono fun a (ha : a < st1.n) => (show a < st2.n by omega)
    obtain ⟨ρ3, a3, i3, _, r3⟩ := fromKind_sound i2 .nullable ⟨c.addr, true⟩
    have r3 := r3 rfl
    have r1 := r1.agree a3 hv1
    have r2 := r2.agree a3 hv2
    rw [hl, hu]
    have up : ∀ {f : Formula}, FIn (· < st2.n) f → FIn (· < st2.n + 1) f := fun h => h.mono fun a ha => by omega
    have ea : ρ3.b st2.n = c.addr.isNone := r3.nl (.atom st2.n) rfl
    have hcc : c.addr.isNone = (decide (v1.addr = v2.addr) != true) := by
      by_cases hh : v1.addr = v2.addr
      · have : c.addr ≠ none := fun h => (hc.1 h) hh
        simp [hh]; cases hca : c.addr <;> simp_all
      · have := hc.2 hh; simp [this, hh]
    obtain ⟨j1, j2, j3, j4⟩ := ppc_sound (st := (st2.fromKind .nullable).2) (cf := .atom st2.n) (l := l) (r := u) (neg := true) (c1 := v1) (c2 := v2) i3
      (by simp [St.fromKind]) (up (hv1.nl l hl)) (up (hv2.nl u hu)) (r1.nl l hl) (r2.nl u hu) (fun _ _ => by simp only [NullFlow.Formula.eval]; rw [ea, hcc])
    have ag := (a1.trans a2 le1).trans a3 (Nat.le_trans le1 le2)
    generalize processPointerComparison (st2.fromKind .nullable).2 (.atom st2.n) (some l) (some u) true = R at j1 j2 j3 j4 ⊢
    obtain ⟨res, st4⟩ := R
    simp only at j1 j2 j3 j4 ⊢
    cases res with
    | none => exact ⟨ρ3, ag, j1, r3.forget⟩
    | some f =>
      have jf := j2 f rfl
      refine ⟨ρ3, ag, j1.assume ?_ ?_, r3.forget⟩
      · simp only [FIn.equals, FIn.atom, j4]; exact ⟨jf.1, by simp [St.fromKind]⟩
      · simp [NullFlow.Formula.eval, ea, jf.2, hcc]
where
  valueOr_sound (s : Solver) (hs : ∀ Q, s.solve Q ≠ .timedOut) (d : Decls) {k : Kind} {o : Operand} (h : Inv ρ σ st) {w c : Val} (hw : Reads σ o w)
      (hc : FromKind k c ∨ c = w) : ∃ ρ', Agree st.n ρ ρ' ∧ Inv ρ' σ (rhs s d st (.valueOr k o)).2 ∧ RelV ρ' c (rhs s d st (.valueOr k o)).1 := by
    obtain ⟨ρ1, a1, i1, r1⟩ := operand_sound s d h o w
    have vg1 := vg_operand s d st o
    have hv1 := vg1.v.below vg1.g.le h.wf
    have r1 := r1 hw
    have hnull : o = .null → (operand s d st o).1 = nullVal := fun ho => by subst ho; rfl
    simp only [rhs]
    have le1 := vg1.g.le
    generalize operand s d st o = R at i1 r1 hv1 le1 hnull ⊢
    obtain ⟨a, st1⟩ := R
    simp only at i1 r1 hv1 le1 hnull ⊢
    obtain ⟨ρ2, a2, i2, l2, r2⟩ := fromKind_sound i1 k c
    have vg2 := vg_fromKind st1 k
    have hv2 := vg2.v.below vg2.g.le i1.wf
    have le2 := vg2.g.le
    generalize st1.fromKind k = R at i2 l2 r2 hv2 le2 ⊢
    obtain ⟨r, st2⟩ := R
    simp only at i2 l2 r2 hv2 le2 ⊢
    have r1 := r1.agree a2 hv1
    have hv1 := hv1.mono fun a (ha : a < st1.n) => (show a < st2.n by omega)
    rw [valueOrArg_eq s hs i2 hnull]
    simp only
    obtain ⟨B, hB⟩ : ∃ B : Bool, (B = true → FromKind k c) ∧ (B = false → c = w) := by
      rcases hc with h | h
      · exact ⟨true, fun _ => h, fun h => absurd h (by simp)⟩
      · exact ⟨false, fun h => absurd h (by simp), fun _ => h⟩
    have a3 := Agree.upd ρ2 st2.n B none
    generalize hρ3 : ρ2.upd st2.n B none = ρ3 at a3
    have eB : ρ3.b st2.n = B := by rw [← hρ3]; simp
    have i3 : Inv ρ3 σ { st2 with n := st2.n + 1 } := (i2.agree a3).next (Nat.le_succ _)
    have l3 : ρ3.l r.loc = c.addr := (a3.l _ hv2.loc).trans l2
    have hv1' := hv1.mono fun a (ha : a < st2.n) => (show a < st2.n + 1 by omega)
    have hv2' := hv2.mono fun a (ha : a < st2.n) => (show a < st2.n + 1 by omega)
    have r1 := r1.agree a3 hv1
    have r2 : FromKind k c → RelV ρ3 c r := fun h => (r2 h).agree a3 hv2
    have hsel : RelV ρ3 c (if B then r else a) := by
      cases B with
      | true => exact r2 (hB.1 rfl)
      | false => have := hB.2 rfl; subst this; exact r1
    obtain ⟨ρ4, a4, i4, e4⟩ := eitherProp_sound i3 (ok := .atom st2.n) (by simp) (f := r.fn) (g := a.fn) hv2'.fn hv1'.fn
    have le4 := eitherProp_le { st2 with n := st2.n + 1 } (.atom st2.n) r.fn a.fn
    have f4 := eitherProp_fin { st2 with n := st2.n + 1 } (.atom st2.n) r.fn a.fn
    generalize eitherProp { st2 with n := st2.n + 1 } (.atom st2.n) r.fn a.fn = R at i4 e4 le4 f4 ⊢
    obtain ⟨fn, st4⟩ := R
    simp only at i4 e4 le4 f4 ⊢
    have up4 : ∀ {f : Option Formula}, OIn (· < st2.n + 1) f → OIn (· < st4.n) f := fun h f hf => (h f hf).mono fun a ha => by omega
    obtain ⟨ρ5, a5, i5, e5⟩ := eitherProp_sound i4 (ok := .atom st2.n) (by simp; omega) (f := r.nl) (g := a.nl) (up4 hv2'.nl) (up4 hv1'.nl)
    have le5 := eitherProp_le st4 (.atom st2.n) r.nl a.nl
    generalize eitherProp st4 (.atom st2.n) r.nl a.nl = R at i5 e5 le5 ⊢
    obtain ⟨nl, st5⟩ := R
    simp only at i5 e5 le5 ⊢
    have a45 : Agree (st2.n + 1) ρ3 ρ5 := a4.trans a5 le4
    refine ⟨ρ5, (((a1.trans a2 le1).trans a3 (Nat.le_trans le1 le2)).trans a45 (by omega)), i5, fun f hf => ?_, fun hk f hf => ?_, fun _ => ?_⟩
    · obtain ⟨u, hu, e⟩ := e5 f hf
      rw [e]
      have eB4 : ρ4.b st2.n = B := (a4.b _ (by simp)).trans eB
      simp only [NullFlow.Formula.eval, eB4] at hu
      have hin : FIn (· < st2.n + 1) u := by cases B <;> simp at hu <;> first | exact hv1'.nl u hu | exact hv2'.nl u hu
      rw [eval_agree a4 hin]
      refine hsel.nl u ?_
      cases B <;> simpa using hu
    · obtain ⟨u, hu, e⟩ := e4 f hf
      rw [eval_agree a5 (f4 f hf), e]
      simp only [NullFlow.Formula.eval, eB] at hu
      refine hsel.fn hk u ?_
      cases B <;> simpa using hu
    · exact (a45.l _ hv2'.loc).trans l3

end Verif.NullSound

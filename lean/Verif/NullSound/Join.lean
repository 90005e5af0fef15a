import Verif.NullSound.Active
import Verif.NullSound.NoTop
/- Facts for C121-C125: faults in expressions; joins, conditions. -/
namespace Verif.NullSound
open NullFlow (Formula Solver Status)

variable {ρ : Rho} {σ : State} {st : St}

theorem forall2_mem {cs : List (Val × Kind)} {ps : List (PVal × Kind)} (h : List.Forall₂ (fun c p => RelV ρ c.1 p.1 ∧ c.2 = p.2) cs ps) {c : Val} {k : Kind}
    (hm : (c, k) ∈ cs) : ∃ p, (p, k) ∈ ps ∧ RelV ρ c p := by
  induction h with
  | nil => simp at hm
  | @cons a b _ _ h1 _ ih =>
    rcases List.mem_cons.1 hm with rfl | hm'
    · obtain ⟨pv, pk⟩ := b
      have : k = pk := h1.2
      subst this
      exact ⟨pv, by simp, h1.1⟩
    · obtain ⟨p, hp, hr⟩ := ih hm'
      exact ⟨p, by simp [hp], hr⟩

theorem rhs_fault (s : Solver) (hs : ∀ Q, s.solve Q ≠ .timedOut) (d : Decls) {r : Rhs} (h : Inv ρ σ st) {w : Fault}
    (he : Eval KnownNull d r σ (.fault w)) : w ∈ (rhs s d st r).2.ds := by
  cases he with
  | @moved _ _ o hm hf =>
    cases r with
    | use u =>
      simp [Rhs.reads] at hm; subst hm
      exact operand_fault s hs d h hf
    | call as k =>
      simp only [Rhs.reads, List.mem_filterMap] at hm
      obtain ⟨a, ha, ho⟩ := hm
      cases a with
      | out x k => simp at ho
      | val u k' =>
        simp at ho; subst ho
        have := argVals_fault s hs d as hf h ha
        exact (grow_outParams as _).ds _ ((vg_fromKind _ k).g.ds _ ((grow_reportArgs s _ _).ds _ this))
    | cast u =>
      simp [Rhs.reads] at hm; subst hm
      exact operand_fault s hs d h hf
    | offset u z =>
      simp [Rhs.reads] at hm; subst hm
      exact (vg_fromKind _ .nonnull).g.ds _ ((Grow.report _ _ _).ds _ (operand_fault s hs d h hf))
    | release x =>
      simp [Rhs.reads] at hm; subst hm
      exact operand_fault s hs d h hf
    | spCast x dyn =>
      simp [Rhs.reads] at hm; subst hm
      have := operand_fault s hs d h hf
      simp only [rhs]
      generalize operand s d st (.var x) = R at this ⊢
      obtain ⟨v, st1⟩ := R
      cases dyn <;> cases hn : v.nl <;> cases hfn : v.fn <;> simpa [St.assume] using this
    | valueOr k u =>
      simp [Rhs.reads] at hm; subst hm
      exact valueOr_ds (operand_fault s hs d h hf)
    | checkNe u1 u2 =>
      simp [Rhs.reads] at hm
      have key : Fault.movedFrom ∈ (operand s d (operand s d st u1).2 u2).2.ds := by
        rcases hm with rfl | rfl
        · exact (vg_operand s d _ u2).g.ds _ (operand_fault s hs d h hf)
        · obtain ⟨ρ1, _, i1, _⟩ := operand_sound s d h u1 ⟨none, true⟩
          exact operand_fault s hs d i1 hf
      simp only [rhs]
      generalize operand s d (operand s d st u1).2 u2 = R at key ⊢
      obtain ⟨v2, st2⟩ := R
      have h3 := (vg_fromKind st2 .nullable).g.ds _ key
      have h4 : ∀ st : St, Fault.movedFrom ∈ st.ds → ∀ cf l r neg, Fault.movedFrom ∈ (processPointerComparison st cf l r neg).2.ds := by
        intro st hd cf l r neg
        unfold processPointerComparison
        split
        · split
          · exact hd
          · split <;> exact hd
        · exact hd
      have h5 := h4 _ h3 (.atom st2.n) (operand s d st u1).1.nl v2.nl true
      simp only at h5 ⊢
      split <;> exact h5
  | @callFault as k _ vs c hv hm hb =>
    obtain ⟨ρ1, a1, i1, r1⟩ := argVals_sound s d as h vs
    have r1 := r1 hv
    have := forall2_mem r1 hm
    obtain ⟨p, hp, hr⟩ := this
    have hn := nullable_of_knownNull s hs i1.sat hr hb
    exact (grow_outParams as _).ds _ ((vg_fromKind _ k).g.ds _ (reportArgs_fault s _ _ hp hn))
  | @offsetFault o _ c ho hb =>
    obtain ⟨ρ1, a1, i1, r1⟩ := operand_sound s d h o c
    have hn := nullable_of_knownNull s hs i1.sat (r1 ho.reads) hb
    simp only [rhs, hn]
    exact (vg_fromKind _ .nonnull).g.ds _ (mem_report _ _)
where
  valueOr_ds {s : Solver} {d : Decls} {st : St} {k : Kind} {u : Operand} {w : Fault} (h : w ∈ (operand s d st u).2.ds) :
      w ∈ (rhs s d st (.valueOr k u)).2.ds := by
    have e : ∀ (st : St) ok f g, (eitherProp st ok f g).2.ds = st.ds := by
      intro st ok f g; unfold eitherProp; split <;> rfl
    have v : ∀ (st : St) a, (valueOrArg s st u a).2.ds = st.ds := by
      intro st a; unfold valueOrArg; split
      · split <;> rfl
      · rfl
    simp only [rhs, e, v]
    exact (vg_fromKind _ k).g.ds _ h

/-! ### Joins -/

/-- What a merged property says, if the first (`side = true`) or second environment describes the store. -/
theorem merge_sound (s : Solver) (e1 e2 : Env) (side : Bool) (n : Nat) (fc : Formula) (b1 b2 : Option Formula) {ρ : Rho}
    (hsat : (if side then e1 else e2).fc.eval ρ.b = true) (h1 : FIn (· < n) (if side then e1 else e2).fc) (h2 : OIn (· < n) (if side then b1 else b2))
    (h3 : FIn (· < n) fc) (h4 : fc.eval ρ.b = true) :
    ∃ ρ', Agree n ρ ρ' ∧ (mergeFormulas s e1 e2 n fc b1 b2).2.2.eval ρ'.b = true ∧
      ∀ g, (mergeFormulas s e1 e2 n fc b1 b2).1 = some g → ∃ f, (if side then b1 else b2) = some f ∧ g.eval ρ'.b = f.eval ρ.b := by
  unfold mergeFormulas
  simp only
  split
  · rename_i h
    subst h
    exact ⟨ρ, Agree.refl _ _, h4, fun g hg => ⟨g, by simpa using hg, rfl⟩⟩
  · rename_i hne
    cases b1 <;> cases b2 <;> simp only <;> try exact ⟨ρ, Agree.refl _ _, h4, fun g hg => by cases hg⟩
    rename_i f1 f2
    have rest : ∃ ρ' : Rho, Agree n ρ ρ' ∧
        (Formula.and fc (.or (.and e1.fc (.equals (.atom n) f1)) (.and e2.fc (.equals (.atom n) f2)))).eval ρ'.b = true ∧
        ∀ g, some (Formula.atom n) = some g → ∃ f, (if side then some f1 else some f2) = some f ∧ g.eval ρ'.b = f.eval ρ.b := by
      have a := Agree.upd ρ n (if side then f1.eval ρ.b else f2.eval ρ.b) none
      refine ⟨_, a, ?_, fun g hg => ?_⟩
      · have e3 := eval_agree a h3
        have e1' := eval_agree a h1
        cases side
        · have := eval_agree a (OIn.some.1 h2)
          simp only [Bool.false_eq_true, if_false] at e1' hsat this e3 ⊢
          simp only [NullFlow.Formula.eval, e3, h4, e1', hsat, this, Rho.upd_b]
          simp
        · have := eval_agree a (OIn.some.1 h2)
          simp only [if_true] at e1' hsat this e3 ⊢
          simp only [NullFlow.Formula.eval, e3, h4, e1', hsat, this, Rho.upd_b]
          simp
      · cases hg
        cases side
        · exact ⟨f2, rfl, by simp [NullFlow.Formula.eval]⟩
        · exact ⟨f1, rfl, by simp [NullFlow.Formula.eval]⟩
    split
    · rename_i p1
      split
      · rename_i p2
        refine ⟨ρ, Agree.refl _ _, h4, fun g hg => ?_⟩
        cases hg
        cases side
        · exact ⟨f2, rfl, (proves_sound s p2 hsat).symm⟩
        · exact ⟨f1, rfl, (proves_sound s p1 hsat).symm⟩
      · exact rest
    · split
      · rename_i p
        simp only [Bool.and_eq_true] at p
        refine ⟨ρ, Agree.refl _ _, h4, fun g hg => ?_⟩
        cases hg
        cases side
        · exact ⟨f2, rfl, (proves_not_sound s p.2 hsat).symm⟩
        · exact ⟨f1, rfl, (proves_not_sound s p.1 hsat).symm⟩
      · exact rest

theorem merge_fin (s : Solver) (e1 e2 : Env) (n : Nat) (fc : Formula) (b1 b2 : Option Formula) (h1 : FIn (· < n) e1.fc) (h2 : FIn (· < n) e2.fc)
    (h3 : OIn (· < n) b1) (h4 : OIn (· < n) b2) (h5 : FIn (· < n) fc) : FIn (· < (mergeFormulas s e1 e2 n fc b1 b2).2.1) (mergeFormulas s e1 e2 n fc b1 b2).2.2 ∧
      OIn (· < (mergeFormulas s e1 e2 n fc b1 b2).2.1) (mergeFormulas s e1 e2 n fc b1 b2).1 := by
  have h := mergeFormulas_in s e1 e2 n fc b1 b2
  have up : ∀ a, a < n → a < (mergeFormulas s e1 e2 n fc b1 b2).2.1 := fun a ha => Nat.lt_of_lt_of_le ha h.1
  have k := h.2 (· < (mergeFormulas s e1 e2 n fc b1 b2).2.1) (fun _ _ h => h)
  exact ⟨k.2 (fun f hf => (h3 f hf).mono up) (fun f hf => (h4 f hf).mono up) (h1.mono up) (h2.mono up) (h5.mono up), k.1 (fun f hf => (h3 f hf).mono up)⟩

theorem joinVal_sound (s : Solver) (e1 e2 : Env) (side : Bool) (n : Nat) (fc : Formula) (v1 v2 : PVal) {ρ : Rho} {c : Val}
    (hsat : (if side then e1 else e2).fc.eval ρ.b = true) (h1 : FIn (· < n) e1.fc) (h1' : FIn (· < n) e2.fc) (h2 : VIn (· < n) v1) (h2' : VIn (· < n) v2)
    (h3 : FIn (· < n) fc) (h4 : fc.eval ρ.b = true) (hr : RelV ρ c (if side then v1 else v2)) :
    ∃ ρ', Agree n ρ ρ' ∧ (joinVal s e1 e2 n fc v1 v2).2.2.eval ρ'.b = true ∧ RelV ρ' c (joinVal s e1 e2 n fc v1 v2).1 := by
  unfold joinVal
  simp only
  split
  · rename_i h
    subst h
    exact ⟨ρ, Agree.refl _ _, h4, by simpa using hr⟩
  · have a0 := Agree.upd ρ n true c.addr
    generalize hρ0 : ρ.upd n true c.addr = ρ0 at a0
    have l0 : ρ0.l n = c.addr := by rw [← hρ0]; simp
    have up : ∀ {f : Formula}, FIn (· < n) f → FIn (· < n + 1) f := fun h => h.mono fun a ha => by omega
    have upo : ∀ {f : Option Formula}, OIn (· < n) f → OIn (· < n + 1) f := fun h f hf => (h f hf).mono fun a ha => by omega
    have hfs : FIn (· < n) (if side then e1 else e2).fc := by cases side <;> simp [h1, h1']
    have hvs : VIn (· < n) (if side then v1 else v2) := by cases side <;> simp [h2, h2']
    have hr0 := hr.agree a0 hvs
    have sat0 : (if side then e1 else e2).fc.eval ρ0.b = true := by rw [eval_agree a0 hfs]; exact hsat
    have ifn : (if side then v1 else v2).fn = if side then v1.fn else v2.fn := by cases side <;> rfl
    have inl : (if side then v1 else v2).nl = if side then v1.nl else v2.nl := by cases side <;> rfl
    obtain ⟨ρ1, a1, s1, m1⟩ := merge_sound s e1 e2 side (n + 1) fc v1.fn v2.fn sat0 (up hfs) (ifn ▸ upo hvs.fn) (up h3) (by rw [eval_agree a0 h3]; exact h4)
    have f1 := merge_fin s e1 e2 (n + 1) fc v1.fn v2.fn (up h1) (up h1') (upo h2.fn) (upo h2'.fn) (up h3)
    have le1 := (mergeFormulas_in s e1 e2 (n + 1) fc v1.fn v2.fn).1
    generalize mergeFormulas s e1 e2 (n + 1) fc v1.fn v2.fn = R at s1 m1 f1 le1 ⊢
    obtain ⟨fn, n1, fc1⟩ := R
    simp only at s1 m1 f1 le1 ⊢
    have up1 : ∀ {f : Formula}, FIn (· < n) f → FIn (· < n1) f := fun h => h.mono fun a ha => by omega
    have upo1 : ∀ {f : Option Formula}, OIn (· < n) f → OIn (· < n1) f := fun h f hf => (h f hf).mono fun a ha => by omega
    have a01 : Agree n ρ ρ1 := a0.trans a1 (by omega)
    have sat1 : (if side then e1 else e2).fc.eval ρ1.b = true := by rw [eval_agree a01 hfs]; exact hsat
    obtain ⟨ρ2, a2, s2, m2⟩ := merge_sound s e1 e2 side n1 fc1 v1.nl v2.nl sat1 (up1 hfs) (inl ▸ upo1 hvs.nl) f1.1 s1
    generalize mergeFormulas s e1 e2 n1 fc1 v1.nl v2.nl = R at s2 m2 ⊢
    obtain ⟨nl, n2, fc2⟩ := R
    simp only at s2 m2 ⊢
    have hr1 := hr.agree a01 hvs
    refine ⟨ρ2, a01.trans a2 (by omega), s2, fun g hg => ?_, fun hk g hg => ?_, fun _ => ?_⟩
    · obtain ⟨f, hf, e⟩ := m2 g hg
      rw [e]; exact hr1.nl f (inl.trans hf)
    · obtain ⟨f, hf, e⟩ := m1 g hg
      rw [eval_agree a2 (f1.2 g hg), e]; exact hr0.fn hk f (ifn.trans hf)
    · rw [a2.l n (by omega), a1.l n (by omega)]; exact l0

theorem joinVals_sound (s : Solver) (e1 e2 : Env) (side : Bool) : ∀ (vs1 vs2 : List PVal) (σ : State) (n : Nat) (fc : Formula) (ρ : Rho),
    vs1.length = vs2.length → (if side then e1 else e2).fc.eval ρ.b = true → FIn (· < n) e1.fc → FIn (· < n) e2.fc → (∀ v ∈ vs1, VIn (· < n) v) →
    (∀ v ∈ vs2, VIn (· < n) v) → FIn (· < n) fc → fc.eval ρ.b = true → List.Forall₂ (RelV ρ) σ (if side then vs1 else vs2) →
    ∃ ρ', Agree n ρ ρ' ∧ (joinVals s e1 e2 vs1 vs2 n fc).2.2.eval ρ'.b = true ∧ List.Forall₂ (RelV ρ') σ (joinVals s e1 e2 vs1 vs2 n fc).1
  | [], [], σ, n, fc, ρ, _, _, _, _, _, _, _, h4, hr => ⟨ρ, Agree.refl _ _, h4, by cases side <;> simpa [joinVals] using hr⟩
  | _ :: _, [], _, _, _, _, h, _, _, _, _, _, _, _, _ => by simp at h
  | [], _ :: _, _, _, _, _, h, _, _, _, _, _, _, _, _ => by simp at h
  | v1 :: vs1, v2 :: vs2, σ, n, fc, ρ, hlen, hsat, h1, h1', h2, h2', h3, h4, hr => by
    have hcons : (if side then v1 :: vs1 else v2 :: vs2) = (if side then v1 else v2) :: (if side then vs1 else vs2) := by cases side <;> rfl
    rw [hcons] at hr
    cases hr with
    | @cons c _ σ _ hr hrs =>
      simp only [joinVals]
      obtain ⟨ρ1, a1, s1, r1⟩ := joinVal_sound s e1 e2 side n fc v1 v2 hsat h1 h1' (h2 _ (by simp)) (h2' _ (by simp)) h3 h4 hr
      have jin := joinVal_in s e1 e2 n fc v1 v2
      generalize joinVal s e1 e2 n fc v1 v2 = R at s1 r1 jin ⊢
      obtain ⟨v, n1, fc1⟩ := R
      simp only at s1 r1 jin ⊢
      have le := jin.1
      have up : ∀ a, a < n → a < n1 := fun a ha => by omega
      have jp := jin.2 (· < n1) (fun _ _ h => h)
      have hv1 := jp.1 ((h2 _ (by simp)).mono up)
      have hf1 := jp.2 ((h2 _ (by simp)).mono up) ((h2' _ (by simp)).mono up) (h1.mono up) (h1'.mono up) (h3.mono up)
      have hfs : FIn (· < n) (if side then e1 else e2).fc := by cases side <;> simp [h1, h1']
      have hrs' : List.Forall₂ (RelV ρ1) σ (if side then vs1 else vs2) := by
        have hin : ∀ v ∈ (if side then vs1 else vs2), VIn (· < n) v := by
          cases side
          · exact fun v hv => h2' v (by simp at hv; simp [hv])
          · exact fun v hv => h2 v (by simp at hv; simp [hv])
        exact Rel.agree (e := ⟨.lit true, _⟩) a1 hin hrs
      obtain ⟨ρ2, a2, s2, r2⟩ := joinVals_sound s e1 e2 side vs1 vs2 σ n1 fc1 ρ1 (by simpa using hlen) (by rw [eval_agree a1 hfs]; exact hsat) (h1.mono up) (h1'.mono up)
        (fun v hv => (h2 v (by simp [hv])).mono up) (fun v hv => (h2' v (by simp [hv])).mono up) hf1 s1 hrs'
      exact ⟨ρ2, a1.trans a2 le, s2, .cons (r1.agree a2 hv1) r2⟩

/-- A join describes what either environment describes. -/
theorem join_sound (s : Solver) {n1 : Nat} {e1 e2 : Env} (side : Bool) {ds ds' : List Fault} (h : Inv ρ σ ⟨n1, if side then e1 else e2, ds⟩) {n : Nat} (hn : n1 ≤ n)
    (hlen : e1.vals.length = e2.vals.length) (w1 : WF ⟨n, e1, []⟩) (w2 : WF ⟨n, e2, []⟩) :
    ∃ ρ', Agree n ρ ρ' ∧ Inv ρ' σ ⟨(join s n e1 e2).1, (join s n e1 e2).2, ds'⟩ := by
  have hv : (if side then e1 else e2).vals = if side then e1.vals else e2.vals := by cases side <;> rfl
  obtain ⟨ρ', a, sat, r⟩ := joinVals_sound s e1 e2 side e1.vals e2.vals σ n (.or e1.fc e2.fc) ρ hlen h.sat w1.fc w2.fc w1.vals w2.vals
    (FIn.or.2 ⟨w1.fc, w2.fc⟩) (by have := h.sat; cases side <;> simp at this <;> simp [NullFlow.Formula.eval, this]) (hv ▸ h.rel)
  have le := join_le s n e1 e2
  have two := w1.two
  have up : ∀ a, a < n → a < (join s n e1 e2).1 := fun a ha => by omega
  refine ⟨ρ', a, ⟨⟨?_, ?_, ?_⟩, sat, r, ?_⟩⟩
  · exact Nat.le_trans two le
  · exact join_vals s n e1 e2 (P := (· < (join s n e1 e2).1)) (fun _ _ h => h) (w1.vals.mono up)
  · exact join_fc s n e1 e2 (P := (· < (join s n e1 e2).1)) (fun _ _ h => h) (w1.vals.mono up) (w2.vals.mono up) (w1.fc.mono up) (w2.fc.mono up)
  · exact (a.l 0 (by simp only at two; omega)).trans h.l0

theorem WF.up {n m : Nat} {e : Env} {ds ds' : List Fault} (h : WF ⟨n, e, ds⟩) (hm : n ≤ m) : WF ⟨m, e, ds'⟩ :=
  ⟨Nat.le_trans h.two hm, h.vals.mono fun _ ha => Nat.lt_of_lt_of_le ha hm, h.fc.mono fun _ ha => Nat.lt_of_lt_of_le ha hm⟩

/-! ### Conditions -/

theorem split_sound (h : Inv ρ σ st) {g : Formula} (hg : FIn (· < st.n) g) {b : Bool} (hb : g.eval ρ.b = b) :
    Inv ρ σ ⟨(st.split g).n, if b then (st.split g).t else (st.split g).f, (st.split g).ds⟩ := by
  cases b
  · exact h.assume (FIn.not.2 hg) (by simp [NullFlow.Formula.eval, hb])
  · exact h.assume hg hb

theorem branch_sound (s : Solver) (d : Decls) : ∀ (c : Cond) {ρ : Rho} {st : St}, c.plain → NT st.env → Inv ρ σ st →
    ∀ b, Holds KnownNull d σ c (some b) →
    ∃ ρ', Agree st.n ρ ρ' ∧ Inv ρ' σ ⟨(branch s d c st).n, if b then (branch s d c st).t else (branch s d c st).f, (branch s d c st).ds⟩
  | .nz o, ρ, st, _, _, h, b, hh => by
    cases hh with
    | @nz _ v ho =>
      obtain ⟨ρ1, a1, i1, r1⟩ := operand_sound s d h o v
      obtain ⟨f, hf⟩ := operand_some s d st o
      have vg := vg_operand s d st o
      simp only [branch, hf]
      refine ⟨ρ1, a1, split_sound i1 (FIn.not.2 ((vg.v.below vg.g.le h.wf).nl f hf)) ?_⟩
      simp [NullFlow.Formula.eval, (r1 ho.reads).nl f hf]
  | .isz o, ρ, st, _, _, h, b, hh => by
    cases hh with
    | @isz _ v ho =>
      obtain ⟨ρ1, a1, i1, r1⟩ := operand_sound s d h o v
      obtain ⟨f, hf⟩ := operand_some s d st o
      have vg := vg_operand s d st o
      simp only [branch, hf]
      exact ⟨ρ1, a1, split_sound i1 ((vg.v.below vg.g.le h.wf).nl f hf) ((r1 ho.reads).nl f hf)⟩
  | .eq neg o1 o2, ρ, st, _, hnc, h, b, hh => by
    cases hh with
    | @eq _ _ _ v1 v2 h1 h2 =>
      obtain ⟨ρ1, a1, i1, r1⟩ := operand_sound s d h o1 v1
      have vg1 := vg_operand s d st o1
      have hv1 := vg1.v.below vg1.g.le h.wf
      have r1 := r1 h1.reads
      obtain ⟨l, hl⟩ := operand_some s d st o1
      have nv1 := NT.operand s d h.wf.two hnc o1
      simp only [branch]
      have le1 := vg1.g.le
      generalize operand s d st o1 = R at i1 r1 hv1 le1 hl nv1 ⊢
      obtain ⟨p1, st1⟩ := R
      simp only at i1 r1 hv1 le1 hl nv1 ⊢
      obtain ⟨ρ2, a2, i2, r2⟩ := operand_sound s d i1 o2 v2
      have vg2 := vg_operand s d st1 o2
      have hv2 := vg2.v.below vg2.g.le i1.wf
      have r2 := r2 h2.reads
      have r1 := r1.agree a2 hv1
      obtain ⟨u, hu⟩ := operand_some s d st1 o2
      have nv2 := NT.operand s d nv1.1 nv1.2.2 o2
      have le2 := vg2.g.le
      generalize operand s d st1 o2 = R at i2 r2 hv2 le2 hu nv2 ⊢
      obtain ⟨p2, st2⟩ := R
      simp only at i2 r2 hv2 le2 hu nv2 ⊢
      have hv1 := hv1.mono fun a (ha : a < st1.n) => (show a < st2.n by omega)
      have a3 := Agree.upd ρ2 st2.n (decide (v1.addr = v2.addr)) none
      generalize hρ3 : ρ2.upd st2.n (decide (v1.addr = v2.addr)) none = ρ3 at a3
      have eb : ρ3.b st2.n = decide (v1.addr = v2.addr) := by rw [← hρ3]; simp
      have i3 : Inv ρ3 σ { st2 with n := st2.n + 1 } := (i2.agree a3).next (Nat.le_succ _)
      have r1 := r1.agree a3 hv1
      have r2 := r2.agree a3 hv2
      have up : ∀ {f : Formula}, FIn (· < st2.n) f → FIn (· < st2.n + 1) f := fun h => h.mono fun a ha => by omega
      rw [hl, hu]
      have ag := (a1.trans a2 le1).trans a3 (Nat.le_trans le1 le2)
      have hin : FIn (· < st2.n + 1) (if neg = true then Formula.not (if p1.loc = p2.loc then Formula.lit true else .atom st2.n) else if p1.loc = p2.loc then Formula.lit true else .atom st2.n) := by
        cases neg <;> simp <;> split <;> simp
      have hev : l ≠ .lit true → u ≠ .lit true → (if neg = true then Formula.not (if p1.loc = p2.loc then Formula.lit true else .atom st2.n) else if p1.loc = p2.loc then Formula.lit true else .atom st2.n).eval ρ3.b = (decide (v1.addr = v2.addr) != neg) := by
        intro hl' hu'
        by_cases hloc : p1.loc = p2.loc
        · have : v1.addr = v2.addr := by rw [← r1.loc nv1.2.1, ← r2.loc nv2.2.1, hloc]
          cases neg <;> simp [hloc, NullFlow.Formula.eval, this]
        · cases neg <;> simp [hloc, NullFlow.Formula.eval, eb]
      obtain ⟨j1, j2, j3, j4⟩ := ppc_sound (st := { st2 with n := st2.n + 1 }) (l := l) (r := u) (neg := neg) (c1 := v1) (c2 := v2) i3
        hin (up (hv1.nl l hl)) (up (hv2.nl u hu)) (r1.nl l hl) (r2.nl u hu) hev
      generalize processPointerComparison { st2 with n := st2.n + 1 } _ (some l) (some u) neg = R at j1 j2 j3 j4 ⊢
      obtain ⟨res, st4⟩ := R
      simp only at j1 j2 j3 j4 ⊢
      cases res with
      | none => exact ⟨ρ3, ag, split_sound j1 (by rw [j4]; exact hin) (j3 rfl)⟩
      | some f => exact ⟨ρ3, ag, split_sound j1 (by rw [j4]; exact (j2 f rfl).1) (j2 f rfl).2⟩
  | .eqSmart _ _ _, _, _, hp, _, _, _, _ => by cases hp
  | .other, ρ, st, _, _, h, b, hh => by
    have a := Agree.upd ρ st.n b none
    exact ⟨_, a, split_sound ((h.agree a).next (Nat.le_succ _)) (by simp) (by simp [NullFlow.Formula.eval])⟩
  | .and c1 c2, ρ, st, hp, hnc, h, b, hh => by
    have bg := bg_branch s d c1 st
    have s1 := @branch_sound s d c1 ρ st hp.1 hnc h
    have nA := NT.branch s d c1 h.wf.two hnc
    simp only [branch]
    have wt := bg.t.wf h.wf
    have wf := bg.f.wf h.wf
    have le := bg.t.le
    have lt := bg.t.len
    have lf := bg.f.len
    generalize branch s d c1 st = A at s1 nA wt wf le lt lf ⊢
    have bg2 := bg_branch s d c2 ⟨A.n, A.t, A.ds⟩
    have s2 := fun ρ h => @branch_sound s d c2 ρ ⟨A.n, A.t, A.ds⟩ hp.2 nA.1 h
    have wf2 := bg2.f.wf wt
    have le2 := bg2.f.le
    have lf2 := bg2.f.len
    generalize branch s d c2 ⟨A.n, A.t, A.ds⟩ = B at s2 wf2 le2 lf2 ⊢
    simp only at le2 le lt lf lf2
    have hlen : A.f.vals.length = B.f.vals.length := by rw [lf2, lf, lt]
    cases hh with
    | andFalse h1 =>
      obtain ⟨ρ1, a1, i1⟩ := s1 _ h1
      obtain ⟨ρ2, a2, i2⟩ := join_sound s true (e1 := A.f) (e2 := B.f) (ds' := B.ds) i1 le2 hlen (wf.up le2) (wf2.up (Nat.le_refl _))
      exact ⟨ρ2, a1.trans a2 (by omega), i2⟩
    | andTrue h1 h2 =>
      obtain ⟨ρ1, a1, i1⟩ := s1 _ h1
      obtain ⟨ρ2, a2, i2⟩ := s2 ρ1 i1 _ h2
      have a12 := a1.trans a2 le
      cases b with
      | true => exact ⟨ρ2, a12, Inv.next i2 (join_le s B.n A.f B.f)⟩
      | false =>
        obtain ⟨ρ3, a3, i3⟩ := join_sound s false (e1 := A.f) (e2 := B.f) (ds' := B.ds) i2 (Nat.le_refl _) hlen (wf.up le2) (wf2.up (Nat.le_refl _))
        exact ⟨ρ3, a12.trans a3 (by omega), i3⟩
  | .or c1 c2, ρ, st, hp, hnc, h, b, hh => by
    have bg := bg_branch s d c1 st
    have s1 := @branch_sound s d c1 ρ st hp.1 hnc h
    have nA := NT.branch s d c1 h.wf.two hnc
    simp only [branch]
    have wt := bg.t.wf h.wf
    have wf := bg.f.wf h.wf
    have le := bg.t.le
    have lt := bg.t.len
    have lf := bg.f.len
    generalize branch s d c1 st = A at s1 nA wt wf le lt lf ⊢
    have bg2 := bg_branch s d c2 ⟨A.n, A.f, A.ds⟩
    have s2 := fun ρ h => @branch_sound s d c2 ρ ⟨A.n, A.f, A.ds⟩ hp.2 nA.2 h
    have wt2 := bg2.t.wf wf
    have le2 := bg2.t.le
    have lt2 := bg2.t.len
    generalize branch s d c2 ⟨A.n, A.f, A.ds⟩ = B at s2 wt2 le2 lt2 ⊢
    simp only at le2 le lt lf lt2
    have hlen : A.t.vals.length = B.t.vals.length := by rw [lt2, lf, lt]
    cases hh with
    | orTrue h1 =>
      obtain ⟨ρ1, a1, i1⟩ := s1 _ h1
      obtain ⟨ρ2, a2, i2⟩ := join_sound s true (e1 := A.t) (e2 := B.t) (ds' := B.ds) i1 le2 hlen (wt.up le2) (wt2.up (Nat.le_refl _))
      exact ⟨ρ2, a1.trans a2 (by omega), i2⟩
    | orFalse h1 h2 =>
      obtain ⟨ρ1, a1, i1⟩ := s1 _ h1
      obtain ⟨ρ2, a2, i2⟩ := s2 ρ1 i1 _ h2
      have a12 := a1.trans a2 le
      cases b with
      | false => exact ⟨ρ2, a12, Inv.next i2 (join_le s B.n A.t B.t)⟩
      | true =>
        obtain ⟨ρ3, a3, i3⟩ := join_sound s false (e1 := A.t) (e2 := B.t) (ds' := B.ds) i2 (Nat.le_refl _) hlen (wt.up le2) (wt2.up (Nat.le_refl _))
        exact ⟨ρ3, a12.trans a3 (by omega), i3⟩

theorem branch_fault (s : Solver) (hs : ∀ Q, s.solve Q ≠ .timedOut) (d : Decls) : ∀ (c : Cond) {ρ : Rho} {st : St}, c.plain → NT st.env →
    Inv ρ σ st → Holds KnownNull d σ c none → Fault.movedFrom ∈ (branch s d c st).ds
  | .nz o, ρ, st, _, _, h, hh => by
    cases hh with
    | nzFault hf =>
      have := operand_fault s hs d h hf
      simp only [branch]; split <;> exact this
  | .isz o, ρ, st, _, _, h, hh => by
    cases hh with
    | iszFault hf =>
      have := operand_fault s hs d h hf
      simp only [branch]; split <;> exact this
  | .eq neg o1 o2, ρ, st, _, _, h, hh => by
    cases hh with
    | eqFault hm hf =>
      have key : Fault.movedFrom ∈ (operand s d (operand s d st o1).2 o2).2.ds := by
        simp at hm
        rcases hm with rfl | rfl
        · exact (vg_operand s d _ o2).g.ds _ (operand_fault s hs d h hf)
        · obtain ⟨ρ1, _, i1, _⟩ := operand_sound s d h o1 ⟨none, true⟩
          exact operand_fault s hs d i1 hf
      have h4 : ∀ st : St, Fault.movedFrom ∈ st.ds → ∀ cf l r neg, Fault.movedFrom ∈ (processPointerComparison st cf l r neg).2.ds := by
        intro st hd cf l r neg
        unfold processPointerComparison
        split
        · split
          · exact hd
          · split <;> exact hd
        · exact hd
      simp only [branch]
      exact h4 { (operand s d (operand s d st o1).2 o2).2 with n := (operand s d (operand s d st o1).2 o2).2.n + 1 } key _ _ _ _
  | .eqSmart _ _ _, _, _, hp, _, _, _ => by cases hp
  | .other, _, _, _, _, _, hh => by cases hh
  | .and c1 c2, ρ, st, hp, hnc, h, hh => by
    cases hh with
    | andFault h1 =>
      exact (bg_branch s d c2 _).t.ds _ (branch_fault s hs d c1 hp.1 hnc h h1)
    | andTrue h1 h2 =>
      obtain ⟨ρ1, a1, i1⟩ := branch_sound s d c1 hp.1 hnc h _ h1
      exact branch_fault s hs d c2 hp.2 (NT.branch s d c1 h.wf.two hnc).1 i1 h2
  | .or c1 c2, ρ, st, hp, hnc, h, hh => by
    cases hh with
    | orFault h1 =>
      exact (bg_branch s d c2 _).t.ds _ (branch_fault s hs d c1 hp.1 hnc h h1)
    | orFalse h1 h2 =>
      obtain ⟨ρ1, a1, i1⟩ := branch_sound s d c1 hp.1 hnc h _ h1
      exact branch_fault s hs d c2 hp.2 (NT.branch s d c1 h.wf.two hnc).2 i1 h2

end Verif.NullSound

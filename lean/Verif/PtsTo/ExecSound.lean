import Verif.PtsTo.Sound
/- Running a function keeps memory described by the states of the analysis. -/
namespace Verif.PtsTo
open Verif.Lifetimes

variable {Reg : Type} [CompleteLattice Reg] {f : Fn} {lt : Lts} {W : World Reg} {ρ : Lifetime → Reg}

/-- The value read from an lvalue. -/
theorem read_vok (hf : FnOk f) {s : St} {m : Mem} (hs : AInv f lt s) (h : MInv f lt W ρ s m) {b b' c : Bool} {t : Ty} {l : Loc} {os : List Obj}
    (hl : VOk f lt W ρ b (.gl c t) (some l) os) : VOk f lt W ρ b' (.pr t) (m l) (if t.isPtr then s.pt.getAll os else []) := by
  cases t with
  | int => trivial
  | ptr ct t =>
    intro l' hl'
    obtain ⟨o, ho, hlv⟩ := hl l rfl
    obtain ⟨q, hq, hr⟩ := h.read hf hs hlv hl'
    exact ⟨q, (s.pt.mem_getAll q os).mpr ⟨o, ho, hq⟩, hr⟩

theorem vok_or {b b1 : Bool} {k : Cat} {x : Option Loc} {os os' : List Obj} (h : VOk f lt W ρ b k x os) (hb : b = true → b1 = true)
    (hos : ∀ o ∈ os, o ∈ os') : VOk f lt W ρ b1 k x os' := by
  cases k with
  | gl c t =>
    intro l hl
    obtain ⟨o, ho, hlv⟩ := h l hl
    exact ⟨o, hos o ho, hlv.mono hb⟩
  | pr t =>
    cases t with
    | int => trivial
    | ptr c t =>
      intro l hl
      obtain ⟨o, ho, hr⟩ := h l hl
      exact ⟨o, hos o ho, hr⟩

theorem ev_sound (hf : FnOk f) (hρ : RhoOk f lt ρ) (hlt : LtsOk f lt) {e : Expr} {m m' : Mem} {x : Option Loc} (h : Ev f.vars W.arr e m x m') :
    ∀ {k : Cat} {s : St}, HasCat f.vars e k → AInv f lt s → MInv f lt W ρ s m → Sat ρ (transfer f lt e s).1.cs →
      MInv f lt W ρ (transfer f lt e s).1 m' ∧ VOk f lt W ρ (taint f.vars e) k x (transfer f lt e s).2 := by
  induction h with
  | @var v m hr =>
    intro k s hk hs hm _
    cases hk with
    | var h1 h2 =>
      refine ⟨hm, ?_⟩
      intro l hl
      cases hl
      refine ⟨⟨.var v, 0⟩, by simp [transfer, hr], ?_⟩
      have hc : convc false (oty f ⟨.var v, 0⟩) (f.vars v).ty := by simp [convc, oty, rootTy, peel]
      by_cases hst : (f.vars v).kind = .stat
      · by_cases hi : (f.vars v).ty = .int
        · refine Or.inl ⟨hc, Or.inr ⟨?_, ?_, .int, ?_, ?_⟩⟩
          · simp [Typed, hst, hi]
          · simp [ext, hst]
          · simp [hty, hst, hi]
          · rw [rty_int (by simpa [oty, rootTy, peel] using hi)]
            exact subc_refl _ _
        · refine Or.inr ⟨?_, hc, v, rfl, rfl, hst, hr⟩
          simp [taint, VarInfo.ptrStatic, hst, hr, hi]
      · exact Or.inl ⟨hc, Or.inl ⟨v, 0, rfl, rfl, hst, hr, Or.inl rfl⟩⟩
    | refVar h1 h2 => rw [h1] at hr; cases hr
  | @refVar v m l hr hl =>
    intro k s hk hs hm _
    cases hk with
    | var h1 h2 => rw [h1] at hr; cases hr
    | refVar h1 h2 =>
      refine ⟨hm, ?_⟩
      intro l' hl'
      cases hl'
      obtain ⟨o, ho, hrv⟩ := hm.vars v 0 _ _ l h2 (Or.inl rfl) hl
      exact ⟨o, by simpa [transfer, hr] using ho, Or.inl hrv⟩
  | null => intro k s hk hs hm _; cases hk; exact ⟨hm, by intro l hl; cases hl⟩
  | str =>
    intro k s hk hs hm _; cases hk
    refine ⟨hm, ?_⟩
    intro l hl; cases hl
    refine ⟨⟨.lit, 0⟩, by simp [transfer], conv_refl _, Or.inr ⟨trivial, ?_, .int, rfl, ?_⟩⟩
    · simp [ext]
    · exact subc_refl _ _
  | intE => intro k s hk hs hm _; cases hk; exact ⟨hm, trivial⟩
  | load _ ih =>
    intro k s hk hs hm hsat
    cases hk with
    | load hk =>
      obtain ⟨h1, h2⟩ := ih hk hs hm hsat
      exact ⟨h1, read_vok hf (transfer_inv hlt hk hs).1 h1 h2⟩
  | addr _ ih =>
    intro k s hk hs hm hsat
    cases hk with
    | addr hk ht =>
      obtain ⟨h1, h2⟩ := ih hk hs hm hsat
      refine ⟨h1, fun l hl => ?_⟩
      obtain ⟨o, ho, hlv⟩ := h2 l hl
      rw [ht] at hlv
      exact ⟨o, ho, hlv.rv⟩
  | deref _ ih =>
    intro k s hk hs hm hsat
    cases hk with
    | deref hk =>
      obtain ⟨h1, h2⟩ := ih hk hs hm hsat
      refine ⟨h1, fun l hl => ?_⟩
      obtain ⟨o, ho, hr⟩ := h2 l hl
      exact ⟨o, ho, Or.inl hr⟩
  | @incrInt pre e m l m' _ ih =>
    intro k s hk hs hm hsat
    cases hk with
    | pre hk => exact ih hk hs hm hsat
    | post hk => exact ⟨(ih hk hs hm hsat).1, trivial⟩
  | pre _ hl hn ih =>
    intro k s hk hs hm hsat
    cases hk with
    | pre hk =>
      obtain ⟨h1, h2⟩ := ih hk hs hm hsat
      exact ⟨h1.step hl hn, h2⟩
  | post _ hl hn ih =>
    intro k s hk hs hm hsat
    cases hk with
    | post hk =>
      obtain ⟨h1, h2⟩ := ih hk hs hm hsat
      refine ⟨h1.step hl hn, ?_⟩
      have := read_vok (b' := false) hf (transfer_inv hlt hk hs).1 h1 h2
      rw [hl] at this
      exact this
  | add _ hn ih =>
    intro k s hk hs hm hsat
    cases hk with
    | add hk =>
      obtain ⟨h1, h2⟩ := ih hk hs hm hsat
      refine ⟨h1, fun l hl => ?_⟩
      cases hl
      obtain ⟨o, ho, hr⟩ := h2 _ rfl
      exact ⟨o, ho, hr.near hn⟩
  | index _ hn ih =>
    intro k s hk hs hm hsat
    cases hk with
    | index hk =>
      obtain ⟨h1, h2⟩ := ih hk hs hm hsat
      refine ⟨h1, fun l hl => ?_⟩
      cases hl
      obtain ⟨o, ho, hr⟩ := h2 _ rfl
      exact ⟨o, ho, Or.inl (hr.near hn)⟩
  | @decay v m =>
    intro k s hk hs hm _
    cases hk with
    | decay h1 h2 =>
      refine ⟨hm, ?_⟩
      intro l hl; cases hl
      refine ⟨⟨.var v, 0⟩, by simp [transfer], by simp [convc, oty, rootTy, peel], ?_⟩
      have hr := (hf.arr v h1).1
      by_cases hst : (f.vars v).kind = .stat
      · have hi : (f.vars v).ty = .int := by simpa [VarInfo.ptrStatic, hst, hr] using h2
        refine Or.inr ⟨?_, ?_, .int, ?_, ?_⟩
        · simp [Typed, hst, hi]
        · simp [ext, hst]
        · simp [hty, hst, hi]
        · rw [rty_int (by simpa [oty, rootTy, peel] using hi)]
          exact subc_refl _ _
      · exact Or.inl ⟨v, 0, rfl, rfl, hst, hr, Or.inl rfl⟩
  | @assignInt l r _ _ _ _ _ _ _ ihr ihl =>
    intro k s hk hs hm hsat
    cases hk with
    | assign hl hr =>
      have i1 := (transfer_inv hlt hr hs).1
      have i2 := transfer_inv hlt hl i1
      have hsat' : Sat ρ (transfer f lt l (transfer f lt r s).1).1.cs := hsat
      obtain ⟨h1, _⟩ := ihr hr hs hm (hsat'.anti i2.2.2)
      exact ihl hl i1 h1 hsat'
  | @assign c t l r m x m' p m'' _ _ ihr ihl =>
    intro k s hk hs hm hsat
    cases hk with
    | assign hl hr =>
      have i1 := transfer_inv hlt hr hs
      have i2 := transfer_inv hlt hl i1.1
      -- whatever happens, constraints are only added
      have hcs : Sat ρ (transfer f lt l (transfer f lt r s).1).1.cs := by
        refine hsat.anti ?_
        simp only [transfer, Ty.isPtr, Bool.not_true, Bool.false_eq_true, if_false]
        split
        · split
          · exact fun x hx => hx
          · exact extend_cs i2.1 i2.2.1
        · exact extend_cs i2.1 i2.2.1
      obtain ⟨hm1, hv1⟩ := ihr hr hs hm (hcs.anti i2.2.2)
      obtain ⟨hm2, hv2⟩ := ihl hl i1.1 hm1 hcs
      have hw : Sat ρ (extendSets lt (.ptr c t) (transfer f lt l (transfer f lt r s).1).2 (transfer f lt r s).2 (transfer f lt l (transfer f lt r s).1).1).cs →
          MInv f lt W ρ (extendSets lt (.ptr c t) (transfer f lt l (transfer f lt r s).1).2 (transfer f lt r s).2 (transfer f lt l (transfer f lt r s).1).1)
            (m''.write p x) := fun hsat => hm2.weak hf hρ hlt i2.1 i2.2.1 (hv2 p rfl) hv1 hsat
      simp only [transfer, Ty.isPtr, Bool.not_true, Bool.false_eq_true, if_false] at hsat ⊢
      split
      · next o he =>
        split
        · next hsv =>
          refine ⟨?_, hv2⟩
          obtain ⟨v, rfl, harr⟩ := i2.1.sv o hsv
          obtain ⟨o', ho', hlv⟩ := hv2 p rfl
          rw [he, List.mem_singleton] at ho'
          subst ho'
          have hc : (f.vars v).ty = .ptr c t := by
            rcases hlv with h | h
            · simpa [convc, oty, rootTy, peel] using h.1
            · simpa [convc, oty, rootTy, peel] using h.2.1
          have hp : p = .var v 0 := by
            rcases hlv with ⟨_, ⟨u, i, rfl, hu, _, _, hi⟩ | ⟨hT, _⟩⟩ | ⟨_, _, u, rfl, hu, _⟩
            · cases hu
              rcases hi with rfl | hi
              · rfl
              · rw [harr] at hi; cases hi
            · simp [Typed, hc] at hT
            · cases hu; rfl
          subst hp
          exact hm2.set hc harr hv1
        · next hsv => rw [he] at hsat; simp only [if_neg hsv] at hsat; exact ⟨hw (by rw [he]; exact hsat), hv2⟩
      · next hne =>
        refine ⟨hw ?_, hv2⟩
        split at hsat
        · next o he => exact absurd he (hne o)
        · exact hsat
  | @condT c a b _ _ _ _ _ _ _ ihc iha =>
    intro k s hk hs hm hsat
    cases hk with
    | cond hc ha hb =>
      have ic := transfer_inv hlt hc hs
      have ia := transfer_inv hlt ha ic.1
      have ib := transfer_inv hlt hb ic.1
      have hl := le_join_left (a := (transfer f lt a (transfer f lt c s).1).1) ib.1.nodup
      have hsa : Sat ρ (transfer f lt a (transfer f lt c s).1).1.cs := hsat.anti hl.2.1
      obtain ⟨h1, _⟩ := ihc hc hs hm (hsa.anti ia.2.2)
      obtain ⟨h2, h3⟩ := iha ha ic.1 h1 hsa
      exact ⟨h2.mono hl.1, vok_or h3 (by simp +contextual [taint]) fun o ho => (mem_addAll _ _ o).mpr (Or.inl ho)⟩
  | @condF c a b _ _ _ _ _ _ _ ihc ihb =>
    intro k s hk hs hm hsat
    cases hk with
    | cond hc ha hb =>
      have ic := transfer_inv hlt hc hs
      have ia := transfer_inv hlt ha ic.1
      have ib := transfer_inv hlt hb ic.1
      have hl := le_join_right (a := (transfer f lt a (transfer f lt c s).1).1) ib.1.nodup
      have hsb : Sat ρ (transfer f lt b (transfer f lt c s).1).1.cs := hsat.anti hl.2.1
      obtain ⟨h1, _⟩ := ihc hc hs hm (hsb.anti ib.2.2)
      obtain ⟨h2, h3⟩ := ihb hb ic.1 h1 hsb
      exact ⟨h2.mono hl.1, vok_or h3 (by simp +contextual [taint]) fun o ho => (mem_addAll _ _ o).mpr (Or.inr ho)⟩
  | qual _ ih =>
    intro k s hk hs hm hsat
    cases hk with
    | @qualP _ t t' hk hc =>
      obtain ⟨h1, h2⟩ := ih hk hs hm hsat
      refine ⟨h1, ?_⟩
      cases t with
      | int => cases t' with
        | int => trivial
        | ptr => exact hc.elim
      | ptr c t => cases t' with
        | int => exact hc.elim
        | ptr c' t' =>
          intro l hl
          obtain ⟨o, ho, hr⟩ := h2 l hl
          exact ⟨o, ho, hr.weaken (conv_ptr.mp hc).1 (conv_ptr.mp hc).2⟩
    | qualG hk hc1 hc2 =>
      obtain ⟨h1, h2⟩ := ih hk hs hm hsat
      refine ⟨h1, fun l hl => ?_⟩
      obtain ⟨o, ho, hr⟩ := h2 l hl
      exact ⟨o, ho, hr.weaken hc1 hc2⟩

theorem inits_sound (hf : FnOk f) (hρ : RhoOk f lt ρ) (hlt : LtsOk f lt) {t : Ty} {es : List Expr} {m m' : Mem} {xs : List (Option Loc)}
    (h : EvInits f.vars W.arr es m xs m') : ∀ {s : St}, (∀ e ∈ es, HasCat f.vars e (.pr t)) → AInv f lt s → MInv f lt W ρ s m →
      Sat ρ (transferInits f lt es s).1.cs → MInv f lt W ρ (transferInits f lt es s).1 m' ∧
      ∀ x ∈ xs, VOk f lt W ρ false (.pr t) x (transferInits f lt es s).2 := by
  induction h with
  | nil => intro s _ hs hm _; exact ⟨hm, by simp⟩
  | @cons e es _ _ _ _ _ he _ ih =>
    intro s hk hs hm hsat
    have i1 := transfer_inv hlt (hk e (by simp)) hs
    have hk' := fun e h => hk e (List.mem_cons_of_mem _ h)
    have i2 : ∀ x ∈ (transfer f lt e s).1.cs, x ∈ (transferInits f lt es (transfer f lt e s).1).1.cs := by
      cases t with
      | int => exact (transferInits_int hlt hk' i1.1).2
      | ptr c t => exact (transferInits_inv hlt hk' i1.1).2.2
    have hsat' : Sat ρ (transferInits f lt es (transfer f lt e s).1).1.cs := hsat
    obtain ⟨h1, h2⟩ := ev_sound hf hρ hlt he (hk e (by simp)) hs hm (hsat'.anti i2)
    obtain ⟨h3, h4⟩ := ih hk' i1.1 h1 hsat'
    refine ⟨h3, fun x hx => ?_⟩
    rcases List.mem_cons.mp hx with rfl | hx
    · cases t with
      | int => trivial
      | ptr c t =>
        intro l hl
        obtain ⟨o, ho, hr⟩ := h2 l hl
        exact ⟨o, (mem_addAll _ _ o).mpr (Or.inl ho), hr⟩
    · exact vok_or (h4 x hx) id fun o ho => (mem_addAll _ _ o).mpr (Or.inr ho)

/-- Writing a variable that does not hold a pointer. -/
theorem MInv.writeInt {s : St} {m : Mem} (h : MInv f lt W ρ s m) {v : Nat} {x : Option Loc} (ht : (f.vars v).ty.isPtr = false ∨ x = none) :
    MInv f lt W ρ s (m.write (.var v 0) x) where
  vars u i c t l h1 h2 h3 := by
    unfold Mem.write at h3
    split at h3
    · next e =>
      cases e
      rcases ht with ht | ht
      · rw [h1] at ht; cases ht
      · rw [ht] at h3; cases h3
    · exact h.vars u i c t l h1 h2 h3
  cells n := by
    unfold Mem.write
    rw [if_neg (by simp)]
    exact h.cells n

theorem MInv.fill {s : St} {m : Mem} (h : MInv f lt W ρ s m) {v : Nat} {xs : List (Option Loc)} {os : List Obj}
    (hx : ∀ x ∈ xs, VOk f lt W ρ false (.pr (f.vars v).ty) x os) :
    MInv f lt W ρ (if (f.vars v).ty.isPtr then { s with pt := s.pt.set ⟨.var v, 0⟩ os } else s) (m.fill v xs) := by
  refine ⟨fun u i c t l h1 h2 h3 => ?_, fun n => ?_⟩
  · by_cases e : u = v
    · subst e
      rw [h1] at hx ⊢
      simp only [Ty.isPtr, if_true, Pts.get_set]
      simp only [Mem.fill, if_true] at h3
      cases hg : xs[i]? with
      | none => rw [hg] at h3; cases h3
      | some x =>
        rw [hg] at h3
        exact hx x (List.mem_of_getElem? hg) l h3
    · have hm : m (.var u i) = some l := by simpa [Mem.fill, e] using h3
      obtain ⟨o, ho, hr⟩ := h.vars u i c t l h1 h2 hm
      refine ⟨o, ?_, hr⟩
      split
      · rw [Pts.get_set, if_neg (by simpa using Ne.symm e)]; exact ho
      · exact ho
  · have : m.fill v xs (.cell n) = m (.cell n) := rfl
    rw [this]
    exact h.cells n

theorem run_sound (hf : FnOk f) (hρ : RhoOk f lt ρ) (hlt : LtsOk f lt) {st : Stmt} (hk : StmtOk f st) {m m' : Mem} {r r' : Option Loc}
    (h : Run f W.arr st m r m' r') {s : St} (hs : AInv f lt s) (hm : MInv f lt W ρ s m) (hr : Fits f.vars W r (rty f lt ρ ⟨.ret, 0⟩))
    (hsat : Sat ρ (transferStmt f lt st s).cs) :
    MInv f lt W ρ (transferStmt f lt st s) m' ∧ Fits f.vars W r' (rty f lt ρ ⟨.ret, 0⟩) := by
  have hset : ∀ {v : Nat} {s' : St} {m : Mem} {os : List Obj} {x : Option Loc}, MInv f lt W ρ s' m → (f.vars v).isArr = false →
      VOk f lt W ρ false (.pr (f.vars v).ty) x os →
      MInv f lt W ρ (if (f.vars v).ty.isPtr then { s' with pt := s'.pt.set ⟨.var v, 0⟩ os } else s') (m.write (.var v 0) x) := by
    intro v s' m os x h1 ha hx
    cases ht : (f.vars v).ty with
    | int => exact h1.writeInt (Or.inl (by rw [ht]; rfl))
    | ptr c t =>
      rw [ht] at hx
      exact h1.set ht ha hx
  have hret : ∀ {s' : St} {os : List Obj} {x : Option Loc}, AInv f lt s' → VOk f lt W ρ false (.pr f.retTy) x os →
      Sat ρ (if f.retTy.isPtr then { s' with cs := genAssign lt s'.pt f.retTy [⟨.ret, 0⟩] os s'.cs } else s').cs →
      Sat ρ s'.cs ∧ Fits f.vars W x (rty f lt ρ ⟨.ret, 0⟩) := by
    intro s' os x h1 hx hsat
    have ho : oty f ⟨.ret, 0⟩ = f.retTy := by simp [oty, rootTy, peel]
    cases ht : f.retTy with
    | int =>
      rw [ht] at hsat ho
      rw [rty_int ho]
      exact ⟨hsat, trivial⟩
    | ptr c t =>
      rw [ht] at hsat ho hx
      simp only [Ty.isPtr, if_true] at hsat
      obtain ⟨g1, g2⟩ := genAssign_spec (f := f) lt h1.deep (t := .ptr c t) (ps := [⟨.ret, 0⟩]) os s'.cs (by simp [ho])
      refine ⟨hsat.anti g1, ?_⟩
      cases x with
      | none => rw [rty_ptr ho]; intro l hl; cases hl
      | some l =>
        obtain ⟨q, hq, hrv⟩ := hx l rfl
        refine fits_of_gen hf hρ hlt h1 hsat ho ?_ (h1.next _ c t trivial ho) ?_ (by simp) hq hrv g2
        · rw [← ht]; exact hf.retRegular
        · simp [Typed, Obj.next, ht, Ty.depth]
  cases h with
  | skip => exact ⟨hm, hr⟩
  | expr he =>
    cases hk with
    | expr hk => exact ⟨(ev_sound hf hρ hlt he hk hs hm hsat).1, hr⟩
  | decl => exact ⟨hm.writeInt (Or.inr rfl), hr⟩
  | @declInit v e _ x m1 _ he =>
    have hcs : Sat ρ (transfer f lt e s).1.cs := by
      refine hsat.anti ?_
      simp only [transferStmt]
      split <;> exact fun x hx => hx
    cases hk with
    | declInit _ h2 h3 hk =>
      obtain ⟨h4, h5⟩ := ev_sound hf hρ hlt he hk hs hm hcs
      refine ⟨hset h4 h3 ?_, hr⟩
      cases ht : (f.vars v).ty with
      | int => trivial
      | ptr c t => rw [ht] at h5; exact h5
    | declRef _ h2 h3 hk h4 =>
      obtain ⟨h5, h6⟩ := ev_sound hf hρ hlt he hk hs hm hcs
      have ha : (f.vars v).isArr = false := by
        cases ha : (f.vars v).isArr with
        | false => rfl
        | true => have := (hf.arr v ha).1; rw [h2] at this; cases this
      refine ⟨hset h5 ha ?_, hr⟩
      rw [h3]
      intro l hl
      obtain ⟨o, ho, hlv⟩ := h6 l hl
      rw [h4] at hlv
      exact ⟨o, ho, hlv.rv⟩
  | @declArr v es _ xs m1 _ he =>
    cases hk with
    | declArr _ _ hk =>
      have hcs : Sat ρ (transferInits f lt es s).1.cs := by
        refine hsat.anti ?_
        simp only [transferStmt]
        split <;> exact fun x hx => hx
      obtain ⟨h1, h2⟩ := inits_sound hf hρ hlt he hk hs hm hcs
      exact ⟨h1.fill h2, hr⟩
  | @ret e _ _ _ _ he =>
    cases hk with
    | ret h1 hk =>
      have i1 := transfer_inv hlt hk hs
      obtain ⟨hcs, -⟩ := hret (x := none) (os := (transfer f lt e s).2) i1.1 (by cases f.retTy <;> [trivial; exact fun l hl => by cases hl]) hsat
      obtain ⟨h2, h3⟩ := ev_sound hf hρ hlt he hk hs hm hcs
      refine ⟨h2.mono ?_, (hret i1.1 ?_ hsat).2⟩
      · simp only [transferStmt]
        split <;> exact fun o x hx => hx
      · cases ht : f.retTy with
        | int => trivial
        | ptr c t => rw [ht] at h3; exact h3
    | retRef h0 h1 hk ht =>
      have i1 := transfer_inv hlt hk hs
      obtain ⟨hcs, -⟩ := hret (x := none) (os := (transfer f lt e s).2) i1.1 (by cases f.retTy <;> [trivial; exact fun l hl => by cases hl]) hsat
      obtain ⟨h2, h3⟩ := ev_sound hf hρ hlt he hk hs hm hcs
      refine ⟨h2.mono ?_, (hret i1.1 ?_ hsat).2⟩
      · simp only [transferStmt]
        split <;> exact fun o x hx => hx
      · rw [h1]
        intro l hl
        obtain ⟨o, ho, hlv⟩ := h3 l hl
        rw [ht] at hlv
        exact ⟨o, ho, hlv.rv⟩

theorem fits_var {v : Nat} (ht : Typed f ⟨.var v, 1⟩) {c : Bool} {t : Ty} (h : (f.vars v).ty = .ptr c t) {l : Loc}
    (hfit : Fits f.vars W (some l) (regions (fun k => ρ (lt ⟨.var v, k⟩)) (.ptr c t) 0)) : Rv f lt W ρ c t l ⟨.var v, 1⟩ := by
  have ho : oty f ⟨.var v, 1⟩ = t := by simp [oty, rootTy, peel, h]
  obtain ⟨h1, T, h2, h3⟩ := hfit l rfl
  refine ⟨?_, Or.inr ⟨ht, h1, T, h2, ?_⟩⟩
  · rw [ho]; exact convc_refl _ _
  · unfold rty; rw [ho]; exact h3

theorem init_minv (hf : FnOk f) (hρ : RhoOk f lt ρ) (hlt : LtsOk f lt) {m : Mem} (h : Entry f W (fun p k => ρ (lt ⟨.var p, k⟩)) m) :
    MInv f lt W ρ (initSt f) m where
  vars v i c t l h1 h2 h3 := by
    have hnum : (f.vars v).kind ≠ .auto → v < f.numVars := fun hk => by
      by_contra hn; exact hk (hf.inRange v (by omega))
    have hget : v < f.numVars → ⟨.var v, 1⟩ ∈ (initSt f).pt.get ⟨.var v, 0⟩ := fun hv => by
      show _ ∈ (initPts f).get _
      rw [get_initPts f ⟨.var v, 0⟩ (by simp [roots, hv]) (c := c) (t := t) (by simpa [oty, rootTy, peel] using h1)]
      simp [Obj.next]
    cases hk : (f.vars v).kind with
    | auto => rw [h.autos v i hk] at h3; cases h3
    | param =>
      have ha : i = 0 := by
        rcases h2 with h2 | h2
        · exact h2
        · exact absurd hk (hf.arr v h2).2
      subst ha
      refine ⟨_, hget (hnum (by simp [hk])), fits_var ?_ h1 ?_⟩
      · simp [Typed, h1, Ty.depth, hk]
      · have := h.params v hk; rw [h1, h3] at this; exact this
    | stat =>
      refine ⟨_, hget (hnum (by simp [hk])), fits_var ?_ h1 ?_⟩
      · simp [Typed, h1, Ty.depth, hk]
      · have := h.statics v i hk; rw [h1, h3] at this
        have e : (fun k => ρ (lt ⟨.var v, k⟩)) = fun _ => ⊤ := by
          funext k; rw [hlt.stat v k hk, hρ.stat]
        rw [e]; exact this
  cells := h.cells

/-- Memory is described by the state computed for the point of the program that has been reached. -/
theorem exec_sound (hf : FnOk f) (hρ : RhoOk f lt ρ) (hlt : LtsOk f lt) {S : Nat → Option St} (hS : Stable f lt S) {m0 : Mem}
    (h0 : Entry f W (fun p k => ρ (lt ⟨.var p, k⟩)) m0) {n : Nat} {m : Mem} {r : Option Loc} (h : Exec f W.arr m0 n m r) :
    ∃ s, S n = some s ∧ (Sat ρ s.cs → MInv f lt W ρ s m ∧ Fits f.vars W r (rty f lt ρ ⟨.ret, 0⟩)) := by
  induction h with
  | start =>
    obtain ⟨s, hs, hle⟩ := hS.entry
    refine ⟨s, hs, fun _ => ⟨(init_minv hf hρ hlt h0).mono hle.1, ?_⟩⟩
    cases h : rty f lt ρ ⟨.ret, 0⟩ with
    | int => trivial
    | ptr c r t => intro l hl; cases hl
  | step _ hrun hn ih =>
    obtain ⟨s, hs, hinv⟩ := ih
    obtain ⟨s', hs', hle⟩ := hS.edge _ s hs _ hn
    refine ⟨s', hs', fun hsat => ?_⟩
    have ha := built_inv hf hlt (hS.built _ s hs)
    have hsat1 := hsat.anti hle.2.1
    obtain ⟨h1, h2⟩ := hinv (hsat1.anti (transferStmt_inv hlt (hf.stmts _) ha).2)
    obtain ⟨h3, h4⟩ := run_sound hf hρ hlt (hf.stmts _) hrun ha h1 h2 hsat1
    exact ⟨h3.mono hle.1, h4⟩

/-- The constraints of a node are among those of the nodes that can be reached from it. -/
theorem cs_reach (hf : FnOk f) (hlt : LtsOk f lt) {S : Nat → Option St} (hS : Stable f lt S) {n n' : Nat}
    (h : Relation.ReflTransGen (fun a b => b ∈ f.succ a) n n') {s : St} (hs : S n = some s) :
    ∃ s', S n' = some s' ∧ ∀ x ∈ s.cs, x ∈ s'.cs := by
  induction h with
  | refl => exact ⟨s, hs, fun x hx => hx⟩
  | tail _ hstep ih =>
    obtain ⟨s1, h1, h2⟩ := ih
    obtain ⟨s', hs', hle⟩ := hS.edge _ s1 h1 _ hstep
    exact ⟨s', hs', fun x hx => hle.2.1 x ((transferStmt_inv hlt (hf.stmts _) (built_inv hf hlt (hS.built _ s1 h1))).2 x (h2 x hx))⟩

end Verif.PtsTo

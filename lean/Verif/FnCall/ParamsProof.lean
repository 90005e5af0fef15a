import Verif.FnCall.Params

/-! # Parameters: the induction over types -/

namespace Verif.FnCall

/-- `σ''` has the same names and objects below `x` as `σ'`, and `x` names an object holding `w`. -/
structure Sees (σ' σ'' : CState) (x r : Name) (p : List Nat) (w : Val) : Prop where
  env : ∀ n, Below x n → σ''.env n = σ'.env n
  mem : ∀ n, Below x n → σ''.mem n = σ'.mem n
  here : σ''.env x = some ⟨r, p⟩
  obj : ∃ V, σ''.mem r = some (.val V) ∧ V.at p = some w

/-- The form of the argument expression. -/
def ExprForm (σ' : CState) (x : Name) (t : Ty) : CExpr → Prop
  | .var n =>
      (n = x ∧ (t.isCAbi = true ∨ ∃ c, t = .legacyPtr c)) ∨
      (Below x n ∧ σ'.env n = some ⟨n, []⟩ ∧ t.isTuple = true ∧ t.isCAbi = false ∧
        ∃ ls, σ'.mem n = some (.arr ls)) ∨
      (∃ k, t = .composable k)
  | .addr n => n = x ∧ t.isCAbi = false ∧ (∀ c, t ≠ .legacyPtr c)
  | .slotGet n => Below x n ∧ σ'.env n = some ⟨n, []⟩ ∧ t.isCAbi = false ∧ (∀ c, t ≠ .legacyPtr c)

/-- Running the statements for the lvalue `x` of type `t` holding `v`, from `σ`, ends in `σ'`: only
names below `x` and the object `x` names are touched, the latter is left moved-from, and in any later
state in which these are still intact the expression delivers `v` to Rust. -/
structure ParamDone (K : Convs) (lct : Bool) (x r : Name) (p : List Nat) (t : Ty) (V v : Val)
    (σ σ' : CState) : Prop where
  run : execAll K (cParam lct x t).1 σ = some σ'
  env : ∀ n, ¬ Below x n → σ'.env n = σ.env n
  mem : ∀ n, ¬ Below x n → n ≠ r → σ'.mem n = σ.mem n
  exits : σ'.exits = σ.exits
  left : σ'.mem r = some (.val (V.put p v.moved))
  form : ExprForm σ' x t (cParam lct x t).2
  delivers : ∀ σ'', Sees σ' σ'' x r p v.moved →
    ∃ a, σ''.pass (cParam lct x t).2 = some a ∧
      (rParam lct t).eval K σ'' a = some (rustOf K t v)

/-- What is assumed of `x` before its conversion. -/
structure ParamReady (x r : Name) (p : List Nat) (V v : Val) (σ : CState) : Prop where
  here : σ.env x = some ⟨r, p⟩
  obj : σ.mem r = some (.val V)
  sub : V.at p = some v
  fresh : ∀ n, Below x n → σ.env n = none
  root : ¬ Below x r

/-- The state after declaring a variable. -/
def CState.withVar (σ : CState) (n : Name) (o : Obj) : CState where
  env := fun m => if m = n then some ⟨n, []⟩ else σ.env m
  mem := fun m => if m = n then some o else σ.mem m
  exits := σ.exits

/-- The state after declaring a reference. -/
def CState.withRef (σ : CState) (n : Name) (l : Loc) : CState where
  env := fun m => if m = n then some l else σ.env m
  mem := σ.mem
  exits := σ.exits

theorem declare_fresh {σ : CState} {n : Name} (o : Obj) (h : σ.env n = none) :
    σ.declare n o = some (σ.withVar n o) := by
  simp [CState.declare, h, CState.withVar]

theorem bind_fresh {σ : CState} {n : Name} (l : Loc) (h : σ.env n = none) :
    σ.bind n l = some (σ.withRef n l) := by
  simp [CState.bind, h, CState.withRef]

/-- Nothing to do: the lvalue itself, or its address, is passed. -/
theorem param_nothing {K : Convs} {lct : Bool} {x r : Name} {p : List Nat} {t : Ty} {V v : Val}
    {σ : CState} (hr : ParamReady x r p V v σ) (hs : (cParam lct x t).1 = [])
    (hv : v.moved = v) (hf : ExprForm σ x t (cParam lct x t).2)
    (hd : ∀ σ'', Sees σ σ'' x r p v → ∃ a, σ''.pass (cParam lct x t).2 = some a ∧
      (rParam lct t).eval K σ'' a = some (rustOf K t v)) :
    ∃ σ', ParamDone K lct x r p t V v σ σ' := by
  refine ⟨σ, ?_, fun _ _ => rfl, fun _ _ _ => rfl, rfl, ?_, hf, ?_⟩
  · simp [hs, execAll]
  · rw [hv, Val.put_same p V v hr.sub]; exact hr.obj
  · rw [hv]; exact hd

theorem sees_valAt {σ' σ'' : CState} {x r : Name} {p : List Nat} {w : Val}
    (h : Sees σ' σ'' x r p w) : σ''.valAt ⟨r, p⟩ = some w := by
  obtain ⟨V, hV, hw⟩ := h.obj
  simp [CState.valAt, hV, hw]

/-- The lvalue is moved into a slot. -/
theorem param_slot {K : Convs} {lct : Bool} {x r : Name} {p : List Nat} {t : Ty} {V v : Val}
    {σ : CState} (hr : ParamReady x r p V v σ)
    (hs : cParam lct x t = ([.slot (.slot :: x) x], .slotGet (.slot :: x)))
    (hc : t.isCAbi = false) (hl : ∀ c, t ≠ .legacyPtr c)
    (hd : ∀ σ'' : CState, ∀ l, σ''.valAt l = some v →
      (rParam lct t).eval K σ'' (.ptr l) = some (rustOf K t v)) :
    ∃ σ', ParamDone K lct x r p t V v σ σ' := by
  have hfr : σ.env (.slot :: x) = none := hr.fresh _ (below_cons _ _)
  have hva : σ.valAt ⟨r, p⟩ = some v := by simp [CState.valAt, hr.obj, hr.sub]
  have hput : σ.putAt ⟨r, p⟩ v.moved = σ.setMem r (.val (V.put p v.moved)) := by
    simp [CState.putAt, hr.obj]
  have hne : r ≠ .slot :: x := fun h => hr.root (h ▸ below_cons _ _)
  refine ⟨(σ.setMem r (.val (V.put p v.moved))).withVar (.slot :: x) (.val v),
    ?_, ?_, ?_, ?_, ?_, ?_, ?_⟩
  · rw [hs]
    simp only [execAll, CStmt.exec, hr.here, Option.bind_some, hva, hput]
    rw [declare_fresh _ (by simpa [CState.setMem] using hfr)]
    simp
  · intro n hn
    have : n ≠ .slot :: x := fun h => hn (h ▸ below_cons _ _)
    simp [this, CState.withVar, CState.setMem]
  · intro n hn hnr
    have : n ≠ .slot :: x := fun h => hn (h ▸ below_cons _ _)
    simp [this, CState.withVar, CState.setMem, hnr]
  · simp [CState.withVar, CState.setMem]
  · simp [hne, CState.withVar, CState.setMem]
  · rw [hs]; exact ⟨below_cons _ _, by simp [CState.withVar], hc, hl⟩
  · intro σ'' hsee
    rw [hs]
    have he := hsee.env (.slot :: x) (below_cons _ _)
    have hm := hsee.mem (.slot :: x) (below_cons _ _)
    simp only [CState.withVar, if_true] at he hm
    refine ⟨.ptr ⟨.slot :: x, []⟩, by simp [CState.pass, he], hd σ'' _ ?_⟩
    simp [CState.valAt, hm, Val.at]

theorem leaf_of_hasTy_adt {d : Bool} {v : Val} (h : HasTy (.adt d) v) : ∃ l, v = .leaf l := by
  cases v with
  | leaf l => exact ⟨l, rfl⟩
  | tup vs => simp [HasTy] at h

theorem leaf_of_hasTy_legacy {c : Option Nat} {d : Bool} {v : Val} (h : HasTy (.legacyVal c d) v) :
    ∃ l, v = .leaf l := by
  cases v with
  | leaf l => exact ⟨l, rfl⟩
  | tup vs => simp [HasTy] at h

/-! ## The types that are not taken apart -/

theorem param_scalar (K : Convs) (lct : Bool) {x r : Name} {p : List Nat} {V v : Val} {σ : CState}
    (hr : ParamReady x r p V v σ) (hv : HasTy (.scalar false) v) :
    ∃ σ', ParamDone K lct x r p (.scalar false) V v σ σ' := by
  apply param_nothing hr (by simp [cParam]) (moved_trivial _ v hv (by simp [Ty.needsDrop]))
    (by simp [ExprForm, cParam, Ty.isCAbi])
  intro σ'' hsee
  obtain ⟨V', hV', hw⟩ := hsee.obj
  refine ⟨.val v, by simp [cParam, CState.pass, hsee.here, hV', hw], ?_⟩
  simp [rParam, RConv.eval, rustOf]

theorem param_unit (K : Convs) (lct : Bool) {x r : Name} {p : List Nat} {V v : Val} {σ : CState}
    (hr : ParamReady x r p V v σ) (hv : HasTy (.tup []) v) :
    ∃ σ', ParamDone K lct x r p (.tup []) V v σ σ' := by
  have h0 : v = .tup [] := by
    cases v with
    | leaf l => simp [HasTy] at hv
    | tup vs => cases vs with
      | nil => rfl
      | cons a b => simp [HasTy, HasTys] at hv
  apply param_nothing hr (by simp [cParam])
    (moved_trivial _ v hv (by simp [Ty.needsDrop, needsDropAny]))
    (by simp [ExprForm, cParam, Ty.isCAbi])
  intro σ'' hsee
  obtain ⟨V', hV', hw⟩ := hsee.obj
  refine ⟨.val v, by simp [cParam, CState.pass, hsee.here, hV', hw], ?_⟩
  subst h0
  simp [rParam, RConv.eval, rustOf, rustOfs]

theorem param_legacyPtr (K : Convs) (lct : Bool) (c : Option Nat) {x r : Name} {p : List Nat}
    {V v : Val} {σ : CState} (hr : ParamReady x r p V v σ) (hv : HasTy (.legacyPtr c) v) :
    ∃ σ', ParamDone K lct x r p (.legacyPtr c) V v σ σ' := by
  apply param_nothing hr (by simp [cParam]) (moved_trivial _ v hv (by simp [Ty.needsDrop]))
    (by simp [ExprForm, cParam])
  intro σ'' hsee
  obtain ⟨V', hV', hw⟩ := hsee.obj
  refine ⟨.val v, by simp [cParam, CState.pass, hsee.here, hV', hw], ?_⟩
  cases v with
  | tup vs => simp [HasTy] at hv
  | leaf l => cases c <;> simp [rParam, RConv.eval, rustOf]

theorem param_adt (K : Convs) (lct : Bool) (d : Bool) {x r : Name} {p : List Nat}
    {V v : Val} {σ : CState} (hr : ParamReady x r p V v σ) (hv : HasTy (.adt d) v) :
    ∃ σ', ParamDone K lct x r p (.adt d) V v σ σ' := by
  obtain ⟨l, rfl⟩ := leaf_of_hasTy_adt hv
  cases d with
  | false =>
    apply param_nothing hr (by simp [cParam]) (moved_trivial _ _ hv (by simp [Ty.needsDrop]))
      (by simp [ExprForm, cParam, Ty.isCAbi])
    intro σ'' hsee
    refine ⟨.ptr ⟨r, p⟩, by simp [cParam, CState.pass, hsee.here], ?_⟩
    simp [rParam, RConv.eval, rustOf, sees_valAt hsee]
  | true =>
    apply param_slot hr (by simp [cParam]) (by simp [Ty.isCAbi]) (by simp)
    intro σ'' l' h
    simp [rParam, RConv.eval, rustOf, h]

theorem param_legacyVal (K : Convs) (lct : Bool) (c : Option Nat) (d : Bool) {x r : Name}
    {p : List Nat} {V v : Val} {σ : CState} (hr : ParamReady x r p V v σ)
    (hv : HasTy (.legacyVal c d) v) :
    ∃ σ', ParamDone K lct x r p (.legacyVal c d) V v σ σ' := by
  obtain ⟨l, rfl⟩ := leaf_of_hasTy_legacy hv
  cases d with
  | false =>
    apply param_nothing hr (by simp [cParam]) (moved_trivial _ _ hv (by simp [Ty.needsDrop]))
      (by simp [ExprForm, cParam, Ty.isCAbi])
    intro σ'' hsee
    refine ⟨.ptr ⟨r, p⟩, by simp [cParam, CState.pass, hsee.here], ?_⟩
    cases c <;> simp [rParam, RConv.eval, rustOf, sees_valAt hsee]
  | true =>
    apply param_slot hr (by simp [cParam]) (by simp [Ty.isCAbi]) (by simp)
    intro σ'' l' h
    cases c <;> simp [rParam, RConv.eval, rustOf, h]

theorem param_composable (K : Convs) (lct : Bool) (k : Nat) {x r : Name}
    {p : List Nat} {V v : Val} {σ : CState} (hr : ParamReady x r p V v σ)
    (hv : HasTy (.composable k) v) :
    ∃ σ', ParamDone K lct x r p (.composable k) V v σ σ' := by
  cases v with
  | tup vs => simp [HasTy] at hv
  | leaf a =>
    have hfr : σ.env (.buffer :: x) = none := hr.fresh _ (below_cons _ _)
    have hva : σ.valAt ⟨r, p⟩ = some (.leaf a) := by simp [CState.valAt, hr.obj, hr.sub]
    have hput : σ.putAt ⟨r, p⟩ (Val.moved (.leaf a))
        = σ.setMem r (.val (V.put p (Val.moved (.leaf a)))) := by
      simp [CState.putAt, hr.obj]
    have hne : r ≠ .buffer :: x := fun h => hr.root (h ▸ below_cons _ _)
    refine ⟨(σ.setMem r (.val (V.put p (Val.moved (.leaf a))))).withVar (.buffer :: x)
      (.buf { a with val := K.cEnc k a.val }), ?_, ?_, ?_, ?_, ?_, ?_, ?_⟩
    · simp only [cParam, execAll, CStmt.exec, hr.here, Option.bind_some, hva, hput]
      rw [declare_fresh _ (by simpa [CState.setMem] using hfr)]
      simp [CState.setMem]
    · intro n hn
      have : n ≠ .buffer :: x := fun h => hn (h ▸ below_cons _ _)
      simp [this, CState.withVar, CState.setMem]
    · intro n hn hnr
      have : n ≠ .buffer :: x := fun h => hn (h ▸ below_cons _ _)
      simp [this, CState.withVar, CState.setMem, hnr]
    · simp [CState.withVar, CState.setMem]
    · simp [hne, CState.withVar, CState.setMem]
    · simp [cParam, ExprForm]
    · intro σ'' hsee
      have he := hsee.env (.buffer :: x) (below_cons _ _)
      have hm := hsee.mem (.buffer :: x) (below_cons _ _)
      simp only [CState.withVar, if_true] at he hm
      refine ⟨.ptr ⟨.buffer :: x, []⟩, by simp [cParam, CState.pass, he, hm], ?_⟩
      simp [rParam, RConv.eval, hm, rustOf]

theorem param_lctTuple (K : Convs) (t : Ty) (ts : List Ty) {x r : Name}
    {p : List Nat} {V v : Val} {σ : CState} (hr : ParamReady x r p V v σ)
    (hv : HasTy (.tup (t :: ts)) v) (hb : SameBytes (.tup (t :: ts))) :
    ∃ σ', ParamDone K true x r p (.tup (t :: ts)) V v σ σ' := by
  have hro := rustOf_sameBytes K _ v hv hb
  cases hd : (t.needsDrop || needsDropAny ts) with
  | false =>
    apply param_nothing hr (by simp [cParam, hd])
      (moved_trivial _ _ hv (by simp [Ty.needsDrop, needsDropAny, hd]))
      (by simp [ExprForm, cParam, hd, Ty.isCAbi])
    intro σ'' hsee
    refine ⟨.ptr ⟨r, p⟩, by simp [cParam, hd, CState.pass, hsee.here], ?_⟩
    rw [hro]
    simp [rParam, RConv.eval, sees_valAt hsee]
  | true =>
    apply param_slot hr (by simp [cParam, hd]) (by simp [Ty.isCAbi]) (by simp)
    intro σ'' l' h
    rw [hro]
    simp [rParam, RConv.eval, h]

end Verif.FnCall

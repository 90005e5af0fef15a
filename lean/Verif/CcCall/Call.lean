import Verif.CcCall.Cpp

/-!
# Whole calls
-/

namespace Verif.CcCall

/-- What the generator knows of the functions it is given.

* parameter names are distinct;
* a method's first parameter is a pointer or reference; only methods are virtual;
* a constructor's first parameter is the pointer to the object, and it returns nothing;
* a by-value `self` is a type that Rust may move, and is not bridged;
* only methods are inherited, and only comparisons are negated. -/
structure Ok (f : Func) (sh : Shape) : Prop where
  names : (f.params.map Param.name).Nodup
  method : ∀ rv, f.kind = .method rv → ∃ p ps, f.params = p :: ps ∧ p.ty.isThis = true
  ctor : ∀ u, f.kind = .ctor u → f.ret = none ∧ ∃ p ps, f.params = p :: ps ∧ p.ty = .ptrRef
  virt : f.isVirtual = true → ∃ rv, f.kind = .method rv
  self : sh.selfFirst = true → ∀ p, f.rsParams.head? = some p →
    p.ty.isBridge = false ∧ (p.ty.isUnpin = true ∨ sh.materialize = true)
  derived : sh.derived = true → ∃ rv, f.kind = .method rv
  negate : sh.negate = true → f.rsRet = some .prim

/-! ## The declaration and the definition agree -/

theorem declParam_eq (sh : Shape) (t : Ty) : declParam sh t = cppParam t := by
  cases t with
  | existing b => cases b <;> cases hm : sh.materialize <;>
      simp [declParam, materializeParam, cppParam, Ty.isUnpin, Ty.conv, Ty.isOwnedPtr, Ty.isBridge,
        Ty.isCAbi, hm, natural]
  | record b => cases b <;> cases hm : sh.materialize <;>
      simp [declParam, materializeParam, cppParam, Ty.isUnpin, Ty.conv, Ty.isOwnedPtr, Ty.isBridge,
        Ty.isCAbi, hm]
  | _ => cases hm : sh.materialize <;>
      simp [declParam, materializeParam, cppParam, Ty.isUnpin, Ty.conv, Ty.isOwnedPtr, Ty.isBridge,
        Ty.isCAbi, hm, natural]

theorem cppParam_cabi {t : Ty} (h : t.isCAbi = true) : cppParam t = natural t := by
  cases t <;> simp_all [cppParam, Ty.isBridge, Ty.isCAbi]

/-- The thunk's signature is the declared one. -/
theorem thunk_sig (f : Func) (sh : Shape) (h : Ok f sh) : (thunk f).sig = declare f sh := by
  have hmap : ∀ ps : List Param, (ps.map fun p => declParam sh p.ty) = ps.map fun p => cppParam p.ty :=
    fun ps => List.map_congr_left fun p _ => declParam_eq sh p.ty
  simp only [thunk, declare, hmap]
  cases hk : f.kind with
  | ctor u =>
      obtain ⟨hr, p, ps, hp, ht⟩ := h.ctor u hk
      simp [hr, hp, ht, retPlan, retClass, cppParam, Ty.isBridge, Ty.isCAbi, natural]
  | _ =>
      cases hr : f.ret with
      | none => simp [retPlan, retClass]
      | some t =>
          cases t with
          | existing b => cases b <;> simp [retPlan, retClass, Ty.conv, Ty.isOwnedPtr, Ty.isBridge,
              Ty.isUnpin, Ty.isCAbi, natural]
          | record b => cases b <;> simp [retPlan, retClass, Ty.conv, Ty.isOwnedPtr, Ty.isBridge,
              Ty.isUnpin, Ty.isCAbi]
          | _ => simp [retPlan, retClass, Ty.conv, Ty.isOwnedPtr, Ty.isBridge, Ty.isUnpin, Ty.isCAbi,
              natural]

/-- What `can_skip_cc_thunk` guarantees. -/
theorem canSkip_facts {f : Func} (h : canSkip f = true) :
    f.isInline = false ∧ f.inTemplate = false ∧ (f.hasThis && f.isVirtual) = false ∧
      f.cCallConv = true ∧ (∀ t, f.ret = some t → t.isCAbi = true) ∧
      (∀ p ∈ f.params, p.ty.isCAbi = true) ∧ f.conflictingName = false := by
  cases hr : f.ret with
  | none =>
      simp [canSkip, hr] at h
      obtain ⟨a, b, c, d, e, g⟩ := h
      exact ⟨a, b, by rcases c with c | c <;> simp [c], d, by simp, e, g⟩
  | some t =>
      simp [canSkip, hr] at h
      obtain ⟨a, b, c, d, e, e', g⟩ := h
      exact ⟨a, b, by rcases c with c | c <;> simp [c], d, by simpa using e, e', g⟩

/-- The function's own signature is the declared one. -/
theorem native_sig (f : Func) (sh : Shape) (h : Ok f sh) (hc : canSkip f = true) :
    nativeSig f = some (declare f sh) := by
  obtain ⟨-, -, -, -, hret, hps, -⟩ := canSkip_facts hc
  have hall : f.params.all (fun p => p.ty.isCAbi) = true := by
    simpa [List.all_eq_true] using hps
  have hmap : ∀ ps : List Param, (∀ p ∈ ps, p.ty.isCAbi = true) →
      (ps.map fun p => declParam sh p.ty) = ps.map fun p => natural p.ty :=
    fun ps hp => List.map_congr_left fun p hmem => by
      rw [declParam_eq, cppParam_cabi (hp p hmem)]
  simp only [nativeSig, hall, declare]
  cases hk : f.kind with
  | ctor u =>
      obtain ⟨hr, p, ps, hp, ht⟩ := h.ctor u hk
      have := hmap ps (fun q hq => hps q (by simp [hp, hq]))
      simp [hr, hp, this, ht, natural]
  | _ =>
      rw [hmap f.params hps]
      cases hr : f.ret with
      | none => simp
      | some t =>
          have ht := hret t hr
          cases t <;> simp_all [Ty.conv, Ty.isOwnedPtr, Ty.isBridge, Ty.isUnpin, Ty.isCAbi, natural]

theorem linked_ok (f : Func) (sh : Shape) (h : Ok f sh) : linked f sh = true := by
  unfold linked
  split
  · rename_i hc
    simp [native_sig f sh h hc]
  · simp [thunk_sig f sh h]

/-! ## Items -/

/-- The parameters, as items. -/
def mkItems : Nat → List Param → List Shown → List Arg → List Item
  | i, p :: ps, s :: ss, v :: vs => ⟨i, p, s, v⟩ :: mkItems (i + 1) ps ss vs
  | _, _, _, _ => []

/-- How the generator shows a parameter. -/
theorem showParam_cases {sh : Shape} {t : Ty} {s : Shown} (h : showParam sh t = some s) :
    (s = .plain t ∧ (sh.materialize = true → t.isUnpin = true)) ∨
      (s = .constRef t ∧ t = .record true) ∨ (s = .rvalue t ∧ t = .record false) := by
  cases t with
  | record u =>
      cases u <;> cases hm : sh.materialize <;> cases hc : sh.constRefs <;>
        simp [showParam, materializeParam, adjustParam, Ty.isUnpin, hm, hc] at h <;>
        subst h <;> simp [Ty.isUnpin]
  | _ =>
      simp [showParam, materializeParam, adjustParam, Ty.isUnpin] at h
      subst h
      simp [Ty.isUnpin]

theorem reg_cls {it : Item} (hg : it.Good) : it.reg.cls = cppParam it.p.ty := by
  obtain ⟨i, ⟨n, t⟩, sh, v⟩ := it
  obtain ⟨hs, hf⟩ := hg
  simp only at hs hf
  rcases hs with rfl | ⟨rfl, rfl⟩ | ⟨rfl, rfl⟩
  · cases t <;> cases v <;> simp only [Fits] at hf <;>
      first
      | exact absurd hf id
      | (rename_i b l
         cases b <;> simp [Item.reg, Reg.cls, cppParam, Ty.isBridge, Ty.isCAbi, natural])
      | simp [Item.reg, Reg.cls, cppParam, Ty.isBridge, Ty.isCAbi, natural]
  · cases v <;> simp only [Fits] at hf <;>
      first
      | exact absurd hf id
      | simp [Item.reg, Reg.cls, cppParam, Ty.isBridge, Ty.isCAbi]
  · cases v <;> simp only [Fits] at hf <;>
      first
      | exact absurd hf id
      | simp [Item.reg, Reg.cls, cppParam, Ty.isBridge, Ty.isCAbi]

theorem mkItems_ok (sh : Shape) (i : Nat) (ps : List Param) (ss : List Shown) (vs : List Arg)
    (hs : showAll sh ps = some ss) (hf : FitsAll ss vs) :
    (mkItems i ps ss vs).map Item.p = ps ∧ (mkItems i ps ss vs).map Item.s = ss ∧
      (mkItems i ps ss vs).map Item.v = vs ∧ (∀ it ∈ mkItems i ps ss vs, it.Good) ∧
      Counted i (mkItems i ps ss vs) ∧
      (∀ it ∈ mkItems i ps ss vs, showParam sh it.p.ty = some it.s) := by
  induction ps generalizing i ss vs with
  | nil =>
      simp only [showAll, Option.some.injEq] at hs
      subst hs
      cases vs with
      | nil => simp [mkItems, Counted]
      | cons _ _ => exact absurd hf (by simp [FitsAll])
  | cons p ps ih =>
      simp only [showAll] at hs
      split at hs
      · rename_i s ss' h1 h2
        simp only [Option.some.injEq] at hs
        subst hs
        cases vs with
        | nil => exact absurd hf (by simp [FitsAll])
        | cons v vs =>
            obtain ⟨hf0, hf1⟩ := hf
            obtain ⟨a, b, c, d, e, g⟩ := ih (i + 1) ss' vs h2 hf1
            refine ⟨by simp [mkItems, a], by simp [mkItems, b], by simp [mkItems, c], ?_, ⟨rfl, e⟩, ?_⟩
            · intro it hit
              rcases List.mem_cons.mp hit with rfl | hit
              · refine ⟨?_, hf0⟩
                rcases showParam_cases h1 with ⟨h, -⟩ | h | h
                · exact .inl h
                · exact .inr (.inl h)
                · exact .inr (.inr h)
              · exact d it hit
            · intro it hit
              rcases List.mem_cons.mp hit with rfl | hit
              · exact h1
              · exact g it hit
      · simp at hs

theorem upItems_map (up : Nat → Nat) (sh : Shape) (its : List Item) :
    (upItems up sh its).map Item.p = its.map Item.p ∧
      (upItems up sh its).map Item.s = its.map Item.s := by
  cases its <;> exact ⟨rfl, rfl⟩

theorem upItems_good (up : Nat → Nat) (sh : Shape) (its : List Item) (hg : ∀ it ∈ its, it.Good)
    (hh : ∀ it, its.head? = some it → HeadOk sh it.s) : ∀ it ∈ upItems up sh its, it.Good := by
  cases its with
  | nil => simp [upItems]
  | cons x xs =>
      intro it hit
      rcases List.mem_cons.mp hit with rfl | hit
      · have hx := hg x (by simp)
        refine ⟨hx.shown, ?_⟩
        simp only [headArg]
        split
        · rename_i hd
          obtain ⟨t, ht, hth⟩ := (hh x rfl).derived hd
          have hfx := hx.fits
          rw [ht] at hfx ⊢
          cases t <;> simp only [Ty.isThis, Bool.false_eq_true] at hth <;> cases hv : x.v <;>
            rw [hv] at hfx <;> simp_all [Fits, Arg.up]
        · exact hx.fits
      · exact hg it (List.mem_cons_of_mem _ hit)

theorem upItems_counted (up : Nat → Nat) (sh : Shape) (i : Nat) (its : List Item)
    (h : Counted i its) : Counted i (upItems up sh its) := by
  cases its with
  | nil => trivial
  | cons x xs => exact h

/-! ## Results -/

/-- Taking the result is possible, yields `v`, and leaves no memory in use. -/
def TakeOk (K : Ops) (k : RRet) (r : Option Reg) (ret buf : Option Leaf) (v : Option Arg) : Prop :=
  ∀ s : St, s.ret = ret → s.retBuf = buf → ∃ s', takeRet K k r s = some (v, s') ∧ s'.fr = s.fr ∧
    s'.world = s.world ∧ s'.rel = s.rel ∧ s'.ret = none ∧ s'.retBuf = none

/-- The bodies return values of the declared type. -/
def Returns (f : Func) (code : Code) : Prop :=
  ∀ t, f.rsRet = some t → ∀ as W, FitsRet t (called f.isVirtual code as W).ret

theorem takeOk_ctor (K : Ops) (k : RRet) (l : Leaf) (hk : k = .zeroed ∨ k = .fnCtor) :
    TakeOk K k none (some l) none (some (.own l)) := by
  intro s h1 h2
  rcases hk with rfl | rfl <;> simp [takeRet, h1, h2]

/-- The return statement, for a function that is not a constructor. -/
theorem runRet_ok (K : Ops) (env : Env) (f : Func) (hk : f.isCtor = false) (v : Arg) (s : St)
    (hr : s.ret = none) (hb : s.retBuf = none) (hf : ∀ t, f.ret = some t → FitsRet t v)
    (henv : ∀ r, outReg (rustRetKind f) = some r → env .out = some r) :
    ∃ r s', runRet K env f.ret (retPlan f.ret).1 (some v) s = some (r, s') ∧ s'.fr = s.fr ∧
      s'.world = s.world ∧ s'.rel = s.rel ∧
      TakeOk K (rustRetKind f) r s'.ret s'.retBuf (f.ret.map fun t => rustRet K t v) := by
  have hkind : rustRetKind f = retKindOf f.ret := by
    cases hkk : f.kind with
    | ctor u => simp [Func.isCtor, hkk] at hk
    | _ => simp [rustRetKind, hkk, Func.rsRet]
  rw [hkind] at henv ⊢
  cases hret : f.ret with
  | none =>
      refine ⟨none, s, rfl, rfl, rfl, rfl, ?_⟩
      intro s' h1 h2
      exact ⟨s', rfl, rfl, rfl, rfl, h1.trans hr, h2.trans hb⟩
  | some t =>
      have hft := hf t hret
      rw [hret] at henv
      cases t with
      | prim =>
          cases v with
          | ref a => exact absurd hft (by simp [FitsRet])
          | own l =>
              refine ⟨some (.val l), s, ?_, rfl, rfl, rfl, ?_⟩
              · simp [retPlan, Ty.conv, Ty.isOwnedPtr, Ty.isBridge, Ty.isUnpin, Ty.isCAbi, runRet]
              · intro s' h1 h2
                exact ⟨s', by simp [retKindOf, Ty.conv, Ty.isOwnedPtr, Ty.isBridge, Ty.isUnpin, Ty.isCAbi, takeRet, rustRet], rfl, rfl, rfl,
                  h1.trans hr, h2.trans hb⟩
      | ptr =>
          cases v with
          | ref a => exact absurd hft (by simp [FitsRet])
          | own l =>
              refine ⟨some (.val l), s, ?_, rfl, rfl, rfl, ?_⟩
              · simp [retPlan, Ty.conv, Ty.isOwnedPtr, Ty.isBridge, Ty.isUnpin, Ty.isCAbi, runRet]
              · intro s' h1 h2
                exact ⟨s', by simp [retKindOf, Ty.conv, Ty.isOwnedPtr, Ty.isBridge, Ty.isUnpin, Ty.isCAbi, takeRet, rustRet], rfl, rfl, rfl,
                  h1.trans hr, h2.trans hb⟩
      | fnPtr =>
          cases v with
          | ref a => exact absurd hft (by simp [FitsRet])
          | own l =>
              refine ⟨some (.val l), s, ?_, rfl, rfl, rfl, ?_⟩
              · simp [retPlan, Ty.conv, Ty.isOwnedPtr, Ty.isBridge, Ty.isUnpin, Ty.isCAbi, runRet]
              · intro s' h1 h2
                exact ⟨s', by simp [retKindOf, Ty.conv, Ty.isOwnedPtr, Ty.isBridge, Ty.isUnpin, Ty.isCAbi, takeRet, rustRet], rfl, rfl, rfl,
                  h1.trans hr, h2.trans hb⟩
      | fnRef =>
          cases v with
          | ref a => exact absurd hft (by simp [FitsRet])
          | own l =>
              refine ⟨some (.val l), s, ?_, rfl, rfl, rfl, ?_⟩
              · simp [retPlan, Ty.conv, Ty.isOwnedPtr, Ty.isBridge, Ty.isUnpin, Ty.isCAbi, runRet]
              · intro s' h1 h2
                exact ⟨s', by simp [retKindOf, Ty.conv, Ty.isOwnedPtr, Ty.isBridge, Ty.isUnpin, Ty.isCAbi, takeRet, rustRet], rfl, rfl, rfl,
                  h1.trans hr, h2.trans hb⟩
      | ownedPtr =>
          cases v with
          | ref a => exact absurd hft (by simp [FitsRet])
          | own l =>
              refine ⟨some (.val l), s, ?_, rfl, rfl, rfl, ?_⟩
              · simp [retPlan, Ty.conv, Ty.isOwnedPtr, Ty.isBridge, Ty.isUnpin, Ty.isCAbi, runRet]
              · intro s' h1 h2
                exact ⟨s', by simp [retKindOf, Ty.conv, Ty.isOwnedPtr, Ty.isBridge, Ty.isUnpin, Ty.isCAbi, takeRet, rustRet], rfl, rfl, rfl,
                  h1.trans hr, h2.trans hb⟩
      | lref =>
          cases v with
          | own l => exact absurd hft (by simp [FitsRet])
          | ref a =>
              refine ⟨some (.addr (.obj a)), s, ?_, rfl, rfl, rfl, ?_⟩
              · simp [retPlan, Ty.conv, Ty.isOwnedPtr, Ty.isBridge, Ty.isUnpin, Ty.isCAbi, runRet]
              · intro s' h1 h2
                exact ⟨s', by simp [retKindOf, Ty.conv, Ty.isOwnedPtr, Ty.isBridge, Ty.isUnpin, Ty.isCAbi, takeRet, rustRet], rfl, rfl, rfl,
                  h1.trans hr, h2.trans hb⟩
      | rref =>
          cases v with
          | own l => exact absurd hft (by simp [FitsRet])
          | ref a =>
              refine ⟨some (.addr (.obj a)), s, ?_, rfl, rfl, rfl, ?_⟩
              · simp [retPlan, Ty.conv, Ty.isOwnedPtr, Ty.isBridge, Ty.isUnpin, Ty.isCAbi, runRet]
              · intro s' h1 h2
                exact ⟨s', by simp [retKindOf, Ty.conv, Ty.isOwnedPtr, Ty.isBridge, Ty.isUnpin, Ty.isCAbi, takeRet, rustRet], rfl, rfl, rfl,
                  h1.trans hr, h2.trans hb⟩
      | ptrRef =>
          cases v with
          | own l => exact absurd hft (by simp [FitsRet])
          | ref a =>
              refine ⟨some (.addr (.obj a)), s, ?_, rfl, rfl, rfl, ?_⟩
              · simp [retPlan, Ty.conv, Ty.isOwnedPtr, Ty.isBridge, Ty.isUnpin, Ty.isCAbi, runRet]
              · intro s' h1 h2
                exact ⟨s', by simp [retKindOf, Ty.conv, Ty.isOwnedPtr, Ty.isBridge, Ty.isUnpin, Ty.isCAbi, takeRet, rustRet], rfl, rfl, rfl,
                  h1.trans hr, h2.trans hb⟩
      | existing b =>
          cases v with
          | ref a => exact absurd hft (by simp [FitsRet])
          | own l =>
              cases b
              · skip
                refine ⟨none, { s with ret := some l }, ?_, rfl, rfl, rfl, ?_⟩
                · simp [retPlan, Ty.conv, Ty.isOwnedPtr, Ty.isBridge, Ty.isUnpin, Ty.isCAbi, runRet, hr,
                    henv _ (by simp [retKindOf, Ty.conv, Ty.isOwnedPtr, Ty.isBridge, Ty.isUnpin, Ty.isCAbi, outReg]; rfl)]
                · intro s' h1 h2
                  refine ⟨{ s' with ret := none }, ?_, rfl, rfl, rfl, rfl, h2.trans hb⟩
                  simp [retKindOf, Ty.conv, Ty.isOwnedPtr, Ty.isBridge, Ty.isUnpin, Ty.isCAbi, takeRet, rustRet, h1]
              · skip
                refine ⟨some (.val l), s, ?_, rfl, rfl, rfl, ?_⟩
                · simp [retPlan, Ty.conv, Ty.isOwnedPtr, Ty.isBridge, Ty.isUnpin, Ty.isCAbi, runRet]
                · intro s' h1 h2
                  exact ⟨s', by simp [retKindOf, Ty.conv, Ty.isOwnedPtr, Ty.isBridge, Ty.isUnpin, Ty.isCAbi, takeRet, rustRet], rfl, rfl, rfl,
                    h1.trans hr, h2.trans hb⟩
      | record b =>
          cases v with
          | ref a => exact absurd hft (by simp [FitsRet])
          | own l =>
              cases b
              · skip
                refine ⟨none, { s with ret := some l }, ?_, rfl, rfl, rfl, ?_⟩
                · simp [retPlan, Ty.conv, Ty.isOwnedPtr, Ty.isBridge, Ty.isUnpin, Ty.isCAbi, runRet, hr,
                    henv _ (by simp [retKindOf, Ty.conv, Ty.isOwnedPtr, Ty.isBridge, Ty.isUnpin, Ty.isCAbi, outReg]; rfl)]
                · intro s' h1 h2
                  refine ⟨{ s' with ret := none }, ?_, rfl, rfl, rfl, rfl, h2.trans hb⟩
                  simp [retKindOf, Ty.conv, Ty.isOwnedPtr, Ty.isBridge, Ty.isUnpin, Ty.isCAbi, takeRet, rustRet, h1]
              · skip
                refine ⟨none, { s with ret := some l }, ?_, rfl, rfl, rfl, ?_⟩
                · simp [retPlan, Ty.conv, Ty.isOwnedPtr, Ty.isBridge, Ty.isUnpin, Ty.isCAbi, runRet, hr,
                    henv _ (by simp [retKindOf, Ty.conv, Ty.isOwnedPtr, Ty.isBridge, Ty.isUnpin, Ty.isCAbi, outReg]; rfl)]
                · intro s' h1 h2
                  refine ⟨{ s' with ret := none }, ?_, rfl, rfl, rfl, rfl, h2.trans hb⟩
                  simp [retKindOf, Ty.conv, Ty.isOwnedPtr, Ty.isBridge, Ty.isUnpin, Ty.isCAbi, takeRet, rustRet, h1]
      | bridged k =>
          cases v with
          | ref a => exact absurd hft (by simp [FitsRet])
          | own l =>
              refine ⟨none, { s with retBuf := some { l with val := K.cEnc k l.val } }, ?_, rfl, rfl,
                rfl, ?_⟩
              · simp [retPlan, Ty.conv, Ty.isOwnedPtr, Ty.isBridge, Ty.isUnpin, Ty.isCAbi, runRet, hb, Ty.codec,
                  henv _ (by simp [retKindOf, Ty.conv, Ty.isOwnedPtr, Ty.isBridge, Ty.isUnpin, Ty.isCAbi, outReg]; rfl)]
              · intro s' h1 h2
                refine ⟨{ s' with retBuf := none }, ?_, rfl, rfl, rfl, h1.trans hr, rfl⟩
                simp [retKindOf, Ty.conv, Ty.isOwnedPtr, Ty.isBridge, Ty.isUnpin, Ty.isCAbi, takeRet, rustRet, h2, Ty.codec]

end Verif.CcCall

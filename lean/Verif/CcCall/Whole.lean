import Verif.CcCall.Call

/-!
# Whole calls, assembled
-/

namespace Verif.CcCall

/-- What the called body does in a call with these items. -/
def outOf (K : Ops) (W : World) (f : Func) (code : Code) (its : List Item) : BodyOut :=
  called f.isVirtual code (its.map fun it => seen K W it.s it.v) (worldAtEntry K (moves its) W)

/-- What the foreign call must achieve. -/
structure ForeignOk (K : Ops) (W : World) (f : Func) (code : Code) (its : List Item) (s : St)
    (r : Option Reg) (s' : St) : Prop where
  frames : Frames its (Item.f6 K W) s s'
  world : s'.world = (outOf K W f code its).world
  rel : s'.rel.Perm (s.rel ++ (outOf K W f code its).rel ++
    paramRel (outOf K W f code its).post 0 (its.map fun it => it.p.ty) ++
    if canSkip f then [] else its.flatMap (Item.thunkLeft K W))
  take : TakeOk K (rustRetKind f) r s'.ret s'.retBuf
    (f.rsRet.map fun t => rustRet K t (outOf K W f code its).ret)

theorem f3_cpp (K : Ops) (W : World) (it : Item) : (it.rest K W).cpp = none :=
  (Item.rest_buf K W it).2

theorem seen_this {K : Ops} {W : World} {it : Item} (hg : it.Good) (ht : it.p.ty.isThis = true) :
    it.s = .plain it.p.ty ∧ seen K W it.s it.v = it.v ∧ it.f2 K W = .empty ∧
      it.rest K W = .empty ∧ it.p.ty.isClass = false ∧
      (it.reg = match it.v with | .own l => .val l | .ref a => .addr (.obj a)) := by
  obtain ⟨i, ⟨n, t⟩, sh, v⟩ := it
  obtain ⟨hs, hf⟩ := hg
  simp only at hs hf ht
  rcases hs with rfl | ⟨rfl, rfl⟩ | ⟨rfl, rfl⟩
  · cases t <;> simp only [Ty.isThis, Bool.false_eq_true] at ht <;> cases v <;>
      simp_all [Fits, seen, Item.f2, Item.f1, Item.rest, Ty.isClass, Item.reg]
  · simp [Ty.isThis] at ht
  · simp [Ty.isThis] at ht

/-- The call expression in the thunk of a function that is not a constructor. -/
theorem runCall_ok (K : Ops) (W : World) (f : Func) (sh : Shape) (ho : Ok f sh) (code : Code)
    (hk : f.isCtor = false) (env : Env) (its : List Item) (s : St) (hd : Distinct its)
    (hg : ∀ it ∈ its, it.Good) (hc : Counted 0 its) (hp : its.map Item.p = f.params)
    (he : EnvOk env its) (h : ∀ it ∈ its, s.fr it.n = it.f2 K W) (hw : s.world = W)
    (hm : (moves its).Nodup) :
    ∃ s2, runCall K f code (thunk f) env s = some (some (outOf K W f code its).ret, s2) ∧
      Frames its (Item.rest K W) s s2 ∧ s2.world = (outOf K W f code its).world ∧
      s2.ret = s.ret ∧ s2.retBuf = s.retBuf ∧
      s2.rel = s.rel ++ (outOf K W f code its).rel ++
        paramRel (outOf K W f code its).post 0 (its.map fun it => it.p.ty) := by
  cases hkind : f.kind with
  | ctor u => simp [Func.isCtor, hkind] at hk
  | free =>
      have hv : f.isVirtual = false := by
        cases hvv : f.isVirtual with
        | false => rfl
        | true =>
            obtain ⟨rv, hr⟩ := ho.virt hvv
            rw [hkind] at hr
            cases hr
      obtain ⟨s1, e1, f1, w1, r1, b1, l1⟩ := initParams_ok K W env its s hd hg he h
        (fun a _ => by rw [hw]) hm
      have hcal : (thunk f).callee = .fn ∧ (thunk f).args = f.params.map cppArg := by
        simp [thunk, hkind]
      have hbody := runBody_ok K W (Item.rest K W) code.static its 0
        (its.map fun it => seen K W it.s it.v) s1 hd hc hg (fun it _ => f3_cpp K W it) f1.own
      have hout : outOf K W f code its = code.static (its.map fun it => seen K W it.s it.v) s1.world := by
        simp [outOf, called, hv, w1, hw]
      obtain ⟨g1, g2, g3, g4, g5, g6⟩ := hbody
      refine ⟨(runBody code.static 0 (its.map Item.p) (its.map fun it => seen K W it.s it.v) s1).2,
        ?_, ⟨g2.own, fun m hmm => by rw [g2.others m hmm, f1.others m hmm]⟩, ?_, ?_, ?_, ?_⟩
      · rw [hout, ← g1]
        rw [hp] at e1 ⊢
        simp only [runCall, hcal.1, hcal.2, e1, dispatch]
      · rw [g3, hout]
      · rw [g4, r1]
      · rw [g5, b1]
      · rw [g6, l1, hout]
  | method rv =>
      obtain ⟨p, ps, hps, hthis⟩ := ho.method rv hkind
      cases its with
      | nil => rw [hps] at hp; simp at hp
      | cons it its =>
          have hp0 : it.p = p ∧ its.map Item.p = ps := by
            rw [hps] at hp
            simpa using hp
          have ht : it.p.ty.isThis = true := by rw [hp0.1]; exact hthis
          obtain ⟨q1, q2, q3, q4, q5, q6⟩ := seen_this (K := K) (W := W) (hg it (by simp)) ht
          have hmv : moves (it :: its) = moves its := by
            rw [moves_cons, q1]
            cases it.v <;> rfl
          rw [hmv] at hm
          obtain ⟨s1, e1, f1, w1, r1, b1, l1⟩ := initParams_ok K W env its s hd.tail
            (fun x hx => hg x (by simp [hx])) (fun x hx => he x (by simp [hx]))
            (fun x hx => h x (by simp [hx])) (fun a _ => by rw [hw]) hm
          have hcal : (thunk f).callee = (if rv then .moveDot (.par p.name) else .arrow (.par p.name)) ∧
              (thunk f).args = ps.map cppArg := by
            simp [thunk, hkind, hps]
          have henv : thisArg env (.par p.name) = some it.v := by
            have := he it (by simp)
            have hn : it.n = p.name := by rw [← hp0.1]
            rw [hn, q6] at this
            simp only [thisArg, this]
            cases it.v <;> rfl
          have hout : outOf K W f code (it :: its) = dispatch f code (some it.v) s1.world
              (it.v :: its.map fun it => seen K W it.s it.v) s1.world := by
            simp only [outOf, List.map_cons, q2, hmv, w1, hw, dispatch]
            cases f.isVirtual <;> simp [called]
          have hbody := runBody_ok K W (Item.rest K W) (dispatch f code (some it.v) s1.world) its 1
            (it.v :: its.map fun it => seen K W it.s it.v) s1 hd.tail hc.2
            (fun x hx => hg x (by simp [hx])) (fun it _ => f3_cpp K W it) f1.own
          obtain ⟨g1, g2, g3, g4, g5, g6⟩ := hbody
          refine ⟨(runBody (dispatch f code (some it.v) s1.world) 1 (its.map Item.p)
            (it.v :: its.map fun it => seen K W it.s it.v) s1).2, ?_, ⟨?_, ?_⟩, ?_, ?_, ?_, ?_⟩
          · rw [hout, ← g1]
            rw [hp0.2] at e1 ⊢
            cases rv <;> simp [runCall, hcal.1, hcal.2, hps, henv, e1]
          · intro x hx
            rcases List.mem_cons.mp hx with rfl | hx
            · rw [g2.others _ hd.head, f1.others _ hd.head, h x (by simp), q3, q4]
            · exact g2.own x hx
          · intro m hmm
            have hm' : m ∉ its.map Item.n := fun hcon => hmm (by simp [hcon])
            rw [g2.others m hm', f1.others m hm']
          · rw [g3, hout]
          · rw [g4, r1]
          · rw [g5, b1]
          · rw [g6, l1, hout]
            simp [paramRel, q5]

/-- The thunk of a function that is not a constructor. -/
theorem runThunk_ok (K : Ops) (W : World) (f : Func) (sh : Shape) (ho : Ok f sh) (code : Code)
    (hns : canSkip f = false)
    (hret : Returns f code) (hk : f.isCtor = false) (its : List Item) (s : St) (hd : Distinct its)
    (hg : ∀ it ∈ its, it.Good) (hc : Counted 0 its) (hp : its.map Item.p = f.params)
    (h : ∀ it ∈ its, s.fr it.n = it.f1 K W) (hw : s.world = W) (hr : s.ret = none)
    (hb : s.retBuf = none) (hm : (moves its).Nodup) :
    ∃ r s', runThunk K f code ((outReg (rustRetKind f)).toList ++ its.map Item.reg) s =
      some (r, s') ∧ ForeignOk K W f code its s r s' := by
  have hkind : rustRetKind f = retKindOf f.ret ∧ f.rsRet = f.ret := by
    cases hkk : f.kind with
    | ctor u => simp [Func.isCtor, hkk] at hk
    | _ => simp [rustRetKind, hkk, Func.rsRet]
  have hlen : (if (retPlan f.ret).2.isSome then [CName.out] else []).length =
      (outReg (rustRetKind f)).toList.length := by
    rw [hkind.1]
    cases f.ret with
    | none => rfl
    | some t =>
        cases t with
        | existing b => cases b <;> rfl
        | record b => cases b <;> rfl
        | _ => rfl
  obtain ⟨env, eb, henv, hout⟩ := bindRegs_ok its (if (retPlan f.ret).2.isSome then [CName.out] else [])
    (outReg (rustRetKind f)).toList hd (by
      intro x hx it _
      split at hx
      · simp only [List.mem_singleton] at hx
        subst hx
        simp
      · simp at hx) hlen
  have hout' : ∀ r, outReg (rustRetKind f) = some r → env .out = some r := by
    intro r hr
    refine hout .out r ?_ (by rw [hr]; rfl)
    rw [hr] at hlen
    split at hlen
    · rename_i hs
      simp [hs]
    · simp at hlen
  obtain ⟨f1, c1⟩ := enterThunk_ok K W env its s hd hg henv h
  obtain ⟨s2, e2, f2, w2, r2, b2, l2⟩ := runCall_ok K W f sh ho code hk env its
    (enterThunk env (its.map Item.p) s) hd hg hc hp henv f1.own (c1.world.trans hw) hm
  obtain ⟨r, s3, e3, f3, w3, l3, take⟩ := runRet_ok K env f hk (outOf K W f code its).ret s2
    (r2.trans (c1.ret.trans hr)) (b2.trans (c1.retBuf.trans hb))
    (fun t ht => hret t (hkind.2.trans ht) _ _) hout'
  obtain ⟨f4, c4⟩ := exitThunk_ok K W its s3 hd (fun it hit => by rw [f3]; exact f2.own it hit)
  refine ⟨r, exitThunk (its.map Item.p) s3, ?_, ⟨⟨f4.own, ?_⟩, ?_, ?_, ?_⟩⟩
  · simp only [runThunk]
    have hn : (thunk f).names = (if (retPlan f.ret).2.isSome then [CName.out] else []) ++
        (its.map Item.p).map fun p => CName.par p.name := by rw [hp]; rfl
    rw [hn, eb]
    rw [hp] at e2 ⊢
    have hrs : (thunk f).retStmt = (retPlan f.ret).1 := rfl
    simp only [Option.bind_eq_bind, Option.bind_some, e2, hrs, e3]
    rfl
  · intro m hmm
    rw [f4.others m hmm, f3, f2.others m hmm, f1.others m hmm]
  · rw [c4.world, w3, w2]
  · have := c4.rel
    rw [l3, l2, c1.rel] at this
    simpa [hns] using this
  · rw [c4.ret, c4.retBuf, hkind.2]
    exact take

/-- The thunk of a constructor. -/
theorem runThunk_ctor (K : Ops) (W : World) (f : Func) (sh : Shape) (ho : Ok f sh) (code : Code)
    (hns : canSkip f = false)
    (hret : Returns f code) (u : Bool) (hk : f.kind = .ctor u) (its : List Item) (s : St)
    (hd : Distinct its)
    (hg : ∀ it ∈ its, it.Good) (hc : Counted 0 its) (hp : its.map Item.p = f.rsParams)
    (h : ∀ it ∈ its, s.fr it.n = it.f1 K W) (hemp : ∀ m, m ∉ its.map Item.n → s.fr m = .empty)
    (hw : s.world = W) (hr : s.ret = none)
    (hb : s.retBuf = none) (hm : (moves its).Nodup) :
    ∃ r s', runThunk K f code ((outReg (rustRetKind f)).toList ++ its.map Item.reg) s =
      some (r, s') ∧ ForeignOk K W f code its s r s' := by
  obtain ⟨hfr, p, ps, hps, hty⟩ := ho.ctor u hk
  have hp' : its.map Item.p = ps := by
    rw [hp]
    simp [Func.rsParams, hk, hps]
  have hn : p.name ∉ its.map Item.n := by
    have := ho.names
    rw [hps, ← hp'] at this
    simp only [List.map_cons, List.map_map, List.nodup_cons] at this
    exact this.1
  have hv : f.isVirtual = false := by
    cases hvv : f.isVirtual with
    | false => rfl
    | true =>
        obtain ⟨rv, hr⟩ := ho.virt hvv
        rw [hk] at hr
        cases hr
  have hkind : outReg (rustRetKind f) = some (.addr .ret) ∧
      (rustRetKind f = .zeroed ∨ rustRetKind f = .fnCtor) := by
    cases u <;> simp [rustRetKind, hk, retKindOf, Func.rsRet, Ty.conv, Ty.isOwnedPtr, Ty.isBridge,
      Ty.isUnpin, outReg]
  obtain ⟨env, eb, henv, hout⟩ := bindRegs_ok its [CName.par p.name] [.addr .ret] hd (by
      intro x hx it hit
      simp only [List.mem_singleton] at hx
      subst hx
      intro e
      simp only [CName.par.injEq] at e
      exact hn (e ▸ List.mem_map_of_mem hit)) rfl
  have hthis : env (.par p.name) = some (.addr .ret) := hout _ _ rfl rfl
  obtain ⟨f1, c1⟩ := enterThunk_ok K W env its s hd hg henv h
  obtain ⟨s2, e2, f2, w2, r2, b2, l2⟩ := initParams_ok K W env its
    (enterThunk env (its.map Item.p) s) hd hg henv f1.own
    (fun a _ => by rw [c1.world, hw]) hm
  obtain ⟨g1, g2, g3, g4, g5, g6⟩ := runBody_ok K W (Item.rest K W) code.static its 0
        (its.map fun it => seen K W it.s it.v) s2 hd hc hg (fun it _ => f3_cpp K W it) f2.own
  have hout : outOf K W f code its = code.static (its.map fun it => seen K W it.s it.v) s2.world := by
    simp [outOf, called, hv, w2, c1.world, hw]
  have hfit := hret (.record u) (by simp [Func.rsRet, hk])
    (its.map fun it => seen K W it.s it.v) (worldAtEntry K (moves its) W)
  have hfit' : FitsRet (.record u) (outOf K W f code its).ret := hfit
  obtain ⟨l, hl⟩ : ∃ l, (outOf K W f code its).ret = .own l := by
    cases hx : (outOf K W f code its).ret with
    | own l => exact ⟨l, rfl⟩
    | ref a => rw [hx] at hfit'; exact absurd hfit' (by simp [FitsRet])
  generalize hs3 : (runBody code.static 0 (its.map Item.p)
    (its.map fun it => seen K W it.s it.v) s2) = rb at g1 g2 g3 g4 g5 g6
  obtain ⟨rv, s3⟩ := rb
  simp only at g1 g2 g3 g4 g5 g6
  have hrv : rv = .own l := by rw [g1, ← hout, hl]
  subst hrv
  have hs3ret : s3.ret = none := by rw [g4, r2, c1.ret, hr]
  have hthisfr : ({ s3 with ret := some l } : St).fr p.name = .empty := by
    show s3.fr p.name = .empty
    rw [g2.others _ hn, f2.others _ hn, f1.others _ hn, hemp _ hn]
  obtain ⟨f4, c4⟩ := exitThunk_ok K W (⟨0, p, .plain .ptrRef, .ref 0⟩ :: its)
    { s3 with ret := some l } (by
      simp only [Distinct, List.map_cons, List.nodup_cons]
      exact ⟨hn, hd⟩) (by
      intro x hx
      rcases List.mem_cons.mp hx with rfl | hx
      · exact hthisfr
      · exact g2.own x hx)
  refine ⟨none, exitThunk (p :: its.map Item.p) { s3 with ret := some l }, ?_,
    ⟨⟨fun it hit => f4.own it (by simp [hit]), ?_⟩, ?_, ?_, ?_⟩⟩
  · simp only [runThunk]
    have hnames : (thunk f).names = [CName.par p.name] ++
        (its.map Item.p).map fun p => CName.par p.name := by
      simp [thunk, hfr, retPlan, hps, hp']
    rw [hnames, hkind.1]
    simp only [Option.toList_some, eb, Option.bind_eq_bind, Option.bind_some]
    have hent : enterThunk env f.params s = enterThunk env (its.map Item.p) s := by
      rw [hps, hp']
      simp [enterThunk, hty, Ty.isClass]
    have hcall : runCall K f code (thunk f) env (enterThunk env (its.map Item.p) s) =
        some (none, { s3 with ret := some l }) := by
      have hcal : (thunk f).callee = .constructAt ∧ (thunk f).args = f.params.map cppArg := by
        simp [thunk, hk]
      have hthunkObj : (enterThunk env (its.map Item.p) s).isThunkObj (.par p.name) = none := by
        simp only [St.isThunkObj]
        rw [f1.others _ hn, hemp _ hn]
        rfl
      have hev : evalC K env false (cppArg p) (enterThunk env (its.map Item.p) s) =
          some (.pointer .ret, enterThunk env (its.map Item.p) s) := by
        simp only [cppArg, hty, evalC, hthis, hthunkObj]
      simp only [runCall, hcal.1, hcal.2, hps, List.map_cons, runCtor, hev]
      rw [hp'] at e2 hs3 ⊢
      simp only [e2, hs3, hs3ret]
      rfl
    rw [hent, hcall]
    have hrs : (thunk f).retStmt = .void := by simp [thunk, hfr, retPlan]
    simp only [Option.bind_some, hrs, runRet]
    rw [hps, hp']
    rfl
  · intro m hmm
    by_cases hmp : m = p.name
    · have h1 := f4.own ⟨0, p, .plain .ptrRef, .ref 0⟩ (by simp)
      rw [hmp]
      have h2 : (exitThunk (p :: its.map Item.p) { s3 with ret := some l }).fr p.name =
          Item.f6 K W ⟨0, p, .plain .ptrRef, .ref 0⟩ := h1
      rw [h2, hemp _ hn]
      rfl
    · have h1 := f4.others m (by
        simp only [List.map_cons, List.mem_cons, not_or]
        exact ⟨hmp, hmm⟩)
      have h2 : (exitThunk (p :: its.map Item.p) { s3 with ret := some l }).fr m = s3.fr m := h1
      rw [h2, g2.others m hmm, f2.others m hmm, f1.others m hmm]
  · have := c4.world
    simp only [List.map_cons] at this
    rw [this]
    show s3.world = _
    rw [g3, hout]
  · have := c4.rel
    have h3 : ({ s3 with ret := some l } : St).rel = s3.rel := rfl
    have h4 : Item.thunkLeft K W ⟨0, p, .plain .ptrRef, .ref 0⟩ = [] := rfl
    simp only [List.map_cons, h3, List.flatMap_cons, h4, List.nil_append] at this
    refine this.trans ?_
    rw [g6, l2, c1.rel, ← hout]
    simp [hns]
  · have h1 := c4.ret
    have h2 := c4.retBuf
    simp only [List.map_cons] at h1 h2
    rw [h1, h2]
    have : f.rsRet = some (.record u) := by simp [Func.rsRet, hk]
    rw [this, hl]
    have hb3 : s3.retBuf = none := by rw [g5, b2, c1.retBuf, hb]
    show TakeOk K (rustRetKind f) none (some l) s3.retBuf _
    rw [hb3]
    exact takeOk_ctor K _ l hkind.2

/-- C ABI compatible parameters leave nothing behind on the Rust side. -/
theorem f6_cabi {K : Ops} {W : World} {it : Item} (hg : it.Good) (hc : it.p.ty.isCAbi = true) :
    it.f6 K W = .empty := by
  obtain ⟨i, ⟨n, t⟩, sh, v⟩ := it
  obtain ⟨hs, hf⟩ := hg
  simp only at hs hf hc
  rcases hs with rfl | ⟨rfl, rfl⟩ | ⟨rfl, rfl⟩
  · cases t <;> cases v <;> simp_all [Fits, Item.f6, Item.rest, Ty.isCAbi, PFrame.empty]
  · simp [Ty.isCAbi] at hc
  · simp [Ty.isCAbi] at hc

theorem moves_cabi (its : List Item) (hg : ∀ it ∈ its, it.Good)
    (hc : ∀ it ∈ its, it.p.ty.isCAbi = true) : moves its = [] := by
  induction its with
  | nil => rfl
  | cons it its ih =>
      rw [moves_cons, ih (fun x hx => hg x (by simp [hx])) (fun x hx => hc x (by simp [hx]))]
      have h0 := hc it (by simp)
      rcases (hg it (by simp)).shown with h | ⟨h, h'⟩ | ⟨h, h'⟩
      · rw [h]; cases it.v <;> rfl
      · rw [h]; cases it.v <;> rfl
      · rw [h'] at h0; simp [Ty.isCAbi] at h0

/-- Calling the function's own symbol. -/
theorem runNative_ok (K : Ops) (W : World) (f : Func) (sh : Shape) (ho : Ok f sh) (code : Code)
    (hret : Returns f code) (hskip : canSkip f = true) (its : List Item) (s : St)
    (hd : Distinct its) (hg : ∀ it ∈ its, it.Good) (hc : Counted 0 its)
    (hp : its.map Item.p = f.rsParams)
    (h : ∀ it ∈ its, s.fr it.n = it.f1 K W) (hw : s.world = W) (hr : s.ret = none)
    (hb : s.retBuf = none) :
    ∃ r s', runNative f code ((outReg (rustRetKind f)).toList ++ its.map Item.reg) s =
      some (r, s') ∧ ForeignOk K W f code its s r s' := by
  obtain ⟨k1, k2, k3, k4, k5, k6, k7⟩ := canSkip_facts hskip
  have hv : f.isVirtual = false := by
    cases hvv : f.isVirtual with
    | false => rfl
    | true =>
        obtain ⟨rv, hr⟩ := ho.virt hvv
        simp [Func.hasThis, hr, hvv] at k3
  have hsub : ∀ it ∈ its, it.p.ty.isCAbi = true := by
    intro it hit
    have : it.p ∈ f.rsParams := hp ▸ List.mem_map_of_mem hit
    apply k6
    unfold Func.rsParams at this
    split at this
    · exact List.mem_of_mem_tail this
    · exact this
  have hmv := moves_cabi its hg hsub
  have hwe : worldAtEntry K (moves its) W = W := by
    funext a
    simp [worldAtEntry, hmv]
  have hsym : hasSymbol f = true := by simp [hasSymbol, k1, k2, k4, k7]
  obtain ⟨s1, e1, f1, c1⟩ := nativeParams_ok K W its s hd hg hsub h
  obtain ⟨g1, g2, g3, g4, g5, g6⟩ := runBody_ok K W (fun _ => PFrame.empty) code.static its 0
    (its.map fun it => seen K W it.s it.v) s1 hd hc hg (fun _ _ => rfl) f1.own
  have hout : outOf K W f code its = code.static (its.map fun it => seen K W it.s it.v) s1.world := by
    simp [outOf, called, hv, hwe, c1.world, hw]
  generalize hs3 : (runBody code.static 0 (its.map Item.p)
    (its.map fun it => seen K W it.s it.v) s1) = rb at g1 g2 g3 g4 g5 g6
  obtain ⟨rv, s3⟩ := rb
  simp only at g1 g2 g3 g4 g5 g6
  have hs3ret : s3.ret = none := by rw [g4, c1.ret, hr]
  have hs3buf : s3.retBuf = none := by rw [g5, c1.retBuf, hb]
  have hrv : (outOf K W f code its).ret = rv := by rw [g1, hout]
  have hframes : Frames its (Item.f6 K W) s s3 :=
    ⟨fun it hit => by rw [g2.own it hit, f6_cabi (hg it hit) (hsub it hit)],
      fun m hmm => by rw [g2.others m hmm, f1.others m hmm]⟩
  have hworld : s3.world = (outOf K W f code its).world := by rw [g3, hout]
  have hrel : s3.rel.Perm (s.rel ++ (outOf K W f code its).rel ++
      paramRel (outOf K W f code its).post 0 (its.map fun it => it.p.ty) ++
      if canSkip f then [] else its.flatMap (Item.thunkLeft K W)) := by
    rw [g6, c1.rel, hout]
    simp [hskip]
  have hfits : ∀ t, f.rsRet = some t → FitsRet t rv := by
    intro t ht
    have := hret t ht (its.map fun it => seen K W it.s it.v) (worldAtEntry K (moves its) W)
    rw [← hrv]
    exact this
  cases hk : f.kind with
  | ctor u =>
      have hctor : f.isCtor = true := by simp [Func.isCtor, hk]
      have hrsr : f.rsRet = some (.record u) := by simp [Func.rsRet, hk]
      have hkind : outReg (rustRetKind f) = some (.addr .ret) ∧
          (rustRetKind f = .zeroed ∨ rustRetKind f = .fnCtor) := by
        cases u <;> simp [rustRetKind, hk, retKindOf, Func.rsRet, Ty.conv, Ty.isOwnedPtr,
          Ty.isBridge, Ty.isUnpin, outReg]
      have hfit := hfits _ hrsr
      cases rv with
      | ref a => exact absurd hfit (by simp [FitsRet])
      | own l =>
          have hpt : its.map Item.p = f.params.tail := by
            rw [hp]
            simp [Func.rsParams, hk]
          refine ⟨none, { s3 with ret := some l }, ?_, ⟨⟨hframes.own, hframes.others⟩, hworld, hrel, ?_⟩⟩
          · rw [hpt] at e1 hs3
            simp [runNative, hsym, hctor, hkind.1, e1, hs3, hs3ret]
          · rw [hrsr, hrv]
            show TakeOk K (rustRetKind f) none (some l) s3.retBuf _
            rw [hs3buf]
            exact takeOk_ctor K _ l hkind.2
  | _ =>
      have hctor : f.isCtor = false := by simp [Func.isCtor, hk]
      have hrsr : f.rsRet = f.ret := by simp [Func.rsRet, hk]
      have hkind : rustRetKind f = retKindOf f.ret := by simp [rustRetKind, hk, hrsr]
      have hpt : its.map Item.p = f.params := by
        rw [hp]
        simp [Func.rsParams, hk]
      rw [hpt] at e1 hs3
      have key : ∃ r, runNative f code ((outReg (rustRetKind f)).toList ++ its.map Item.reg) s =
          some (r, s3) ∧ TakeOk K (rustRetKind f) r s3.ret s3.retBuf
            (f.rsRet.map fun t => rustRet K t (outOf K W f code its).ret) := by
        rw [hs3ret, hs3buf, hrsr, hrv, hkind]
        rw [hrsr] at hfits
        cases hfr : f.ret with
        | none =>
            refine ⟨none, ?_, fun s' h1 h2 => ⟨s', rfl, rfl, rfl, rfl, h1, h2⟩⟩
            simp [runNative, hsym, hctor, retKindOf, outReg, e1, hs3, hfr]
        | some t =>
            have hfit := hfits t hfr
            have hca := k5 t hfr
            cases t <;> cases rv <;> simp only [FitsRet] at hfit <;>
              first
              | exact absurd hfit id
              | (simp [Ty.isCAbi] at hca; done)
              | (simp [Ty.isCAbi] at hca
                 subst hca
                 refine ⟨some (.val _), ?_, fun s' h1 h2 => ⟨s', rfl, rfl, rfl, rfl, h1, h2⟩⟩
                 simp [runNative, hsym, hctor, retKindOf, outReg, e1, hs3, hfr, Ty.conv,
                  Ty.isOwnedPtr, Ty.isBridge, Ty.isUnpin, Ty.isCAbi, natural]
                 done)
              | (refine ⟨some (.val _), ?_, fun s' h1 h2 => ⟨s', rfl, rfl, rfl, rfl, h1, h2⟩⟩
                 simp [runNative, hsym, hctor, retKindOf, outReg, e1, hs3, hfr, Ty.conv,
                  Ty.isOwnedPtr, Ty.isBridge, Ty.isUnpin, Ty.isCAbi, natural]
                 done)
              | (refine ⟨some (.addr (.obj _)), ?_, fun s' h1 h2 => ⟨s', rfl, rfl, rfl, rfl, h1, h2⟩⟩
                 simp [runNative, hsym, hctor, retKindOf, outReg, e1, hs3, hfr, Ty.conv,
                  Ty.isOwnedPtr, Ty.isBridge, Ty.isUnpin, Ty.isCAbi, natural]
                 done)
      obtain ⟨r, e, tk⟩ := key
      exact ⟨r, s3, e, hframes, hworld, hrel, tk⟩

end Verif.CcCall

import Verif.CcCall.Whole

/-!
# Calling a C++ function through its generated Rust binding: the theorems
-/

namespace Verif.CcCall

/-! ## Declarations and definitions -/

/-- **The `extern "C"` declaration in the Rust file and what the linker finds for it agree.**  With a
thunk, the thunk's parameters and result have the declared classes.  Without one, the C++ function has
a symbol of its own, which is unique and follows the C calling convention, whose parameters and result
have the declared classes, and calling it is what a C++ call would do. -/
theorem declaration_matches_definition (f : Func) (sh : Shape) (h : Ok f sh) :
    (canSkip f = false → (thunk f).sig = declare f sh) ∧
      (canSkip f = true → hasSymbol f = true ∧ nativeSig f = some (declare f sh) ∧
        ∀ code as W, called f.isVirtual code as W = code.static as W) := by
  refine ⟨fun _ => thunk_sig f sh h, fun hc => ?_⟩
  obtain ⟨k1, k2, k3, k4, -, -, k7⟩ := canSkip_facts hc
  refine ⟨by simp [hasSymbol, k1, k2, k4, k7], native_sig f sh h hc, ?_⟩
  intro code as W
  have hv : f.isVirtual = false := by
    cases hvv : f.isVirtual with
    | false => rfl
    | true =>
        obtain ⟨rv, hr⟩ := h.virt hvv
        simp [Func.hasThis, hr, hvv] at k3
  simp [called, hv]

/-! ## Calls -/

theorem headOk_of (f : Func) (sh : Shape) (ho : Ok f sh) (its : List Item)
    (hp : its.map Item.p = f.rsParams) (hs : ∀ it ∈ its, showParam sh it.p.ty = some it.s) :
    ∀ it, its.head? = some it → HeadOk sh it.s := by
  intro it hit
  cases its with
  | nil => simp at hit
  | cons x xs =>
      simp only [List.head?_cons, Option.some.injEq] at hit
      subst hit
      have hhead : f.rsParams.head? = some x.p := by rw [← hp]; rfl
      have hx := showParam_cases (hs x (by simp))
      constructor
      · intro hself t ht
        obtain ⟨h1, h2⟩ := ho.self hself x.p hhead
        rcases hx with ⟨e, hm⟩ | ⟨e, -⟩ | ⟨e, -⟩
        · rw [e] at ht
          injection ht with ht
          subst ht
          exact ⟨h1, h2.elim id hm⟩
        · rw [e] at ht; cases ht
        · rw [e] at ht; cases ht
      · intro hd
        obtain ⟨rv, hk⟩ := ho.derived hd
        obtain ⟨p, ps, hps, hthis⟩ := ho.method rv hk
        have hxp : x.p = p := by
          simp only [Func.rsParams, hk, hps, List.head?_cons, Option.some.injEq] at hhead
          exact hhead.symm
        rcases hx with ⟨e, hm⟩ | ⟨e, ht⟩ | ⟨e, ht⟩
        · exact ⟨_, e, hxp ▸ hthis⟩
        · rw [← hxp, ht] at hthis; simp [Ty.isThis] at hthis
        · rw [← hxp, ht] at hthis; simp [Ty.isThis] at hthis

theorem moves_up (up : Nat → Nat) (sh : Shape) (its : List Item)
    (hh : ∀ it, its.head? = some it → HeadOk sh it.s) : moves (upItems up sh its) = moves its := by
  cases its with
  | nil => rfl
  | cons x xs =>
      simp only [upItems, moves_cons, headArg]
      by_cases hd : sh.derived = true
      · obtain ⟨t, ht, -⟩ := (hh x rfl).derived hd
        simp only [hd, if_true, ht]
      · simp [hd]

theorem rsParams_names (f : Func) (sh : Shape) (ho : Ok f sh) : (f.rsParams.map Param.name).Nodup := by
  unfold Func.rsParams
  split
  · exact (List.Sublist.map _ (List.tail_sublist _)).nodup ho.names
  · exact ho.names

theorem zip_items (its : List Item) :
    (its.map Item.p).zip (its.map Item.v) = its.map fun it => (it.p, it.v) := by
  induction its with
  | nil => rfl
  | cons x xs ih => simp [ih]

theorem zip_shown (its : List Item) :
    (its.map Item.s).zip (its.map Item.v) = its.map fun it => (it.s, it.v) := by
  induction its with
  | nil => rfl
  | cons x xs ih => simp [ih]

theorem up_values (up : Nat → Nat) (sh : Shape) (its : List Item) :
    (upItems up sh its).map Item.v = converted up sh.derived (its.map Item.v) := by
  cases its <;> simp [upItems, converted, headArg]

/-- The declared parameter classes are those of the registers. -/
theorem regs_declared (f : Func) (sh : Shape) (its : List Item) (hg : ∀ it ∈ its, it.Good)
    (hp : its.map Item.p = f.rsParams) :
    (((outReg (rustRetKind f)).toList ++ its.map Item.reg).map Reg.cls) = (declare f sh).params := by
  have hregs : (its.map Item.reg).map Reg.cls = f.rsParams.map fun p => declParam sh p.ty := by
    rw [← hp, List.map_map, List.map_map]
    refine List.map_congr_left fun it hit => ?_
    show it.reg.cls = declParam sh it.p.ty
    rw [reg_cls (hg it hit), declParam_eq]
  rw [List.map_append, hregs]
  cases hk : f.kind with
  | ctor u =>
      cases u <;> simp [declare, hk, rustRetKind, retKindOf, Func.rsRet, Func.rsParams, Ty.conv,
        Ty.isOwnedPtr, Ty.isBridge, Ty.isUnpin, outReg, Reg.cls]
  | _ =>
      cases hr : f.ret with
      | none => simp [declare, hk, hr, rustRetKind, Func.rsRet, retKindOf, outReg, Func.rsParams]
      | some t =>
          cases t with
          | existing b => cases b <;> simp [declare, hk, hr, rustRetKind, Func.rsRet, retKindOf, outReg,
              Func.rsParams, Ty.conv, Ty.isOwnedPtr, Ty.isBridge, Ty.isUnpin, Ty.isCAbi, Reg.cls]
          | record b => cases b <;> simp [declare, hk, hr, rustRetKind, Func.rsRet, retKindOf, outReg,
              Func.rsParams, Ty.conv, Ty.isOwnedPtr, Ty.isBridge, Ty.isUnpin, Ty.isCAbi, Reg.cls]
          | _ => simp [declare, hk, hr, rustRetKind, Func.rsRet, retKindOf, outReg,
              Func.rsParams, Ty.conv, Ty.isOwnedPtr, Ty.isBridge, Ty.isUnpin, Ty.isCAbi, Reg.cls]

/-- The foreign call, whichever way it is linked. -/
theorem foreign_ok (K : Ops) (W : World) (f : Func) (sh : Shape) (ho : Ok f sh) (code : Code)
    (hret : Returns f code) (its : List Item) (s : St) (hd : Distinct its)
    (hg : ∀ it ∈ its, it.Good) (hc : Counted 0 its) (hp : its.map Item.p = f.rsParams)
    (h : ∀ it ∈ its, s.fr it.n = it.f1 K W) (hemp : ∀ m, m ∉ its.map Item.n → s.fr m = .empty)
    (hw : s.world = W) (hr : s.ret = none) (hb : s.retBuf = none) (hm : (moves its).Nodup) :
    ∃ r s', foreign K f code ((outReg (rustRetKind f)).toList ++ its.map Item.reg) s =
      some (r, s') ∧ ForeignOk K W f code its s r s' := by
  unfold foreign
  split
  · rename_i hs
    exact runNative_ok K W f sh ho code hret hs its s hd hg hc hp h hw hr hb
  · rename_i hs
    have hns : canSkip f = false := by simpa using hs
    cases hk : f.kind with
    | ctor u => exact runThunk_ctor K W f sh ho code hns hret u hk its s hd hg hc hp h hemp hw hr hb hm
    | _ =>
        exact runThunk_ok K W f sh ho code hns hret (by simp [Func.isCtor, hk]) its s hd hg hc
          (by rw [hp]; simp [Func.rsParams, hk]) h hw hr hb hm

/-- What the Rust expression makes of the result. -/
theorem applyShape_ok (f : Func) (sh : Shape) (ho : Ok f sh) (K : Ops) (v : Arg)
    (hf : ∀ t, f.rsRet = some t → FitsRet t v) (s : St) :
    (applyShape sh (rustRetKind f) (f.rsRet.map fun t => rustRet K t v) s).1 =
        (finish sh.negate sh.dropRet (f.rsRet.map fun t => rustRet K t v)).1 ∧
      (applyShape sh (rustRetKind f) (f.rsRet.map fun t => rustRet K t v) s).2 =
        { s with rel := s.rel ++ (finish sh.negate sh.dropRet (f.rsRet.map fun t => rustRet K t v)).2 } := by
  cases hn : sh.negate with
  | false =>
      cases hd : sh.dropRet <;> simp [applyShape, finish, hn, hd]
  | true =>
      have hr := ho.negate hn
      have hfit := hf _ hr
      have hk : rustRetKind f = .call := by
        cases hkk : f.kind with
        | ctor u => simp [Func.rsRet, hkk] at hr
        | _ => simp [rustRetKind, hkk, hr, retKindOf, Ty.conv, Ty.isOwnedPtr, Ty.isBridge,
            Ty.isUnpin, Ty.isCAbi]
      cases v with
      | ref a => exact absurd hfit (by simp [FitsRet])
      | own l =>
          have hl : l.res = none := hfit
          cases hd : sh.dropRet <;> simp [applyShape, finish, hn, hd, hk, hr, rustRet, Arg.owns, hl]

/-- What is left of the arguments, in the thunk and on the Rust side. -/
theorem leftovers_split (K : Ops) (W : World) (f : Func) {sh : Shape} (ho : Ok f sh) (its : List Item)
    (hg : ∀ it ∈ its, it.Good) (hp : its.map Item.p = f.rsParams) :
    ((if canSkip f then [] else its.flatMap (Item.thunkLeft K W)) ++
      its.flatMap (Item.rustLeft K W)).Perm
      (its.flatMap fun it => leftover K W (!canSkip f) it.s it.v) := by
  have hsub : canSkip f = true → ∀ it ∈ its, it.p.ty.isCAbi = true := by
    intro hs it hit
    obtain ⟨-, -, -, -, -, k6, -⟩ := canSkip_facts hs
    have : it.p ∈ f.rsParams := hp ▸ List.mem_map_of_mem hit
    apply k6
    unfold Func.rsParams at this
    split at this
    · exact List.mem_of_mem_tail this
    · exact this
  cases hs : canSkip f with
  | true =>
      have hz : ∀ it ∈ its, it.rustLeft K W = [] ∧ leftover K W false it.s it.v = [] := by
        intro it hit
        have hca := hsub hs it hit
        obtain ⟨hsh, hfit⟩ := hg it hit
        rcases hsh with e | ⟨e, e'⟩ | ⟨e, e'⟩
        · rw [e] at hfit
          cases ht : it.p.ty <;> cases hv : it.v <;> rw [ht] at hca hfit <;> rw [hv] at hfit <;>
            simp_all [Fits, Item.rustLeft, Item.rest, leftover, PFrame.empty, Ty.isCAbi]
        · rw [e'] at hca; simp [Ty.isCAbi] at hca
        · rw [e'] at hca; simp [Ty.isCAbi] at hca
      have h1 : its.flatMap (Item.rustLeft K W) = [] := by
        rw [List.flatMap_eq_nil_iff]
        exact fun it hit => (hz it hit).1
      have h2 : (its.flatMap fun it => leftover K W (!true) it.s it.v) = [] := by
        rw [List.flatMap_eq_nil_iff]
        exact fun it hit => (hz it hit).2
      rw [h1, h2]
      exact List.Perm.refl _
  | false =>
      simp only [Bool.false_eq_true, if_false, Bool.not_false]
      have hz : ∀ it ∈ its, (it.thunkLeft K W ++ it.rustLeft K W) = leftover K W true it.s it.v := by
        intro it hit
        obtain ⟨hsh, hfit⟩ := hg it hit
        rcases hsh with e | ⟨e, e'⟩ | ⟨e, e'⟩
        · rw [e] at hfit
          cases ht : it.p.ty <;> cases hv : it.v <;> rw [ht] at hfit <;> rw [hv] at hfit <;>
            simp only [Fits] at hfit <;>
            first
            | exact absurd hfit id
            | (rename_i b l
               cases b <;> simp [Item.thunkLeft, Item.rustLeft, Item.rest, leftover, PFrame.empty, e,
                ht, hv])
            | simp [Item.thunkLeft, Item.rustLeft, Item.rest, leftover, PFrame.empty, e, ht, hv]
        · rw [e] at hfit
          cases hv : it.v <;> rw [hv] at hfit <;> rw [e'] at hfit <;>
            simp_all [Fits, Item.thunkLeft, Item.rustLeft, Item.rest, leftover, PFrame.empty]
        · rw [e] at hfit
          cases hv : it.v <;> rw [hv] at hfit <;> rw [e'] at hfit <;>
            simp_all [Fits, Item.thunkLeft, Item.rustLeft, Item.rest, leftover, PFrame.empty]
      clear hp hsub hg
      induction its with
      | nil => exact List.Perm.refl _
      | cons it its ih =>
          have h0 := hz it (by simp)
          have := ih (fun x hx => hz x (by simp [hx]))
          simp only [List.flatMap_cons, ← h0]
          refine List.Perm.trans ?_ (List.Perm.append_left _ this)
          simp only [List.append_assoc]
          refine List.Perm.append_left _ ?_
          rw [← List.append_assoc, ← List.append_assoc]
          exact List.Perm.append_right _ List.perm_append_comm

/-- **A call of the generated Rust function does what the C++ call would do.**

For every function the generator accepts, every body of it, every argument list that fits the Rust
signature and every world: the call goes through (declaration and definition match, every object that
is read is there); the C++ function that runs is the one a C++ call would run, on parameters with the
passed values and in the world the caller left; the caller gets the function's result; the world is
what the function left; what was released is exactly what the function released, what its by-value
parameters still owned when it returned, a result that the binding drops, and what the moved-from
arguments were left with, each once; and no memory is left in use — every local, temporary, buffer and
result slot has been emptied. -/
theorem call_correct (K : Ops) (up : Nat → Nat) (f : Func) (sh : Shape) (code : Code)
    (shown : List Shown) (args : List Arg) (W : World) (ho : Ok f sh) (hret : Returns f code)
    (hshow : showParams f sh = some shown) (hfit : FitsAll shown args)
    (hm : (movedObjs (shown.zip args)).Nodup) :
    ∃ s, runRust K up f sh code args W =
        some ((callSpec K (called f.isVirtual code) (f.rsParams.map Param.ty) f.rsRet sh.negate
          sh.dropRet (shown.zip (converted up sh.derived args)) W).ret, s) ∧
      s.world = (callSpec K (called f.isVirtual code) (f.rsParams.map Param.ty) f.rsRet sh.negate
          sh.dropRet (shown.zip (converted up sh.derived args)) W).world ∧
      s.rel.Perm ((callSpec K (called f.isVirtual code) (f.rsParams.map Param.ty) f.rsRet sh.negate
          sh.dropRet (shown.zip (converted up sh.derived args)) W).rel ++
        (shown.zip (converted up sh.derived args)).flatMap
          fun p => leftover K W (!canSkip f) p.1 p.2) ∧
      (∀ n, s.fr n = .empty) ∧ s.ret = none ∧ s.retBuf = none := by
  have hall : showAll sh f.rsParams = some shown := by
    unfold showParams at hshow
    split at hshow
    · cases hshow
    · exact hshow
  obtain ⟨m1, m2, m3, hg, hc, hs⟩ := mkItems_ok sh 0 f.rsParams shown args hall hfit
  generalize mkItems 0 f.rsParams shown args = its at m1 m2 m3 hg hc hs
  have hd : Distinct its := by
    have := rsParams_names f sh ho
    rw [← m1, List.map_map] at this
    exact this
  have hh := headOk_of f sh ho its m1 hs
  obtain ⟨f0, w0, r0, b0, l0⟩ := enterRust_ok its ⟨W, fun _ => .empty, none, none, []⟩ hd
    (fun _ _ => rfl)
  obtain ⟨s1, e1, f1, c1⟩ := evalRArgs_ok K up sh its _ hd hg hh f0.own
  generalize hs0 : enterRust (its.map fun it => (it.p, it.v)) ⟨W, fun _ => .empty, none, none, []⟩ = s0
    at f0 w0 r0 b0 l0 e1 f1 c1
  have hg' := upItems_good up sh its hg hh
  obtain ⟨u1, u2⟩ := upItems_map up sh its
  have u3 := up_values up sh its
  have hc' := upItems_counted up sh 0 its hc
  have hmv : moves (upItems up sh its) = movedObjs (shown.zip args) := by
    rw [moves_up up sh its hh, moves, ← zip_shown, m2, m3]
  have hd' : Distinct (upItems up sh its) := by
    unfold Distinct
    rw [upItems_names]
    exact hd
  have hn := upItems_names up sh its
  generalize upItems up sh its = its' at e1 f1 hg' u1 u2 u3 hc' hmv hd' hn
  have hemp : ∀ m, m ∉ its'.map Item.n → s1.fr m = .empty := by
    intro m hm
    rw [f1.others m hm, f0.others m (hn ▸ hm)]
  obtain ⟨r, s2, e2, fo⟩ := foreign_ok K W f sh ho code hret its' s1 hd' hg' hc' (u1.trans m1)
    (fun it hit => by rw [f1.own it hit, w0]) hemp (c1.world.trans w0) (c1.ret.trans r0)
    (c1.retBuf.trans b0) (hmv ▸ hm)
  obtain ⟨s3, e3, g1, g2, g3, g4, g5⟩ := fo.take s2 rfl rfl
  have hfitret : ∀ t, f.rsRet = some t → FitsRet t (outOf K W f code its').ret :=
    fun t ht => hret t ht _ _
  obtain ⟨a1, a2⟩ := applyShape_ok f sh ho K (outOf K W f code its').ret hfitret s3
  generalize hs4 : applyShape sh (rustRetKind f) (f.rsRet.map fun t => rustRet K t
    (outOf K W f code its').ret) s3 = p4 at a1 a2
  obtain ⟨v4, s4⟩ := p4
  simp only at a1 a2
  obtain ⟨f5, c5⟩ := exitRust_ok K W its' s4 hd' (fun it hit => by
    rw [a2]
    show s3.fr it.n = _
    rw [g1]
    exact fo.frames.own it hit)
  have hpairs : shown.zip (converted up sh.derived args) = its'.map fun it => (it.s, it.v) := by
    rw [← zip_shown, u2, u3, m2, m3]
  have hout : outOf K W f code its' = called f.isVirtual code
      ((shown.zip (converted up sh.derived args)).map fun p => seen K W p.1 p.2)
      (worldAtEntry K (movedObjs (shown.zip (converted up sh.derived args))) W) := by
    rw [hpairs, List.map_map]
    rfl
  have htys : f.rsParams.map Param.ty = its'.map fun it => it.p.ty := by
    rw [← m1, ← u1, List.map_map]
    rfl
  refine ⟨exitRust (its'.map Item.p) s4, ?_, ?_, ?_, ?_, ?_, ?_⟩
  · have hpv : f.rsParams.zip args = its.map fun it => (it.p, it.v) := by
      rw [← m1, ← m3, zip_items]
    have hdecl := regs_declared f sh its' hg' (u1.trans m1)
    simp only [runRust, hshow, Option.bind_eq_bind, Option.bind_some, hpv, hs0]
    rw [← m2, e1]
    simp only [Option.bind_some, linked_ok f sh ho, hdecl, beq_self_eq_true, Bool.and_self,
      if_true, e2, e3, hs4]
    rw [u1, m1, a1, hout]
    simp only [callSpec]
    rw [m2]
    rfl
  · rw [c5.world, a2]
    show s3.world = _
    rw [g2, fo.world, hout]
    rfl
  · have hleft : (shown.zip (converted up sh.derived args)).flatMap
        (fun p => leftover K W (!canSkip f) p.1 p.2) =
        its'.flatMap fun it => leftover K W (!canSkip f) it.s it.v := by
      rw [hpairs, List.flatMap_map]
    have hfo := fo.rel
    rw [c1.rel, l0, hout, ← htys, List.nil_append] at hfo
    have h5 := c5.rel
    have h4 : s4.rel = s2.rel ++ (finish sh.negate sh.dropRet
        (f.rsRet.map fun t => rustRet K t (outOf K W f code its').ret)).2 := by
      rw [a2]
      show s3.rel ++ _ = _
      rw [g3]
    rw [h4, hout] at h5
    rw [hleft]
    have hl := leftovers_split K W f ho its' hg' (u1.trans m1)
    refine h5.trans (((hfo.append_right _).append_right _).trans ?_)
    simp only [callSpec, List.append_assoc]
    refine List.Perm.append_left _ (List.Perm.append_left _ ?_)
    refine List.Perm.trans ?_ (List.Perm.append_left _ hl)
    rw [← List.append_assoc, ← List.append_assoc]
    exact List.Perm.append_right _ List.perm_append_comm
  · intro n
    by_cases hn' : n ∈ its'.map Item.n
    · obtain ⟨it, hit, rfl⟩ := List.mem_map.mp hn'
      exact f5.own it hit
    · rw [f5.others n hn', a2]
      show s3.fr n = _
      rw [g1, fo.frames.others n hn', hemp n hn']
  · rw [c5.ret, a2]; exact g4
  · rw [c5.retBuf, a2]; exact g5

/-! ## Ownership -/

theorem paramRel_untouched (post : Nat → Leaf) (tys : List Ty) (as pre : List Arg)
    (hl : tys.length = as.length)
    (h : ∀ (j : Nat) (l : Leaf), as[j]? = some (.own l) → post (pre.length + j) = l)
    (hown : ∀ (j : Nat) (t : Ty) (a : Arg), tys[j]? = some t → as[j]? = some a → t.isClass = true → ∃ l, a = .own l) :
    paramRel post pre.length tys =
      (tys.zip as).flatMap fun p => if p.1.isClass then p.2.owns else [] := by
  induction tys generalizing as pre with
  | nil => rfl
  | cons t ts ih =>
      cases as with
      | nil => simp at hl
      | cons a as =>
          have hrec := ih as (pre ++ [a]) (by simpa using hl)
            (fun j l hj => by
              have := h (j + 1) l (by simpa using hj)
              rw [List.length_append, List.length_singleton, Nat.add_assoc, Nat.add_comm 1 j]
              exact this)
            (fun j t' a' h1 h2 h3 => hown (j + 1) t' a' (by simpa using h1) (by simpa using h2) h3)
          simp only [List.length_append, List.length_cons, List.length_nil, Nat.zero_add] at hrec
          simp only [paramRel, List.zip_cons_cons, List.flatMap_cons, hrec]
          congr 1
          cases hc : t.isClass with
          | false => simp
          | true =>
              obtain ⟨l, rfl⟩ := hown 0 t a (by simp) (by simp) hc
              have := h 0 l (by simp)
              simp only [Nat.add_zero] at this
              simp [this, Arg.owns]

/-- A value of class type arrives as an object. -/
theorem seen_class (K : Ops) (W : World) (sh : Shape) (t : Ty) (s : Shown) (v : Arg)
    (hs : showParam sh t = some s) (hf : Fits s v) (hc : t.isClass = true) :
    ∃ l, seen K W s v = .own l := by
  rcases showParam_cases hs with ⟨rfl, -⟩ | ⟨rfl, rfl⟩ | ⟨rfl, rfl⟩
  · cases t <;> simp only [Ty.isClass, Bool.false_eq_true] at hc <;> cases v <;>
      simp_all [Fits, seen]
  · cases v <;> simp_all [Fits, seen]
  · cases v <;> simp_all [Fits, seen]

theorem showAll_get (sh : Shape) (ps : List Param) (ss : List Shown) (h : showAll sh ps = some ss) :
    ss.length = ps.length ∧
      ∀ (j : Nat) (p : Param) (s : Shown), ps[j]? = some p → ss[j]? = some s →
        showParam sh p.ty = some s := by
  induction ps generalizing ss with
  | nil => simp only [showAll, Option.some.injEq] at h; subst h; simp
  | cons p ps ih =>
      simp only [showAll] at h
      split at h
      · rename_i s ss' h1 h2
        simp only [Option.some.injEq] at h
        subst h
        obtain ⟨a, b⟩ := ih ss' h2
        refine ⟨by simp [a], ?_⟩
        intro j q s' hq hs'
        cases j with
        | zero =>
            simp only [List.getElem?_cons_zero, Option.some.injEq] at hq hs'
            subst hq; subst hs'
            exact h1
        | succ j => exact b j q s' (by simpa using hq) (by simpa using hs')
      · cases h

theorem fitsAll_get (ss : List Shown) (vs : List Arg) (h : FitsAll ss vs) :
    ss.length = vs.length ∧
      ∀ (j : Nat) (s : Shown) (v : Arg), ss[j]? = some s → vs[j]? = some v → Fits s v := by
  induction ss generalizing vs with
  | nil => cases vs <;> simp_all [FitsAll]
  | cons s ss ih =>
      cases vs with
      | nil => simp [FitsAll] at h
      | cons v vs =>
          obtain ⟨h0, h1⟩ := h
          obtain ⟨a, b⟩ := ih vs h1
          refine ⟨by simp [a], ?_⟩
          intro j s' v' hs hv
          cases j with
          | zero =>
              simp only [List.getElem?_cons_zero, Option.some.injEq] at hs hv
              subst hs; subst hv
              exact h0
          | succ j => exact b j s' v' (by simpa using hs) (by simpa using hv)

/-- **Arguments that the function leaves alone are released exactly once, by the call.**  If the C++
function releases nothing itself and leaves its by-value parameters as they are, and moved-from objects
own nothing, then what is released is: for every parameter of class type what the value passed for it
owns (for a `&T` that is copied, what the copy owns), each once, and nothing else. -/
theorem arguments_released_once (K : Ops) (up : Nat → Nat) (f : Func) (sh : Shape) (code : Code)
    (shown : List Shown) (args : List Arg) (W : World) (ho : Ok f sh) (hret : Returns f code)
    (hinh : sh.derived = false) (hdrop : sh.dropRet = false)
    (hshow : showParams f sh = some shown) (hfit : FitsAll shown args)
    (hm : (movedObjs (shown.zip args)).Nodup)
    (hmoved : ∀ r, K.movedRes r = none)
    (hbody : ∀ as W, (called f.isVirtual code as W).rel = [] ∧
      ∀ (i : Nat) (l : Leaf), as[i]? = some (.own l) → (called f.isVirtual code as W).post i = l) :
    ∃ v s, runRust K up f sh code args W = some (v, s) ∧
      s.rel.Perm (((f.rsParams.map Param.ty).zip
        ((shown.zip args).map fun p => seen K W p.1 p.2)).flatMap
          fun p => if p.1.isClass then p.2.owns else []) := by
  obtain ⟨s, e, -, hrel, -⟩ := call_correct K up f sh code shown args W ho hret hshow hfit hm
  have hconv : converted up sh.derived args = args := by
    cases args <;> simp [converted, hinh]
  rw [hconv] at e hrel
  refine ⟨_, s, e, hrel.trans ?_⟩
  have hleft : (shown.zip args).flatMap (fun p => leftover K W (!canSkip f) p.1 p.2) = [] := by
    rw [List.flatMap_eq_nil_iff]
    rintro ⟨x, v⟩ -
    have hz : ∀ l, (K.moved l).res = none := by
      intro l
      cases hl : l.res <;> simp [Ops.moved, hl, hmoved]
    simp only [leftover]
    split <;> simp [hz]
  rw [hleft, List.append_nil]
  have hall : showAll sh f.rsParams = some shown := by
    unfold showParams at hshow
    split at hshow
    · cases hshow
    · exact hshow
  obtain ⟨l1, g1⟩ := showAll_get sh _ _ hall
  obtain ⟨l2, g2⟩ := fitsAll_get _ _ hfit
  obtain ⟨b1, b2⟩ := hbody ((shown.zip args).map fun p => seen K W p.1 p.2)
    (worldAtEntry K (movedObjs (shown.zip args)) W)
  have hfin : ∀ r, (finish sh.negate sh.dropRet r).2 = [] := by
    intro r
    cases hn : sh.negate <;> simp [finish, hdrop]
  simp only [callSpec, b1, List.nil_append, hfin, List.append_nil]
  have := paramRel_untouched (called f.isVirtual code ((shown.zip args).map fun p => seen K W p.1 p.2)
    (worldAtEntry K (movedObjs (shown.zip args)) W)).post (f.rsParams.map Param.ty)
    ((shown.zip args).map fun p => seen K W p.1 p.2) [] (by simp [l1, ← l2])
    (fun j l hj => by simpa using b2 j l hj)
    (by
      intro j t a ht ha hc
      rw [List.getElem?_map] at ht ha
      obtain ⟨p, hp, rfl⟩ := Option.map_eq_some_iff.mp ht
      obtain ⟨⟨s', v⟩, hz, rfl⟩ := Option.map_eq_some_iff.mp ha
      obtain ⟨hs, hv⟩ := List.getElem?_zip_eq_some.mp hz
      exact seen_class K W sh p.ty s' v (g1 j p s' hp hs) (g2 j s' v hs hv) hc)
  rw [← this]
  exact List.Perm.refl _

/-- **A constructor that is never run drops the arguments it holds.**  A Rust function that returns an
immovable C++ type returns a constructor, which keeps the arguments.  If it is dropped without being
run, then the C++ function does not run, and what the arguments own is released, each once. -/
theorem unrun_constructor (f : Func) (sh : Shape) (args : List Arg) (W : World) (ho : Ok f sh)
    (hl : args.length = f.rsParams.length) :
    (dropRust f args W).world = W ∧ (dropRust f args W).rel.Perm (args.flatMap Arg.owns) ∧
      (∀ n, (dropRust f args W).fr n = .empty) ∧ (dropRust f args W).ret = none ∧
      (dropRust f args W).retBuf = none := by
  have hits : ∀ (ps : List Param) (vs : List Arg), vs.length = ps.length →
      ∃ its : List Item, its.map Item.p = ps ∧ its.map Item.v = vs := by
    intro ps
    induction ps with
    | nil => intro vs h; exact ⟨[], rfl, by cases vs <;> simp_all⟩
    | cons p ps ih =>
        intro vs h
        cases vs with
        | nil => simp at h
        | cons v vs =>
            obtain ⟨its, a, b⟩ := ih vs (by simpa using h)
            exact ⟨⟨0, p, .plain .prim, v⟩ :: its, by simp [a], by simp [b]⟩
  obtain ⟨its, hp, hv⟩ := hits f.rsParams args hl
  have hd : Distinct its := by
    have := rsParams_names f sh ho
    rw [← hp, List.map_map] at this
    exact this
  obtain ⟨f0, w0, r0, b0, l0⟩ := enterRust_ok its ⟨W, fun _ => .empty, none, none, []⟩ hd
    (fun _ _ => rfl)
  have key : ∀ (l : List Item) (s : St), Distinct l → (∀ it ∈ l, s.fr it.n = it.f0) →
      Frames l (fun _ => .empty) s (exitRust (l.map Item.p) s) ∧
        (exitRust (l.map Item.p) s).world = s.world ∧ (exitRust (l.map Item.p) s).ret = s.ret ∧
        (exitRust (l.map Item.p) s).retBuf = s.retBuf ∧
        (exitRust (l.map Item.p) s).rel.Perm (s.rel ++ (l.map Item.v).flatMap Arg.owns) := by
    intro l
    induction l with
    | nil => intro s _ _; exact ⟨⟨by simp, by simp [exitRust]⟩, rfl, rfl, rfl, by simp [exitRust]⟩
    | cons it l ih =>
        intro s hd h
        obtain ⟨i1, i2, i3, i4, i5⟩ := ih s hd.tail (fun x hx => h x (by simp [hx]))
        have h0 : (exitRust (l.map Item.p) s).fr it.p.name = it.f0 := by
          have := i1.others _ hd.head
          exact this.trans (h it (by simp))
        simp only [List.map_cons, exitRust]
        refine ⟨Frames.consLast hd i1 ?_ ?_, i2, i3, i4, ?_⟩
        · simp only [St.set_same, h0]
          cases hx : it.v <;> simp [Item.f0, hx, PFrame.empty]
        · intro m hm
          have hm' : m ≠ it.p.name := hm
          simp [St.set_fr, hm', destroy]
        · simp only [St.set_rel, destroy, h0, List.flatMap_cons]
          cases hx : it.v with
          | ref a =>
              simp only [Item.f0, hx, PFrame.empty, Arg.owns]
              simpa using i5
          | own lf =>
              simp only [Item.f0, hx, PFrame.empty, Arg.owns]
              simp only [Option.bind_none, Option.toList_none, List.append_nil, Option.bind_some]
              refine (List.Perm.append_right _ i5).trans ?_
              rw [List.append_assoc]
              exact List.Perm.append_left _ List.perm_append_comm
  obtain ⟨k1, k2, k3, k4, k5⟩ := key its _ hd f0.own
  have hpv : f.rsParams.zip args = its.map fun it => (it.p, it.v) := by
    rw [← hp, ← hv, zip_items]
  unfold dropRust
  rw [hpv, ← hp]
  refine ⟨k2.trans w0, ?_, ?_, k3.trans r0, k4.trans b0⟩
  · rw [l0, hv] at k5
    simpa using k5
  · intro n
    by_cases hn : n ∈ its.map Item.n
    · obtain ⟨it, hit, rfl⟩ := List.mem_map.mp hn
      exact k1.own it hit
    · rw [k1.others n hn, f0.others n hn]

end Verif.CcCall

import Verif.FnCall.ParamsProof

/-! # Parameters: tuples -/

namespace Verif.FnCall

theorem execAll_append (K : Convs) (a b : List CStmt) :
    ∀ σ, execAll K (a ++ b) σ = (execAll K a σ).bind (execAll K b) := by
  induction a with
  | nil => intro σ; simp [execAll]
  | cons s a ih =>
    intro σ
    simp only [List.cons_append, execAll]
    cases s.exec K σ with
    | none => simp
    | some σ1 => simp [ih]

/-- One iteration of the element loop, for element `i` of `x`, whose converted form is found at `l`. -/
structure ElemDone (K : Convs) (x r : Name) (p : List Nat) (i : Nat) (t : Ty) (V v : Val)
    (σ σ' : CState) (l : Loc) : Prop where
  run : execAll K (cElem false x i t) σ = some σ'
  env : ∀ n, ¬ Elem x i n → σ'.env n = σ.env n
  mem : ∀ n, ¬ Elem x i n → n ≠ r → σ'.mem n = σ.mem n
  exits : σ'.exits = σ.exits
  left : σ'.mem r = some (.val (V.put (p ++ [i]) v.moved))
  name : σ'.env (.idx i :: .cabi :: x) = some l
  delivers : ∀ σ'' : CState, (∀ n, Elem x i n → σ''.env n = σ'.env n ∧ σ''.mem n = σ'.mem n) →
    (∃ V'', σ''.mem r = some (.val V'') ∧ V''.at (p ++ [i]) = some v.moved) →
    ∃ a, σ''.readAbi (cAbiTy false t) l = some a ∧
      (rParam false t).eval K σ'' a = some (rustOf K t v)

theorem cabi_not_below (x : Name) (i j : Nat) :
    ¬ (Seg.idx j :: .cabi :: x = .idx i :: x ∨ Below (.idx i :: x) (.idx j :: .cabi :: x)) := by
  intro h
  have := below_idx_inj h (Or.inr ⟨[.idx j], by simp, by simp⟩ : _ ∨ Below (.cabi :: x) _)
  cases this

theorem elem_of_param {K : Convs} {x r : Name} {p : List Nat} {i : Nat} {t : Ty} {V v : Val}
    {vs : List Val} {σ : CState}
    (ih : ∀ (x r : Name) (p : List Nat) (V v : Val) (σ : CState), ParamReady x r p V v σ →
      HasTy t v → ∃ σ', ParamDone K false x r p t V v σ σ')
    (hnc : ∀ k, t ≠ .composable k)
    (here : σ.env x = some ⟨r, p⟩) (obj : σ.mem r = some (.val V)) (sub : V.at p = some (.tup vs))
    (hi : vs[i]? = some v) (hv : HasTy t v)
    (fresh : ∀ n, Elem x i n → σ.env n = none) (root : ¬ Below x r) :
    ∃ σ' l, ElemDone K x r p i t V v σ σ' l := by
  have hlt := lt_of_get? hi
  have hsub : V.at (p ++ [i]) = some v := by
    rw [Val.at_append, sub]; simp [Val.at, hi]
  have hfx : σ.env (.idx i :: x) = none := fresh _ (Or.inl rfl)
  let σ1 := σ.withRef (.idx i :: x) ⟨r, p ++ [i]⟩
  have hget : CStmt.exec K σ (.get (.idx i :: x) x i) = some σ1 := by
    simp [CStmt.exec, here, CState.valAt, obj, sub, hlt, bind_fresh _ hfx, σ1]
  have hrx : r ≠ .idx i :: x := fun h => root (h ▸ below_cons _ _)
  have hready : ParamReady (.idx i :: x) r (p ++ [i]) V v σ1 := by
    refine ⟨by simp [σ1, CState.withRef], by simp [σ1, CState.withRef, obj], hsub, ?_, ?_⟩
    · intro n hn
      have : n ≠ .idx i :: x := below_ne hn
      simp only [σ1, CState.withRef, this, if_false]
      exact fresh n (Or.inr (Or.inl hn))
    · exact fun h => root (below_trans h)
  obtain ⟨σ2, h2⟩ := ih _ _ _ _ _ _ hready hv
  have hc1 := cabi_not_below x i i
  have hcne : Seg.idx i :: .cabi :: x ≠ .idx i :: x := fun h => hc1 (Or.inl h)
  have hcnb : ¬ Below (.idx i :: x) (.idx i :: .cabi :: x) := fun h => hc1 (Or.inr h)
  have hcx : r ≠ .idx i :: .cabi :: x := fun h => root (h ▸ ⟨[.idx i, .cabi], by simp, by simp⟩)
  have hcfresh : σ2.env (.idx i :: .cabi :: x) = none := by
    rw [h2.env _ hcnb]
    simp only [σ1, CState.withRef, hcne, if_false]
    exact fresh _ (Or.inr (Or.inr rfl))
  have env2 : ∀ n, ¬ Elem x i n → σ2.env n = σ.env n := by
    intro n hn
    rw [h2.env n (fun h => hn (Or.inr (Or.inl h)))]
    have : n ≠ .idx i :: x := fun h => hn (Or.inl h)
    simp [σ1, CState.withRef, this]
  have mem2 : ∀ n, ¬ Elem x i n → n ≠ r → σ2.mem n = σ.mem n := by
    intro n hn hnr
    rw [h2.mem n (fun h => hn (Or.inr (Or.inl h))) hnr]
    simp [σ1, CState.withRef]
  have ex2 : σ2.exits = σ.exits := by rw [h2.exits]; simp [σ1, CState.withRef]
  have herei : σ2.env (.idx i :: x) = some ⟨r, p ++ [i]⟩ := by
    rw [h2.env _ (not_below_self _)]; simp [σ1, CState.withRef]
  -- the three ways of naming the converted element
  have runRef : ∀ l, (cParam false (.idx i :: x) t).2 = .var (.idx i :: x) → t.isTuple = false →
      l = ⟨r, p ++ [i]⟩ →
      execAll K (cElem false x i t) σ = some (σ2.withRef (.idx i :: .cabi :: x) l) := by
    intro l he ht hl
    simp only [cElem, cElemOf, execAll_append, execAll, hget, Option.bind_some, h2.run, ht, he]
    simp [CStmt.exec, herei, bind_fresh _ hcfresh, hl]
  have runVar : ∀ l e, (cParam false (.idx i :: x) t).2 = e →
      ((t.isTuple = true ∧ ∃ n, e = .var n ∧ σ2.env n = some l) ∨
       (t.isTuple = false ∧ ∃ n, (e = .addr n ∨ e = .slotGet n) ∧ σ2.env n = some l)) →
      execAll K (cElem false x i t) σ = some (σ2.withVar (.idx i :: .cabi :: x) (.ptr l)) := by
    intro l e he hcase
    simp only [cElem, cElemOf, execAll_append, execAll, hget, Option.bind_some, h2.run, he]
    rcases hcase with ⟨ht, n, rfl, hn⟩ | ⟨ht, n, rfl | rfl, hn⟩
    · simp [ht, CStmt.exec, hn, declare_fresh _ hcfresh]
    · simp [ht, CStmt.exec, hn, declare_fresh _ hcfresh]
    · simp [ht, CStmt.exec, hn, declare_fresh _ hcfresh]
  -- a later state sees what the recursive conversion left
  have sees : ∀ σ' σ'' : CState,
      (∀ n, n ≠ .idx i :: .cabi :: x → σ'.env n = σ2.env n) →
      (∀ n, n ≠ .idx i :: .cabi :: x → σ'.mem n = σ2.mem n) →
      (∀ n, Elem x i n → σ''.env n = σ'.env n ∧ σ''.mem n = σ'.mem n) →
      (∃ V'', σ''.mem r = some (.val V'') ∧ V''.at (p ++ [i]) = some v.moved) →
      Sees σ2 σ'' (.idx i :: x) r (p ++ [i]) v.moved := by
    intro σ' σ'' he hm hag hobj
    refine ⟨?_, ?_, ?_, hobj⟩
    · intro n hn
      rw [(hag n (Or.inr (Or.inl hn))).1, he n (fun h => hcnb (h ▸ hn))]
    · intro n hn
      rw [(hag n (Or.inr (Or.inl hn))).2, hm n (fun h => hcnb (h ▸ hn))]
    · rw [(hag _ (Or.inl rfl)).1, he _ hcne.symm, herei]
  have mkRef : ∀ l, (cParam false (.idx i :: x) t).2 = .var (.idx i :: x) → t.isTuple = false →
      l = ⟨r, p ++ [i]⟩ →
      (∀ (σ'' : CState) (a : AVal), (∃ V'', σ''.mem r = some (.val V'') ∧ V''.at (p ++ [i]) = some v.moved) →
        a = .val v.moved → σ''.readAbi (cAbiTy false t) l = some a) →
      ∃ σ' l, ElemDone K x r p i t V v σ σ' l := by
    intro l he ht hl hread
    refine ⟨σ2.withRef (.idx i :: .cabi :: x) l, l, runRef l he ht hl, ?_, ?_, ?_, ?_, ?_, ?_⟩
    · intro n hn
      have : n ≠ .idx i :: .cabi :: x := fun h => hn (Or.inr (Or.inr h))
      simp [CState.withRef, this, env2 n hn]
    · intro n hn hnr; simp [CState.withRef, mem2 n hn hnr]
    · simp [CState.withRef, ex2]
    · simp [CState.withRef, h2.left]
    · simp [CState.withRef]
    · intro σ'' hag hobj
      have hsee := sees _ σ'' (by intro n hn; simp [CState.withRef, hn])
        (by intro n hn; simp [CState.withRef]) hag hobj
      obtain ⟨a, ha, hev⟩ := h2.delivers σ'' hsee
      obtain ⟨V'', hV'', hat⟩ := hobj
      rw [he] at ha
      simp only [CState.pass, hsee.here, Option.bind_some, hV'', hat, Option.map_some,
        Option.some.injEq] at ha
      exact ⟨a, hread σ'' a ⟨V'', hV'', hat⟩ ha.symm, hev⟩
  have mkVar : ∀ l e, (cParam false (.idx i :: x) t).2 = e →
      ((t.isTuple = true ∧ ∃ n, e = .var n ∧ σ2.env n = some l) ∨
       (t.isTuple = false ∧ ∃ n, (e = .addr n ∨ e = .slotGet n) ∧ σ2.env n = some l)) →
      (∀ σ'' : CState, Sees σ2 σ'' (.idx i :: x) r (p ++ [i]) v.moved → σ''.pass e = some (.ptr l)) →
      (cAbiTy false t = .voidPtr ∨ cAbiTy false t = .objPtr ∨ ∃ n, cAbiTy false t = .arrPtr n) →
      ∃ σ' l, ElemDone K x r p i t V v σ σ' l := by
    intro l e he hcase hpass habi
    refine ⟨σ2.withVar (.idx i :: .cabi :: x) (.ptr l), ⟨.idx i :: .cabi :: x, []⟩,
      runVar l e he hcase, ?_, ?_, ?_, ?_, ?_, ?_⟩
    · intro n hn
      have : n ≠ .idx i :: .cabi :: x := fun h => hn (Or.inr (Or.inr h))
      simp [CState.withVar, this, env2 n hn]
    · intro n hn hnr
      have : n ≠ .idx i :: .cabi :: x := fun h => hn (Or.inr (Or.inr h))
      simp [CState.withVar, this, mem2 n hn hnr]
    · simp [CState.withVar, ex2]
    · simp [CState.withVar, hcx, h2.left]
    · simp [CState.withVar]
    · intro σ'' hag hobj
      have hsee := sees _ σ'' (by intro n hn; simp [CState.withVar, hn])
        (by intro n hn; simp [CState.withVar, hn]) hag hobj
      obtain ⟨a, ha, hev⟩ := h2.delivers σ'' hsee
      rw [he, hpass σ'' hsee] at ha
      have ha' : a = .ptr l := by simpa using ha.symm
      subst ha'
      have hm := (hag _ (Or.inr (Or.inr rfl))).2
      simp only [CState.withVar, if_true] at hm
      refine ⟨.ptr l, ?_, hev⟩
      rcases habi with h | h | ⟨n, h⟩ <;> simp [h, CState.readAbi, hm]
  have hform := h2.form
  cases he : (cParam false (.idx i :: x) t).2 with
  | var n =>
    rw [he] at hform
    rcases hform with ⟨rfl, hc⟩ | ⟨hb, henv, htup, hcabi, ls, hls⟩ | ⟨k, hk⟩
    · cases t with
      | scalar d =>
        exact mkRef _ he rfl rfl (by
          rintro σ'' a ⟨V'', hV'', hat⟩ rfl
          simp [cAbiTy, CState.readAbi, CState.valAt, hV'', hat])
      | legacyPtr c =>
        exact mkRef _ he rfl rfl (by
          rintro σ'' a ⟨V'', hV'', hat⟩ rfl
          simp [cAbiTy, CState.readAbi, hV'', hat])
      | adt d => simp [Ty.isCAbi] at hc
      | legacyVal c d => simp [Ty.isCAbi] at hc
      | composable k => simp [Ty.isCAbi] at hc
      | tup ts =>
        cases ts with
        | cons a b => simp [Ty.isCAbi] at hc
        | nil =>
          -- `()` inside a tuple: the pointer array holds the address of a pointer, nothing is read
          refine ⟨σ2.withVar (.idx i :: .cabi :: x) (.ptr ⟨r, p ++ [i]⟩),
            ⟨.idx i :: .cabi :: x, []⟩,
            runVar _ _ he (Or.inl ⟨rfl, _, rfl, herei⟩), ?_, ?_, ?_, ?_, ?_, ?_⟩
          · intro n hn
            have : n ≠ .idx i :: .cabi :: x := fun h => hn (Or.inr (Or.inr h))
            simp [CState.withVar, this, env2 n hn]
          · intro n hn hnr
            have : n ≠ .idx i :: .cabi :: x := fun h => hn (Or.inr (Or.inr h))
            simp [CState.withVar, this, mem2 n hn hnr]
          · simp [CState.withVar, ex2]
          · simp [CState.withVar, hcx, h2.left]
          · simp [CState.withVar]
          · intro σ'' _ _
            refine ⟨.val (.tup []), by simp [cAbiTy, CState.readAbi], ?_⟩
            have h0 : v = .tup [] := by
              cases v with
              | leaf l => simp [HasTy] at hv
              | tup ws => cases ws with
                | nil => rfl
                | cons a b => simp [HasTy, HasTys] at hv
            subst h0
            simp [rParam, RConv.eval, rustOf, rustOfs]
    · cases t with
      | tup ts =>
        cases ts with
        | nil => simp [Ty.isCAbi] at hcabi
        | cons a b =>
          refine mkVar ⟨n, []⟩ _ he (Or.inl ⟨rfl, n, rfl, henv⟩) ?_
            (Or.inr (Or.inr ⟨(a :: b).length, by simp [cAbiTy]⟩))
          intro σ'' hsee
          simp [CState.pass, hsee.env n hb, hsee.mem n hb, henv, hls]
      | scalar _ => simp [Ty.isTuple] at htup
      | adt _ => simp [Ty.isTuple] at htup
      | legacyPtr _ => simp [Ty.isTuple] at htup
      | legacyVal _ _ => simp [Ty.isTuple] at htup
      | composable _ => simp [Ty.isTuple] at htup
    · exact (hnc k hk).elim
  | addr n =>
    rw [he] at hform
    obtain ⟨rfl, hc, hl⟩ := hform
    cases t with
    | adt d =>
      refine mkVar ⟨r, p ++ [i]⟩ _ he (Or.inr ⟨rfl, _, Or.inl rfl, herei⟩) ?_
        (Or.inr (Or.inl (by simp [cAbiTy])))
      intro σ'' hsee; simp [CState.pass, hsee.here]
    | legacyVal c d =>
      refine mkVar ⟨r, p ++ [i]⟩ _ he (Or.inr ⟨rfl, _, Or.inl rfl, herei⟩) ?_
        (Or.inl (by simp [cAbiTy]))
      intro σ'' hsee; simp [CState.pass, hsee.here]
    | scalar _ => simp [Ty.isCAbi] at hc
    | legacyPtr c => exact (hl c rfl).elim
    | composable k => exact (hnc k rfl).elim
    | tup ts => cases ts <;> simp [cParam] at he
  | slotGet n =>
    rw [he] at hform
    obtain ⟨hb, henv, hc, hl⟩ := hform
    cases t with
    | adt d =>
      refine mkVar ⟨n, []⟩ _ he (Or.inr ⟨rfl, n, Or.inr rfl, henv⟩) ?_
        (Or.inr (Or.inl (by simp [cAbiTy])))
      intro σ'' hsee; simp [CState.pass, hsee.env n hb, henv]
    | legacyVal c d =>
      refine mkVar ⟨n, []⟩ _ he (Or.inr ⟨rfl, n, Or.inr rfl, henv⟩) ?_
        (Or.inl (by simp [cAbiTy]))
      intro σ'' hsee; simp [CState.pass, hsee.env n hb, henv]
    | scalar _ => simp [Ty.isCAbi] at hc
    | legacyPtr c => exact (hl c rfl).elim
    | composable k => exact (hnc k rfl).elim
    | tup ts => cases ts <;> simp [cParam] at he

/-- The element loop from element `i` on. -/
structure ElemsDone (K : Convs) (x r : Name) (p : List Nat) (i : Nat) (ts : List Ty)
    (V : Val) (done vs : List Val) (σ σ' : CState) (ls : List Loc) : Prop where
  run : execAll K (cElems false x i ts) σ = some σ'
  env : ∀ n, (∀ j, i ≤ j → ¬ Elem x j n) → σ'.env n = σ.env n
  mem : ∀ n, (∀ j, i ≤ j → ¬ Elem x j n) → n ≠ r → σ'.mem n = σ.mem n
  exits : σ'.exits = σ.exits
  left : σ'.mem r = some (.val (V.put p (.tup (done ++ movedAll vs))))
  len : ls.length = ts.length
  name : ∀ k, k < ts.length → σ'.env (.idx (i + k) :: .cabi :: x) = ls[k]?
  delivers : ∀ σ'' : CState,
    (∀ n, (∃ j, i ≤ j ∧ Elem x j n) → σ''.env n = σ'.env n ∧ σ''.mem n = σ'.mem n) →
    (∃ V'', σ''.mem r = some (.val V'') ∧ V''.at p = some (.tup (done ++ movedAll vs))) →
    RConv.evals K σ'' (rParams false ts) (ts.map (cAbiTy false)) ls = some (rustOfs K ts vs)

theorem elems_cons {K : Convs} {x r : Name} {p : List Nat} {i : Nat} {t : Ty} {ts : List Ty}
    {V v : Val} {done vs : List Val} {σ : CState}
    (ih : ∀ (x r : Name) (p : List Nat) (V v : Val) (σ : CState), ParamReady x r p V v σ →
      HasTy t v → ∃ σ', ParamDone K false x r p t V v σ σ')
    (ihs : ∀ (σ : CState) (V : Val) (done : List Val), σ.env x = some ⟨r, p⟩ →
      σ.mem r = some (.val V) → V.at p = some (.tup (done ++ vs)) → done.length = i + 1 →
      (∀ n, (∃ j, i + 1 ≤ j ∧ Elem x j n) → σ.env n = none) →
      ∃ σ' ls, ElemsDone K x r p (i + 1) ts V done vs σ σ' ls)
    (hnc : ∀ k, t ≠ .composable k) (root : ¬ Below x r)
    (hv : HasTy t v) (here : σ.env x = some ⟨r, p⟩) (obj : σ.mem r = some (.val V))
    (sub : V.at p = some (.tup (done ++ v :: vs))) (hd : done.length = i)
    (fresh : ∀ n, (∃ j, i ≤ j ∧ Elem x j n) → σ.env n = none) :
    ∃ σ' ls, ElemsDone K x r p i (t :: ts) V done (v :: vs) σ σ' ls := by
  have hi : (done ++ v :: vs)[i]? = some v := by subst hd; simp
  obtain ⟨σ1, l, h1⟩ := elem_of_param ih hnc here obj sub hi hv
    (fun n hn => fresh n ⟨i, Nat.le_refl _, hn⟩) root
  have hset : (done ++ v :: vs).set i v.moved = (done ++ [v.moved]) ++ vs := by
    subst hd; simp
  have hsub1 : (V.put (p ++ [i]) v.moved).at p = some (.tup ((done ++ [v.moved]) ++ vs)) := by
    rw [Val.at_put_parent p V _ i _ sub (by subst hd; simp), hset]
  obtain ⟨σ2, ls, h2⟩ := ihs σ1 (V.put (p ++ [i]) v.moved) (done ++ [v.moved])
    (by rw [h1.env x (not_elem_self _ _)]; exact here) h1.left hsub1 (by simp [hd])
    (by
      rintro n ⟨j, hj, hn⟩
      rw [h1.env n (fun h => by have := elem_inj h hn; omega)]
      exact fresh n ⟨j, by omega, hn⟩)
  have tail_off : ∀ n, Elem x i n → ∀ j, i + 1 ≤ j → ¬ Elem x j n := by
    intro n hn j hj h
    have := elem_inj hn h
    omega
  have hrne : ∀ n, Elem x i n → n ≠ r := fun n hn h => root (h ▸ elem_below hn)
  refine ⟨σ2, l :: ls, ?_, ?_, ?_, ?_, ?_, ?_, ?_, ?_⟩
  · have hr := h1.run
    simp only [cElem] at hr
    simp only [cElems, execAll_append, hr, Option.bind_some, h2.run]
  · intro n hn
    rw [h2.env n (fun j hj => hn j (by omega)), h1.env n (hn i (Nat.le_refl _))]
  · intro n hn hnr
    rw [h2.mem n (fun j hj => hn j (by omega)) hnr, h1.mem n (hn i (Nat.le_refl _)) hnr]
  · rw [h2.exits, h1.exits]
  · rw [h2.left, Val.put_put_parent]; simp [movedAll]
  · simp [h2.len]
  · intro k hk
    cases k with
    | zero =>
      rw [Nat.add_zero, h2.env _ (tail_off _ (Or.inr (Or.inr rfl))), h1.name]
      simp
    | succ k =>
      have := h2.name k (by simpa using hk)
      rw [show i + (k + 1) = i + 1 + k by omega, this]
      simp
  · intro σ'' hag hobj
    obtain ⟨V'', hV'', hat⟩ := hobj
    have hhead : V''.at (p ++ [i]) = some v.moved := by
      rw [Val.at_append, hat]
      subst hd
      simp [Val.at, movedAll]
    obtain ⟨a, ha, hev⟩ := h1.delivers σ'' (by
      intro n hn
      have hh := hag n ⟨i, Nat.le_refl _, hn⟩
      rw [h2.env n (tail_off n hn)] at hh
      rw [h2.mem n (tail_off n hn) (hrne n hn)] at hh
      exact hh) ⟨V'', hV'', hhead⟩
    have hrest := h2.delivers σ'' (by
      rintro n ⟨j, hj, hn⟩
      exact hag n ⟨j, by omega, hn⟩) ⟨V'', hV'', by simpa [movedAll] using hat⟩
    simp [rParams, RConv.evals, ha, hev, hrest, rustOfs]

theorem allSome_names (f : Nat → Option Loc) : ∀ (n : Nat) (ls : List Loc), ls.length = n →
    (∀ k, k < n → f k = ls[k]?) → allSome ((List.range n).map f) = some ls := by
  intro n
  induction n generalizing f with
  | zero => intro ls hl _; have : ls = [] := List.length_eq_zero_iff.mp hl; simp [this, allSome]
  | succ n ih =>
    intro ls hl h
    cases ls with
    | nil => simp at hl
    | cons l ls =>
      rw [List.range_succ_eq_map, List.map_cons, List.map_map]
      have h0 := h 0 (by omega)
      simp only [List.getElem?_cons_zero] at h0
      have := ih (f ∘ Nat.succ) ls (by simpa using hl) (by
        intro k hk
        have := h (k + 1) (by omega)
        simpa using this)
      simp [allSome, h0, this]

mutual
/-- Every parameter arrives. -/
theorem param_ok (K : Convs) (lct : Bool) : ∀ (t : Ty), ScalarsTrivial t → TuplesOk lct t →
    ∀ (x r : Name) (p : List Nat) (V v : Val) (σ : CState), ParamReady x r p V v σ → HasTy t v →
    ∃ σ', ParamDone K lct x r p t V v σ σ'
  | .scalar d, hs, _, x, r, p, V, v, σ, hr, hv => by
      simp only [ScalarsTrivial] at hs; subst hs; exact param_scalar K lct hr hv
  | .adt d, _, _, x, r, p, V, v, σ, hr, hv => param_adt K lct d hr hv
  | .legacyPtr c, _, _, x, r, p, V, v, σ, hr, hv => param_legacyPtr K lct c hr hv
  | .legacyVal c d, _, _, x, r, p, V, v, σ, hr, hv => param_legacyVal K lct c d hr hv
  | .composable k, _, _, x, r, p, V, v, σ, hr, hv => param_composable K lct k hr hv
  | .tup [], _, _, x, r, p, V, v, σ, hr, hv => param_unit K lct hr hv
  | .tup (t :: ts), hs, ht, x, r, p, V, v, σ, hr, hv => by
      cases lct with
      | true =>
        simp only [TuplesOk] at ht
        exact param_lctTuple K t ts hr hv (by simpa [SameBytes] using ht.1)
      | false =>
        cases v with
        | leaf l => simp [HasTy] at hv
        | tup vs =>
          simp only [TuplesOk, ScalarsTrivial] at ht hs
          simp only [HasTy] at hv
          obtain ⟨σ1, ls, h1⟩ := elems_ok K (t :: ts) hs ht.2 x r p 0 V [] vs σ hr.here hr.obj
            (by simpa using hr.sub) rfl hv
            (by rintro n ⟨j, _, hn⟩; exact hr.fresh n (elem_below hn)) hr.root
          have hlen := h1.len
          have hall : allSome (((List.range (ts.length + 1)).map
              fun i => (Seg.idx i :: .cabi :: x : Name)).map σ1.env) = some ls := by
            rw [List.map_map]
            apply allSome_names _ _ _ (by simpa using hlen)
            intro k hk
            have := h1.name k (by simpa using hk)
            simpa using this
          have hcf : σ1.env (.cabi :: x) = none := by
            rw [h1.env _ (fun j _ => not_elem_cabi x j)]
            exact hr.fresh _ (below_cons _ _)
          have hrc : r ≠ .cabi :: x := fun h => hr.root (h ▸ below_cons _ _)
          have hrun : execAll K (cElemOf x 0 t (cParam false (.idx 0 :: x) t) ++ cElems false x 1 ts) σ
              = some σ1 := by
            have := h1.run
            simpa [cElems] using this
          refine ⟨σ1.withVar (.cabi :: x) (.arr ls), ?_, ?_, ?_, ?_, ?_, ?_, ?_⟩
          · simp only [cParam]
            rw [if_neg (by simp), execAll_append, hrun]
            simp only [Option.bind_some, execAll, CStmt.exec, hall]
            rw [declare_fresh _ hcf]
            simp
          · intro n hn
            have : n ≠ .cabi :: x := fun h => hn (h ▸ below_cons _ _)
            simp only [CState.withVar, this, if_false]
            exact h1.env n (fun j _ h => hn (elem_below h))
          · intro n hn hnr
            have : n ≠ .cabi :: x := fun h => hn (h ▸ below_cons _ _)
            simp only [CState.withVar, this, if_false]
            exact h1.mem n (fun j _ h => hn (elem_below h)) hnr
          · simp [CState.withVar, h1.exits]
          · simp only [CState.withVar, hrc, if_false, h1.left]
            simp [Val.moved]
          · have he : (cParam false x (.tup (t :: ts))).2 = .var (.cabi :: x) := by simp [cParam]
            rw [he]
            exact Or.inr (Or.inl ⟨below_cons _ _, by simp [CState.withVar], rfl, rfl, ls,
              by simp [CState.withVar]⟩)
          · intro σ'' hsee
            have he := hsee.env (.cabi :: x) (below_cons _ _)
            have hm := hsee.mem (.cabi :: x) (below_cons _ _)
            simp only [CState.withVar, if_true] at he hm
            refine ⟨.ptr ⟨.cabi :: x, []⟩, by simp [cParam, CState.pass, he, hm], ?_⟩
            have hd := h1.delivers σ'' (by
              rintro n ⟨j, _, hn⟩
              have hne : n ≠ .cabi :: x := fun h => not_elem_cabi x j (h ▸ hn)
              have h1' := hsee.env n (elem_below hn)
              have h2' := hsee.mem n (elem_below hn)
              simp only [CState.withVar, hne, if_false] at h1' h2'
              exact ⟨h1', h2'⟩) (by
              obtain ⟨V'', hV'', hat⟩ := hsee.obj
              exact ⟨V'', hV'', by simpa [Val.moved] using hat⟩)
            simp only [rParams, List.map_cons] at hd
            simp only [List.length_cons] at hlen
            simp [rParam, RConv.eval, hm, hlen, hd, rustOf]
/-- Every element of a tuple arrives. -/
theorem elems_ok (K : Convs) : ∀ (ts : List Ty), ScalarsTrivialAll ts → TuplesOkAll false ts →
    ∀ (x r : Name) (p : List Nat) (i : Nat) (V : Val) (done vs : List Val) (σ : CState),
    σ.env x = some ⟨r, p⟩ → σ.mem r = some (.val V) → V.at p = some (.tup (done ++ vs)) →
    done.length = i → HasTys ts vs → (∀ n, (∃ j, i ≤ j ∧ Elem x j n) → σ.env n = none) →
    ¬ Below x r →
    ∃ σ' ls, ElemsDone K x r p i ts V done vs σ σ' ls
  | [], _, _, x, r, p, i, V, done, vs, σ, here, obj, sub, hd, hv, fresh, root => by
      have : vs = [] := by cases vs with
        | nil => rfl
        | cons a b => simp [HasTys] at hv
      subst this
      refine ⟨σ, [], by simp [cElems, execAll], fun _ _ => rfl, fun _ _ _ => rfl, rfl, ?_, rfl,
        by simp, ?_⟩
      · simp only [movedAll]
        rw [Val.put_same p V _ sub]; exact obj
      · intro _ _ _; simp [rParams, RConv.evals, rustOfs]
  | t :: ts, hs, ht, x, r, p, i, V, done, vs, σ, here, obj, sub, hd, hv, fresh, root => by
      cases vs with
      | nil => simp [HasTys] at hv
      | cons v vs =>
        simp only [ScalarsTrivialAll, TuplesOkAll, HasTys] at hs ht hv
        exact elems_cons (fun x r p V v σ => param_ok K false t hs.1 ht.2.1 x r p V v σ)
          (fun σ' V' done' h1 h2 h3 h4 h5 =>
            elems_ok K ts hs.2 ht.2.2 x r p (i + 1) V' done' vs σ' h1 h2 h3 h4 hv.2 h5 root)
          ht.1 root hv.1 here obj sub hd fresh
end

end Verif.FnCall

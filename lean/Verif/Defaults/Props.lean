import Verif.Defaults.Spec
/-
C53-C54: proofs about default lifetimes.
-/
namespace Verif.Defaults

/-- What a name stands for. -/
def Ctx.lookup (c : Ctx) (id : Name) : Option Name := (AMap.get? c.bindings id).map fun r => r.getLast?.getD []

structure CtxOk (c : Ctx) : Prop where
  nodup : c.names.Nodup
  keysNodup : (AMap.keys c.bindings).Nodup
  keys : ∀ k n, c.lookup k = some n → k ∈ c.names ∧ n ∈ c.names

theorem lookup_push (c : Ctx) (id x : Name) : (c.push id).2.lookup x = if id = x then some (c.push id).1 else c.lookup x := by
  unfold Ctx.lookup Ctx.push
  simp only [AMap.get?_insert]
  by_cases e : id = x
  · simp [e]
  · simp [e, AMap.get?_erase_ne _ e]

theorem push_fst (c : Ctx) (id : Name) : (c.push id).1 = c.fresh id := rfl
theorem push_names (c : Ctx) (id : Name) : (c.push id).2.names = (c.push id).1 :: c.names := rfl

theorem push_ok {c : Ctx} (h : CtxOk c) (id : Name) : CtxOk (c.push id).2 := by
  refine ⟨?_, AMap.nodup_insert _ _ _ (AMap.nodup_erase _ _ h.keysNodup), ?_⟩
  · rw [push_names]; exact List.nodup_cons.mpr ⟨fresh_not_mem c id, h.nodup⟩
  · intro k n hk
    rw [lookup_push] at hk
    rw [push_names]
    by_cases e : id = k
    · rw [if_pos e, Option.some.injEq] at hk
      subst hk; subst e
      refine ⟨?_, by simp⟩
      by_cases em : id ∈ c.names
      · simp [em]
      · rw [push_fst, fresh_of_not_mem em]; simp
    · rw [if_neg e] at hk
      have := h.keys k n hk
      exact ⟨List.mem_cons_of_mem _ this.1, List.mem_cons_of_mem _ this.2⟩

theorem new_ok : CtxOk .new := by
  have h0 : CtxOk ⟨[], []⟩ := ⟨List.nodup_nil, List.nodup_nil, fun k n h => by simp [Ctx.lookup] at h⟩
  exact push_ok (push_ok h0 sStatic) sUnknown

/-- More names, all old meanings kept. -/
def CtxLe (c c' : Ctx) : Prop := ∀ id n, c.lookup id = some n → c'.lookup id = some n

theorem pushFresh_eq {c : Ctx} (hint : Option Name) : (c.pushFresh hint).1 = c.fresh (hint.getD ['l', 't']) :=
  fresh_of_not_mem (fresh_not_mem _ _)

theorem pushFresh_names (c : Ctx) (hint : Option Name) : (c.pushFresh hint).2.names = (c.pushFresh hint).1 :: c.names := rfl

theorem pushFresh_not_mem {c : Ctx} (hint : Option Name) : (c.pushFresh hint).1 ∉ c.names := by
  rw [pushFresh_eq]; exact fresh_not_mem _ _

theorem pushFresh_le {c : Ctx} (h : CtxOk c) (hint : Option Name) : CtxLe c (c.pushFresh hint).2 := by
  intro id n hn
  unfold Ctx.pushFresh
  rw [lookup_push]
  have : ¬ c.fresh (hint.getD ['l', 't']) = id := fun e => fresh_not_mem c _ (e ▸ (h.keys _ _ hn).1)
  rw [if_neg this, hn]

theorem getOrPush_eq (c : Ctx) (id : Name) : c.getOrPush id = match c.lookup id with
    | some n => (n, false, c)
    | none => ((c.push id).1, true, (c.push id).2) := by
  unfold Ctx.getOrPush Ctx.lookup
  cases AMap.get? c.bindings id <;> rfl

/-! ### The state with new bindings -/

structure Inv (base : List Name) (s : St) : Prop where
  ok : CtxOk s.ctx
  names : s.ctx.names = s.nb.reverse ++ base
  unk : sUnknown ∈ base

/-- `s'` follows `s`, having bound `e` in addition. -/
structure Ext (s s' : St) (e : List Name) : Prop where
  nb : s'.nb = s.nb ++ e
  le : CtxLe s.ctx s'.ctx

theorem Ext.refl (s : St) : Ext s s [] := ⟨by simp, fun _ _ h => h⟩
theorem Ext.trans {a b c : St} {e e'} (h : Ext a b e) (h' : Ext b c e') : Ext a c (e ++ e') :=
  ⟨by rw [h'.nb, h.nb, List.append_assoc], fun id n hn => h'.le _ _ (h.le _ _ hn)⟩

theorem Inv.mem {base : List Name} {s : St} (h : Inv base s) (n : Name) : n ∈ s.ctx.names ↔ n ∈ s.nb ∨ n ∈ base := by
  rw [h.names, List.mem_append, List.mem_reverse]

theorem getOrPush_spec {base : List Name} {s : St} (h : Inv base s) (id : Name) :
    Inv base (s.getOrPush id).2 ∧ (∃ e, Ext s (s.getOrPush id).2 e) ∧
    (s.getOrPush id).2.ctx.lookup id = some (s.getOrPush id).1 := by
  unfold St.getOrPush
  rw [getOrPush_eq]
  cases hl : s.ctx.lookup id with
  | some n => exact ⟨⟨h.ok, h.names, h.unk⟩, ⟨[], Ext.refl s⟩, hl⟩
  | none =>
    refine ⟨⟨push_ok h.ok id, ?_, h.unk⟩, ⟨[(s.ctx.push id).1], ?_, ?_⟩, ?_⟩
    · simp [push_names, h.names]
    · simp
    · intro x n hx
      simp only [lookup_push]
      have : ¬ id = x := fun e => by rw [← e, hl] at hx; cases hx
      rw [if_neg this, hx]
    · simp [lookup_push]

theorem pushFresh_spec {base : List Name} {s : St} (h : Inv base s) (hint : Option Name) :
    Inv base (s.pushFresh hint).2 ∧ Ext s (s.pushFresh hint).2 [(s.pushFresh hint).1] ∧ (s.pushFresh hint).1 ∉ s.ctx.names := by
  refine ⟨⟨push_ok h.ok _, ?_, h.unk⟩, ⟨rfl, pushFresh_le h.ok hint⟩, pushFresh_not_mem hint⟩
  unfold St.pushFresh
  simp only [pushFresh_names, h.names, List.reverse_append]
  rfl

/-- `Filled` with a partial meaning of names. -/
inductive FilledL (L : Name → Option Name) : List (List Name) → List (List Name) → List Name → Prop
  | nil : FilledL L [] [] []
  | fresh {n os ns fs} : FilledL L os ns fs → FilledL L ([] :: os) ([n] :: ns) (n :: fs)
  | named {id n os ns fs} : L id = some n → n ≠ sUnknown → FilledL L os ns fs → FilledL L ([id] :: os) ([n] :: ns) fs
  | unknown {id os ns fs} : L id = some sUnknown → FilledL L os ns fs → FilledL L ([id] :: os) ([] :: ns) fs
  | several {a b l os ns fs} : FilledL L os ns fs → FilledL L ((a :: b :: l) :: os) ([] :: ns) fs

theorem FilledL.mono {L L' : Name → Option Name} (hL : ∀ id n, L id = some n → L' id = some n) {os ns fs} (h : FilledL L os ns fs) : FilledL L' os ns fs := by
  induction h with
  | nil => exact .nil
  | fresh _ ih => exact .fresh ih
  | named h1 h2 _ ih => exact .named (hL _ _ h1) h2 ih
  | unknown h1 _ ih => exact .unknown (hL _ _ h1) ih
  | several _ ih => exact .several ih

theorem FilledL.append {L : Name → Option Name} {os ns fs os' ns' fs'} (h : FilledL L os ns fs) (h' : FilledL L os' ns' fs') :
    FilledL L (os ++ os') (ns ++ ns') (fs ++ fs') := by
  induction h with
  | nil => exact h'
  | fresh _ ih => exact .fresh ih
  | named h1 h2 _ ih => exact .named h1 h2 ih
  | unknown h1 _ ih => exact .unknown h1 ih
  | several _ ih => exact .several ih

theorem FilledL.toFilled {L : Name → Option Name} {os ns fs} (h : FilledL L os ns fs) : Filled (fun id => (L id).getD id) os ns fs := by
  induction h with
  | nil => exact .nil
  | fresh _ ih => exact .fresh ih
  | @named id n os ns fs h1 h2 _ ih =>
    have e : n = (L id).getD id := by simp [h1]
    have := Filled.named (ρ := fun id => (L id).getD id) (id := id) (by rw [← e]; exact h2) ih
    rwa [← e] at this
  | unknown h1 _ ih => exact .unknown (by simp [h1]) ih
  | several _ ih => exact .several ih

def stOf : Option (List Name) → LState
  | none => .unseen
  | some [n] => .single n
  | some _ => .unknown

/-- A slot of the result: at most one lifetime, which is known. -/
def SlotOk (names : List Name) (l : List Name) : Prop := l = [] ∨ ∃ n, l = [n] ∧ n ∈ names ∧ n ≠ sUnknown

theorem SlotOk.mono {a b l : List Name} (h : SlotOk a l) (hab : ∀ n ∈ a, n ∈ b) : SlotOk b l := by
  rcases h with h | ⟨n, h1, h2, h3⟩
  · exact Or.inl h
  · exact Or.inr ⟨n, h1, hab n h2, h3⟩

theorem Inv.names_le {base : List Name} {s s' : St} {e} (h : Inv base s) (h' : Inv base s') (x : Ext s s' e) : ∀ n ∈ s.ctx.names, n ∈ s'.ctx.names := by
  intro n hn
  rw [h.mem] at hn
  rw [h'.mem, x.nb]
  rcases hn with hn | hn
  · exact Or.inl (by simp [hn])
  · exact Or.inr hn

theorem slot_spec {base : List Name} {s : St} (h : Inv base s) (hint : Option Name) (lts : List Name) :
    let r := stateForSlot hint s lts
    Inv base r.2 ∧ r.1 = stOf (some r.1.lts) ∧ SlotOk r.2.ctx.names r.1.lts ∧
    ∃ e fs, Ext s r.2 e ∧ fs.Sublist e ∧ FilledL r.2.ctx.lookup [lts] [r.1.lts] fs := by
  intro r
  have hr : r = stateForSlot hint s lts := rfl
  clear_value r
  match lts, r, hr with
  | [], r, hr =>
    obtain ⟨h1, h2, h3⟩ := pushFresh_spec h hint
    have hr' : r = (.single (s.pushFresh hint).1, (s.pushFresh hint).2) := hr
    rw [hr']
    refine ⟨h1, rfl, Or.inr ⟨_, rfl, ?_, ?_⟩, _, _, h2, List.Sublist.refl _, .fresh .nil⟩
    · rw [h1.mem, h2.nb]; simp
    · intro e
      exact h3 ((h.mem _).mpr (Or.inr (e ▸ h.unk)))
  | [id], r, hr =>
    obtain ⟨h1, ⟨e, h2⟩, h3⟩ := getOrPush_spec h id
    by_cases eu : (s.getOrPush id).1 = sUnknown
    · have hr' : r = (.unknown, (s.getOrPush id).2) := by
        rw [hr]; simp [stateForSlot, stateForAnnotated, eu]
      rw [hr']
      exact ⟨h1, rfl, Or.inl rfl, e, [], h2, List.nil_sublist _, .unknown (by rw [h3, eu]) .nil⟩
    · have hr' : r = (.single (s.getOrPush id).1, (s.getOrPush id).2) := by
        rw [hr]; simp [stateForSlot, stateForAnnotated, eu]
      rw [hr']
      exact ⟨h1, rfl, Or.inr ⟨_, rfl, (h1.ok.keys _ _ h3).2, eu⟩, e, [], h2, List.nil_sublist _, .named h3 eu .nil⟩
  | a :: b :: l, r, hr =>
    have hr' : r = (.unknown, s) := hr
    rw [hr']
    exact ⟨h, rfl, Or.inl rfl, [], [], Ext.refl s, List.Sublist.refl _, .several .nil⟩

/-- The outermost slot belongs to `this`. -/
def topIsThis (isThis : Bool) : Ty → Bool
  | .ptr .. => isThis
  | _ => false

theorem input_spec (ar : Arity) (hint : Option Name) {base : List Name} : ∀ (ty : Ty) (isThis : Bool) (s : St), Inv base s →
    let r := addInput ar isThis hint s ty
    Inv base r.2.2.2 ∧ r.1.erase = ty.erase ∧
    r.2.1 = (if topIsThis isThis ty then .unseen else stOf (topSlot ar isThis r.1)) ∧
    r.2.2.1 = (if topIsThis isThis ty then stOf (topSlot ar isThis r.1) else .unseen) ∧
    (∀ l ∈ inputSlots ar isThis r.1, SlotOk r.2.2.2.ctx.names l) ∧
    ∃ e fs, Ext s r.2.2.2 e ∧ fs.Sublist e ∧ FilledL r.2.2.2.ctx.lookup (inputSlots ar isThis ty) (inputSlots ar isThis r.1) fs := by
  intro ty
  induction ty with
  | prim l => intro isThis s h; exact ⟨h, rfl, rfl, rfl, by simp [addInput, inputSlots], [], [], Ext.refl s, List.Sublist.refl _, .nil⟩
  | fnptr l => intro isThis s h; exact ⟨h, rfl, rfl, rfl, by simp [addInput, inputSlots], [], [], Ext.refl s, List.Sublist.refl _, .nil⟩
  | error l => intro isThis s h; exact ⟨h, rfl, rfl, rfl, by simp [addInput, inputSlots], [], [], Ext.refl s, List.Sublist.refl _, .nil⟩
  | decl id l =>
    intro isThis s h
    by_cases ha : ar id = some 1
    · obtain ⟨h1, h2, h3, e, fs, h4, h5, h6⟩ := slot_spec h hint l
      simp only [addInput, if_pos ha, inputSlots, topIsThis, topSlot]
      refine ⟨h1, rfl, ?_, rfl, ?_, e, fs, h4, h5, h6⟩
      · simpa using h2
      · intro x hx; rw [List.mem_singleton] at hx; rw [hx]; exact h3
    · simp only [addInput, if_neg ha, inputSlots, topIsThis, topSlot]
      exact ⟨h, trivial, by simp [stOf], by simp, by simp, [], [], Ext.refl s, List.Sublist.refl _, .nil⟩
  | spec id l a ih =>
    intro isThis s h
    by_cases ha : ar id = some 1
    · obtain ⟨g1, g2, -, -, g5, ge, gfs, g6, g7, g8⟩ := ih false s h
      obtain ⟨h1, h2, h3, e, fs, h4, h5, h6⟩ := slot_spec g1 hint l
      simp only [addInput, if_pos ha, inputSlots, topIsThis, topSlot]
      refine ⟨h1, by simp [Ty.erase, g2], ?_, rfl, ?_, ge ++ e, gfs ++ fs, g6.trans h4, g7.append h5, (g8.mono h4.le).append h6⟩
      · simpa using h2
      · intro x hx
        rcases List.mem_append.mp hx with hx | hx
        · exact (g5 x hx).mono (g1.names_le h1 h4)
        · rw [List.mem_singleton] at hx; rw [hx]; exact h3
    · simp only [addInput, if_neg ha, inputSlots, topIsThis, topSlot]
      exact ⟨h, trivial, by simp [stOf], by simp, by simp, [], [], Ext.refl s, List.Sublist.refl _, .nil⟩
  | ptr k l p ih =>
    intro isThis s h
    by_cases ha : isThis = true ∨ k = .lvalueRef
    · obtain ⟨g1, g2, -, -, g5, ge, gfs, g6, g7, g8⟩ := ih false s h
      obtain ⟨h1, h2, h3, e, fs, h4, h5, h6⟩ := slot_spec g1 hint l
      simp only [addInput, if_pos ha, inputSlots, topIsThis, topSlot]
      refine ⟨h1, by simp [Ty.erase, g2], ?_, ?_, ?_, ge ++ e, gfs ++ fs, g6.trans h4, g7.append h5, (g8.mono h4.le).append h6⟩
      · split
        · rfl
        · simpa using h2
      · split
        · simpa using h2
        · rfl
      · intro x hx
        rcases List.mem_append.mp hx with hx | hx
        · exact (g5 x hx).mono (g1.names_le h1 h4)
        · rw [List.mem_singleton] at hx; rw [hx]; exact h3
    · have hf : isThis = false := by cases isThis <;> simp_all
      subst hf
      simp only [addInput, if_neg ha, inputSlots, topIsThis, topSlot]
      exact ⟨h, trivial, by simp [stOf], by simp, by simp, [], [], Ext.refl s, List.Sublist.refl _, .nil⟩

theorem update_unseen (s : LState) : s.update .unseen = s := by cases s <;> rfl

theorem topIsThis_erase {isThis : Bool} {a b : Ty} (h : a.erase = b.erase) : topIsThis isThis a = topIsThis isThis b := by
  cases a <;> cases b <;> simp [Ty.erase] at h <;> rfl

theorem topSlot_false {ar : Arity} {isThis : Bool} {a : Ty} (h : topIsThis isThis a = false) : topSlot ar isThis a = topSlot ar false a := by
  cases a <;> simp [topIsThis] at h <;> simp [topSlot, inputSlots, h]

theorem params_spec (ar : Arity) (isCtor : Bool) {base : List Name} : ∀ (ps : List Param) (first : Bool) (st : LState × LState) (s : St), Inv base s →
    let r := addParams ar isCtor first st s ps
    Inv base r.2.2 ∧ paramShapes isCtor first r.1 = paramShapes isCtor first ps ∧
    r.2.1.1 = (otherSlots ar isCtor first r.1).foldl (fun st l => st.update (stOf (some l))) st.1 ∧
    r.2.1.2 = (if first then st.2.update (stOf (thisSlot isCtor r.1)) else st.2) ∧
    (∀ l ∈ paramSlots ar isCtor first r.1, SlotOk r.2.2.ctx.names l) ∧
    ∃ e fs, Ext s r.2.2 e ∧ fs.Sublist e ∧ FilledL r.2.2.ctx.lookup (paramSlots ar isCtor first ps) (paramSlots ar isCtor first r.1) fs := by
  intro ps
  induction ps with
  | nil =>
    intro first st s h
    refine ⟨h, rfl, rfl, ?_, by simp [addParams, paramSlots], [], [], Ext.refl s, List.Sublist.refl _, .nil⟩
    cases first
    · rfl
    · exact (update_unseen _).symm
  | cons p ps ih =>
    intro first st s h
    obtain ⟨g1, g2, g3, g4, g5, ge, gfs, g6, g7, g8⟩ := input_spec ar (some p.name) p.ty (isThisParam isCtor first p) s h
    have he := ih false (st.1.update (addInput ar (isThisParam isCtor first p) (some p.name) s p.ty).2.1,
      st.2.update (addInput ar (isThisParam isCtor first p) (some p.name) s p.ty).2.2.1) _ g1
    obtain ⟨h1, h2, h3, h4, h5, e, fs, h6, h7, h8⟩ := he
    have hdef : addParams ar isCtor first st s (p :: ps) =
      (⟨p.name, p.bound, (addInput ar (isThisParam isCtor first p) (some p.name) s p.ty).1⟩ ::
        (addParams ar isCtor false (st.1.update (addInput ar (isThisParam isCtor first p) (some p.name) s p.ty).2.1,
          st.2.update (addInput ar (isThisParam isCtor first p) (some p.name) s p.ty).2.2.1)
          (addInput ar (isThisParam isCtor first p) (some p.name) s p.ty).2.2.2 ps).1,
       (addParams ar isCtor false (st.1.update (addInput ar (isThisParam isCtor first p) (some p.name) s p.ty).2.1,
          st.2.update (addInput ar (isThisParam isCtor first p) (some p.name) s p.ty).2.2.1)
          (addInput ar (isThisParam isCtor first p) (some p.name) s p.ty).2.2.2 ps).2) := rfl
    intro r
    have hr : r = addParams ar isCtor first st s (p :: ps) := rfl
    clear_value r
    rw [hdef] at hr
    generalize addInput ar (isThisParam isCtor first p) (some p.name) s p.ty = a at *
    generalize addParams ar isCtor false (st.1.update a.2.1, st.2.update a.2.2.1) a.2.2.2 ps = b at *
    obtain ⟨aty, ast, atst, as⟩ := a
    obtain ⟨bps, bst, bs⟩ := b
    subst hr
    have hthis : isThisParam isCtor first ⟨p.name, p.bound, aty⟩ = isThisParam isCtor first p := rfl
    simp only at *
    refine ⟨h1, ?_, ?_, ?_, ?_, ge ++ e, gfs ++ fs, g6.trans h6, g7.append h7, ?_⟩
    · simp only [paramShapes, hthis, g2, h2]
    · rw [h3, g3, topIsThis_erase g2.symm]
      simp only [otherSlots, hthis, List.foldl_append]
      congr 1
      by_cases ht : topIsThis (isThisParam isCtor first p) aty = true
      · rw [if_pos ht, update_unseen]
        cases aty <;> simp [topIsThis] at ht
        simp [ht, Ty.isPtr]
      · simp only [Bool.not_eq_true] at ht
        rw [ht]
        simp only [Bool.false_eq_true, if_false]
        rw [topSlot_false ht]
        have : (isThisParam isCtor first p && aty.isPtr) = false := by
          cases aty <;> simp [topIsThis] at ht <;> simp [ht, Ty.isPtr]
        rw [this]
        simp only [Bool.false_eq_true, if_false]
        cases topSlot ar false aty with
        | none => simp [stOf, update_unseen]
        | some l => simp
    · rw [h4]
      simp only [Bool.false_eq_true, if_false]
      rw [g4, topIsThis_erase g2.symm]
      simp only [thisSlot]
      cases first with
      | false =>
        have : isThisParam isCtor false p = false := rfl
        rw [this]
        have ht : topIsThis false aty = false := by cases aty <;> rfl
        rw [ht]
        simp [update_unseen]
      | true =>
        simp only [if_true]
        cases hi : isThisParam isCtor true p with
        | false =>
          have ht : topIsThis false aty = false := by cases aty <;> rfl
          have h' : isThisParam isCtor true ⟨p.name, p.bound, aty⟩ = false := hi
          simp [ht, h', stOf]
        | true =>
          have h' : isThisParam isCtor true ⟨p.name, p.bound, aty⟩ = true := hi
          cases aty <;> simp [topIsThis, h', stOf, topSlot, inputSlots]
    · intro l hl
      simp only [paramSlots, List.mem_append] at hl
      rcases hl with hl | hl
      · rw [hthis] at hl
        exact (g5 l hl).mono (g1.names_le h1 h6)
      · exact h5 l hl
    · simp only [paramSlots, hthis]
      exact (g8.mono h6.le).append h8

/-- The state reached from a list of slots. -/
theorem fold_single : ∀ (ls : List (List Name)), (∀ l ∈ ls, l = [] ∨ ∃ n, l = [n]) → ∀ st : LState,
    ls.foldl (fun st l => st.update (stOf (some l))) st =
      (match st with
      | .unseen => (match ls with
        | [] => .unseen
        | l :: rest => (match l with
          | [n] => if ∀ x ∈ rest, x = [n] then .single n else .unknown
          | _ => .unknown))
      | .single n => if ∀ x ∈ ls, x = [n] then .single n else .unknown
      | .unknown => .unknown) := by
  intro ls
  induction ls with
  | nil => intro _ st; cases st <;> simp
  | cons l ls ih =>
    intro h st
    have ih := ih fun x hx => h x (by simp [hx])
    rw [List.foldl_cons, ih]
    rcases h l (by simp) with rfl | ⟨n, rfl⟩
    · cases st with
      | unseen => simp [LState.update, stOf]
      | single m => simp [LState.update, stOf]
      | unknown => simp [LState.update, stOf]
    · cases st with
      | unseen => simp [LState.update, stOf]
      | single m =>
        by_cases e : m = n
        · subst e; simp [LState.update, stOf]
        · have : ¬ n = m := fun h => e h.symm
          simp [LState.update, stOf, e, this]
      | unknown => simp [LState.update, stOf]

theorem elided_spec (this : Option (List Name)) (others : List (List Name)) (h1 : ∀ l, this = some l → l = [] ∨ ∃ n, l = [n])
    (h2 : ∀ l ∈ others, l = [] ∨ ∃ n, l = [n]) :
    Elided this others (match stOf this with
      | .unseen => (others.foldl (fun st l => st.update (stOf (some l))) LState.unseen).lts
      | t => t.lts) := by
  unfold Elided
  cases this with
  | some l =>
    rcases h1 l rfl with rfl | ⟨n, rfl⟩ <;> rfl
  | none =>
    have e0 : stOf none = .unseen := rfl
    rw [e0]
    simp only
    rw [fold_single others h2]
    cases others with
    | nil => simp [LState.lts]
    | cons l ls =>
      rcases h2 l (by simp) with rfl | ⟨n, rfl⟩
      · refine Or.inr ⟨rfl, ?_⟩
        rintro ⟨n, -, hn⟩
        have := hn [] (by simp)
        cases this
      · by_cases e : ∀ x ∈ ls, x = [n]
        · exact Or.inl ⟨n, by simp only [if_pos e]; rfl, by simp, by simpa using e⟩
        · refine Or.inr ⟨by simp only [if_neg e]; rfl, ?_⟩
          rintro ⟨m, -, hm⟩
          have h0 := hm [n] (by simp)
          cases h0
          exact e fun x hx => hm x (by simp [hx])

/-! ### Return types -/

def Ctx.mean (c : Ctx) (id : Name) : Name := (c.lookup id).getD id

theorem all_spec {base : List Name} : ∀ (l : List Name) (s : St), Inv base s →
    Inv base (s.getOrPushAll l).2 ∧ (∃ e, Ext s (s.getOrPushAll l).2 e) ∧ (∀ n ∈ (s.getOrPushAll l).1, n ∈ (s.getOrPushAll l).2.ctx.names) ∧
    ∀ c, CtxLe (s.getOrPushAll l).2.ctx c → (s.getOrPushAll l).1 = l.map c.mean := by
  intro l
  induction l with
  | nil => intro s h; exact ⟨h, ⟨[], Ext.refl s⟩, by simp [St.getOrPushAll], fun _ _ => rfl⟩
  | cons id l ih =>
    intro s h
    obtain ⟨g1, ⟨ge, g2⟩, g3⟩ := getOrPush_spec h id
    obtain ⟨h1, ⟨e, h2⟩, h3, h4⟩ := ih _ g1
    simp only [St.getOrPushAll]
    refine ⟨h1, ⟨_, g2.trans h2⟩, ?_, ?_⟩
    · intro n hn
      rcases List.mem_cons.mp hn with rfl | hn
      · exact g1.names_le h1 h2 _ (g1.ok.keys _ _ g3).2
      · exact h3 n hn
    · intro c hc
      rw [List.map_cons, ← h4 c hc]
      congr 1
      unfold Ctx.mean
      rw [hc _ _ (h2.le _ _ g3)]; rfl

theorem outputLts_spec (ar : Arity) (hint : List Name) {base : List Name} (id : Nat) (l : List Name) (s : St) (h : Inv base s) :
    Inv base (outputLts ar hint s id l).2 ∧ (∃ e, Ext s (outputLts ar hint s id l).2 e) ∧
    (ar id = some 1 → (∀ n ∈ hint, n ∈ s.ctx.names) → ∀ n ∈ (outputLts ar hint s id l).1, n ∈ (outputLts ar hint s id l).2.ctx.names) ∧
    ∀ c, CtxLe (outputLts ar hint s id l).2.ctx c → (outputLts ar hint s id l).1 =
      if ar id = some 1 then (if l ≠ [] then (if sUnknown ∈ l.map c.mean then [] else l.map c.mean) else hint) else l := by
  unfold outputLts
  by_cases ha : ar id = some 1
  · simp only [if_pos ha]
    by_cases hl : l ≠ []
    · simp only [if_pos hl]
      obtain ⟨h1, h2, h3, h4⟩ := all_spec l s h
      refine ⟨h1, h2, ?_, ?_⟩
      · intro _ _ n hn
        split at hn
        · simp at hn
        · exact h3 n hn
      · intro c hc; rw [h4 c hc]
    · simp only [if_neg hl]
      by_cases hh : hint ≠ []
      · simp only [if_pos hh]
        exact ⟨h, ⟨[], Ext.refl s⟩, fun _ hs => hs, fun _ _ => trivial⟩
      · simp only [if_neg hh]
        simp only [ne_eq, Decidable.not_not] at hl hh
        subst hl; subst hh
        exact ⟨h, ⟨[], Ext.refl s⟩, by simp, fun _ _ => rfl⟩
  · simp only [if_neg ha]
    exact ⟨h, ⟨[], Ext.refl s⟩, fun hc => absurd hc ha, fun _ _ => trivial⟩

theorem output_spec (ar : Arity) (hint : List Name) {base : List Name} : ∀ (ty : Ty) (s : St), Inv base s → (∀ n ∈ hint, n ∈ s.ctx.names) →
    Inv base (addOutput ar hint s ty).2 ∧ (∃ e, Ext s (addOutput ar hint s ty).2 e) ∧
    (PlainRefs ar ty → ∀ l ∈ outputSlots ar (addOutput ar hint s ty).1, ∀ n ∈ l, n ∈ (addOutput ar hint s ty).2.ctx.names) ∧
    ∀ c, CtxLe (addOutput ar hint s ty).2.ctx c → Out ar c.mean hint ty (addOutput ar hint s ty).1 := by
  intro ty
  induction ty with
  | prim l => intro s h _; exact ⟨h, ⟨[], Ext.refl s⟩, by simp [addOutput, outputSlots], fun _ _ => .prim⟩
  | fnptr l => intro s h _; exact ⟨h, ⟨[], Ext.refl s⟩, by simp [addOutput, outputSlots], fun _ _ => .fnptr⟩
  | error l => intro s h _; exact ⟨h, ⟨[], Ext.refl s⟩, by simp [addOutput, outputSlots], fun _ _ => .error⟩
  | decl id l =>
    intro s h hh
    obtain ⟨h1, h2, h3, h4⟩ := outputLts_spec ar hint id l s h
    simp only [addOutput]
    refine ⟨h1, h2, ?_, ?_⟩
    · intro _ x hx n hn
      unfold outputSlots at hx
      by_cases ha : ar id = some 1
      · rw [if_pos ha, List.mem_singleton] at hx
        exact h3 ha hh n (hx ▸ hn)
      · rw [if_neg ha] at hx; simp at hx
    · intro c hc
      rw [h4 c hc]
      by_cases ha : ar id = some 1
      · rw [if_pos ha]
        by_cases hl : l ≠ []
        · rw [if_pos hl]; exact .declNamed ha hl
        · rw [if_neg hl]
          simp only [ne_eq, Decidable.not_not] at hl
          subst hl
          exact .declElided ha
      · rw [if_neg ha]; exact .declNone ha
  | spec id l a ih =>
    intro s h hh
    obtain ⟨h1, ⟨e, h2⟩, h3, h4⟩ := outputLts_spec ar hint id l s h
    obtain ⟨g1, ⟨ge, g2⟩, g3, g4⟩ := ih _ h1 fun n hn => h.names_le h1 h2 n (hh n hn)
    simp only [addOutput]
    refine ⟨g1, ⟨_, h2.trans g2⟩, ?_, ?_⟩
    · intro hp x hx n hn
      unfold outputSlots at hx
      rcases List.mem_append.mp hx with hx | hx
      · exact g3 hp x hx n hn
      · by_cases ha : ar id = some 1
        · rw [if_pos ha, List.mem_singleton] at hx
          exact h1.names_le g1 g2 n (h3 ha hh n (hx ▸ hn))
        · rw [if_neg ha] at hx; simp at hx
    · intro c hc
      rw [h4 c fun id n hn => hc _ _ (g2.le _ _ hn)]
      have ho := g4 c hc
      by_cases ha : ar id = some 1
      · rw [if_pos ha]
        by_cases hl : l ≠ []
        · rw [if_pos hl]; exact .specNamed ha hl ho
        · rw [if_neg hl]
          simp only [ne_eq, Decidable.not_not] at hl
          subst hl
          exact .specElided ha ho
      · rw [if_neg ha]; exact .specNone ha ho
  | ptr k l p ih =>
    intro s h hh
    by_cases hk : k = .lvalueRef
    · subst hk
      by_cases hl : l ≠ []
      · obtain ⟨h1, h2, h3, h4⟩ := all_spec l s h
        simp only [addOutput, if_pos hl]
        refine ⟨h1, h2, ?_, ?_⟩
        · intro hp x hx n hn
          simp only [outputSlots, List.mem_append, List.mem_singleton] at hx
          rcases hx with hx | hx
          · rw [hp.1 hl x hx] at hn; simp at hn
          · exact h3 n (hx ▸ hn)
        · intro c hc; rw [h4 c hc]; exact .refNamed hl
      · obtain ⟨h1, ⟨e, h2⟩, h3, h4⟩ := ih s h hh
        simp only [addOutput, if_neg hl]
        simp only [ne_eq, Decidable.not_not] at hl
        subst hl
        refine ⟨h1, ⟨e, h2⟩, ?_, ?_⟩
        · intro hp x hx n hn
          replace hp := hp.2
          by_cases he : hint = []
          · rw [if_pos he] at hx; simp [outputSlots] at hx
          · rw [if_neg he] at hx
            simp only [outputSlots, List.mem_append, List.mem_singleton] at hx
            rcases hx with hx | hx
            · exact h3 hp x hx n hn
            · exact h.names_le h1 h2 n (hh n (hx ▸ hn))
        · intro c hc
          have ho := h4 c hc
          by_cases he : hint = []
          · rw [if_pos he]
            have := Out.refRaw he ho
            rwa [he] at this ⊢
          · rw [if_neg he]; exact .refElided he ho
    · have e : addOutput ar hint s (.ptr k l p) = (.ptr k l p, s) := by
        cases k <;> first | rfl | exact absurd rfl hk
      rw [e]
      refine ⟨h, ⟨[], Ext.refl s⟩, ?_, fun _ _ => .rawPtr hk⟩
      intro _ x hx
      have : outputSlots ar (.ptr k l p) = [] := by
        cases k <;> first | rfl | exact absurd rfl hk
      simp [this] at hx

end Verif.Defaults

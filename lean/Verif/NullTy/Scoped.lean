import Verif.NullTy.Slots

/-!
# Types with lexically scoped template parameters

A condition on the spelling alone (by recursion on it, without following parameters): a template parameter stands for
an argument of one of the templates whose arguments were introduced last together, with the canonical type of the
parameter.
-/

namespace Verif.NullTy

mutual
def Scoped (given : Given) (ctx : Ctx) (file : Nat) : Ty → Prop
  | .leaf _ => True
  | .ptr t => Scoped given ctx file t
  | .ref t => Scoped given ctx file t
  | .arr t => Scoped given ctx file t
  | .fn ret ps => Scoped given ctx file ret ∧ ScopedTys given ctx file ps
  | .cls qs d _ p as =>
      ScopedQ given ctx file qs ∧ ScopedPar given (bindFrom file ctx qs) file p ∧
      ScopedArgs given (bindFrom file ctx qs) file as ∧
      ∀ w f c, findRec d (bindFrom file ctx qs) = some (w, f, c) →
        w.canon.slots ++ (as.drop w.length).canon.slots = as.canon.slots
  | .tst qs w _ _ p as =>
      ScopedQ given ctx file qs ∧ ScopedPar given (bindFrom file ctx qs) file p ∧
      ScopedArgs given (bindFrom file ctx qs) file w ∧ ScopedArgs given (bindFrom file ctx qs) file as ∧
      w.canon.slots ++ (as.drop w.length).canon.slots = as.canon.slots
  | .attr _ t => Scoped given ctx file t
  | .paren t => Scoped given ctx file t
  | .typedef qs f t => ScopedQ given ctx file qs ∧ Scoped given (bindFrom file ctx qs) f t
  | .alias_ qs templ f _ tr w t =>
      ScopedQ given ctx file qs ∧ ScopedArgs given (bindFrom file ctx qs) file w ∧
      Scoped given (.frame templ (some w) file (bindFrom file ctx qs) (bindFrom file ctx qs)) (if tr then file else f) t
  | .subst d ix t =>
      (∀ v, given d ix = some v → v.length = t.canon.slots.length) ∧
      (given d ix = none → findArg d ix ctx = none → Scoped given ctx file t) ∧
      (given d ix = none → ∀ f a, findArg d ix ctx = some (f, a) →
        a.canon = .ty t.canon ∧ findCtx d ix ctx = some ctx.argCtx)
  | .sugar qs t => ScopedQ given ctx file qs ∧ Scoped given (bindFrom file ctx qs) file t
def ScopedTys (given : Given) (ctx : Ctx) (file : Nat) : Tys → Prop
  | .nil => True
  | .cons t l => Scoped given ctx file t ∧ ScopedTys given ctx file l
def ScopedPar (given : Given) (ctx : Ctx) (file : Nat) : Par → Prop
  | .none => True
  | .some t => Scoped given ctx file t
def ScopedArg (given : Given) (ctx : Ctx) (file : Nat) : Arg → Prop
  | .ty t => Scoped given ctx file t
  | .pack l => ScopedArgs given ctx file l
  | .other _ => True
def ScopedArgs (given : Given) (ctx : Ctx) (file : Nat) : Args → Prop
  | .nil => True
  | .cons a l => ScopedArg given ctx file a ∧ ScopedArgs given ctx file l
/-- The arguments written in the qualifiers. -/
def ScopedQ (given : Given) (ctx : Ctx) (file : Nat) : Quals → Prop
  | .nil => True
  | .cons _ _ w l => ScopedArgs given ctx file w ∧ ScopedQ given ctx file l
end

/-- With enough fuel. -/
def Ev (P : Nat → Prop) : Prop := ∃ N, ∀ n, N ≤ n → P n

theorem Ev.and {P Q : Nat → Prop} (h : Ev P) (h' : Ev Q) : Ev fun n => P n ∧ Q n := by
  obtain ⟨N, h⟩ := h
  obtain ⟨M, h'⟩ := h'
  exact ⟨N + M, fun n hn => ⟨h n (by omega), h' n (by omega)⟩⟩

theorem Ev.imp {P Q : Nat → Prop} (h : Ev P) (hi : ∀ n, P n → Q n) : Ev Q := by
  obtain ⟨N, h⟩ := h
  exact ⟨N, fun n hn => hi n (h n hn)⟩

theorem Ev.succ {P Q : Nat → Prop} (h : Ev P) (hi : ∀ n, P n → Q (n + 1)) : Ev Q := by
  obtain ⟨N, h⟩ := h
  refine ⟨N + 1, fun n hn => ?_⟩
  obtain ⟨m, rfl⟩ : ∃ m, n = m + 1 := ⟨n - 1, by omega⟩
  exact hi m (h m (by omega))

theorem Ev.pred {P Q : Nat → Prop} (h : Ev P) (hi : ∀ n, P (n + 1) → Q n) : Ev Q := by
  obtain ⟨N, h⟩ := h
  exact ⟨N, fun n hn => hi n (h (n + 1) (by omega))⟩

theorem Ev.of (Q : Nat → Prop) (h : ∀ n, Q (n + 1)) : Ev Q := by
  refine ⟨1, fun n hn => ?_⟩
  obtain ⟨m, rfl⟩ : ∃ m, n = m + 1 := ⟨n - 1, by omega⟩
  exact h m

/-- Every argument that can be found is ok where it was written. -/
def Sem (given : Given) (ctx : Ctx) : Prop :=
  (∀ d ix f a c, findArg d ix ctx = some (f, a) → findCtx d ix ctx = some c → Ev fun n => okArg given n c f a) ∧
  (∀ d w f c, findRec d ctx = some (w, f, c) → Ev fun n => okArgs given n c f w)

theorem Sem.nil (given : Given) : Sem given .nil := by
  constructor
  · intro d ix f a c h; simp [findArg] at h
  · intro d w f c h; simp [findRec] at h

theorem ev_get {given c f} : ∀ {as : Args} {i a}, Ev (fun n => okArgs given n c f as) → as.get? i = some a →
    Ev fun n => okArg given n c f a
  | .nil, _, _, _, h => by simp [Args.get?] at h
  | .cons b l, 0, a, he, h => by
      simp only [Args.get?, Option.some.injEq] at h
      subst h
      exact he.pred fun n h => by simp only [okArgs] at h; exact h.1
  | .cons b l, i + 1, a, he, h => by
      simp only [Args.get?] at h
      exact ev_get (he.pred fun n h => by simp only [okArgs] at h; exact h.2) h

theorem ev_argAt {given c f as ix a} (he : Ev (fun n => okArgs given n c f as)) (h : argAt as ix = some a) :
    Ev fun n => okArg given n c f a := by
  cases ix with
  | at_ i => exact ev_get he h
  | fromEnd k =>
      simp only [argAt] at h
      split at h
      · exact ev_get he h
      · simp at h

theorem Sem.frame {given d as file ext c} (he : Sem given ext)
    (ha : ∀ w, as = some w → Ev fun n => okArgs given n c file w) : Sem given (.frame d as file ext c) := by
  constructor
  · intro d' ix f a c' h hc
    simp only [findArg] at h
    simp only [findCtx] at hc
    split at h
    · rename_i hd
      rw [if_pos hd] at hc
      cases as with
      | none => simp at h
      | some w =>
          simp only at h hc
          cases hx : argAt w ix with
          | none =>
              rw [hx] at h hc
              exact he.1 _ _ _ _ _ h hc
          | some b =>
              rw [hx] at h hc
              simp only [Option.some.injEq, Prod.mk.injEq] at h hc
              obtain ⟨rfl, rfl⟩ := h
              subst hc
              exact ev_argAt (ha w rfl) hx
    · rename_i hd
      rw [if_neg hd] at hc
      exact he.1 _ _ _ _ _ h hc
  · intro d' w f c' h
    simp only [findRec] at h
    split at h
    · cases as with
      | none => simp at h
      | some w' =>
          simp only [Option.map_some, Option.some.injEq, Prod.mk.injEq] at h
          obtain ⟨rfl, rfl, rfl⟩ := h
          exact ha _ rfl
    · exact he.2 _ _ _ _ h

theorem ev_drop {given c f} : ∀ (k : Nat) {as : Args}, Ev (fun n => okArgs given n c f as) →
    Ev fun n => okArgs given n c f (as.drop k)
  | 0, _, h => h
  | _ + 1, .nil, _ => Ev.of _ fun n => by simp [Args.drop, okArgs]
  | k + 1, .cons a l, h => by
      simp only [Args.drop]
      exact ev_drop k (h.pred fun n h => by simp only [okArgs] at h; exact h.2)

mutual
theorem scoped_ok {given : Given} {ctx : Ctx} {file : Nat} (hc : Sem given ctx) :
    (t : Ty) → Scoped given ctx file t → Ev fun n => ok given n ctx file t
  | .leaf _, _ => Ev.of _ fun n => by simp [ok]
  | .ptr t, h => (scoped_ok hc t (by simpa only [Scoped] using h)).succ fun n h => by simpa only [ok] using h
  | .ref t, h => (scoped_ok hc t (by simpa only [Scoped] using h)).succ fun n h => by simpa only [ok] using h
  | .arr t, h => (scoped_ok hc t (by simpa only [Scoped] using h)).succ fun n h => by simpa only [ok] using h
  | .fn r ps, h => by
      simp only [Scoped] at h
      exact ((scoped_ok hc r h.1).and (scopedTys_ok hc ps h.2)).succ fun n h => by simpa only [ok] using h
  | .cls qs d s p as, h => by
      simp only [Scoped] at h
      obtain ⟨hq, hp, ha, hw⟩ := h
      have hs := scopedQ_sem hc qs hq (file := file)
      have e1 := scopedPar_ok hs p hp
      have e2 := scopedArgs_ok hs as ha
      cases hf : findRec d (bindFrom file ctx qs) with
      | none => exact (e1.and e2).succ fun n h => by simpa only [ok, hf] using h
      | some x =>
          obtain ⟨w, f, c⟩ := x
          have e3 := hs.2 _ _ _ _ hf
          exact (e1.and (e3.and (ev_drop w.length e2))).succ fun n h => by
            simp only [ok, hf]
            exact ⟨h.1, h.2.1, h.2.2, hw w f c hf⟩
  | .tst qs w d s p as, h => by
      simp only [Scoped] at h
      obtain ⟨hq, hp, h1, h2, hw⟩ := h
      have hs := scopedQ_sem hc qs hq (file := file)
      exact ((scopedPar_ok hs p hp).and ((scopedArgs_ok hs w h1).and (ev_drop w.length (scopedArgs_ok hs as h2)))).succ
        fun n h => by simp only [ok]; exact ⟨h.1, h.2.1, h.2.2, hw⟩
  | .attr _ t, h => (scoped_ok hc t (by simpa only [Scoped] using h)).succ fun n h => by simpa only [ok] using h
  | .paren t, h => (scoped_ok hc t (by simpa only [Scoped] using h)).succ fun n h => by simpa only [ok] using h
  | .typedef qs f t, h => by
      simp only [Scoped] at h
      exact (scoped_ok (scopedQ_sem hc qs h.1) t h.2).succ fun n h => by simpa only [ok] using h
  | .alias_ qs templ f _ tr w t, h => by
      simp only [Scoped] at h
      obtain ⟨hq, hw, ht⟩ := h
      have hs := scopedQ_sem hc qs hq (file := file)
      have e := scopedArgs_ok hs w hw
      exact (scoped_ok (hs.frame (by rintro _ ⟨⟩; exact e)) t ht).succ fun n h => by simpa only [ok] using h
  | .subst d ix t, h => by
      simp only [Scoped] at h
      obtain ⟨h1, h2, h3⟩ := h
      cases hg : given d ix with
      | some v => exact Ev.of _ fun n => by simpa only [ok, hg] using h1 v hg
      | none =>
          cases hf : findArg d ix ctx with
          | none => exact (scoped_ok hc t (h2 hg hf)).succ fun n h => by simpa only [ok, hg, hf] using h
          | some x =>
              obtain ⟨f, a⟩ := x
              obtain ⟨ha, hx⟩ := h3 hg f a hf
              exact (hc.1 _ _ _ _ _ hf hx).succ fun n h => by simp only [ok, hg, hf]; exact ⟨ha, h⟩
  | .sugar qs t, h => by
      simp only [Scoped] at h
      exact (scoped_ok (scopedQ_sem hc qs h.1) t h.2).succ fun n h => by simpa only [ok] using h
theorem scopedTys_ok {given : Given} {ctx : Ctx} {file : Nat} (hc : Sem given ctx) :
    (t : Tys) → ScopedTys given ctx file t → Ev fun n => okTys given n ctx file t
  | .nil, _ => Ev.of _ fun n => by simp [okTys]
  | .cons t l, h => by
      simp only [ScopedTys] at h
      exact ((scoped_ok hc t h.1).and (scopedTys_ok hc l h.2)).succ fun n h => by simpa only [okTys] using h
theorem scopedPar_ok {given : Given} {ctx : Ctx} {file : Nat} (hc : Sem given ctx) :
    (t : Par) → ScopedPar given ctx file t → Ev fun n => okPar given n ctx file t
  | .none, _ => Ev.of _ fun n => by simp [okPar]
  | .some t, h => (scoped_ok hc t (by simpa only [ScopedPar] using h)).succ fun n h => by simpa only [okPar] using h
theorem scopedArg_ok {given : Given} {ctx : Ctx} {file : Nat} (hc : Sem given ctx) :
    (t : Arg) → ScopedArg given ctx file t → Ev fun n => okArg given n ctx file t
  | .ty t, h => (scoped_ok hc t (by simpa only [ScopedArg] using h)).succ fun n h => by simpa only [okArg] using h
  | .pack l, h => (scopedArgs_ok hc l (by simpa only [ScopedArg] using h)).succ fun n h => by simpa only [okArg] using h
  | .other _, _ => Ev.of _ fun n => by simp [okArg]
theorem scopedArgs_ok {given : Given} {ctx : Ctx} {file : Nat} (hc : Sem given ctx) :
    (t : Args) → ScopedArgs given ctx file t → Ev fun n => okArgs given n ctx file t
  | .nil, _ => Ev.of _ fun n => by simp [okArgs]
  | .cons t l, h => by
      simp only [ScopedArgs] at h
      exact ((scopedArg_ok hc t h.1).and (scopedArgs_ok hc l h.2)).succ fun n h => by simpa only [okArgs] using h
theorem scopedQ_sem {given : Given} {ctx : Ctx} {file : Nat} (hc : Sem given ctx) :
    (q : Quals) → ScopedQ given ctx file q → Sem given (bindFrom file ctx q)
  | .nil, _ => hc
  | .cons d p w l, h => by
      simp only [ScopedQ] at h
      have e := scopedArgs_ok hc w h.1
      refine (scopedQ_sem hc l h.2).frame ?_
      intro w' hw
      cases p <;> simp at hw
      subst hw
      exact e
end

/-- A scoped type at the top level: with enough fuel, all lookups are ok. -/
theorem Scoped.nil_ok {given : Given} {file : Nat} {t : Ty} (h : Scoped given .nil file t) :
    ∃ N, ∀ n, N ≤ n → ok given n .nil file t := scoped_ok (Sem.nil given) t h

end Verif.NullTy

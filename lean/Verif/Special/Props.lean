import Verif.Special.Model

/-!
# C++ special members of Rust types: properties
-/

namespace Verif.Special

section
variable {α β : Type} [DecidableEq α]

theorem upd_same (f : α → β) (n : α) (v : β) : upd f n v n = v := by simp [upd]
theorem upd_ne (f : α → β) {n m : α} (v : β) (h : m ≠ n) : upd f n v m = f m := by simp [upd, h]
theorem upd_upd (f : α → β) (n : α) (v w : β) : upd (upd f n v) n w = upd f n w := by
  funext m
  by_cases h : m = n <;> simp [upd, h]
theorem upd_self (f : α → β) (n : α) (v : β) (h : f n = v) : upd f n v = f := by
  funext m
  by_cases hm : m = n
  · rw [hm, upd_same, h]
  · rw [upd_ne _ _ hm]
theorem upd_comm (f : α → β) {n m : α} (v w : β) (h : m ≠ n) :
    upd (upd f n v) m w = upd (upd f m w) n v := by
  funext k
  by_cases h1 : k = m
  · subst h1; simp [upd, h]
  · by_cases h2 : k = n
    · subst h2; simp [upd, h1]
    · simp [upd, h1, h2]
end

theorem St.ext' {a b : St} (h1 : a.objs = b.objs) (h2 : a.next = b.next) (h3 : a.drops = b.drops)
    (h4 : a.ub = b.ub) : a = b := by
  cases a; cases b; simp_all

/-! ## Simplifications of the code -/

theorem put_put (s : St) (l : Loc) (a b : Option (Option Val)) : (s.put l a).put l b = s.put l b := by
  simp [St.put, upd_upd]

theorem put_make (s : St) (l : Loc) (a : Option (Option Val)) (c : Nat) :
    (s.put l a).make l c = s.make l c := by
  simp [St.make, St.put, upd_upd]

/-- A constructor whose thunk makes a value amounts to making the value. -/
theorem ctorBody_eq {t : Traits} {i : Impl} {cabi : Bool} {x : Nat} {c : Nat} {s : St}
    {thunk : Loc → St → St}
    (hc : cabi = true → t.needsDrop = false) (ht : s.objs .tmp = none)
    (hthunk : ∀ d, thunk d (s.put (.var x) (some none)) = (s.put (.var x) (some none)).make d c) :
    ctorBody t i cabi (.var x) thunk s = some (s.make (.var x) c) := by
  unfold ctorBody
  cases cabi with
  | false => simp only [hthunk]; simp [put_make]
  | true =>
      have hn := hc rfl
      simp only [if_true, hthunk, moveAssignOp, moveStyle, hn, Bool.not_false, destroy]
      simp only [Option.map_some, Option.some.injEq]
      refine St.ext' ?_ rfl rfl rfl
      simp only [copyBytes, St.put, St.make, upd_same, Bool.false_eq_true, if_false]
      funext l
      cases l with
      | tmp => simp [upd, ht]
      | var y => by_cases hy : y = x <;> simp [upd, hy]

theorem defaultCtor_eq {t : Traits} {i : Impl} {cabi : Bool} {x : Nat} {s : St}
    (hc : cabi = true → t.needsDrop = false) (ht : s.objs .tmp = none) (hd : t.dflt = true) :
    defaultCtor t i cabi (.var x) s = some (s.make (.var x) i.dflt) := by
  simp only [defaultCtor, hd, if_true]
  exact ctorBody_eq hc ht fun _ => rfl

theorem copyCtor_clone_eq {t : Traits} {i : Impl} {cabi : Bool} {x y : Nat} {s : St} {v : Val}
    (hc : cabi = true → t.needsDrop = false) (ht : s.objs .tmp = none)
    (hs : copyStyle t = some .clone) (hxy : y ≠ x) (hv : s.objs (.var y) = some (some v)) :
    copyCtor t i cabi (.var x) (.var y) s = some (s.make (.var x) (i.clone v.c)) := by
  simp only [copyCtor, hs]
  refine ctorBody_eq hc ht fun d => ?_
  have : (s.put (.var x) (some none)).objs (.var y) = some (some v) := by
    simp only [St.put]
    rw [upd_ne _ _ (by simpa using hxy), hv]
  simp only [rsClone, this]

theorem fromRust_eq {x c : Nat} {s : St} (ht : s.objs .tmp = none) :
    relocate (.var x) .tmp (s.make .tmp c) = s.make (.var x) c := by
  refine St.ext' ?_ rfl rfl rfl
  simp only [relocate, copyBytes, St.put, St.make, upd_same]
  funext l
  cases l with
  | tmp => simp [upd, ht]
  | var y => by_cases hy : y = x <;> simp [upd, hy]

/-! ## Values -/

/-- An object is as the specification says. -/
def Agree : Option Held → Option (Option Val) → Prop
  | none, o => o = none
  | some (.val c), o => ∃ v, o = some (some v) ∧ v.c = c
  | some .unspecified, o => ∃ v, o = some (some v)
  | some .stale, o => ∃ v, o = some (some v)

/-- States agree. -/
structure Sim (σ : Nat → Option Held) (s : St) : Prop where
  ub : s.ub = false
  tmp : s.objs .tmp = none
  agree : ∀ x, Agree (σ x) (s.objs (.var x))

theorem agree_some {h : Held} {o : Option (Option Val)} (ha : Agree (some h) o) : ∃ v, o = some (some v) := by
  cases h with
  | val c => obtain ⟨v, h, -⟩ := ha; exact ⟨v, h⟩
  | unspecified => exact ha
  | stale => exact ha

theorem sim_init : Sim (fun _ => none) St.init := ⟨rfl, rfl, fun _ => rfl⟩

theorem Sim.put {σ : Nat → Option Held} {s : St} (h : Sim σ s) (x : Nat) (a : Option Held)
    (o : Option (Option Val)) (ha : Agree a o) : Sim (upd σ x a) (s.put (.var x) o) where
  ub := h.ub
  tmp := by simp only [St.put]; rw [upd_ne _ _ (by simp)]; exact h.tmp
  agree := by
    intro y
    simp only [St.put]
    by_cases hy : y = x
    · subst hy; rw [upd_same, upd_same]; exact ha
    · rw [upd_ne _ _ hy, upd_ne _ _ (by simpa using hy)]; exact h.agree y

theorem Sim.make {σ : Nat → Option Held} {s : St} (h : Sim σ s) (x c : Nat) (a : Held)
    (ha : a = .val c ∨ a = .unspecified) : Sim (upd σ x (some a)) (s.make (.var x) c) := by
  have := h.put x (some a) (some (some ⟨s.next, c⟩)) (by
    rcases ha with rfl | rfl
    · exact ⟨_, rfl, rfl⟩
    · exact ⟨_, rfl⟩)
  exact ⟨this.ub, this.tmp, this.agree⟩

theorem Sim.rest {σ : Nat → Option Held} {s s' : St} (h : Sim σ s) (h1 : s'.objs = s.objs)
    (h2 : s'.ub = s.ub) : Sim σ s' := ⟨h2 ▸ h.ub, h1 ▸ h.tmp, h1 ▸ h.agree⟩

/-- The contents of a copy. -/
theorem copied_contents {t : Traits} {i : Impl} {h h' : Held} {o : Option (Option Val)}
    (hc : copied t i h = some h') (hcl : t.copy = false) (ha : Agree (some h) o) :
    ∃ v, o = some (some v) ∧ (h' = .val (i.clone v.c) ∨ h' = .unspecified) ∧ t.clone = true := by
  cases h with
  | val c =>
      obtain ⟨v, hv, rfl⟩ := ha
      simp only [copied, hcl] at hc
      split at hc
      · rename_i hcl'
        injection hc with hc
        exact ⟨v, hv, .inl (by simpa using hc.symm), hcl'⟩
      · cases hc
  | unspecified =>
      obtain ⟨v, hv⟩ := ha
      simp only [copied] at hc
      split at hc
      · rename_i hcl'
        injection hc with hc
        exact ⟨v, hv, .inr hc.symm, hcl'⟩
      · cases hc
  | stale => cases hc

theorem copied_copy {t : Traits} {i : Impl} {h h' : Held} (hc : copied t i h = some h')
    (hcl : t.copy = true) : h' = h := by
  cases h with
  | val c =>
      simp only [copied, hcl, if_true] at hc
      split at hc
      · injection hc with hc; exact hc.symm
      · cases hc
  | unspecified =>
      simp only [copied] at hc
      split at hc
      · injection hc with hc; exact hc.symm
      · cases hc
  | stale => cases hc

/-- Copy assignment. -/
theorem copyAssign_ok {t : Traits} {i : Impl} (inPlace : Bool) {σ : Nat → Option Held} {s : St} {x y : Nat} {hx h h' : Held}
    (hs : Sim σ s) (h1 : σ x = some hx) (h2 : σ y = some h) (hc : copied t i h = some h') :
    ∃ s', copyAssignOp t i inPlace (.var x) (.var y) s = some s' ∧
      Sim (if x = y then σ else upd σ x (some h')) s' := by
  have hay := hs.agree y
  rw [h2] at hay
  cases hcp : t.copy with
  | true =>
      have e := copied_copy hc hcp
      subst e
      refine ⟨_, by simp only [copyAssignOp, copyStyle, hcp, if_true]; rfl, ?_⟩
      split
      · rename_i hxy
        subst hxy
        have : copyBytes (.var x) (.var x) s = s := by
          refine St.ext' ?_ rfl rfl rfl
          exact upd_self _ _ _ rfl
        rw [this]
        exact hs
      · exact hs.put x _ _ hay
  | false =>
      obtain ⟨v, hv, hh, hcl⟩ := copied_contents hc hcp hay
      refine ⟨if Loc.var x = .var y then s else rsCloneFrom t i inPlace (.var x) (.var y) s, by
        simp only [copyAssignOp, copyStyle, hcp, hcl, Bool.false_eq_true, if_false, if_true], ?_⟩
      by_cases hxy : x = y
      · simp only [hxy, if_true]; exact hs
      · have : Loc.var x ≠ Loc.var y := by simpa using hxy
        simp only [hxy, this, if_false]
        have hax := hs.agree x
        rw [h1] at hax
        obtain ⟨d, hd⟩ := agree_some hax
        simp only [rsCloneFrom, hd, hv]
        cases inPlace with
        | true =>
            simp only [if_true]
            refine hs.put x _ _ ?_
            rcases hh with rfl | rfl
            · exact ⟨_, rfl, rfl⟩
            · exact ⟨_, rfl⟩
        | false =>
            simp only [Bool.false_eq_true, if_false]
            refine Sim.make ?_ x _ h' hh
            split
            · simp only [rsDrop, hd]
              exact hs.rest rfl rfl
            · exact hs

theorem moved_stale {t : Traits} {i : Impl} {l h : Held} {p : Held × Held}
    (hm : moved t i l h = some p) : h ≠ .stale := by
  intro e
  simp [moved, e] at hm

/-- Values are as documented: if the specification allows a program, the program compiles, Rust code is
never given uninitialised bytes, and every object holds what the specification says. -/
theorem values (t : Traits) (i : Impl) (cabi : Bool) (hl : t.Legal)
    (hc : cabi = true → t.needsDrop = false) (os : List Op) (σ : Nat → Option Held)
    (h : specRun t i (fun _ => none) os = some σ) :
    ∃ s, run t i cabi St.init os = some s ∧ s.ub = false ∧
      ∀ x, Agree (σ x) (s.objs (.var x)) := by
  have stepOk : ∀ (σ σ' : Nat → Option Held) (s : St) (o : Op), Sim σ s →
      specStep t i σ o = some σ' → ∃ s', step t i cabi s o = some s' ∧ Sim σ' s' := by
    intro σ σ' s o hs ho
    have hnone : ∀ {x}, σ x = none → s.objs (.var x) = none := by
      intro x hx
      have := hs.agree x
      rw [hx] at this
      exact this
    have hsome : ∀ {x h}, σ x = some h → ∃ v, s.objs (.var x) = some (some v) := by
      intro x h hx
      have := hs.agree x
      rw [hx] at this
      exact agree_some this
    cases o with
    | defaultCtor x =>
        simp only [specStep] at ho
        split at ho
        · rename_i hx
          simp only [Bool.and_eq_true, decide_eq_true_eq] at hx
          injection ho with ho
          subst ho
          exact ⟨_, by simp only [step, hnone hx.1, Option.isNone_none, if_true]; exact
            defaultCtor_eq hc hs.tmp hx.2, hs.make x _ _ (.inl rfl)⟩
        · cases ho
    | copyCtor x y =>
        simp only [specStep] at ho
        split at ho
        · rename_i h hx hy
          simp only [Option.map_eq_some_iff] at ho
          obtain ⟨h', hcp, rfl⟩ := ho
          obtain ⟨v, hv⟩ := hsome hy
          have hay := hs.agree y
          rw [hy] at hay
          have hyx : y ≠ x := by
            intro e
            rw [e, hx] at hy; cases hy
          simp only [step, hnone hx, hv, Option.isNone_none, Option.isSome_some, Bool.and_self, if_true]
          cases hcc : t.copy with
          | true =>
              have e := copied_copy hcp hcc
              subst e
              exact ⟨_, by simp only [copyCtor, copyStyle, hcc, if_true]; rfl, hs.put x _ _ hay⟩
          | false =>
              obtain ⟨w, hw, hh, hcl⟩ := copied_contents hcp hcc hay
              rw [hv] at hw
              injection hw with hw
              injection hw with hw
              subst hw
              exact ⟨_, copyCtor_clone_eq hc hs.tmp (by simp [copyStyle, hcc, hcl]) hyx hv,
                hs.make x _ _ hh⟩
        · cases ho
    | moveCtor x y =>
        simp only [specStep] at ho
        split at ho
        · rename_i h hx hy
          simp only [Option.map_eq_some_iff] at ho
          obtain ⟨p, hm, rfl⟩ := ho
          obtain ⟨v, hv⟩ := hsome hy
          have hay := hs.agree y
          rw [hy] at hay
          have hyx : y ≠ x := by
            intro e
            rw [e, hx] at hy; cases hy
          have hst := moved_stale hm
          simp only [step, hnone hx, hv, Option.isNone_none, Option.isSome_some, Bool.and_self, if_true]
          simp only [moved, hst, if_false] at hm
          by_cases hnd : t.needsDrop = false
          · simp only [hnd, if_true, Option.some.injEq] at hm
            subst hm
            refine ⟨_, by simp only [moveCtor, moveStyle, hnd, Bool.not_false, if_true]; rfl, ?_⟩
            have hs' : Sim (upd σ y (some (if t.copy = true then h else .stale))) s := by
              refine ⟨hs.ub, hs.tmp, ?_⟩
              intro z
              by_cases hz : z = y
              · subst hz
                rw [upd_same]
                split
                · exact hay
                · exact ⟨v, hv⟩
              · rw [upd_ne _ _ hz]; exact hs.agree z
            exact hs'.put x _ _ hay
          · have hnd' : t.needsDrop = true := by simpa using hnd
            rw [if_neg hnd] at hm
            split at hm
            · rename_i hdu
              injection hm with hm
              subst hm
              have hd : t.dflt = true := by
                simp only [Bool.and_eq_true] at hdu; exact hdu.1
              refine ⟨_, by
                simp only [moveCtor, moveAssignOp, moveStyle, hnd', Bool.not_true, Bool.false_eq_true,
                  if_false, hdu, if_true, defaultCtor_eq hc hs.tmp hd, Option.bind_some]
                rfl, ?_⟩
              have hne : Loc.var x ≠ Loc.var y := by simpa using Ne.symm hyx
              have e1 : (s.make (.var x) i.dflt).objs (.var y) = some (some v) := by
                simp only [St.make, St.put]; rw [upd_ne _ _ (Ne.symm hne), hv]
              have e2 : (s.make (.var x) i.dflt).objs (.var x) = some (some ⟨s.next, i.dflt⟩) := by
                simp only [St.make, St.put]; rw [upd_same]
              simp only [memSwap, hne, if_false, e1, e2]
              have g := ((hs.make x i.dflt (.val i.dflt) (.inl rfl)).put x (some h)
                (some (some v)) (hv ▸ hay)).put y (some (.val i.dflt))
                  (some (some ⟨s.next, i.dflt⟩)) ⟨_, rfl, rfl⟩
              rw [upd_upd, upd_comm _ _ _ hyx] at g
              exact g
            · rename_i hdu
              simp only [Option.map_eq_some_iff] at hm
              obtain ⟨h', hcp, rfl⟩ := hm
              have hcc : t.copy = false := by
                cases hcc : t.copy with
                | false => rfl
                | true => have := (hl hcc).2; rw [hnd'] at this; cases this
              obtain ⟨w, hw, hh, hcl⟩ := copied_contents hcp hcc hay
              rw [hv] at hw
              injection hw with hw
              injection hw with hw
              subst hw
              have hcs : copyStyle t = some .clone := by simp [copyStyle, hcc, hcl]
              refine ⟨_, by
                simp only [moveCtor, moveStyle, hnd', Bool.not_true, Bool.false_eq_true,
                  if_false, hdu, hcs, Option.isSome_some, if_true]
                exact copyCtor_clone_eq hc hs.tmp hcs hyx hv, ?_⟩
              rw [upd_self σ y _ hy]
              exact hs.make x _ _ hh
        · cases ho
    | copyAssign x y inPlace =>
        simp only [specStep] at ho
        split at ho
        · rename_i hx0 h hx hy
          simp only [Option.map_eq_some_iff] at ho
          obtain ⟨h', hcp, rfl⟩ := ho
          obtain ⟨v, hv⟩ := hsome hy
          obtain ⟨w, hw⟩ := hsome hx
          simp only [step, hv, hw, Option.isSome_some, Bool.and_self, if_true]
          exact copyAssign_ok inPlace hs hx hy hcp
        · cases ho
    | moveAssign x y inPlace =>
        simp only [specStep] at ho
        split at ho
        · rename_i hx0 h hx hy
          simp only [Option.map_eq_some_iff] at ho
          obtain ⟨p, hm, rfl⟩ := ho
          obtain ⟨v, hv⟩ := hsome hy
          obtain ⟨w, hw⟩ := hsome hx
          have hay := hs.agree y
          rw [hy] at hay
          have hst := moved_stale hm
          simp only [step, hv, hw, Option.isSome_some, Bool.and_self, if_true]
          simp only [moved, hst, if_false] at hm
          by_cases hnd : t.needsDrop = false
          · simp only [hnd, if_true, Option.some.injEq] at hm
            subst hm
            refine ⟨_, by simp only [moveAssignOp, moveStyle, hnd, Bool.not_false, if_true]; rfl, ?_⟩
            split
            · rename_i hxy
              subst hxy
              have : copyBytes (.var x) (.var x) s = s := by
                refine St.ext' ?_ rfl rfl rfl
                exact upd_self _ _ _ rfl
              rw [this]
              exact hs
            · have hs' : Sim (upd σ y (some (if t.copy = true then h else .stale))) s := by
                refine ⟨hs.ub, hs.tmp, ?_⟩
                intro z
                by_cases hz : z = y
                · subst hz
                  rw [upd_same]
                  split
                  · exact hay
                  · exact ⟨v, hv⟩
                · rw [upd_ne _ _ hz]; exact hs.agree z
              exact hs'.put x _ _ hay
          · have hnd' : t.needsDrop = true := by simpa using hnd
            rw [if_neg hnd] at hm
            split at hm
            · rename_i hdu
              injection hm with hm
              subst hm
              refine ⟨_, by
                simp only [moveAssignOp, moveStyle, hnd', Bool.not_true, Bool.false_eq_true,
                  if_false, hdu, if_true]
                rfl, ?_⟩
              by_cases hxy : x = y
              · simp only [hxy, if_true, memSwap]
                exact hs
              · have hne : Loc.var x ≠ Loc.var y := by simpa using hxy
                simp only [hxy, memSwap, hne, if_false, hv, hw]
                have g := (hs.put x (some h) (some (some v)) (hv ▸ hay)).put y (some .unspecified)
                    (some (some w)) ⟨_, rfl⟩
                rw [upd_comm _ _ _ (Ne.symm hxy)] at g
                exact g
            · rename_i hdu
              simp only [Option.map_eq_some_iff] at hm
              obtain ⟨h', hcp, rfl⟩ := hm
              have hcc : t.copy = false := by
                cases hcc : t.copy with
                | false => rfl
                | true => have := (hl hcc).2; rw [hnd'] at this; cases this
              obtain ⟨_, _, _, hcl⟩ := copied_contents hcp hcc hay
              have hcs : copyStyle t = some .clone := by simp [copyStyle, hcc, hcl]
              obtain ⟨s', h1, h2⟩ := copyAssign_ok inPlace hs hx hy hcp
              refine ⟨s', by
                simp only [moveAssignOp, moveStyle, hnd', Bool.not_true, Bool.false_eq_true,
                  if_false, hdu, hcs, Option.isSome_some, if_true]
                exact h1, ?_⟩
              rw [upd_self σ y _ hy]
              exact h2
        · cases ho
    | destroy x =>
        simp only [specStep] at ho
        split at ho
        · rename_i h hx
          injection ho with ho
          subst ho
          obtain ⟨v, hv⟩ := hsome hx
          refine ⟨_, by simp only [step, hv, Option.isSome_some, if_true]; rfl, ?_⟩
          unfold destroy
          refine Sim.put ?_ x none none rfl
          split
          · simp only [rsDrop, hv]
            exact hs.rest rfl rfl
          · exact hs
        · cases ho
    | relocate x y =>
        simp only [specStep] at ho
        split at ho
        · rename_i h hx hy
          injection ho with ho
          subst ho
          obtain ⟨v, hv⟩ := hsome hy
          have hay := hs.agree y
          rw [hy] at hay
          have hyx : y ≠ x := by
            intro e
            rw [e, hx] at hy; cases hy
          refine ⟨_, by
            simp only [step, hnone hx, hv, Option.isNone_none, Option.isSome_some, Bool.and_self, if_true]; rfl,
            ?_⟩
          have g := (hs.put x (some h) _ hay).put y none none rfl
          rw [upd_comm _ _ _ hyx] at g
          exact g
        · cases ho
    | fromRust x c =>
        simp only [specStep] at ho
        split at ho
        · rename_i hx
          injection ho with ho
          subst ho
          refine ⟨_, by simp only [step, hnone hx, Option.isNone_none, if_true, fromRust_eq hs.tmp],
            hs.make x _ _ (.inl rfl)⟩
        · cases ho
    | mutate x c =>
        simp only [specStep] at ho
        split at ho
        · cases ho
        · rename_i h hns hx
          injection ho with ho
          subst ho
          obtain ⟨v, hv⟩ := hsome hx
          exact ⟨_, by simp only [step, hv]; rfl, hs.put x _ _ ⟨_, rfl, rfl⟩⟩
        · cases ho
  have runOk : ∀ (os : List Op) (σ σ' : Nat → Option Held) (s : St), Sim σ s →
      specRun t i σ os = some σ' → ∃ s', run t i cabi s os = some s' ∧ Sim σ' s' := by
    intro os
    induction os with
    | nil =>
        intro σ σ' s hs h
        simp only [specRun, Option.some.injEq] at h
        exact ⟨s, rfl, h ▸ hs⟩
    | cons o os ih =>
        intro σ σ' s hs h
        simp only [specRun] at h
        cases ho : specStep t i σ o with
        | none => rw [ho] at h; cases h
        | some σ1 =>
            rw [ho] at h
            obtain ⟨s1, h1, hs1⟩ := stepOk σ σ1 s o hs ho
            obtain ⟨s2, h2, hs2⟩ := ih σ1 σ' s1 hs1 h
            exact ⟨s2, by simp only [run, h1, Option.bind_some]; exact h2, hs2⟩
  obtain ⟨s, h1, h2⟩ := runOk os _ _ _ sim_init h
  exact ⟨s, h1, h2.ub, h2.agree⟩

end Verif.Special

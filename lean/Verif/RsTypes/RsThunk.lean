import Verif.RsTypes.RsExact

/-
C165: types in thunks.
-/

namespace Verif.RsTypes

variable {named : String → Bool}

/-- C165: the Rust spelling of a type denotes that type. -/
theorem rs_type_exact (t : RTy) (l : List RTok) (hw : All writtenNode t) (hm : All monoNode t)
    (hk : All kindNode t) (h : fmtRs named t = some l) : rsTypeOf l = some t := by
  have := (goodR t l hw hm hk h).2 (2 * l.length + 2) [] (by omega) nofun
  unfold rsTypeOf
  rw [List.append_nil] at this
  rw [this]

mutual
theorem static_toStatic : ∀ t : RTy, All staticNode (toStatic t)
  | .prim _ | .int _ _ | .never | .cvoid | .str | .adt _ => by simp [toStatic, All, staticNode]
  | .tuple ts => by rw [toStatic, All]; exact ⟨trivial, statics_toStatics ts⟩
  | .array t n => by rw [toStatic, All]; exact ⟨trivial, static_toStatic t⟩
  | .gen g ts => by rw [toStatic, All]; exact ⟨trivial, statics_toStatics ts⟩
  | .rvref b l t => by rw [toStatic, All]; exact ⟨rfl, static_toStatic t⟩
  | .maybeUninit t => by rw [toStatic, All]; exact ⟨trivial, static_toStatic t⟩
  | .slice t => by rw [toStatic, All]; exact ⟨trivial, static_toStatic t⟩
  | .raw m t => by rw [toStatic, All]; exact ⟨trivial, static_toStatic t⟩
  | .ref l m t => by rw [toStatic, All]; exact ⟨rfl, static_toStatic t⟩
  | .fn g u abi v r ps => by rw [toStatic, All]; exact ⟨trivial, static_toStatic r, statics_toStatics ps⟩
theorem statics_toStatics : ∀ ts : RTys, Alls staticNode (toStatics ts)
  | .nil => by rw [toStatics, Alls]; trivial
  | .cons t ts => by rw [toStatics, Alls]; exact ⟨static_toStatic t, statics_toStatics ts⟩
end

mutual
theorem erase_toStatic : ∀ t : RTy, erase (toStatic t) = erase t
  | .prim _ | .int _ _ | .never | .cvoid | .str | .adt _ => by simp [toStatic]
  | .tuple ts => by simp [toStatic, erase, erases_toStatics ts]
  | .array t n => by simp [toStatic, erase, erase_toStatic t]
  | .gen g ts => by simp [toStatic, erase, erases_toStatics ts]
  | .rvref b l t => by simp [toStatic, erase, erase_toStatic t]
  | .maybeUninit t => by simp [toStatic, erase, erase_toStatic t]
  | .slice t => by simp [toStatic, erase, erase_toStatic t]
  | .raw m t => by simp [toStatic, erase, erase_toStatic t]
  | .ref l m t => by simp [toStatic, erase, erase_toStatic t]
  | .fn g u abi v r ps => by simp [toStatic, erase, erase_toStatic r, erases_toStatics ps]
theorem erases_toStatics : ∀ ts : RTys, erases (toStatics ts) = erases ts
  | .nil => by simp [toStatics]
  | .cons t ts => by simp [toStatics, erases, erase_toStatic t, erases_toStatics ts]
end

mutual
/-- What holds for all nodes and does not depend on lifetimes. -/
theorem all_toStatic {P : RTy → Prop} (hP : ∀ t, P t → P (toStatic t)) : ∀ t : RTy, All P t → All P (toStatic t)
  | .prim _, h | .int _ _, h | .never, h | .cvoid, h | .str, h | .adt _, h => by simpa [toStatic] using h
  | .tuple ts, h => by
      rw [All] at h; have := hP _ h.1
      rw [toStatic] at this ⊢; rw [All]; exact ⟨this, alls_toStatics hP ts h.2⟩
  | .array t n, h => by
      rw [All] at h; have := hP _ h.1
      rw [toStatic] at this ⊢; rw [All]; exact ⟨this, all_toStatic hP t h.2⟩
  | .gen g ts, h => by
      rw [All] at h; have := hP _ h.1
      rw [toStatic] at this ⊢; rw [All]; exact ⟨this, alls_toStatics hP ts h.2⟩
  | .rvref b l t, h => by
      rw [All] at h; have := hP _ h.1
      rw [toStatic] at this ⊢; rw [All]; exact ⟨this, all_toStatic hP t h.2⟩
  | .maybeUninit t, h => by
      rw [All] at h; have := hP _ h.1
      rw [toStatic] at this ⊢; rw [All]; exact ⟨this, all_toStatic hP t h.2⟩
  | .slice t, h => by
      rw [All] at h; have := hP _ h.1
      rw [toStatic] at this ⊢; rw [All]; exact ⟨this, all_toStatic hP t h.2⟩
  | .raw m t, h => by
      rw [All] at h; have := hP _ h.1
      rw [toStatic] at this ⊢; rw [All]; exact ⟨this, all_toStatic hP t h.2⟩
  | .ref l m t, h => by
      rw [All] at h; have := hP _ h.1
      rw [toStatic] at this ⊢; rw [All]; exact ⟨this, all_toStatic hP t h.2⟩
  | .fn g u abi v r ps, h => by
      rw [All] at h; have := hP _ h.1
      rw [toStatic] at this ⊢; rw [All]; exact ⟨this, all_toStatic hP r h.2.1, alls_toStatics hP ps h.2.2⟩
theorem alls_toStatics {P : RTy → Prop} (hP : ∀ t, P t → P (toStatic t)) :
    ∀ ts : RTys, Alls P ts → Alls P (toStatics ts)
  | .nil, h => by rwa [toStatics]
  | .cons t ts, h => by
      rw [Alls] at h
      rw [toStatics, Alls]
      exact ⟨all_toStatic hP t h.1, alls_toStatics hP ts h.2⟩
end

mutual
theorem all_mono {P Q : RTy → Prop} (hPQ : ∀ t, P t → Q t) : ∀ t : RTy, All P t → All Q t
  | .prim _, h | .int _ _, h | .never, h | .cvoid, h | .str, h | .adt _, h => by
      simp only [All] at h ⊢; exact hPQ _ h
  | .tuple ts, h => by rw [All] at h ⊢; exact ⟨hPQ _ h.1, alls_mono hPQ ts h.2⟩
  | .array t n, h => by rw [All] at h ⊢; exact ⟨hPQ _ h.1, all_mono hPQ t h.2⟩
  | .gen g ts, h => by rw [All] at h ⊢; exact ⟨hPQ _ h.1, alls_mono hPQ ts h.2⟩
  | .rvref b l t, h => by rw [All] at h ⊢; exact ⟨hPQ _ h.1, all_mono hPQ t h.2⟩
  | .maybeUninit t, h => by rw [All] at h ⊢; exact ⟨hPQ _ h.1, all_mono hPQ t h.2⟩
  | .slice t, h => by rw [All] at h ⊢; exact ⟨hPQ _ h.1, all_mono hPQ t h.2⟩
  | .raw m t, h => by rw [All] at h ⊢; exact ⟨hPQ _ h.1, all_mono hPQ t h.2⟩
  | .ref l m t, h => by rw [All] at h ⊢; exact ⟨hPQ _ h.1, all_mono hPQ t h.2⟩
  | .fn g u abi v r ps, h => by
      rw [All] at h ⊢; exact ⟨hPQ _ h.1, all_mono hPQ r h.2.1, alls_mono hPQ ps h.2.2⟩
theorem alls_mono {P Q : RTy → Prop} (hPQ : ∀ t, P t → Q t) : ∀ ts : RTys, Alls P ts → Alls Q ts
  | .nil, h => by rwa [Alls]
  | .cons t ts, h => by rw [Alls] at h ⊢; exact ⟨all_mono hPQ t h.1, alls_mono hPQ ts h.2⟩
end

theorem static_written : ∀ t : RTy, staticNode t → writtenNode t
  | .rvref .., h => ⟨_, h⟩
  | .ref .., h => ⟨_, h⟩
  | .prim _, _ | .int _ _, _ | .never, _ | .cvoid, _ | .str, _ | .adt _, _ | .tuple _, _ | .array _ _, _ | .gen _ _, _
  | .maybeUninit _, _ | .slice _, _ | .raw _ _, _ | .fn .., _ => trivial

theorem mono_static : ∀ t : RTy, monoNode t → monoNode (toStatic t)
  | .prim _, _ | .int _ _, _ | .never, _ | .cvoid, _ | .str, _ | .adt _, _ | .tuple _, _ | .array _ _, _ | .gen _ _, _
  | .maybeUninit _, _ | .slice _, _ | .raw _ _, _ | .rvref .., _ | .ref .., _ => by simp [toStatic, monoNode]
  | .fn .., h => by rw [toStatic]; exact h

theorem kind_static : ∀ t : RTy, kindNode t → kindNode (toStatic t)
  | .prim _, _ | .int _ _, _ | .never, _ | .cvoid, _ | .str, _ | .adt _, _ | .tuple _, _ | .array _ _, _
  | .maybeUninit _, _ | .slice _, _ | .raw _ _, _ | .rvref .., _ | .ref .., _ | .fn .., _ => by
      simp [toStatic, kindNode]
  | .gen .vec ts, h | .gen .option ts, h => by
      obtain ⟨a, rfl⟩ := h; simp only [toStatic, toStatics]; exact ⟨_, rfl⟩
  | .gen .result ts, h => by
      obtain ⟨a, b, rfl⟩ := h; simp only [toStatic, toStatics]; exact ⟨_, _, rfl⟩

variable {D : Db}

/-- A type that C++ gets can be used in the thunk. -/
def ThunkOk (named : String → Bool) (t : RTy) : Prop :=
  All monoNode t ∧ ∃ l, fmtRs named (toStatic t) = some l

theorem ptrToks_some {c : Bool} {s l : List Tok} {t : RTy} {a : Option (List Tok)}
    (h : ptrToks c s t a = some l) : t = .cvoid ∨ ∃ x, a = some x := by
  cases t
  case cvoid => exact .inl rfl
  all_goals (obtain ⟨x, h1, -⟩ := map_some h; exact .inr ⟨x, h1⟩)

theorem pointerToks_some {c : Bool} {s l : List Tok} {t : RTy} {a b : Option (List Tok)}
    (h : pointerToks c s t a b = some l) : (∃ e x, t = .slice e ∧ b = some x) ∨
      (∃ e, t = .maybeUninit e ∧ (e = .cvoid ∨ ∃ x, b = some x)) ∨ t = .cvoid ∨ ∃ x, a = some x := by
  cases t
  case slice e => obtain ⟨x, h1, -⟩ := map_some h; exact .inl ⟨e, x, rfl, h1⟩
  case maybeUninit e => exact .inr (.inl ⟨e, rfl, ptrToks_some h⟩)
  case cvoid => exact .inr (.inr (.inl rfl))
  all_goals exact .inr (.inr (ptrToks_some h))

theorem refToks_some {loc : Loc} {lf : Life} {m : Bool} {l : List Tok} {t : RTy} {a b : Option (List Tok)}
    (h : refToks D loc lf m t a b = some l) : (t = .str ∧ m = false) ∨ (∃ e x, t = .slice e ∧ b = some x) ∨
      (∃ e, t = .maybeUninit e ∧ (e = .cvoid ∨ ∃ x, b = some x)) ∨ t = .cvoid ∨ ∃ x, a = some x := by
  cases t
  case slice e => obtain ⟨x, h1, -⟩ := map_some h; exact .inr (.inl ⟨e, x, rfl, h1⟩)
  case str => cases m <;> cases h; exact .inl ⟨rfl, rfl⟩
  case cvoid => exact .inr (.inr (.inr (.inl rfl)))
  all_goals exact .inr (pointerToks_some h)

theorem thunkOk_cvoid : ThunkOk named .cvoid := ⟨trivial, by simp [toStatic, fmtRs]⟩

theorem toStatic_uninit {t e : RTy} (h : toStatic t = .maybeUninit e) : ∃ e', t = .maybeUninit e' := by
  cases t <;> simp [toStatic] at h ⊢

theorem fmtRsPointee_of {t : RTy} {l : List RTok} (h : fmtRs named t = some l) : fmtRsPointee named t = some l := by
  cases t
  case maybeUninit e => rw [fmtRs] at h; cases h
  all_goals (rw [fmtRsPointee]; exact h; all_goals nofun)

theorem fmtRsReferent_of {m : Bool} {t : RTy} {l : List RTok} (h : fmtRs named t = some l) :
    fmtRsReferent named m t = some l := by
  cases t
  case maybeUninit e => rw [fmtRs] at h; cases h
  case str => rw [fmtRs] at h; cases h
  all_goals (rw [fmtRsReferent]; exact h; all_goals nofun)

/-- What can be behind a pointer. -/
def PointeeOk (named : String → Bool) (t : RTy) : Prop :=
  ThunkOk named t ∨ ∃ e, t = .maybeUninit e ∧ ThunkOk named e

theorem PointeeOk.mono {t : RTy} : PointeeOk named t → All monoNode t
  | .inl h => h.1
  | .inr ⟨e, he, h⟩ => by subst he; rw [All]; exact ⟨trivial, h.1⟩

theorem PointeeOk.pointee {t : RTy} : PointeeOk named t → ∃ l, fmtRsPointee named (toStatic t) = some l
  | .inl ⟨_, l, h⟩ => ⟨l, fmtRsPointee_of h⟩
  | .inr ⟨e, he, _, l, h⟩ => by subst he; rw [toStatic, fmtRsPointee, h]; exact ⟨_, rfl⟩

theorem PointeeOk.referent {t : RTy} (m : Bool) :
    PointeeOk named t → ∃ l, fmtRsReferent named m (toStatic t) = some l
  | .inl ⟨_, l, h⟩ => ⟨l, fmtRsReferent_of h⟩
  | .inr ⟨e, he, _, l, h⟩ => by subst he; rw [toStatic, fmtRsReferent, h]; exact ⟨_, rfl⟩

theorem ThunkOk.slice {t : RTy} (h : ThunkOk named t) : ThunkOk named (.slice t) := by
  obtain ⟨h1, l, h2⟩ := h
  refine ⟨by rw [All]; exact ⟨trivial, h1⟩, ?_⟩
  rw [toStatic, fmtRs, h2]
  exact ⟨_, rfl⟩

theorem fmts_none_tuple {ts : RTys} {loc : Loc} {l : List Tok} (h : fmt D loc (.tuple ts) = some l) :
    ts = .nil ∨ ∃ loc' x, fmts D loc' false ts = some x := by
  rw [fmt] at h
  cases ts with
  | nil => exact .inl rfl
  | cons t ts =>
    right
    simp only [isNil, Bool.false_and, Bool.false_eq_true, if_false, Bool.not_false, Bool.and_true, Bool.false_or] at h
    split at h
    · split at h
      · cases h
      · obtain ⟨x, h1, -⟩ := map_some h
        exact ⟨_, _, h1⟩
    · split at h
      · cases h
      · obtain ⟨x, h1, -⟩ := map_some h
        exact ⟨_, _, h1⟩

theorem fmts_of_gen {g : Gen} {ts : RTys} {loc : Loc} {l : List Tok} (h : fmt D loc (.gen g ts) = some l) :
    ∃ loc' u x, fmts D loc' u ts = some x := by
  rw [fmt] at h
  split at h
  · obtain ⟨x, h1, -⟩ := map_some h
    exact ⟨_, _, _, h1⟩
  · split at h
    · obtain ⟨x, h1, -⟩ := map_some h
      exact ⟨_, _, _, h1⟩
    · cases h

/-- Each of a list can be used in the thunk. -/
def ThunkOks (named : String → Bool) (ts : RTys) : Prop :=
  Alls monoNode ts ∧ (∃ l, fmtRsEach named (toStatics ts) = some l) ∧ (∃ l, fmtRsSep named (toStatics ts) = some l) ∧
    ∀ t ts', ts = .cons t ts' → ∃ l, fmtRs named (toStatic t) = some l

mutual
theorem thunkOk (hn : ∀ n, D.supported n = true → named n = true) : ∀ (t : RTy) (loc : Loc) (l : List Tok),
    All kindNode t → fmt D loc t = some l → ThunkOk named t
  | .prim p, _, _, _, _ => ⟨trivial, by simp [toStatic, fmtRs]⟩
  | .int s w, _, _, _, _ => ⟨trivial, by simp [toStatic, fmtRs]⟩
  | .never, _, _, _, _ => ⟨trivial, by simp [toStatic, fmtRs]⟩
  | .cvoid, _, _, _, _ => thunkOk_cvoid
  | .str, _, _, _, h => by rw [fmt] at h; cases h
  | .adt n, loc, l, _, h => by
      rw [fmt] at h
      split at h
      · cases h
      · split at h
        · rename_i hs
          exact ⟨trivial, by simp [toStatic, fmtRs, hn n hs]⟩
        · cases h
  | .tuple ts, loc, l, hk, h => by
      rw [All] at hk
      rcases fmts_none_tuple h with rfl | ⟨loc', x, hx⟩
      · exact ⟨by simp [All, Alls, monoNode], by simp [toStatic, toStatics, fmtRs, fmtRsEach]⟩
      · obtain ⟨h1, ⟨y, h2⟩, -⟩ := thunkOks hn ts loc' false x hk.2 hx
        exact ⟨by rw [All]; exact ⟨trivial, h1⟩, by simp [toStatic, fmtRs, h2]⟩
  | .array t n, loc, l, hk, h => by
      rw [All] at hk
      rw [fmt] at h
      split at h
      · cases h
      · obtain ⟨x, hx, -⟩ := map_some h
        obtain ⟨h1, y, h2⟩ := thunkOk hn t _ x hk.2 hx
        exact ⟨by rw [All]; exact ⟨trivial, h1⟩, by simp [toStatic, fmtRs, h2]⟩
  | .gen g ts, loc, l, hk, h => by
      rw [All] at hk
      obtain ⟨loc', u, x, hx⟩ := fmts_of_gen h
      obtain ⟨h1, -, ⟨y, h2⟩, h3⟩ := thunkOks hn ts loc' u x hk.2 hx
      refine ⟨by rw [All]; exact ⟨trivial, h1⟩, ?_⟩
      cases g with
      | option => simp [toStatic, fmtRs, h2]
      | result => simp [toStatic, fmtRs, h2]
      | vec =>
        obtain ⟨a, rfl⟩ := hk.1
        obtain ⟨z, hz⟩ := h3 a _ rfl
        simp [toStatic, toStatics, fmtRs, fmtRsFirst, hz]
  | .rvref b lf t, loc, l, hk, h => by
      rw [All] at hk
      rw [fmt] at h
      have : ThunkOk named t := by
        rcases ptrToks_some h with rfl | ⟨x, hx⟩
        · exact thunkOk_cvoid
        · exact thunkOk hn t _ x hk.2 hx
      obtain ⟨h1, y, h2⟩ := this
      exact ⟨by rw [All]; exact ⟨trivial, h1⟩, by simp [toStatic, fmtRs, h2]⟩
  | .maybeUninit t, loc, l, hk, h => by rw [fmt] at h; cases h
  | .slice t, loc, l, hk, h => by rw [fmt] at h; cases h
  | .raw m t, loc, l, hk, h => by
      rw [All] at hk
      rw [fmt] at h
      have : PointeeOk named t := by
        rcases pointerToks_some h with ⟨e, x, rfl, hx⟩ | ⟨e, rfl, he⟩ | rfl | ⟨x, hx⟩
        · rw [fmtInner] at hx
          have h5 := hk.2
          rw [All] at h5
          exact .inl (thunkOk hn e _ x h5.2 hx).slice
        · rw [fmtInner] at he
          have h5 := hk.2
          rw [All] at h5
          rcases he with rfl | ⟨x, hx⟩
          · exact .inr ⟨_, rfl, thunkOk_cvoid⟩
          · exact .inr ⟨_, rfl, thunkOk hn e _ x h5.2 hx⟩
        · exact .inl thunkOk_cvoid
        · exact .inl (thunkOk hn t _ x hk.2 hx)
      obtain ⟨y, hy⟩ := this.pointee
      exact ⟨by rw [All]; exact ⟨trivial, this.mono⟩, by simp [toStatic, fmtRs, hy]⟩
  | .ref lf m t, loc, l, hk, h => by
      rw [All] at hk
      rw [fmt] at h
      have : (t = .str ∧ m = false) ∨ PointeeOk named t := by
        rcases refToks_some h with hs | ⟨e, x, rfl, hx⟩ | ⟨e, rfl, he⟩ | rfl | ⟨x, hx⟩
        · exact .inl hs
        · rw [fmtInner] at hx
          have h5 := hk.2
          rw [All] at h5
          exact .inr (.inl (thunkOk hn e _ x h5.2 hx).slice)
        · rw [fmtInner] at he
          have h5 := hk.2
          rw [All] at h5
          rcases he with rfl | ⟨x, hx⟩
          · exact .inr (.inr ⟨_, rfl, thunkOk_cvoid⟩)
          · exact .inr (.inr ⟨_, rfl, thunkOk hn e _ x h5.2 hx⟩)
        · exact .inr (.inl thunkOk_cvoid)
        · exact .inr (.inl (thunkOk hn t _ x hk.2 hx))
      rcases this with ⟨rfl, rfl⟩ | this
      · exact ⟨by simp [All, monoNode], by simp [toStatic, fmtRs, rsLife, fmtRsReferent]⟩
      · obtain ⟨y, hy⟩ := this.referent m
        exact ⟨by rw [All]; exact ⟨trivial, this.mono⟩, by simp [toStatic, fmtRs, rsLife, hy]⟩
  | .fn g u abi v r ps, loc, l, hk, h => by
      rw [All] at hk
      rw [fmt] at h
      split at h
      · cases h
      · rename_i hc
        simp only [Bool.or_eq_true, not_or] at hc
        obtain ⟨⟨⟨⟨hg, hv⟩, -⟩, -⟩, -⟩ := hc
        cases hr : fmt D (.ret false) r with
        | none => rw [hr] at h; cases h
        | some x =>
          cases hp : fmts D (.param false (hasElided r)) false ps with
          | none => rw [hr, hp] at h; cases h
          | some y =>
            obtain ⟨h1, z, h2⟩ := thunkOk hn r _ x hk.2.1 hr
            obtain ⟨h3, -, ⟨w, h4⟩, -⟩ := thunkOks hn ps _ _ y hk.2.2 hp
            have hg' : g = false := by cases g <;> simp at hg ⊢
            have hv' : v = false := by cases v <;> simp at hv ⊢
            subst hg' hv'
            refine ⟨by rw [All]; exact ⟨rfl, h1, h3⟩, ?_⟩
            rw [toStatic, fmtRs, h2, h4]
            simp only [Bool.false_eq_true, if_false, rsFn]
            split <;> exact ⟨_, rfl⟩
theorem thunkOks (hn : ∀ n, D.supported n = true → named n = true) :
    ∀ (ts : RTys) (loc : Loc) (u : Bool) (l : List Tok), Alls kindNode ts → fmts D loc u ts = some l →
      ThunkOks named ts
  | .nil, _, _, _, _, _ => ⟨trivial, ⟨_, by rw [toStatics, fmtRsEach]⟩, ⟨_, by rw [toStatics, fmtRsSep]⟩, nofun⟩
  | .cons t ts, loc, u, l, hk, h => by
      rw [Alls] at hk
      rw [fmts] at h
      cases h1 : argToks u t (fmt D loc t) with
      | none => rw [h1] at h; cases h
      | some x =>
        cases h2 : fmts D loc u ts with
        | none => rw [h1, h2] at h; cases h
        | some y =>
          have ht : ThunkOk named t := by
            unfold argToks at h1
            split at h1
            · rename_i hu
              simp only [Bool.and_eq_true] at hu
              rw [isUnit_iff hu.2]
              exact ⟨by simp [All, Alls, monoNode], by simp [toStatic, toStatics, fmtRs, fmtRsEach]⟩
            · exact thunkOk hn t loc x hk.1 h1
          obtain ⟨h3, ⟨p, h4⟩, ⟨q, h5⟩, -⟩ := thunkOks hn ts loc u y hk.2 h2
          obtain ⟨h6, r, h7⟩ := ht
          refine ⟨⟨h6, h3⟩, ?_, ?_, ?_⟩
          · rw [toStatics, fmtRsEach, h7, h4]; exact ⟨_, rfl⟩
          · rw [toStatics, fmtRsSep, h7, h5]; exact ⟨_, rfl⟩
          · rintro _ _ ⟨⟩; exact ⟨_, h7⟩
end

/-- C165: a type that has a C++ spelling has a Rust spelling in thunks: that of the same type with the lifetime
`'static` everywhere. -/
theorem thunk_type_exact (t : RTy) (loc : Loc) (l : List Tok) (hn : ∀ n, D.supported n = true → named n = true)
    (hk : All kindNode t) (h : fmt D loc t = some l) :
    ∃ l' t', fmtRs named (toStatic t) = some l' ∧ rsTypeOf l' = some t' ∧ erase t' = erase t ∧ All staticNode t' := by
  obtain ⟨h1, l', h2⟩ := thunkOk hn t loc l hk h
  have hs := static_toStatic t
  exact ⟨l', toStatic t, h2, rs_type_exact _ _ (all_mono static_written _ hs) (all_toStatic mono_static _ h1)
    (all_toStatic kind_static _ hk) h2, erase_toStatic t, hs⟩

end Verif.RsTypes

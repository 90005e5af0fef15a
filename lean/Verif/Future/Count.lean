import Verif.Future.Refine

/-!
# Rust futures polled from C++: counting
-/

namespace Verif.Future

variable {α : Type}

theorem Count.add {f : Nat → α} {P : α → Prop} {n i : Nat} {v : α} (h : Count f P n)
    (h1 : ¬ P (f i)) (h2 : P v) : Count (upd f i v) P (n + 1) := by
  obtain ⟨ids, hn, hm, hl⟩ := h
  have hi : i ∉ ids := fun hi => h1 ((hm i).mp hi)
  refine ⟨i :: ids, List.nodup_cons.mpr ⟨hi, hn⟩, ?_, by simp [hl]⟩
  intro j
  by_cases hj : j = i
  · subst hj; simp [upd_same, h2]
  · rw [upd_ne _ _ hj]; simp [hj, hm]

theorem Count.del {f : Nat → α} {P : α → Prop} {n i : Nat} {v : α} (h : Count f P n)
    (h1 : P (f i)) (h2 : ¬ P v) : ∃ m, n = m + 1 ∧ Count (upd f i v) P m := by
  obtain ⟨ids, hn, hm, hl⟩ := h
  have hi : i ∈ ids := (hm i).mpr h1
  have hlen := List.length_erase_of_mem hi
  have hpos := List.length_pos_of_mem hi
  refine ⟨(ids.erase i).length, by omega, ids.erase i, hn.erase i, ?_, rfl⟩
  intro j
  rw [hn.mem_erase_iff]
  by_cases hj : j = i
  · subst hj; simp [upd_same, h2]
  · rw [upd_ne _ _ hj]; simp [hj, hm]

theorem Count.same {f : Nat → α} {P : α → Prop} {n i : Nat} {v : α} (h : Count f P n)
    (h1 : P v ↔ P (f i)) : Count (upd f i v) P n := by
  obtain ⟨ids, hn, hm, hl⟩ := h
  refine ⟨ids, hn, ?_, hl⟩
  intro j
  by_cases hj : j = i
  · subst hj; rw [upd_same, h1, hm]
  · rw [upd_ne _ _ hj, hm]

theorem Count.zero {f : Nat → α} {P : α → Prop} (h : Count f P 0) (i : Nat) : ¬ P (f i) := by
  obtain ⟨ids, -, hm, hl⟩ := h
  have : ids = [] := List.length_eq_zero_iff.mp hl
  subst this
  exact fun hp => by simpa using (hm i).mpr hp

theorem Count.pos {f : Nat → α} {P : α → Prop} {n : Nat} (h : Count f P n) {i : Nat} (hi : P (f i)) :
    0 < n := by
  rcases Nat.eq_zero_or_pos n with h0 | h0
  · subst h0; exact absurd hi (h.zero i)
  · exact h0

theorem Count.none {P : α → Prop} {v : α} (h : ¬ P v) : Count (fun _ => v) P 0 :=
  ⟨[], by simp, by simp [h], rfl⟩

/-! ## Wakers -/

/-- The events of a step, as far as wakers go. -/
theorem given_append (api : Api) (p : Nat) (a b : List Ev) :
    given api p (a ++ b) = given api p a + given api p b := List.countP_append
theorem givenBack_append (api : Api) (p : Nat) (a b : List Ev) :
    givenBack api p (a ++ b) = givenBack api p a + givenBack api p b := List.countP_append
theorem ended_append (f : Nat) (a b : List Ev) :
    ended f (a ++ b) = ended f a + ended f b := List.countP_append
theorem made_cons (f : Nat) (a : Act) (as : List Act) :
    made f (a :: as) = made f [a] + made f as := by
  rw [made, made, made, ← List.countP_append]; rfl

/-- The wakers of the specification are accounted for. -/
def Acc (s : SSt) : Prop :=
  ∀ api p, ∃ n, Count s.wakers (· = some (api, p)) n ∧ given api p s.log = givenBack api p s.log + n

theorem acc_init : Acc SSt.init := fun _ _ => ⟨0, Count.none (by simp), rfl⟩

/-- Steps that are not about wakers. -/
theorem Acc.other {s s' : SSt} (h : Acc s) (h1 : s'.wakers = s.wakers) (es : List Ev)
    (h2 : s'.log = s.log ++ es)
    (h3 : ∀ api p, given api p es = 0 ∧ givenBack api p es = 0) : Acc s' := by
  intro api p
  obtain ⟨n, hc, he⟩ := h api p
  refine ⟨n, by rw [h1]; exact hc, ?_⟩
  rw [h2, given_append, givenBack_append, (h3 api p).1, (h3 api p).2]
  omega

theorem Acc.clone {s s' : SSt} (h : Acc s) {i : Nat} {api : Api} {q r : Nat}
    (hi : s.wakers i = none) (h1 : s'.wakers = upd s.wakers i (some (api, r)))
    (h2 : s'.log = s.log ++ [.call api (.clone q r)]) : Acc s' := by
  intro api' p
  obtain ⟨n, hc, he⟩ := h api' p
  rw [h1, h2, given_append, givenBack_append]
  by_cases hp : (api', p) = (api, r)
  · refine ⟨n + 1, hc.add (by simp [hi]) (by simp [hp]), ?_⟩
    simp only [Prod.mk.injEq] at hp
    simp [given, givenBack, hp] at he ⊢
    omega
  · refine ⟨n, hc.same (by simp [hi]; exact fun a b => hp (by rw [a, b])), ?_⟩
    have : ¬ (api = api' ∧ r = p) := fun ⟨a, b⟩ => hp (by rw [a, b])
    simp [given, givenBack, this] at he ⊢
    omega

theorem Acc.back {s s' : SSt} (h : Acc s) {i : Nat} {api : Api} {q : Nat} {c : VCall}
    (hi : s.wakers i = some (api, q)) (h1 : s'.wakers = upd s.wakers i none)
    (hcall : c = .destroy q ∨ c = .wakeAndDestroy q)
    (h2 : s'.log = s.log ++ [.call api c]) : Acc s' := by
  intro api' p
  obtain ⟨n, hc, he⟩ := h api' p
  rw [h1, h2, given_append, givenBack_append]
  by_cases hp : (api', p) = (api, q)
  · obtain ⟨m, hm, hc'⟩ := hc.del (i := i) (v := none) (by simp [hi, hp]) (by simp)
    refine ⟨m, hc', ?_⟩
    simp only [Prod.mk.injEq] at hp
    rcases hcall with rfl | rfl <;> simp [given, givenBack, hp] at he ⊢ <;> omega
  · have : ¬ (api = api' ∧ q = p) := fun ⟨a, b⟩ => hp (by rw [a, b])
    refine ⟨n, hc.same (by simp [hi]; exact fun a b => this ⟨a, b⟩), ?_⟩
    rcases hcall with rfl | rfl <;> simp [given, givenBack, this] at he ⊢ <;> omega

/-- What one step of the specification does to wakers. -/
inductive WStep (s : SSt) (s' : SSt) : Act → Prop where
  | other {a : Act} (es : List Ev) (h1 : s'.wakers = s.wakers) (h2 : s'.log = s.log ++ es)
      (h3 : ∀ api c, Ev.call api c ∉ es) : WStep s s' a
  | byRef {a : Act} {api : Api} {p : Nat} (h1 : s'.wakers = s.wakers)
      (h2 : s'.log = s.log ++ [.call api (.wakeByRef p)])
      (h3 : (∃ x h out, s.vars x = some (api, h) ∧ s.polls x = some (p, out)) ∨
        ∃ i, s.wakers i = some (api, p)) : WStep s s' a
  | clone {a : Act} {api : Api} {p r i : Nat} (hi : s.wakers i = none)
      (h1 : s'.wakers = upd s.wakers i (some (api, r)))
      (h2 : s'.log = s.log ++ [.call api (.clone p r)])
      (h3 : (∃ x h out, s.vars x = some (api, h) ∧ s.polls x = some (p, out)) ∨
        ∃ i, s.wakers i = some (api, p))
      (h4 : (∃ x, a = .ctxClone x r i ∧ ∃ h out, s.vars x = some (api, h) ∧ s.polls x = some (p, out)) ∨
        ∃ k, a = .clone k r i ∧ s.wakers k = some (api, p)) : WStep s s' a
  | back {a : Act} {api : Api} {p i : Nat} {c : VCall} (hi : s.wakers i = some (api, p))
      (h1 : s'.wakers = upd s.wakers i none) (hc : c = .destroy p ∨ c = .wakeAndDestroy p)
      (h2 : s'.log = s.log ++ [.call api c]) : WStep s s' a

theorem drops_no_call (h : Held) (api : Api) (c : VCall) : Ev.call api c ∉ h.drops := by
  cases h <;> simp [Held.drops]

theorem wstep {s s' : SSt} {a : Act} (h : s.step a = some s') : WStep s s' a := by
  cases a with
  | ctxClone x r i =>
      simp only [SSt.step] at h
      split at h
      · rename_i api f w out hv hp hi
        injection h with h
        subst h
        exact .clone hi rfl rfl (.inl ⟨x, _, out, hv, hp⟩) (.inl ⟨x, rfl, _, out, hv, hp⟩)
      · cases h
  | ctxWake x =>
      simp only [SSt.step] at h
      split at h
      · rename_i api f w out hv hp
        injection h with h
        subst h
        exact .byRef rfl rfl (.inl ⟨x, _, out, hv, hp⟩)
      · cases h
  | clone i r j =>
      simp only [SSt.step] at h
      split at h
      · rename_i api p hv hj
        injection h with h
        subst h
        exact .clone hj rfl rfl (.inr ⟨i, hv⟩) (.inr ⟨i, rfl, hv⟩)
      · cases h
  | wake i =>
      simp only [SSt.step] at h
      split at h
      · rename_i api p hv
        injection h with h
        subst h
        exact .back hv rfl (.inr rfl) rfl
      · cases h
  | drop i =>
      simp only [SSt.step] at h
      split at h
      · rename_i api p hv
        injection h with h
        subst h
        exact .back hv rfl (.inl rfl) rfl
      · cases h
  | wakeByRef i =>
      simp only [SSt.step] at h
      split at h
      · rename_i api p hv
        injection h with h
        subst h
        exact .byRef rfl rfl (.inr ⟨i, hv⟩)
      · cases h
  | finish x r =>
      cases r with
      | none =>
          simp only [SSt.step] at h
          split at h
          · injection h with h
            subst h
            exact .other _ rfl rfl (by simp)
          · cases h
      | some v =>
          simp only [SSt.step] at h
          split at h
          · injection h with h
            subst h
            exact .other _ rfl rfl (by simp)
          · split at h
            · injection h with h
              subst h
              exact .other _ rfl rfl (by simp)
            · cases h
          · cases h
  | create x f =>
      simp only [SSt.step] at h
      split at h <;> cases h
      exact .other [] rfl (by simp) (by simp)
  | moveTo x f =>
      simp only [SSt.step] at h
      split at h <;> cases h
      exact .other [] rfl (by simp) (by simp)
  | relocate x f =>
      simp only [SSt.step] at h
      split at h <;> cases h
      exact .other [] rfl (by simp) (by simp)
  | dynNew x f =>
      simp only [SSt.step] at h
      split at h <;> cases h
      exact .other [] rfl (by simp) (by simp)
  | dynDefault x =>
      simp only [SSt.step] at h
      split at h <;> cases h
      exact .other [] rfl (by simp) (by simp)
  | destroy x =>
      simp only [SSt.step] at h
      split at h <;> cases h
      exact .other _ rfl rfl (drops_no_call _)
  | dynDiscard x =>
      simp only [SSt.step] at h
      split at h <;> cases h
      exact .other _ rfl rfl (drops_no_call _)
  | dynDrop x =>
      simp only [SSt.step] at h
      split at h <;> cases h
      exact .other _ rfl rfl (drops_no_call _)
  | dynAsk x =>
      simp only [SSt.step] at h
      split at h <;> cases h
      exact .other _ rfl rfl (by simp)
  | dynInto x =>
      simp only [SSt.step] at h
      split at h <;> cases h
      exact .other _ rfl rfl (by simp)
  | begin x w out =>
      simp only [SSt.step] at h
      split at h <;> cases h
      · exact .other _ rfl rfl (by simp)
      · exact .other _ rfl rfl (by simp)
      · exact .other _ rfl rfl (by simp)

theorem no_calls {es : List Ev} (h : ∀ api c, Ev.call api c ∉ es) (api : Api) (p : Nat) :
    given api p es = 0 ∧ givenBack api p es = 0 := by
  simp only [given, givenBack, List.countP_eq_zero]
  constructor <;> intro e he <;> cases e <;> simp
  all_goals exact absurd he (h _ _)

theorem Acc.step {s s' : SSt} {a : Act} (h : Acc s) (hs : s.step a = some s') : Acc s' := by
  cases wstep hs with
  | other es h1 h2 h3 => exact h.other h1 es h2 (no_calls h3)
  | byRef h1 h2 h3 => exact h.other h1 _ h2 (fun _ _ => by simp [given, givenBack])
  | clone hi h1 h2 h3 h4 => exact h.clone hi h1 h2
  | back hi h1 hc h2 => exact h.back hi h1 hc h2

theorem Acc.run {s s' : SSt} {as : List Act} (h : Acc s) (hs : s.run as = some s') : Acc s' := by
  induction as generalizing s with
  | nil => simp only [SSt.run, Option.some.injEq] at hs; exact hs ▸ h
  | cons a as ih =>
      simp only [SSt.run] at hs
      cases h1 : s.step a with
      | none => rw [h1] at hs; cases hs
      | some s1 => rw [h1] at hs; exact ih (h.step h1) hs

/-! ## Futures -/

/-- The future a variable holds. -/
def Held.future : Held → Option Nat
  | .running f => some f
  | .finished f => some f
  | .nothing => none

/-- A variable holds the future. -/
def Holds (f : Nat) (o : Option (Api × Held)) : Prop := ∃ api h, o = some (api, h) ∧ h.future = some f

theorem holds_some (f : Nat) (api : Api) (h : Held) : Holds f (some (api, h)) ↔ h.future = some f := by
  constructor
  · rintro ⟨a, h', e, hf⟩
    injection e with e
    cases e
    exact hf
  · exact fun hf => ⟨api, h, rfl, hf⟩

theorem holds_none (f : Nat) : ¬ Holds f none := by rintro ⟨_, _, h, _⟩; cases h

theorem ended_drops (f : Nat) (h : Held) : ended f h.drops = if h.future = some f then 1 else 0 := by
  cases h <;> simp [ended, Held.drops, Held.future]
  all_goals
    rename_i g
    by_cases hg : g = f <;> simp [hg]

/-- The futures of the specification are accounted for. -/
def FAcc (s : SSt) (m : Nat → Nat) : Prop :=
  ∀ f, ∃ n, Count s.vars (Holds f) n ∧ m f = ended f s.log + n

theorem FAcc.step {s s' : SSt} {m : Nat → Nat} {a : Act} (h : FAcc s m) (hs : s.step a = some s') :
    FAcc s' (fun f => m f + made f [a]) := by
  intro f
  obtain ⟨n, hc, he⟩ := h f
  have new : ∀ (x g : Nat) (api : Api), s.vars x = none →
      ∃ k, Count (upd s.vars x (some (api, .running g))) (Holds f) k ∧
        k = n + (if g = f then 1 else 0) := by
    intro x g api hx
    by_cases hg : g = f
    · exact ⟨n + 1, hc.add (by rw [hx]; exact holds_none f)
        ((holds_some ..).mpr (by simp [Held.future, hg])), by simp [hg]⟩
    · exact ⟨n, hc.same (by
        rw [hx, holds_some]
        simp [Held.future, hg, holds_none]), by simp [hg]⟩
  have gone : ∀ (x : Nat) (api : Api) (h : Held) (nv : Option (Api × Held)), s.vars x = some (api, h) →
      ¬ Holds f nv → ∃ k, Count (upd s.vars x nv) (Holds f) k ∧
        n = (if h.future = some f then 1 else 0) + k := by
    intro x api h nv hx hnv
    by_cases hf : h.future = some f
    · obtain ⟨k, hk, hck⟩ := hc.del (i := x) (v := nv) (by rw [hx, holds_some]; exact hf) hnv
      exact ⟨k, hck, by simp [hf]; omega⟩
    · exact ⟨n, hc.same (by rw [hx, holds_some]; simp [hf, hnv]), by simp [hf]⟩
  have keep : ∀ (x : Nat) (api : Api) (h h' : Held), s.vars x = some (api, h) →
      h'.future = h.future → Count (upd s.vars x (some (api, h'))) (Holds f) n := by
    intro x api h h' hx hh
    exact hc.same (by rw [hx, holds_some, holds_some, hh])
  have hnn : ∀ api, ¬ Holds f (some (api, .nothing)) := by
    intro api
    rw [holds_some]
    simp [Held.future]
  have fresh : ∀ {y x : Nat} {api : Api} {h : Held}, s.vars y = none → s.vars x = some (api, h) → x ≠ y := by
    intro y x api h hy hx e
    rw [e, hy] at hx; cases hx
  have move : ∀ (y x : Nat) (h : Held) (nv : Option (Api × Held)), s.vars y = none →
      s.vars x = some (.erased, h) → ¬ Holds f nv →
      Count (upd (upd s.vars y (some (.erased, h))) x nv) (Holds f) n := by
    intro y x h nv hy hx hnv
    have hxy := fresh hy hx
    by_cases hf : h.future = some f
    · have h1 := hc.add (i := y) (v := some (Api.erased, h)) (by rw [hy]; exact holds_none f)
        ((holds_some ..).mpr hf)
      obtain ⟨k, hk, hck⟩ := h1.del (i := x) (v := nv)
        (by rw [upd_ne _ _ hxy, hx, holds_some]; exact hf) hnv
      have : k = n := by omega
      exact this ▸ hck
    · have h1 := hc.same (i := y) (v := some (Api.erased, h))
        (by rw [hy, holds_some]; simp [hf, holds_none])
      exact h1.same (by rw [upd_ne _ _ hxy, hx, holds_some]; simp [hf, hnv])
  cases a with
  | create x g =>
      simp only [SSt.step] at hs
      split at hs <;> cases hs
      rename_i hx
      obtain ⟨k, hk, e⟩ := new x g .erased hx
      exact ⟨k, hk, by simp [made, he, e]; split <;> simp_all <;> omega⟩
  | dynNew x g =>
      simp only [SSt.step] at hs
      split at hs <;> cases hs
      rename_i hx
      obtain ⟨k, hk, e⟩ := new x g .dyn hx
      exact ⟨k, hk, by simp [made, he, e]; split <;> simp_all <;> omega⟩
  | dynDefault x =>
      simp only [SSt.step] at hs
      split at hs <;> cases hs
      rename_i hx
      exact ⟨n, hc.same (by rw [hx]; simp [hnn, holds_none]), by simp [made, he]⟩
  | moveTo y x =>
      simp only [SSt.step] at hs
      split at hs <;> cases hs
      rename_i hy hx hp
      exact ⟨n, move y x _ _ hy hx (hnn _), by simp [made, he]⟩
  | relocate y x =>
      simp only [SSt.step] at hs
      split at hs <;> cases hs
      rename_i hy hx hp
      exact ⟨n, move y x _ _ hy hx (holds_none f), by simp [made, he]⟩
  | destroy x =>
      simp only [SSt.step] at hs
      split at hs <;> cases hs
      rename_i hx hp
      obtain ⟨k, hk, e⟩ := gone x _ _ none hx (holds_none f)
      exact ⟨k, hk, by simp only [SSt.emit, ended_append, ended_drops]; simp [made, he, e]; omega⟩
  | dynDrop x =>
      simp only [SSt.step] at hs
      split at hs <;> cases hs
      rename_i hx hp
      obtain ⟨k, hk, e⟩ := gone x _ _ none hx (holds_none f)
      exact ⟨k, hk, by simp only [SSt.emit, ended_append, ended_drops]; simp [made, he, e]; omega⟩
  | dynDiscard x =>
      simp only [SSt.step] at hs
      split at hs <;> cases hs
      rename_i hx hp
      obtain ⟨k, hk, e⟩ := gone x _ _ (some (.dyn, .nothing)) hx (hnn _)
      exact ⟨k, hk, by simp only [SSt.emit, ended_append, ended_drops]; simp [made, he, e]; omega⟩
  | dynAsk x =>
      simp only [SSt.step] at hs
      split at hs <;> cases hs
      exact ⟨n, hc, by simp only [SSt.emit, ended_append]; simp [made, he, ended]⟩
  | dynInto x =>
      simp only [SSt.step] at hs
      split at hs <;> cases hs
      rename_i h hx hp
      obtain ⟨k, hk, e⟩ := gone x _ _ none hx (holds_none f)
      refine ⟨k, hk, ?_⟩
      simp only [SSt.emit, ended_append]
      simp only [made, he, e]
      cases h with
      | nothing => simp [ended, Held.future]
      | running g => by_cases hg : g = f <;> simp [ended, Held.future, hg]; omega
      | finished g => by_cases hg : g = f <;> simp [ended, Held.future, hg]; omega
  | begin x w out =>
      simp only [SSt.step] at hs
      split at hs <;> cases hs
      all_goals
        refine ⟨n, hc, ?_⟩
        simp only [SSt.emit, ended_append]
        simp [made, he, ended]
  | finish x r =>
      cases r with
      | none =>
          simp only [SSt.step] at hs
          split at hs <;> cases hs
          refine ⟨n, hc, ?_⟩
          simp only [SSt.emit, ended_append]
          simp [made, he, ended]
      | some v =>
          simp only [SSt.step] at hs
          split at hs
          · rename_i g w out hx hp
            injection hs with hs
            subst hs
            refine ⟨n, keep x _ _ _ hx rfl, ?_⟩
            simp only [SSt.emit, ended_append]
            cases v <;> simp [made, he, ended]
          · rename_i g w hx hp
            split at hs
            · injection hs with hs
              subst hs
              obtain ⟨k, hk, e⟩ := gone x _ _ (some (.dyn, .nothing)) hx (hnn _)
              refine ⟨k, hk, ?_⟩
              simp only [SSt.emit, ended_append]
              simp only [made, he, e]
              by_cases hg : g = f <;> simp [ended, Held.future, hg]
              omega
            · cases hs
          · cases hs
  | ctxClone x r i =>
      simp only [SSt.step] at hs
      split at hs <;> cases hs
      exact ⟨n, hc, by simp only [SSt.emit, ended_append]; simp [made, he, ended]⟩
  | ctxWake x =>
      simp only [SSt.step] at hs
      split at hs <;> cases hs
      exact ⟨n, hc, by simp only [SSt.emit, ended_append]; simp [made, he, ended]⟩
  | clone i r j =>
      simp only [SSt.step] at hs
      split at hs <;> cases hs
      exact ⟨n, hc, by simp only [SSt.emit, ended_append]; simp [made, he, ended]⟩
  | wake i =>
      simp only [SSt.step] at hs
      split at hs <;> cases hs
      exact ⟨n, hc, by simp only [SSt.emit, ended_append]; simp [made, he, ended]⟩
  | wakeByRef i =>
      simp only [SSt.step] at hs
      split at hs <;> cases hs
      exact ⟨n, hc, by simp only [SSt.emit, ended_append]; simp [made, he, ended]⟩
  | drop i =>
      simp only [SSt.step] at hs
      split at hs <;> cases hs
      exact ⟨n, hc, by simp only [SSt.emit, ended_append]; simp [made, he, ended]⟩

theorem FAcc.run {s s' : SSt} {m : Nat → Nat} {as : List Act} (h : FAcc s m) (hs : s.run as = some s') :
    FAcc s' (fun f => m f + made f as) := by
  induction as generalizing s m with
  | nil =>
      simp only [SSt.run, Option.some.injEq] at hs
      subst hs
      intro f
      obtain ⟨n, h1, h2⟩ := h f
      exact ⟨n, h1, by simp [made, h2]⟩
  | cons a as ih =>
      simp only [SSt.run] at hs
      cases h1 : s.step a with
      | none => rw [h1] at hs; cases hs
      | some s1 =>
          rw [h1] at hs
          intro f
          obtain ⟨n, h2, h3⟩ := ih (h.step h1) hs f
          refine ⟨n, h2, ?_⟩
          have h3' : m f + made f [a] + made f as = ended f s'.log + n := h3
          simp only [made_cons f a as]
          omega

end Verif.Future

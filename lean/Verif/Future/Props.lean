import Verif.Future.Count

/-!
# Rust futures polled from C++: properties
-/

namespace Verif.Future

theorem abs_init : abs St.init = SSt.init := SSt.ext' rfl rfl rfl rfl

/-- C84: every schedule that respects the documented requirements has exactly the effects the
specification describes, and no step meets a dead box. -/
theorem behaviour (as : List Act) :
    (St.init.run as).map St.log = (SSt.init.run as).map SSt.log := by
  have h := (run_ok St.init inv_init as).1
  rw [abs_init] at h
  rw [← h]
  cases St.init.run as <;> rfl

/-- C84: the boxes that exist are exactly the boxes of the variables, one each; so once all variables
are gone, nothing is left in memory. -/
theorem boxes (as : List Act) (s : St) (h : St.init.run as = some s) :
    (∀ b, (s.heap b).isSome ↔ ∃ x v, s.vars x = some v ∧ v.box = some b) ∧
    (∀ x y v w b, s.vars x = some v → s.vars y = some w → v.box = some b → w.box = some b → x = y) ∧
    ((∀ x, s.vars x = none) → ∀ b, s.heap b = none) := by
  have hi := (run_ok St.init inv_init as).2 s h
  refine ⟨fun b => ⟨hi.owned b, fun ⟨x, v, hx, hv⟩ => hi.live x v b hx hv⟩, hi.inj, ?_⟩
  intro hv b
  cases hb : s.heap b with
  | none => rfl
  | some f =>
      obtain ⟨x, v, hx, -⟩ := hi.owned b (by simp [hb])
      rw [hv x] at hx; cases hx

theorem run_abs {as : List Act} {s : St} (h : St.init.run as = some s) :
    SSt.init.run as = some (abs s) := by
  have := (run_ok St.init inv_init as).1
  rw [abs_init, h] at this
  exact this.symm

/-- C85: each future that a schedule makes ends at most as often as it was made; the difference is the
number of variables that hold it. -/
theorem futures_accounted (as : List Act) (s : St) (h : St.init.run as = some s) (f : Nat) :
    ∃ n, Count s.vars (fun o => ∃ v b d, o = some v ∧ v.box = some b ∧ s.heap b = some (.user f d)) n ∧
      made f as = ended f s.log + n := by
  have h0 : FAcc SSt.init (fun _ => 0) := fun f => ⟨0, Count.none (holds_none f), rfl⟩
  obtain ⟨n, ⟨ids, hn, hm, hl⟩, he⟩ := h0.run (run_abs h) f
  refine ⟨n, ⟨ids, hn, ?_, hl⟩, by simpa [abs] using he⟩
  intro i
  rw [hm]
  simp only [abs]
  cases hv : s.vars i with
  | none => simp [holds_none]
  | some v =>
      rw [Option.map_some, holds_some]
      constructor
      · intro hf
        unfold heldOf at hf
        cases hb : v.box with
        | none => rw [hb] at hf; simp [Held.future] at hf
        | some b =>
            rw [hb] at hf
            simp only [Option.bind_some] at hf
            cases hh : s.heap b with
            | none => rw [hh] at hf; simp [Held.future] at hf
            | some u =>
                rw [hh] at hf
                cases u with
                | pending => simp [Fut.held, Held.future] at hf
                | user g d =>
                    have : g = f := by cases d <;> simpa [Fut.held, Held.future] using hf
                    exact ⟨v, b, d, rfl, hb, by rw [hh, this]⟩
      · rintro ⟨v', b, d, e, hb, hh⟩
        injection e with e
        subst e
        simp only [heldOf, hb, Option.bind_some, hh]
        cases d <;> rfl

/-- C85: a future that is made once ends at most once; and exactly once when all variables are gone. -/
theorem futures_end_once (as : List Act) (s : St) (h : St.init.run as = some s) (f : Nat)
    (hm : made f as = 1) :
    ended f s.log ≤ 1 ∧ ((∀ x, s.vars x = none) → ended f s.log = 1) := by
  obtain ⟨n, hc, he⟩ := futures_accounted as s h f
  refine ⟨by omega, fun hv => ?_⟩
  obtain ⟨ids, -, hi, hl⟩ := hc
  cases ids with
  | nil => simp at hl; omega
  | cons i ids =>
      obtain ⟨v, _, _, e, -⟩ := (hi i).mp (by simp)
      rw [hv i] at e; cases e

/-- C86: every C++ waker object that `Clone()` gave to Rust is given back once for each time, or is
still held by a Rust waker. -/
theorem wakers_accounted (as : List Act) (s : St) (h : St.init.run as = some s) (api : Api) (p : Nat) :
    ∃ n, Count s.wakers (· = some ⟨p, api⟩) n ∧
      given api p s.log = givenBack api p s.log + n := by
  obtain ⟨n, ⟨ids, hn, hm, hl⟩, he⟩ := acc_init.run (run_abs h) api p
  refine ⟨n, ⟨ids, hn, ?_, hl⟩, he⟩
  intro i
  rw [hm]
  simp only [abs]
  cases s.wakers i with
  | none => simp
  | some w => cases w; simp; exact And.comm

/-- C86: when a call reaches a C++ waker object, the object is either lent to a poll that is under way
— and then it is not given back by that call — or has been given out more often than given back. -/
theorem wakers_alive (as : List Act) (s s' : St) (a : Act) (api : Api) (c : VCall)
    (h : St.init.run as = some s) (hs : s.step a = some s')
    (hc : ∃ es, s'.log = s.log ++ es ∧ Ev.call api c ∈ es) :
    (c.givesBack = false ∧ ∃ x out, s.polls x = some (⟨c.object, api⟩, out)) ∨
    givenBack api c.object s.log < given api c.object s.log := by
  have hi := (run_ok St.init inv_init as).2 s h
  have hst := (step_ok s hi a).1
  rw [hs] at hst
  have hacc := acc_init.run (run_abs h)
  have lent : ∀ x hd out p, (abs s).vars x = some (api, hd) → (abs s).polls x = some (p, out) →
      ∃ x out, s.polls x = some (⟨p, api⟩, out) := by
    intro x hd out p hx hp
    simp only [abs] at hx hp
    cases hpx : s.polls x with
    | none => rw [hpx] at hp; simp at hp
    | some q =>
        obtain ⟨v, hv, hvt, -⟩ := hi.polled x q hpx
        rw [hpx] at hp
        rw [hv] at hx
        simp only [Option.map_some, Option.some.injEq, Prod.mk.injEq] at hp hx
        refine ⟨x, q.2, ?_⟩
        obtain ⟨⟨d, vt⟩, o⟩ := q
        simp_all
  have held : ∀ i p, (abs s).wakers i = some (api, p) →
      givenBack api p s.log < given api p s.log := by
    intro i p hw
    obtain ⟨n, hcn, he⟩ := hacc api p
    have := hcn.pos (i := i) hw
    have e1 : (abs s).log = s.log := rfl
    rw [e1] at he
    omega
  obtain ⟨es, hes, hmem⟩ := hc
  have hlog : ∀ es', (abs s').log = (abs s).log ++ es' → Ev.call api c ∈ es' := by
    intro es' h'
    have : s.log ++ es = s.log ++ es' := hes.symm.trans h'
    exact (List.append_cancel_left this) ▸ hmem
  cases wstep hst.symm with
  | other es' h1 h2 h3 => exact absurd (hlog es' h2) (h3 _ _)
  | byRef h1 h2 h3 =>
      have := hlog _ h2
      simp only [List.mem_singleton, Ev.call.injEq] at this
      obtain ⟨rfl, rfl⟩ := this
      rcases h3 with ⟨x, hd, out, hx, hp⟩ | ⟨i, hw⟩
      · exact .inl ⟨rfl, lent x hd out _ hx hp⟩
      · exact .inr (held i _ hw)
  | clone hi' h1 h2 h3 h4 =>
      have := hlog _ h2
      simp only [List.mem_singleton, Ev.call.injEq] at this
      obtain ⟨rfl, rfl⟩ := this
      rcases h3 with ⟨x, hd, out, hx, hp⟩ | ⟨i, hw⟩
      · exact .inl ⟨rfl, lent x hd out _ hx hp⟩
      · exact .inr (held i _ hw)
  | back hi' h1 hc' h2 =>
      have := hlog _ h2
      simp only [List.mem_singleton, Ev.call.injEq] at this
      obtain ⟨rfl, rfl⟩ := this
      rcases hc' with rfl | rfl <;> exact .inr (held _ _ hi')

end Verif.Future

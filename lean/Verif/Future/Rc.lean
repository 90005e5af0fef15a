import Verif.Future.Props

/-!
# Rust futures polled from C++: reference-counted wakers

`waker.h:50–63` suggests implementing `Clone()` by incrementing a reference count and returning `this`,
and `WakeAndDestroy()`, `Destroy()` by decrementing it.  Here is such a C++ program: it makes waker
objects, lends them to polls, and gives up its own reference whenever it likes, but not while the object
is lent.  Nothing is freed too early, and nothing is kept too long.
-/

namespace Verif.Future

/-- What the C++ program does: a step of a schedule, making a waker object, giving one up. -/
inductive Op where
  | act (a : Act)
  | own (api : Api) (p : Nat)
  | disown (api : Api) (p : Nat)
deriving DecidableEq, Repr

/-- Change a count. -/
def upd2 {α : Type} (f : Api → Nat → α) (api : Api) (p : Nat) (v : α) : Api → Nat → α :=
  fun a q => if a = api ∧ q = p then v else f a q

/-- The effect of a virtual call on reference counts; `none`: the object is dead. -/
def rcEv (rc : Api → Nat → Nat) : Ev → Option (Api → Nat → Nat)
  | .call api (.clone p _) => if rc api p = 0 then none else some (upd2 rc api p (rc api p + 1))
  | .call api (.wakeByRef p) => if rc api p = 0 then none else some rc
  | .call api (.destroy p) => if rc api p = 0 then none else some (upd2 rc api p (rc api p - 1))
  | .call api (.wakeAndDestroy p) =>
      if rc api p = 0 then none else some (upd2 rc api p (rc api p - 1))
  | _ => some rc

/-- Several events. -/
def rcEvs (rc : Api → Nat → Nat) : List Ev → Option (Api → Nat → Nat)
  | [] => some rc
  | e :: es => (rcEv rc e).bind fun rc' => rcEvs rc' es

/-- `Clone()` returns `this`. -/
def selfClone : Ev → Bool
  | .call _ (.clone p r) => p = r
  | _ => true

/-- The bindings, the references C++ holds itself, and the counts in the objects. -/
structure W where
  st : St
  own : Api → Nat → Bool
  rc : Api → Nat → Nat

/-- The beginning. -/
def W.init : W := ⟨St.init, fun _ _ => false, fun _ _ => 0⟩

/-- What happens. -/
inductive Out where
  | refused
  | useAfterFree
  | ok (w : W)

/-- C++ lends only objects it holds a reference to. -/
def mayLend (w : W) : Act → Bool
  | .begin x p _ =>
      match w.st.vars x with
      | some v => w.own v.api p
      | none => true
  | _ => true

/-- Is the object lent to a poll under way? -/
def Lent (s : St) (api : Api) (p : Nat) : Prop := ∃ x out, s.polls x = some (⟨p, api⟩, out)

/-- One step of the C++ program and the bindings. -/
inductive W.Step (w : W) : Op → Out → Prop where
  | act {a : Act} {s' : St} {es : List Ev} {rc' : Api → Nat → Nat} (h1 : mayLend w a = true)
      (h2 : w.st.step a = some s') (h3 : s'.log = w.st.log ++ es) (h4 : ∀ e ∈ es, selfClone e = true)
      (h5 : rcEvs w.rc es = some rc') : W.Step w (.act a) (.ok { w with st := s', rc := rc' })
  | fault {a : Act} {s' : St} {es : List Ev} (h1 : mayLend w a = true)
      (h2 : w.st.step a = some s') (h3 : s'.log = w.st.log ++ es) (h4 : ∀ e ∈ es, selfClone e = true)
      (h5 : rcEvs w.rc es = none) : W.Step w (.act a) .useAfterFree
  | own {api : Api} {p : Nat} (h : w.rc api p = 0) :
      W.Step w (.own api p)
        (.ok { w with own := upd2 w.own api p true, rc := upd2 w.rc api p 1 })
  | disown {api : Api} {p : Nat} (h : w.own api p = true) (h' : ¬ Lent w.st api p) :
      W.Step w (.disown api p)
        (.ok { w with own := upd2 w.own api p false, rc := upd2 w.rc api p (w.rc api p - 1) })

/-- Executions. -/
inductive W.Run : W → List Op → Out → Prop where
  | nil (w : W) : W.Run w [] (.ok w)
  | cons {w w' : W} {o : Op} {os : List Op} {r : Out} (h : W.Step w o (.ok w')) (t : W.Run w' os r) :
      W.Run w (o :: os) r
  | fault {w : W} {o : Op} {os : List Op} (h : W.Step w o .useAfterFree) :
      W.Run w (o :: os) .useAfterFree

/-! ## Proof -/

/-- Polls begin only with `begin`. -/
theorem polls_step {s s' : St} {a : Act} (h : s.step a = some s') {x : Nat} {q : RawWaker × Nat}
    (hq : s'.polls x = some q) :
    s.polls x = some q ∨ ∃ v, a = .begin x q.1.data q.2 ∧ s.vars x = some v ∧ q.1.vt = v.api := by
  have del : ∀ (y : Nat), upd s.polls y none x = some q → s.polls x = some q := by
    intro y hy
    by_cases e : x = y
    · rw [e, upd_same] at hy; cases hy
    · rwa [upd_ne _ _ e] at hy
  have freed : ∀ {b : Nat} {s1 : St}, s.free b = some s1 → s1.polls = s.polls := by
    intro b s1 hf
    unfold St.free at hf
    split at hf <;> cases hf <;> rfl
  have freedo : ∀ {o : Option Nat} {s1 : St}, freeOpt s o = some s1 → s1.polls = s.polls := by
    intro o s1 hf
    cases o with
    | none => simp only [freeOpt, Option.some.injEq] at hf; rw [← hf]
    | some b => exact freed hf
  cases a with
  | create y f =>
      simp only [St.step] at h
      split at h <;> cases h
      exact .inl hq
  | moveTo y z =>
      simp only [St.step] at h
      split at h <;> cases h
      exact .inl hq
  | relocate y z =>
      simp only [St.step] at h
      split at h <;> cases h
      exact .inl hq
  | destroy y =>
      simp only [St.step] at h
      split at h
      · simp only [destroyErased, Option.map_eq_some_iff] at h
        obtain ⟨s1, h1, rfl⟩ := h
        exact .inl ((congrFun (freed h1) x) ▸ hq)
      · cases h
  | begin y w out =>
      simp only [St.step] at h
      have key : ∀ (api : Api) (v : Var), s.vars y = some v → api = v.api →
          upd s.polls y (some (⟨w, api⟩, out)) x = some q →
          s.polls x = some q ∨ ∃ v, Act.begin y w out = .begin x q.1.data q.2 ∧ s.vars x = some v ∧
            q.1.vt = v.api := by
        intro api v hv ha hy
        by_cases e : x = y
        · subst e
          rw [upd_same] at hy
          injection hy with hy
          subst hy
          exact .inr ⟨v, rfl, hv, ha⟩
        · rw [upd_ne _ _ e] at hy
          exact .inl hy
      split at h
      · rename_i b hv hp
        unfold beginErased at h
        split at h <;> cases h
        · exact key .erased _ hv rfl hq
        · exact key .erased _ hv rfl hq
      · rename_i o hv hp
        unfold beginDyn at h
        split at h
        · cases h; exact .inl hq
        · split at h <;> cases h
          exact key .dyn _ hv rfl hq
      · cases h
  | finish y r =>
      simp only [St.step] at h
      split at h
      · unfold finishErased at h
        split at h <;> cases h
        · exact .inl (del y hq)
        · exact .inl (del y hq)
      · unfold finishDyn at h
        split at h
        · cases h
          exact .inl (del y hq)
        · simp only [Option.map_eq_some_iff] at h
          obtain ⟨s1, h1, rfl⟩ := h
          simp only [St.emit] at hq
          rw [freed h1] at hq
          exact .inl (del y hq)
        · cases h
      · cases h
  | ctxClone y r i =>
      simp only [St.step] at h
      split at h <;> cases h
      exact .inl hq
  | ctxWake y =>
      simp only [St.step] at h
      split at h <;> cases h
      exact .inl hq
  | clone i r j =>
      simp only [St.step] at h
      split at h <;> cases h
      exact .inl hq
  | wake i =>
      simp only [St.step] at h
      split at h <;> cases h
      exact .inl hq
  | wakeByRef i =>
      simp only [St.step] at h
      split at h <;> cases h
      exact .inl hq
  | drop i =>
      simp only [St.step] at h
      split at h <;> cases h
      exact .inl hq
  | dynNew y f =>
      simp only [St.step] at h
      split at h <;> cases h
      exact .inl hq
  | dynDefault y =>
      simp only [St.step] at h
      split at h <;> cases h
      exact .inl hq
  | dynDiscard y =>
      simp only [St.step] at h
      split at h
      · simp only [Option.map_eq_some_iff] at h
        obtain ⟨s1, h1, rfl⟩ := h
        exact .inl ((congrFun (freedo h1) x) ▸ hq)
      · cases h
  | dynAsk y =>
      simp only [St.step] at h
      split at h <;> cases h
      exact .inl hq
  | dynInto y =>
      simp only [St.step] at h
      split at h <;> cases h
      exact .inl hq
  | dynDrop y =>
      simp only [St.step] at h
      split at h
      · simp only [Option.map_eq_some_iff] at h
        obtain ⟨s1, h1, rfl⟩ := h
        exact .inl ((congrFun (freedo h1) x) ▸ hq)
      · cases h

/-- The invariant. -/
structure WInv (w : W) : Prop where
  inv : Inv w.st
  rc : ∀ api p, ∃ n, Count (abs w.st).wakers (· = some (api, p)) n ∧
    w.rc api p = (if w.own api p then 1 else 0) + n
  lent : ∀ x wk out, w.st.polls x = some (wk, out) → w.own wk.vt wk.data = true

theorem winv_init : WInv W.init where
  inv := inv_init
  rc := fun _ _ => ⟨0, Count.none (by simp), rfl⟩
  lent := by intro x wk out h; cases h

theorem rcEvs_other {rc : Api → Nat → Nat} {es : List Ev} (h : ∀ api c, Ev.call api c ∉ es) :
    rcEvs rc es = some rc := by
  induction es with
  | nil => rfl
  | cons e es ih =>
      have : rcEv rc e = some rc := by
        cases e with
        | call api c => exact absurd (by simp) (h api c)
        | _ => rfl
      simp only [rcEvs, this, Option.bind_some]
      exact ih fun api c hm => h api c (by simp [hm])

theorem WInv.alive {w : W} (h : WInv w) {api : Api} {p : Nat}
    (h3 : (∃ x hd out, (abs w.st).vars x = some (api, hd) ∧ (abs w.st).polls x = some (p, out)) ∨
        ∃ i, (abs w.st).wakers i = some (api, p)) : w.rc api p ≠ 0 := by
  obtain ⟨n, hc, he⟩ := h.rc api p
  rcases h3 with ⟨x, hd, out, hx, hp⟩ | ⟨i, hw⟩
  · simp only [abs] at hx hp
    cases hpx : w.st.polls x with
    | none => rw [hpx] at hp; simp at hp
    | some q =>
        obtain ⟨v, hv, hvt, -⟩ := h.inv.polled x q hpx
        have hl := h.lent x q.1 q.2 hpx
        rw [hpx] at hp
        rw [hv] at hx
        simp only [Option.map_some, Option.some.injEq, Prod.mk.injEq] at hp hx
        rw [hvt, hx.1, hp.1] at hl
        rw [he, hl]
        simp
  · have := hc.pos (i := i) hw
    omega

/-- One step of the bindings. -/
theorem WInv.act {w : W} (h : WInv w) {a : Act} {s' : St} {es : List Ev} (h1 : mayLend w a = true)
    (h2 : w.st.step a = some s') (h3 : s'.log = w.st.log ++ es) (h4 : ∀ e ∈ es, selfClone e = true) :
    ∃ rc', rcEvs w.rc es = some rc' ∧ WInv { w with st := s', rc := rc' } := by
  obtain ⟨hst, hinv⟩ := step_ok w.st h.inv a
  rw [h2] at hst
  have hlent : ∀ x wk out, s'.polls x = some (wk, out) → w.own wk.vt wk.data = true := by
    intro x wk out hp
    rcases polls_step h2 hp with h5 | ⟨v, rfl, hv, hvt⟩
    · exact h.lent x wk out h5
    · simp only [mayLend, hv] at h1
      simp only at hvt
      rw [hvt]
      exact h1
  have hlog : ∀ es', (abs s').log = (abs w.st).log ++ es' → es = es' := by
    intro es' h'
    exact List.append_cancel_left (h3.symm.trans h')
  cases wstep hst.symm with
  | other es' g1 g2 g3 =>
      have := hlog es' g2
      subst this
      refine ⟨w.rc, rcEvs_other g3, hinv s' h2, ?_, hlent⟩
      intro api p
      rw [g1]
      exact h.rc api p
  | byRef g1 g2 g3 =>
      have := hlog _ g2
      subst this
      refine ⟨w.rc, by simp [rcEvs, rcEv, h.alive g3], hinv s' h2, ?_, hlent⟩
      intro api p
      rw [g1]
      exact h.rc api p
  | @clone api p r i hi g1 g2 g3 g4 =>
      have := hlog _ g2
      subst this
      have hpr : p = r := by
        simpa [selfClone] using h4 (.call api (.clone p r)) (by simp)
      subst hpr
      refine ⟨upd2 w.rc api p (w.rc api p + 1), by simp [rcEvs, rcEv, h.alive g3], hinv s' h2, ?_,
        hlent⟩
      intro api' p'
      obtain ⟨n, hc, he⟩ := h.rc api' p'
      simp only [g1]
      by_cases e : api' = api ∧ p' = p
      · obtain ⟨rfl, rfl⟩ := e
        refine ⟨n + 1, hc.add (by simp [hi]) rfl, ?_⟩
        simp only [upd2, and_self, if_true, he]
        omega
      · refine ⟨n, hc.same ?_, ?_⟩
        · simp only [hi, Option.some.injEq, Prod.mk.injEq]
          constructor
          · rintro ⟨rfl, rfl⟩
            exact absurd ⟨rfl, rfl⟩ e
          · rintro ⟨⟩
        · simp only [upd2, if_neg e, he]
  | @back api p i c hi g1 gc g2 =>
      have := hlog _ g2
      subst this
      refine ⟨upd2 w.rc api p (w.rc api p - 1), ?_, hinv s' h2, ?_, hlent⟩
      · have := h.alive (.inr ⟨i, hi⟩)
        rcases gc with rfl | rfl <;> simp [rcEvs, rcEv, this]
      · intro api' p'
        obtain ⟨n, hc, he⟩ := h.rc api' p'
        simp only [g1]
        by_cases e : api' = api ∧ p' = p
        · obtain ⟨rfl, rfl⟩ := e
          obtain ⟨m, hm, hcm⟩ := hc.del (i := i) (v := none) hi (by simp)
          refine ⟨m, hcm, ?_⟩
          simp only [upd2, and_self, if_true, he]
          omega
        · refine ⟨n, hc.same ?_, ?_⟩
          · simp only [hi, Option.some.injEq, Prod.mk.injEq]
            constructor
            · rintro ⟨⟩
            · rintro ⟨rfl, rfl⟩
              exact absurd ⟨rfl, rfl⟩ e
          · simp only [upd2, if_neg e, he]

theorem WInv.step {w : W} (h : WInv w) {o : Op} {r : Out} (hs : W.Step w o r) :
    ∃ w', r = .ok w' ∧ WInv w' := by
  cases hs with
  | act h1 h2 h3 h4 h5 =>
      obtain ⟨rc', e, hw⟩ := h.act h1 h2 h3 h4
      rw [h5] at e
      injection e with e
      subst e
      exact ⟨_, rfl, hw⟩
  | fault h1 h2 h3 h4 h5 =>
      obtain ⟨rc', e, hw⟩ := h.act h1 h2 h3 h4
      rw [h5] at e; cases e
  | @own api p h0 =>
      refine ⟨_, rfl, h.inv, ?_, ?_⟩
      · intro api' p'
        obtain ⟨n, hc, he⟩ := h.rc api' p'
        refine ⟨n, hc, ?_⟩
        by_cases e : api' = api ∧ p' = p
        · obtain ⟨rfl, rfl⟩ := e
          simp only [upd2, and_self, if_true]
          omega
        · simp only [upd2, if_neg e]
          exact he
      · intro x wk out hp
        simp only [upd2]
        split
        · rfl
        · exact h.lent x wk out hp
  | @disown api p h0 h' =>
      refine ⟨_, rfl, h.inv, ?_, ?_⟩
      · intro api' p'
        obtain ⟨n, hc, he⟩ := h.rc api' p'
        refine ⟨n, hc, ?_⟩
        by_cases e : api' = api ∧ p' = p
        · obtain ⟨rfl, rfl⟩ := e
          rw [h0] at he
          simp only [upd2, and_self, if_true]
          simp only [if_true] at he
          simp
          omega
        · simp only [upd2, if_neg e]
          exact he
      · intro x wk out hp
        simp only [upd2]
        rw [if_neg]
        · exact h.lent x wk out hp
        · rintro ⟨rfl, rfl⟩
          exact h' ⟨x, out, hp⟩

theorem WInv.run {w : W} (h : WInv w) {os : List Op} {r : Out} (hs : W.Run w os r) :
    ∃ w', r = .ok w' ∧ WInv w' := by
  induction hs with
  | nil w => exact ⟨w, rfl, h⟩
  | cons hs _ ih =>
      obtain ⟨w1, e, hw⟩ := h.step hs
      cases e
      exact ih hw
  | fault hs =>
      obtain ⟨w1, e, hw⟩ := h.step hs
      cases e

/-- C87: no schedule makes the bindings call a reference-counted waker object that is dead; and an
object is dead exactly when C++ has given it up and no Rust waker stands for it. -/
theorem refcounted_wakers (os : List Op) (r : Out) (h : W.Run W.init os r) :
    ∃ w, r = .ok w ∧
      (∀ api p, ∃ n, Count w.st.wakers (· = some ⟨p, api⟩) n ∧
        w.rc api p = (if w.own api p then 1 else 0) + n) ∧
      (∀ api p, w.rc api p = 0 ↔
        w.own api p = false ∧ ∀ i, w.st.wakers i ≠ some ⟨p, api⟩) := by
  obtain ⟨w, e, hw⟩ := winv_init.run h
  have h1 : ∀ api p, ∃ n, Count w.st.wakers (· = some ⟨p, api⟩) n ∧
        w.rc api p = (if w.own api p then 1 else 0) + n := by
    intro api p
    obtain ⟨n, ⟨ids, hn, hm, hl⟩, he⟩ := hw.rc api p
    refine ⟨n, ⟨ids, hn, ?_, hl⟩, he⟩
    intro i
    rw [hm]
    simp only [abs]
    cases w.st.wakers i with
    | none => simp
    | some k => cases k; simp; exact And.comm
  refine ⟨w, e, h1, ?_⟩
  intro api p
  obtain ⟨n, hc, he⟩ := h1 api p
  constructor
  · intro h0
    have hn : n = 0 := by omega
    have ho : w.own api p = false := by
      cases ho : w.own api p with
      | false => rfl
      | true => rw [ho] at he; simp at he; omega
    subst hn
    exact ⟨ho, fun i => hc.zero i⟩
  · rintro ⟨h0, hi⟩
    obtain ⟨ids, -, hm, hl⟩ := hc
    cases ids with
    | nil => simp at hl; simp [he, h0, ← hl]
    | cons i ids => exact absurd ((hm i).mp (by simp)) (hi i)

end Verif.Future

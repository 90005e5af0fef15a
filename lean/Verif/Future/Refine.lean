import Verif.Future.Model

/-!
# Rust futures polled from C++: refinement
-/

namespace Verif.Future

theorem upd_same {α : Type} (f : Nat → α) (n : Nat) (v : α) : upd f n v n = v := by simp [upd]
theorem upd_ne {α : Type} (f : Nat → α) {n m : Nat} (v : α) (h : m ≠ n) : upd f n v m = f m := by
  simp [upd, h]

/-- What a box holds. -/
def Fut.held : Fut → Held
  | .user f false => .running f
  | .user f true => .finished f
  | .pending => .nothing

/-- The box of a variable. -/
def Var.box : Var → Option Nat
  | .erased b => some b
  | .dyn o => o

/-- The kind of a variable. -/
def Var.api : Var → Api
  | .erased _ => .erased
  | .dyn _ => .dyn

/-- What a variable holds. -/
def heldOf (heap : Nat → Option Fut) (v : Var) : Held :=
  ((v.box.bind heap).map Fut.held).getD .nothing

/-- The state of the specification machine. -/
def abs (s : St) : SSt where
  vars := fun x => (s.vars x).map fun v => (v.api, heldOf s.heap v)
  polls := fun x => (s.polls x).map fun p => (p.1.data, p.2)
  wakers := fun i => (s.wakers i).map fun w => (w.vt, w.data)
  log := s.log

/-- The invariant. -/
structure Inv (s : St) : Prop where
  live : ∀ x v b, s.vars x = some v → v.box = some b → (s.heap b).isSome
  dynUser : ∀ x b, s.vars x = some (.dyn (some b)) → ∃ f, s.heap b = some (.user f false)
  inj : ∀ x y v w b, s.vars x = some v → s.vars y = some w → v.box = some b → w.box = some b → x = y
  owned : ∀ b, (s.heap b).isSome → ∃ x v, s.vars x = some v ∧ v.box = some b
  fresh : ∀ b, s.next ≤ b → s.heap b = none
  polled : ∀ x p, s.polls x = some p → ∃ v, s.vars x = some v ∧ p.1.vt = v.api ∧
    (∀ b f d, v.box = some b → s.heap b = some (.user f d) → d = false) ∧ v.box.isSome

theorem inv_init : Inv St.init := by
  constructor <;> simp [St.init]

theorem upd_self {α : Type} (f : Nat → α) (n : Nat) (v : α) (h : f n = v) : upd f n v = f := by
  funext m
  by_cases hm : m = n
  · rw [hm, upd_same, h]
  · rw [upd_ne _ _ hm]

theorem upd_upd {α : Type} (f : Nat → α) (n : Nat) (v w : α) : upd (upd f n v) n w = upd f n w := by
  funext m
  by_cases hm : m = n <;> simp [upd, hm]

theorem heldOf_ne (heap : Nat → Option Fut) (b : Nat) (o : Option Fut) (v : Var)
    (h : v.box ≠ some b) : heldOf (upd heap b o) v = heldOf heap v := by
  unfold heldOf
  cases hb : v.box with
  | none => rfl
  | some b' =>
      rw [hb] at h
      have : b' ≠ b := fun e => h (by rw [e])
      simp [upd, this]

/-! ## The invariant -/

/-- A new box for a new variable. -/
theorem Inv.alloc {s : St} (h : Inv s) {x : Nat} (hx : s.vars x = none) (f : Fut) (v : Var)
    (hv : v.box = some s.next) (hd : v.api = .dyn → ∃ n, f = .user n false) :
    Inv { s with
      heap := upd s.heap s.next (some f)
      next := s.next + 1
      vars := upd s.vars x (some v) } := by
  have hnb : ∀ y w b, s.vars y = some w → w.box = some b → b ≠ s.next := by
    intro y w b hy hb e
    have h1 := h.live y w b hy hb
    rw [e, h.fresh _ (Nat.le_refl _)] at h1
    simp at h1
  have hpx : s.polls x = none := by
    cases hp : s.polls x with
    | none => rfl
    | some p =>
        obtain ⟨v, hv, -⟩ := h.polled x p hp
        rw [hx] at hv; cases hv
  constructor
  · intro y w b hy hb
    by_cases hyx : y = x
    · subst hyx
      simp only [upd_same, Option.some.injEq] at hy
      subst hy
      rw [hv] at hb
      injection hb with hb
      subst hb
      simp [upd_same]
    · simp only [upd_ne _ _ hyx] at hy
      simp only
      rw [upd_ne _ _ (hnb y w b hy hb)]
      exact h.live y w b hy hb
  · intro y b hy
    by_cases hyx : y = x
    · subst hyx
      simp only [upd_same, Option.some.injEq] at hy
      subst hy
      simp only [Var.box, Option.some.injEq] at hv
      subst hv
      obtain ⟨n, rfl⟩ := hd rfl
      exact ⟨n, upd_same ..⟩
    · simp only [upd_ne _ _ hyx] at hy
      obtain ⟨n, hn⟩ := h.dynUser y b hy
      exact ⟨n, by simp only; rw [upd_ne _ _ (hnb y _ b hy rfl)]; exact hn⟩
  · intro y z w u b hy hz hwb hub
    by_cases hyx : y = x
    · by_cases hzx : z = x
      · rw [hyx, hzx]
      · subst hyx
        simp only [upd_same, Option.some.injEq] at hy
        subst hy
        simp only [upd_ne _ _ hzx] at hz
        rw [hv] at hwb
        injection hwb with hwb
        exact absurd hwb.symm (hnb z u b hz hub)
    · by_cases hzx : z = x
      · subst hzx
        simp only [upd_same, Option.some.injEq] at hz
        subst hz
        simp only [upd_ne _ _ hyx] at hy
        rw [hv] at hub
        injection hub with hub
        exact absurd hub.symm (hnb y w b hy hwb)
      · simp only [upd_ne _ _ hyx] at hy
        simp only [upd_ne _ _ hzx] at hz
        exact h.inj y z w u b hy hz hwb hub
  · intro b hb
    by_cases hbn : b = s.next
    · subst hbn
      exact ⟨x, v, upd_same .., hv⟩
    · simp only [upd_ne _ _ hbn] at hb
      obtain ⟨y, w, hy, hw⟩ := h.owned b hb
      have hyx : y ≠ x := by
        intro e
        rw [e, hx] at hy; cases hy
      exact ⟨y, w, by simp only; rw [upd_ne _ _ hyx]; exact hy, hw⟩
  · intro b hb
    have : b ≠ s.next := by
      intro e
      simp only at hb
      omega
    simp only at hb ⊢
    rw [upd_ne _ _ this]
    exact h.fresh b (by omega)
  · intro y p hp
    obtain ⟨w, hw, h1, h2, h3⟩ := h.polled y p hp
    have hyx : y ≠ x := by
      intro e
      rw [e, hpx] at hp; cases hp
    refine ⟨w, by simp only; rw [upd_ne _ _ hyx]; exact hw, h1, ?_, h3⟩
    intro b f' d hb hf
    simp only [upd_ne _ _ (hnb y w b hw hb)] at hf
    exact h2 b f' d hb hf

/-- A variable is given to another. -/
theorem Inv.rename {s : St} (h : Inv s) {x y : Nat} {v : Var} (hy : s.vars y = none)
    (hx : s.vars x = some v) (hpx : s.polls x = none) :
    Inv { s with vars := upd (upd s.vars y (some v)) x none } := by
  have hxy : x ≠ y := by
    intro e
    rw [e, hy] at hx; cases hx
  have hpy : s.polls y = none := by
    cases hp : s.polls y with
    | none => rfl
    | some p =>
        obtain ⟨v, hv, -⟩ := h.polled y p hp
        rw [hy] at hv; cases hv
  have key : ∀ z w, upd (upd s.vars y (some v)) x none z = some w →
      ∃ z', s.vars z' = some w ∧ ((z = y ∧ z' = x) ∨ (z ≠ y ∧ z ≠ x ∧ z' = z)) := by
    intro z w hz
    by_cases hzx : z = x
    · rw [hzx, upd_same] at hz; cases hz
    · rw [upd_ne _ _ hzx] at hz
      by_cases hzy : z = y
      · rw [hzy, upd_same] at hz
        injection hz with hz
        exact ⟨x, hz ▸ hx, .inl ⟨hzy, rfl⟩⟩
      · rw [upd_ne _ _ hzy] at hz
        exact ⟨z, hz, .inr ⟨hzy, hzx, rfl⟩⟩
  constructor
  · intro z w b hz hb
    obtain ⟨z', hz', -⟩ := key z w hz
    exact h.live z' w b hz' hb
  · intro z b hz
    obtain ⟨z', hz', -⟩ := key z _ hz
    exact h.dynUser z' b hz'
  · intro z u w1 w2 b hz hu h1 h2
    obtain ⟨z', hz', cz⟩ := key z w1 hz
    obtain ⟨u', hu', cu⟩ := key u w2 hu
    have := h.inj z' u' w1 w2 b hz' hu' h1 h2
    omega
  · intro b hb
    obtain ⟨z, w, hz, hw⟩ := h.owned b hb
    by_cases hzx : z = x
    · subst hzx
      rw [hx] at hz
      injection hz with hz
      subst hz
      exact ⟨y, v, by simp only; rw [upd_ne _ _ (Ne.symm hxy), upd_same], hw⟩
    · have hzy : z ≠ y := by
        intro e
        rw [e, hy] at hz; cases hz
      exact ⟨z, w, by simp only; rw [upd_ne _ _ hzx, upd_ne _ _ hzy]; exact hz, hw⟩
  · exact h.fresh
  · intro z p hp
    have hzx : z ≠ x := by
      intro e
      rw [e, hpx] at hp; cases hp
    have hzy : z ≠ y := by
      intro e
      rw [e, hpy] at hp; cases hp
    obtain ⟨w, hw, r⟩ := h.polled z p hp
    exact ⟨w, by simp only; rw [upd_ne _ _ hzx, upd_ne _ _ hzy]; exact hw, r⟩

/-- The heap without a variable's box. -/
def without (heap : Nat → Option Fut) : Option Nat → Nat → Option Fut
  | none => heap
  | some b => upd heap b none

theorem without_ne {heap : Nat → Option Fut} {o : Option Nat} {b : Nat} (h : o ≠ some b) :
    without heap o b = heap b := by
  cases o with
  | none => rfl
  | some c =>
      have : b ≠ c := fun e => h (by rw [e])
      exact upd_ne _ _ this

/-- A variable is emptied. -/
theorem Inv.clear {s : St} (h : Inv s) {x : Nat} {v : Var} (hx : s.vars x = some v) (nv : Option Var)
    (hn : ∀ w, nv = some w → w.box = none) :
    Inv { s with
      vars := upd s.vars x nv
      heap := without s.heap v.box
      polls := upd s.polls x none } := by
  have key : ∀ z w b, upd s.vars x nv z = some w → w.box = some b →
      s.vars z = some w ∧ z ≠ x ∧ v.box ≠ some b := by
    intro z w b hz hb
    by_cases hzx : z = x
    · rw [hzx, upd_same] at hz
      rw [hn w hz] at hb; cases hb
    · rw [upd_ne _ _ hzx] at hz
      exact ⟨hz, hzx, fun e => hzx (h.inj z x w v b hz hx hb e)⟩
  constructor
  · intro z w b hz hb
    obtain ⟨h1, -, h3⟩ := key z w b hz hb
    simp only
    rw [without_ne h3]
    exact h.live z w b h1 hb
  · intro z b hz
    obtain ⟨h1, -, h3⟩ := key z _ b hz rfl
    simp only
    rw [without_ne h3]
    exact h.dynUser z b h1
  · intro z u w1 w2 b hz hu h1 h2
    exact h.inj z u w1 w2 b (key z w1 b hz h1).1 (key u w2 b hu h2).1 h1 h2
  · intro b hb
    have hne : v.box ≠ some b := by
      intro e
      simp only [e, without, upd_same] at hb
      cases hb
    simp only [without_ne hne] at hb
    obtain ⟨z, w, hz, hw⟩ := h.owned b hb
    have hzx : z ≠ x := by
      intro e
      rw [e, hx] at hz
      injection hz with hz
      exact hne (hz ▸ hw)
    exact ⟨z, w, by simp only; rw [upd_ne _ _ hzx]; exact hz, hw⟩
  · intro b hb
    simp only
    by_cases hvb : v.box = some b
    · rw [hvb]; exact upd_same ..
    · rw [without_ne hvb]
      exact h.fresh b hb
  · intro z p hp
    have hzx : z ≠ x := by
      intro e
      subst e
      simp only [upd_same] at hp
      cases hp
    simp only [upd_ne _ _ hzx] at hp
    obtain ⟨w, hw, h1, h2, h3⟩ := h.polled z p hp
    refine ⟨w, by simp only; rw [upd_ne _ _ hzx]; exact hw, h1, ?_, h3⟩
    intro b f d hb hf
    have hvb : v.box ≠ some b := fun e => hzx (h.inj z x w v b hw hx hb e)
    simp only [without_ne hvb] at hf
    exact h2 b f d hb hf

/-- A poll ends. -/
theorem Inv.endPoll {s : St} (h : Inv s) (x : Nat) : Inv { s with polls := upd s.polls x none } where
  live := h.live
  dynUser := h.dynUser
  inj := h.inj
  owned := h.owned
  fresh := h.fresh
  polled := by
    intro z p hp
    have hzx : z ≠ x := by
      intro e
      subst e
      simp only [upd_same] at hp
      cases hp
    simp only [upd_ne _ _ hzx] at hp
    exact h.polled z p hp

/-- A poll begins. -/
theorem Inv.beginPoll {s : St} (h : Inv s) {x : Nat} {v : Var} (hx : s.vars x = some v) (w out : Nat)
    (hb : v.box.isSome) (hd : ∀ b f d, v.box = some b → s.heap b = some (.user f d) → d = false) :
    Inv { s with polls := upd s.polls x (some (⟨w, v.api⟩, out)) } where
  live := h.live
  dynUser := h.dynUser
  inj := h.inj
  owned := h.owned
  fresh := h.fresh
  polled := by
    intro z p hp
    by_cases hzx : z = x
    · subst hzx
      simp only [upd_same, Option.some.injEq] at hp
      subst hp
      exact ⟨v, hx, rfl, hd, hb⟩
    · simp only [upd_ne _ _ hzx] at hp
      exact h.polled z p hp

/-- A future finishes; its poll is over. -/
theorem Inv.done {s : St} (h : Inv s) {x b f : Nat} {d : Bool} (hx : s.vars x = some (.erased b))
    (hb : s.heap b = some (.user f d)) :
    Inv { s with
      heap := upd s.heap b (some (.user f true))
      polls := upd s.polls x none } := by
  have key : ∀ z w b', s.vars z = some w → w.box = some b' → z ≠ x → b' ≠ b := by
    intro z w b' hz hw hzx e
    exact hzx (h.inj z x w _ b hz hx (e ▸ hw) rfl)
  constructor
  · intro z w b' hz hb'
    by_cases e : b' = b
    · subst e; simp [upd_same]
    · simp only; rw [upd_ne _ _ e]; exact h.live z w b' hz hb'
  · intro z b' hz
    have hzx : z ≠ x := by
      intro e
      subst e
      simp only at hz
      rw [hx] at hz; cases hz
    simp only
    rw [upd_ne _ _ (key z _ b' hz rfl hzx)]
    exact h.dynUser z b' hz
  · exact h.inj
  · intro b' hb'
    by_cases e : b' = b
    · subst e; exact ⟨x, _, hx, rfl⟩
    · simp only [upd_ne _ _ e] at hb'
      exact h.owned b' hb'
  · intro b' hb'
    by_cases e : b' = b
    · subst e
      have := h.fresh b' hb'
      rw [hb] at this; cases this
    · simp only; rw [upd_ne _ _ e]; exact h.fresh b' hb'
  · intro z p hp
    have hzx : z ≠ x := by
      intro e
      subst e
      simp only [upd_same] at hp
      cases hp
    simp only [upd_ne _ _ hzx] at hp
    obtain ⟨w, hw, h1, h2, h3⟩ := h.polled z p hp
    refine ⟨w, hw, h1, ?_, h3⟩
    intro b' f' d' hb' hf'
    simp only [upd_ne _ _ (key z w b' hw hb' hzx)] at hf'
    exact h2 b' f' d' hb' hf'

/-- Only the log or the wakers change. -/
theorem Inv.rest {s s' : St} (h : Inv s) (h1 : s'.heap = s.heap) (h2 : s'.next = s.next)
    (h3 : s'.vars = s.vars) (h4 : s'.polls = s.polls) : Inv s' := by
  constructor
  · rw [h1, h3]; exact h.live
  · rw [h1, h3]; exact h.dynUser
  · rw [h3]; exact h.inj
  · rw [h1, h3]; exact h.owned
  · rw [h1, h2]; exact h.fresh
  · rw [h1, h3, h4]; exact h.polled

/-! ## What variables hold -/

/-- Variables other than `x` hold the same. -/
theorem abs_vars_upd {s : St} {x : Nat} {nv : Option Var} {heap' : Nat → Option Fut}
    (hother : ∀ y w, y ≠ x → s.vars y = some w → heldOf heap' w = heldOf s.heap w) :
    (fun y => (upd s.vars x nv y).map fun v => (v.api, heldOf heap' v)) =
      upd (abs s).vars x (nv.map fun v => (v.api, heldOf heap' v)) := by
  funext y
  by_cases hyx : y = x
  · subst hyx; simp [upd_same]
  · rw [upd_ne _ _ hyx, upd_ne _ _ hyx]
    simp only [abs]
    cases hy : s.vars y with
    | none => rfl
    | some w => simp [hother y w hyx hy]

/-- What a step must do. -/
def StepOk (s : St) (a : Act) : Prop :=
  (s.step a).map abs = (abs s).step a ∧ ∀ s', s.step a = some s' → Inv s'

theorem stepOk_none {s : St} {a : Act} (h1 : s.step a = none) (h2 : (abs s).step a = none) :
    StepOk s a := by
  constructor
  · rw [h1, h2]; rfl
  · intro s' h
    rw [h1] at h
    cases h

theorem stepOk_some {s s' : St} {a : Act} (h1 : s.step a = some s')
    (h2 : (abs s).step a = some (abs s')) (h3 : Inv s') : StepOk s a := by
  constructor
  · rw [h1, h2]; rfl
  · intro s'' h
    rw [h1] at h
    injection h with h
    exact h ▸ h3

theorem SSt.ext' {a b : SSt} (h1 : a.vars = b.vars) (h2 : a.polls = b.polls)
    (h3 : a.wakers = b.wakers) (h4 : a.log = b.log) : a = b := by
  cases a; cases b; simp_all

theorem abs_vars_none {s : St} {x : Nat} (h : s.vars x = none) : (abs s).vars x = none := by
  simp [abs, h]

theorem abs_vars_some {s : St} {x : Nat} {v : Var} (h : s.vars x = some v) :
    (abs s).vars x = some (v.api, heldOf s.heap v) := by
  simp [abs, h]

theorem abs_polls_none {s : St} {x : Nat} (h : s.polls x = none) : (abs s).polls x = none := by
  simp [abs, h]

theorem abs_polls_some {s : St} {x : Nat} {p : RawWaker × Nat} (h : s.polls x = some p) :
    (abs s).polls x = some (p.1.data, p.2) := by
  simp [abs, h]

theorem map_upd {α β : Type} (g : α → β) (f : Nat → Option α) (n : Nat) (v : Option α) :
    (fun m => (upd f n v m).map g) = upd (fun m => (f m).map g) n (v.map g) := by
  funext m
  by_cases h : m = n <;> simp [upd, h]

/-- No variable owns the next box. -/
theorem Inv.box_ne_next {s : St} (h : Inv s) {y : Nat} {w : Var} (hy : s.vars y = some w) :
    w.box ≠ some s.next := by
  intro e
  have h1 := h.live y w _ hy e
  rw [h.fresh _ (Nat.le_refl _)] at h1
  simp at h1

/-- Abstraction of an allocation. -/
theorem abs_alloc {s : St} (h : Inv s) {x : Nat} (f : Fut) (v : Var)
    (hv : v.box = some s.next) :
    abs { s with
      heap := upd s.heap s.next (some f)
      next := s.next + 1
      vars := upd s.vars x (some v) } =
    { abs s with vars := upd (abs s).vars x (some (v.api, f.held)) } := by
  refine SSt.ext' ?_ rfl rfl rfl
  have := abs_vars_upd (s := s) (x := x) (nv := some v) (heap' := upd s.heap s.next (some f))
    (fun y w _ hy => heldOf_ne _ _ _ _ (h.box_ne_next hy))
  have e : heldOf (upd s.heap s.next (some f)) v = f.held := by
    simp [heldOf, hv, upd_same]
  rw [Option.map_some, e] at this
  exact this

/-- Abstraction of emptying a variable. -/
theorem abs_clear {s : St} (h : Inv s) {x : Nat} {v : Var} (hx : s.vars x = some v) (nv : Option Var)
    (hn : ∀ w, nv = some w → w.box = none) (polls' : Nat → Option (RawWaker × Nat)) (l : List Ev) :
    abs { s with
      vars := upd s.vars x nv
      heap := without s.heap v.box
      polls := polls'
      log := l } =
    { abs s with
      vars := upd (abs s).vars x (nv.map fun w => (w.api, .nothing))
      polls := fun x => (polls' x).map fun p => (p.1.data, p.2)
      log := l } := by
  refine SSt.ext' ?_ rfl rfl rfl
  have := abs_vars_upd (s := s) (x := x) (nv := nv) (heap' := without s.heap v.box)
    (fun y w hyx hy => by
      cases hv : v.box with
      | none => rfl
      | some b => exact heldOf_ne _ _ _ _ fun e => hyx (h.inj y x w v b hy hx e hv))
  have e : (nv.map fun v_1 => (v_1.api, heldOf (without s.heap v.box) v_1)) =
      nv.map fun w => (w.api, .nothing) := by
    cases nv with
    | none => rfl
    | some w => simp [heldOf, hn w rfl]
  rw [e] at this
  exact this

/-- What freeing the box of a variable does. -/
theorem free_ok {s : St} (h : Inv s) {x b : Nat} {v : Var} (hx : s.vars x = some v)
    (hb : v.box = some b) :
    s.free b = some { s with
      heap := without s.heap v.box
      log := s.log ++ (heldOf s.heap v).drops } := by
  have hl := h.live x v b hx hb
  cases hh : s.heap b with
  | none => rw [hh] at hl; simp at hl
  | some f =>
      cases f with
      | user n d => cases d <;> simp [St.free, hh, hb, without, heldOf, Fut.held, Held.drops, St.emit]
      | pending => simp [St.free, hh, hb, without, heldOf, Fut.held, Held.drops]

theorem step_ok (s : St) (h : Inv s) (a : Act) : StepOk s a := by
  cases a with
  | create x f =>
      cases hx : s.vars x with
      | some v => exact stepOk_none (by simp [St.step, hx]) (by simp [SSt.step, abs_vars_some hx])
      | none =>
          refine stepOk_some (s' := create s x f) (by simp [St.step, hx]) ?_
            (h.alloc hx _ (.erased s.next) rfl (by simp [Var.api]))
          simp only [SSt.step, abs_vars_none hx, create, St.alloc]
          exact congrArg some (abs_alloc h (.user f false) (.erased s.next) rfl).symm
  | dynNew x f =>
      cases hx : s.vars x with
      | some v => exact stepOk_none (by simp [St.step, hx]) (by simp [SSt.step, abs_vars_some hx])
      | none =>
          refine stepOk_some (by simp only [St.step, hx, St.alloc]) ?_
            (h.alloc hx (.user f false) (.dyn (some s.next)) rfl fun _ => ⟨f, rfl⟩)
          simp only [SSt.step, abs_vars_none hx]
          exact congrArg some (abs_alloc h (.user f false) (.dyn (some s.next)) rfl).symm
  | dynDefault x =>
      cases hx : s.vars x with
      | some v => exact stepOk_none (by simp [St.step, hx]) (by simp [SSt.step, abs_vars_some hx])
      | none =>
          have hpx : s.polls x = none := by
            cases hp : s.polls x with
            | none => rfl
            | some p =>
                obtain ⟨v, hv, -⟩ := h.polled x p hp
                rw [hx] at hv; cases hv
          refine stepOk_some (by simp only [St.step, hx]; rfl) ?_ ?_
          · simp only [SSt.step, abs_vars_none hx]
            refine congrArg some (SSt.ext' ?_ rfl rfl rfl)
            exact (abs_vars_upd (nv := some (.dyn none)) (fun _ _ _ _ => rfl)).symm
          · have hz : ∀ z w b, upd s.vars x (some (.dyn none)) z = some w → w.box = some b →
                s.vars z = some w := by
              intro z w b hz hb
              by_cases hzx : z = x
              · rw [hzx, upd_same] at hz
                injection hz with hz
                subst hz
                simp [Var.box] at hb
              · rwa [upd_ne _ _ hzx] at hz
            have hz' : ∀ z w, s.vars z = some w → upd s.vars x (some (.dyn none)) z = some w := by
              intro z w hw
              have : z ≠ x := by
                intro e
                rw [e, hx] at hw; cases hw
              rwa [upd_ne _ _ this]
            constructor
            · intro z w b h1 h2
              exact h.live z w b (hz z w b h1 h2) h2
            · intro z b h1
              exact h.dynUser z b (hz z _ b h1 rfl)
            · intro z u w1 w2 b h1 h2 h3 h4
              exact h.inj z u w1 w2 b (hz z w1 b h1 h3) (hz u w2 b h2 h4) h3 h4
            · intro b hb
              obtain ⟨z, w, h1, h2⟩ := h.owned b hb
              exact ⟨z, w, hz' z w h1, h2⟩
            · exact h.fresh
            · intro z p hp
              obtain ⟨w, hw, r⟩ := h.polled z p hp
              exact ⟨w, hz' z w hw, r⟩
  | relocate y x =>
      cases hy : s.vars y with
      | some w => exact stepOk_none (by simp [St.step, hy]) (by simp [SSt.step, abs_vars_some hy])
      | none =>
          cases hx : s.vars x with
          | none =>
              exact stepOk_none (by simp [St.step, hy, hx])
                  (by simp [SSt.step, abs_vars_none hy, abs_vars_none hx])
          | some v =>
              cases hp : s.polls x with
              | some p =>
                  exact stepOk_none (by cases v <;> simp [St.step, hy, hx, hp])
                      (by cases v <;> simp [SSt.step, abs_vars_none hy, abs_vars_some hx, Var.api,
                        abs_polls_some hp])
              | none =>
                  cases v with
                  | dyn o =>
                      exact stepOk_none (by simp [St.step, hy, hx])
                          (by simp [SSt.step, abs_vars_none hy, abs_vars_some hx, Var.api])
                  | erased b =>
                      refine stepOk_some (s' := relocate s y x b) (by simp [St.step, hy, hx, hp]) ?_
                        (h.rename hy hx hp)
                      simp only [SSt.step, abs_vars_none hy, abs_vars_some hx, Var.api,
                        abs_polls_none hp]
                      refine congrArg some (SSt.ext' ?_ rfl rfl rfl)
                      simp only [abs, relocate]
                      rw [map_upd, map_upd]
                      rfl
  | moveTo y x =>
      cases hy : s.vars y with
      | some w => exact stepOk_none (by simp [St.step, hy]) (by simp [SSt.step, abs_vars_some hy])
      | none =>
          cases hx : s.vars x with
          | none =>
              exact stepOk_none (by simp [St.step, hy, hx])
                  (by simp [SSt.step, abs_vars_none hy, abs_vars_none hx])
          | some v =>
              cases hp : s.polls x with
              | some p =>
                  exact stepOk_none (by cases v <;> simp [St.step, hy, hx, hp])
                      (by cases v <;> simp [SSt.step, abs_vars_none hy, abs_vars_some hx, Var.api,
                        abs_polls_some hp])
              | none =>
                  cases v with
                  | dyn o =>
                      exact stepOk_none (by simp [St.step, hy, hx])
                          (by simp [SSt.step, abs_vars_none hy, abs_vars_some hx, Var.api])
                  | erased b =>
                      have hren := h.rename hy hx hp
                      have heq : moveTo s y x b = { relocate s y x b with
                          heap := upd s.heap s.next (some .pending)
                          next := s.next + 1
                          vars := upd (relocate s y x b).vars x (some (.erased s.next)) } := by
                        simp only [moveTo, rsInit, St.alloc, relocate, upd_upd]
                      refine stepOk_some (s' := moveTo s y x b) (by simp [St.step, hy, hx, hp]) ?_ ?_
                      · have e := abs_alloc (s := relocate s y x b) hren (x := x) .pending
                          (.erased s.next) rfl
                        rw [heq]
                        refine Eq.trans ?_ (congrArg some e.symm)
                        simp only [SSt.step, abs_vars_none hy, abs_vars_some hx, Var.api,
                          abs_polls_none hp]
                        refine congrArg some (SSt.ext' ?_ rfl rfl rfl)
                        simp only [abs, relocate]
                        rw [map_upd, map_upd, upd_upd]
                        rfl
                      · rw [heq]
                        exact hren.alloc (s := relocate s y x b) (by simp [relocate, upd_same])
                          .pending (.erased s.next) rfl (by simp [Var.api])
  | destroy x =>
      cases hx : s.vars x with
      | none => exact stepOk_none (by simp [St.step, St.boxed, hx]) (by simp [SSt.step, abs_vars_none hx])
      | some v =>
          cases hp : s.polls x with
          | some p =>
              exact stepOk_none (by cases v <;> simp [St.step, hx, hp])
                  (by cases v <;> simp [SSt.step, abs_vars_some hx, Var.api, abs_polls_some hp])
          | none =>
              cases v with
              | dyn o =>
                  exact stepOk_none (by simp [St.step, hx])
                      (by simp [SSt.step, abs_vars_some hx, Var.api])
              | erased b =>
                  have hpl : upd s.polls x none = s.polls := upd_self _ _ _ hp
                  have hinv := h.clear hx none (by simp)
                  have hab := abs_clear h hx none (by simp) s.polls
                    (s.log ++ (heldOf s.heap (.erased b)).drops)
                  refine stepOk_some (by
                    simp only [St.step, hx, hp, destroyErased, free_ok h hx rfl, Option.map_some]
                    rfl) ?_ ?_
                  · refine Eq.trans ?_ (congrArg some hab.symm)
                    simp only [SSt.step, abs_vars_some hx, Var.api, abs_polls_none hp]
                    rfl
                  · refine hinv.rest rfl rfl rfl ?_
                    exact hpl.symm
  | dynDrop x =>
      cases hx : s.vars x with
      | none => exact stepOk_none (by simp [St.step, St.boxed, hx]) (by simp [SSt.step, abs_vars_none hx])
      | some v =>
          cases hp : s.polls x with
          | some p =>
              exact stepOk_none (by cases v <;> simp [St.step, hx, hp])
                  (by cases v <;> simp [SSt.step, abs_vars_some hx, Var.api, abs_polls_some hp])
          | none =>
              cases v with
              | erased b =>
                  exact stepOk_none (by simp [St.step, hx])
                      (by simp [SSt.step, abs_vars_some hx, Var.api])
              | dyn o =>
                  have hpl : upd s.polls x none = s.polls := upd_self _ _ _ hp
                  have hinv := h.clear hx none (by simp)
                  have hab := abs_clear h hx none (by simp) s.polls
                    (s.log ++ (heldOf s.heap (.dyn o)).drops)
                  refine stepOk_some (s' := { s with
                      vars := upd s.vars x none
                      heap := without s.heap (Var.dyn o).box
                      log := s.log ++ (heldOf s.heap (.dyn o)).drops }) ?_ ?_ ?_
                  · cases o with
                    | none => simp [St.step, hx, hp, freeOpt, Var.box, without, heldOf, Held.drops]
                    | some b => simp [St.step, hx, hp, freeOpt, free_ok h hx rfl]
                  · refine Eq.trans ?_ (congrArg some hab.symm)
                    simp only [SSt.step, abs_vars_some hx, Var.api, abs_polls_none hp]
                    rfl
                  · refine hinv.rest rfl rfl rfl ?_
                    exact hpl.symm
  | dynDiscard x =>
      cases hx : s.vars x with
      | none => exact stepOk_none (by simp [St.step, St.boxed, hx]) (by simp [SSt.step, abs_vars_none hx])
      | some v =>
          cases hp : s.polls x with
          | some p =>
              exact stepOk_none (by cases v <;> simp [St.step, hx, hp])
                  (by cases v <;> simp [SSt.step, abs_vars_some hx, Var.api, abs_polls_some hp])
          | none =>
              cases v with
              | erased b =>
                  exact stepOk_none (by simp [St.step, hx])
                      (by simp [SSt.step, abs_vars_some hx, Var.api])
              | dyn o =>
                  have hn : ∀ w, some (Var.dyn none) = some w → w.box = none := by
                    intro w e
                    injection e with e
                    subst e
                    rfl
                  have hpl : upd s.polls x none = s.polls := upd_self _ _ _ hp
                  have hinv := h.clear hx (some (.dyn none)) hn
                  have hab := abs_clear h hx (some (.dyn none)) hn s.polls
                    (s.log ++ (heldOf s.heap (.dyn o)).drops)
                  refine stepOk_some (s' := { s with
                      vars := upd s.vars x (some (.dyn none))
                      heap := without s.heap (Var.dyn o).box
                      log := s.log ++ (heldOf s.heap (.dyn o)).drops }) ?_ ?_ ?_
                  · cases o with
                    | none => simp [St.step, hx, hp, freeOpt, Var.box, without, heldOf, Held.drops]
                    | some b => simp [St.step, hx, hp, freeOpt, free_ok h hx rfl]
                  · refine Eq.trans ?_ (congrArg some hab.symm)
                    simp only [SSt.step, abs_vars_some hx, Var.api, abs_polls_none hp]
                    rfl
                  · refine hinv.rest rfl rfl rfl ?_
                    exact hpl.symm
  | dynInto x =>
      cases hx : s.vars x with
      | none => exact stepOk_none (by simp [St.step, St.boxed, hx]) (by simp [SSt.step, abs_vars_none hx])
      | some v =>
          cases hp : s.polls x with
          | some p =>
              exact stepOk_none (by cases v <;> simp [St.step, hx, hp])
                  (by cases v <;> simp [SSt.step, abs_vars_some hx, Var.api, abs_polls_some hp])
          | none =>
              cases v with
              | erased b =>
                  exact stepOk_none (by simp [St.step, hx])
                      (by simp [SSt.step, abs_vars_some hx, Var.api])
              | dyn o =>
                  have hpl : upd s.polls x none = s.polls := upd_self _ _ _ hp
                  have hinv := h.clear hx none (by simp)
                  have hab := abs_clear h hx none (by simp) s.polls (s.log ++ [.handed (s.userOf o)])
                  refine stepOk_some (s' := { s with
                      vars := upd s.vars x none
                      heap := without s.heap (Var.dyn o).box
                      log := s.log ++ [.handed (s.userOf o)] }) ?_ ?_ ?_
                  · cases o <;> simp [St.step, hx, hp, Var.box, without, St.emit]
                  · refine Eq.trans ?_ (congrArg some hab.symm)
                    simp only [SSt.step, abs_vars_some hx, Var.api, abs_polls_none hp]
                    refine congrArg some (SSt.ext' rfl rfl rfl ?_)
                    show s.log ++ _ = s.log ++ _
                    cases o with
                    | none => rfl
                    | some b =>
                        obtain ⟨f, hf⟩ := h.dynUser x b hx
                        simp [heldOf, Var.box, hf, Fut.held, St.userOf]
                  · refine hinv.rest rfl rfl rfl ?_
                    exact hpl.symm
  | dynAsk x =>
      cases hx : s.vars x with
      | none => exact stepOk_none (by simp [St.step, St.boxed, hx]) (by simp [SSt.step, abs_vars_none hx])
      | some v =>
          cases hp : s.polls x with
          | some p =>
              exact stepOk_none (by cases v <;> simp [St.step, hx, hp])
                  (by cases v <;> simp [SSt.step, abs_vars_some hx, Var.api, abs_polls_some hp])
          | none =>
              cases v with
              | erased b =>
                  exact stepOk_none (by simp [St.step, hx])
                      (by simp [SSt.step, abs_vars_some hx, Var.api])
              | dyn o =>
                  refine stepOk_some (by simp only [St.step, hx, hp]; rfl) ?_ ?_
                  rotate_left
                  · exact h.rest rfl rfl rfl rfl
                  simp only [SSt.step, abs_vars_some hx, Var.api, abs_polls_none hp]
                  refine congrArg some (SSt.ext' rfl rfl rfl ?_)
                  show s.log ++ _ = s.log ++ _
                  cases o with
                  | none => rfl
                  | some b =>
                      obtain ⟨f, hf⟩ := h.dynUser x b hx
                      simp [heldOf, Var.box, hf, Fut.held]
  | begin x w out =>
      cases hx : s.vars x with
      | none => exact stepOk_none (by simp [St.step, St.boxed, hx]) (by simp [SSt.step, abs_vars_none hx])
      | some v =>
          cases hp : s.polls x with
          | some p =>
              refine stepOk_none (by cases v <;> simp [St.step, hx, hp]) ?_
              simp only [SSt.step, abs_vars_some hx, abs_polls_some hp]
              cases v.api <;> cases heldOf s.heap v <;> rfl
          | none =>
              cases v with
              | erased b =>
                  have hl := h.live x _ b hx rfl
                  cases hh : s.heap b with
                  | none => rw [hh] at hl; simp at hl
                  | some f =>
                      cases f with
                      | user n d =>
                          cases d with
                          | true =>
                              exact stepOk_none (by simp [St.step, hx, hp, beginErased, hh])
                                (by simp [SSt.step, abs_vars_some hx, Var.api, heldOf, Var.box, hh,
                                  Fut.held])
                          | false =>
                              refine stepOk_some (by simp only [St.step, hx, hp, beginErased, hh]; rfl) ?_ ?_
                              rotate_left
                              · exact (h.beginPoll hx w out rfl (by
                                  intro b' f' d' hb' hf'
                                  simp only [Var.box, Option.some.injEq] at hb'
                                  subst hb'
                                  rw [hh] at hf'
                                  simp_all)).rest rfl rfl rfl rfl
                              simp only [SSt.step, abs_vars_some hx, Var.api, heldOf, Var.box, hh,
                                Fut.held, abs_polls_none hp, Option.bind_some, Option.map_some,
                                Option.getD_some]
                              refine congrArg some (SSt.ext' rfl ?_ rfl rfl)
                              simp only [abs, St.emit, SSt.emit]
                              rw [map_upd]
                              rfl
                      | pending =>
                          refine stepOk_some (by simp only [St.step, hx, hp, beginErased, hh]; rfl) ?_ ?_
                          rotate_left
                          · exact (h.beginPoll hx w out rfl (by
                                  intro b' f' d' hb' hf'
                                  simp only [Var.box, Option.some.injEq] at hb'
                                  subst hb'
                                  rw [hh] at hf'
                                  simp_all)).rest rfl rfl rfl rfl
                          simp only [SSt.step, abs_vars_some hx, Var.api, heldOf, Var.box, hh,
                                Fut.held, abs_polls_none hp, Option.bind_some, Option.map_some,
                                Option.getD_some]
                          refine congrArg some (SSt.ext' rfl ?_ rfl rfl)
                          simp only [abs, St.emit, SSt.emit]
                          rw [map_upd]
                          rfl
              | dyn o =>
                  cases o with
                  | none =>
                      refine stepOk_some (by simp only [St.step, hx, hp, beginDyn]; rfl) ?_ ?_
                      rotate_left
                      · exact h.rest rfl rfl rfl rfl
                      simp only [SSt.step, abs_vars_some hx, Var.api, heldOf, Var.box,
                        abs_polls_none hp]
                      rfl
                  | some b =>
                      obtain ⟨f, hf⟩ := h.dynUser x b hx
                      refine stepOk_some (by simp only [St.step, hx, hp, beginDyn, hf]; rfl) ?_ ?_
                      rotate_left
                      · exact (h.beginPoll hx w out rfl (by
                                  intro b' f' d' hb' hf'
                                  simp only [Var.box, Option.some.injEq] at hb'
                                  subst hb'
                                  rw [hf] at hf'
                                  simp_all)).rest rfl rfl rfl rfl
                      simp only [SSt.step, abs_vars_some hx, Var.api, heldOf, Var.box, hf,
                                Fut.held, abs_polls_none hp, Option.bind_some, Option.map_some,
                                Option.getD_some]
                      refine congrArg some (SSt.ext' rfl ?_ rfl rfl)
                      simp only [abs, St.emit, SSt.emit]
                      rw [map_upd]
                      rfl
  | finish x r =>
      cases hx : s.vars x with
      | none =>
          refine stepOk_none (by simp [St.step, hx]) ?_
          cases r <;> simp [SSt.step, abs_vars_none hx]
      | some v =>
          cases hp : s.polls x with
          | none =>
              refine stepOk_none (by cases v <;> simp [St.step, hx, hp]) ?_
              cases r with
              | none => simp [SSt.step, abs_vars_some hx, abs_polls_none hp]
              | some w =>
                  simp only [SSt.step, abs_vars_some hx, abs_polls_none hp]
                  cases v.api <;> cases heldOf s.heap v <;> rfl
          | some p =>
              obtain ⟨v', hv', hvt, hnd, hbox⟩ := h.polled x p hp
              rw [hx] at hv'
              injection hv' with hv'
              subst hv'
              cases v with
              | erased b =>
                  have hl := h.live x _ b hx rfl
                  cases hh : s.heap b with
                  | none => rw [hh] at hl; simp at hl
                  | some f =>
                      cases r with
                      | none =>
                          refine stepOk_some (by simp only [St.step, hx, hp, finishErased, hh]; rfl) ?_ ?_
                          rotate_left
                          · exact (h.endPoll x).rest rfl rfl rfl rfl
                          simp only [SSt.step, abs_vars_some hx, abs_polls_some hp]
                          refine congrArg some (SSt.ext' rfl ?_ rfl rfl)
                          simp only [abs, St.emit, SSt.emit]
                          rw [map_upd]
                          rfl
                      | some w =>
                          cases f with
                          | pending =>
                              exact stepOk_none (by simp [St.step, hx, hp, finishErased, hh])
                                (by simp [SSt.step, abs_vars_some hx, abs_polls_some hp, Var.api,
                                  heldOf, Var.box, hh, Fut.held])
                          | user n d =>
                              have hd := hnd b n d rfl hh
                              subst hd
                              refine stepOk_some (by simp only [St.step, hx, hp, finishErased, hh]; rfl) ?_ ?_
                              rotate_left
                              · exact (h.done hx hh).rest rfl rfl rfl rfl
                              simp only [SSt.step, abs_vars_some hx, abs_polls_some hp, Var.api,
                                heldOf, Var.box, hh, Fut.held, Option.bind_some, Option.map_some,
                                Option.getD_some]
                              refine congrArg some (SSt.ext' ?_ ?_ rfl ?_)
                              · have := abs_vars_upd (s := s) (x := x) (nv := some (.erased b))
                                  (heap' := upd s.heap b (some (.user n true)))
                                  (fun y w hyx hy => heldOf_ne _ _ _ _ fun e =>
                                    hyx (h.inj y x w _ b hy hx e rfl))
                                have e1 : upd s.vars x (some (.erased b)) = s.vars :=
                                  upd_self _ _ _ hx
                                rw [e1] at this
                                have e2 : heldOf (upd s.heap b (some (.user n true))) (.erased b) =
                                    .finished n := by
                                  simp [heldOf, Var.box, upd_same, Fut.held]
                                rw [Option.map_some, e2] at this
                                exact this.symm
                              · simp only [abs, St.emit, SSt.emit]
                                rw [map_upd]
                                rfl
                              · cases w <;> simp [abs, St.emit, SSt.emit]
              | dyn o =>
                  cases o with
                  | none => simp [Var.box] at hbox
                  | some b =>
                      obtain ⟨f, hf⟩ := h.dynUser x b hx
                      cases r with
                      | none =>
                          refine stepOk_some (by simp only [St.step, hx, hp, finishDyn]; rfl) ?_ ?_
                          rotate_left
                          · exact (h.endPoll x).rest rfl rfl rfl rfl
                          simp only [SSt.step, abs_vars_some hx, abs_polls_some hp]
                          refine congrArg some (SSt.ext' rfl ?_ rfl rfl)
                          simp only [abs, St.emit, SSt.emit]
                          rw [map_upd]
                          rfl
                      | some w =>
                          have hheld : heldOf s.heap (.dyn (some b)) = .running f := by
                            simp [heldOf, Var.box, hf, Fut.held]
                          cases w with
                          | some w =>
                              exact stepOk_none (by simp [St.step, hx, hp, finishDyn])
                                (by simp [SSt.step, abs_vars_some hx, abs_polls_some hp, Var.api,
                                  hheld])
                          | none =>
                              have hn : ∀ w, some (Var.dyn none) = some w → w.box = none := by
                                intro w e
                                injection e with e
                                subst e
                                rfl
                              have hinv := h.clear hx (some (.dyn none)) hn
                              have hab := abs_clear h hx (some (.dyn none)) hn (upd s.polls x none)
                                (s.log ++ (heldOf s.heap (.dyn (some b))).drops ++ [.returned true])
                              refine stepOk_some (by
                                simp only [St.step, hx, hp, finishDyn, free_ok h hx rfl,
                                  Option.map_some, St.emit]
                                rfl) ?_ ?_
                              rotate_left
                              · exact hinv.rest rfl rfl rfl rfl
                              refine Eq.trans ?_ (congrArg some hab.symm)
                              simp only [SSt.step, abs_vars_some hx, abs_polls_some hp, Var.api, hheld]
                              refine congrArg some (SSt.ext' rfl ?_ rfl ?_)
                              · simp only [SSt.emit]
                                rw [map_upd]
                                rfl
                              · simp [SSt.emit, Held.drops, abs]
  | ctxClone x r i =>
      have hbox : ∀ v, s.vars x = some v → s.boxed x = v.box.bind s.heap := by
        intro v hv
        unfold St.boxed
        rw [hv]
        rcases v with b | _ | b <;> rfl
      cases hx : s.vars x with
      | none => exact stepOk_none (by simp [St.step, St.boxed, hx]) (by simp [SSt.step, abs_vars_none hx])
      | some v =>
          have hb := hbox v hx
          cases hp : s.polls x with
          | none =>
              refine stepOk_none ?_ (by simp [SSt.step, abs_vars_some hx, abs_polls_none hp])
              simp [St.step, hp]
          | some p =>
              obtain ⟨v', hv', hvt, hnd, hbs⟩ := h.polled x p hp
              rw [hx] at hv'
              injection hv' with hv'
              subst hv'
              obtain ⟨b, hbb⟩ := Option.isSome_iff_exists.mp hbs
              have hl := h.live x v b hx hbb
              obtain ⟨f, hf⟩ := Option.isSome_iff_exists.mp hl
              have hb' : v.box.bind s.heap = some f := by rw [hbb]; exact hf
              have hheld : heldOf s.heap v = f.held := by simp [heldOf, hb']
              cases f with
              | pending =>
                  refine stepOk_none ?_ (by
                    simp [SSt.step, abs_vars_some hx, abs_polls_some hp, hheld, Fut.held])
                  simp only [St.step, hb, hb', hp]
              | user n d =>
                  have hd := hnd b n d hbb hf
                  subst hd
                  cases hi : s.wakers i with
                  | some wk =>
                      refine stepOk_none ?_ (by
                        simp [SSt.step, abs_vars_some hx, abs_polls_some hp, hheld, Fut.held, abs, hi])
                      simp only [St.step, hb, hb', hp, hi]
                  | none =>
                      refine stepOk_some (by simp only [St.step, hb, hb', hp, hi]; rfl) ?_ ?_
                      rotate_left
                      · exact h.rest rfl rfl rfl rfl
                      have hi' : (abs s).wakers i = none := by simp [abs, hi]
                      simp only [SSt.step, abs_vars_some hx, abs_polls_some hp, hheld, Fut.held, hi']
                      rw [← hvt]
                      refine congrArg some (SSt.ext' rfl rfl ?_ ?_)
                      · simp only [abs, St.emit, SSt.emit]
                        rw [map_upd]
                        cases p.1.vt <;> rfl
                      · simp only [abs, St.emit, SSt.emit]
                        cases p.1.vt <;> rfl
  | ctxWake x =>
      have hbox : ∀ v, s.vars x = some v → s.boxed x = v.box.bind s.heap := by
        intro v hv
        unfold St.boxed
        rw [hv]
        rcases v with b | _ | b <;> rfl
      cases hx : s.vars x with
      | none => exact stepOk_none (by simp [St.step, St.boxed, hx]) (by simp [SSt.step, abs_vars_none hx])
      | some v =>
          have hb := hbox v hx
          cases hp : s.polls x with
          | none =>
              refine stepOk_none ?_ (by simp [SSt.step, abs_vars_some hx, abs_polls_none hp])
              simp [St.step, hp]
          | some p =>
              obtain ⟨v', hv', hvt, hnd, hbs⟩ := h.polled x p hp
              rw [hx] at hv'
              injection hv' with hv'
              subst hv'
              obtain ⟨b, hbb⟩ := Option.isSome_iff_exists.mp hbs
              have hl := h.live x v b hx hbb
              obtain ⟨f, hf⟩ := Option.isSome_iff_exists.mp hl
              have hb' : v.box.bind s.heap = some f := by rw [hbb]; exact hf
              have hheld : heldOf s.heap v = f.held := by simp [heldOf, hb']
              cases f with
              | pending =>
                  refine stepOk_none ?_ (by
                    simp [SSt.step, abs_vars_some hx, abs_polls_some hp, hheld, Fut.held])
                  simp only [St.step, hb, hb', hp]
              | user n d =>
                  have hd := hnd b n d hbb hf
                  subst hd
                  refine stepOk_some (by simp only [St.step, hb, hb', hp]; rfl) ?_ ?_
                  rotate_left
                  · exact h.rest rfl rfl rfl rfl
                  simp only [SSt.step, abs_vars_some hx, abs_polls_some hp, hheld, Fut.held]
                  rw [← hvt]
                  refine congrArg some (SSt.ext' rfl rfl rfl ?_)
                  simp only [abs, St.emit, SSt.emit]
                  cases p.1.vt <;> rfl
  | clone i r j =>
      cases hi : s.wakers i with
      | none => exact stepOk_none (by simp [St.step, hi]) (by simp [SSt.step, abs, hi])
      | some wk =>
          cases hj : s.wakers j with
          | some wk' => exact stepOk_none (by simp [St.step, hi, hj]) (by simp [SSt.step, abs, hi, hj])
          | none =>
              have hi' : (abs s).wakers i = some (wk.vt, wk.data) := by simp [abs, hi]
              have hj' : (abs s).wakers j = none := by simp [abs, hj]
              refine stepOk_some (by simp only [St.step, hi, hj]; rfl) ?_ ?_
              rotate_left
              · exact h.rest rfl rfl rfl rfl
              simp only [SSt.step, hi', hj']
              refine congrArg some (SSt.ext' rfl rfl ?_ ?_)
              · simp only [abs, St.emit, SSt.emit]
                rw [map_upd]
                cases wk.vt <;> rfl
              · simp only [abs, St.emit, SSt.emit]
                cases wk.vt <;> rfl
  | wake i =>
      cases hi : s.wakers i with
      | none => exact stepOk_none (by simp [St.step, hi]) (by simp [SSt.step, abs, hi])
      | some wk =>
          have hi' : (abs s).wakers i = some (wk.vt, wk.data) := by simp [abs, hi]
          refine stepOk_some (by simp only [St.step, hi]; rfl) ?_ ?_
          rotate_left
          · exact h.rest rfl rfl rfl rfl
          simp only [SSt.step, hi']
          refine congrArg some (SSt.ext' rfl rfl ?_ ?_)
          · simp only [abs, St.emit, SSt.emit]
            rw [map_upd]
            rfl
          · simp only [abs, St.emit, SSt.emit]
            cases wk.vt <;> rfl
  | drop i =>
      cases hi : s.wakers i with
      | none => exact stepOk_none (by simp [St.step, hi]) (by simp [SSt.step, abs, hi])
      | some wk =>
          have hi' : (abs s).wakers i = some (wk.vt, wk.data) := by simp [abs, hi]
          refine stepOk_some (by simp only [St.step, hi]; rfl) ?_ ?_
          rotate_left
          · exact h.rest rfl rfl rfl rfl
          simp only [SSt.step, hi']
          refine congrArg some (SSt.ext' rfl rfl ?_ ?_)
          · simp only [abs, St.emit, SSt.emit]
            rw [map_upd]
            rfl
          · simp only [abs, St.emit, SSt.emit]
            cases wk.vt <;> rfl
  | wakeByRef i =>
      cases hi : s.wakers i with
      | none => exact stepOk_none (by simp [St.step, hi]) (by simp [SSt.step, abs, hi])
      | some wk =>
          have hi' : (abs s).wakers i = some (wk.vt, wk.data) := by simp [abs, hi]
          refine stepOk_some (by simp only [St.step, hi]; rfl) ?_ ?_
          rotate_left
          · exact h.rest rfl rfl rfl rfl
          simp only [SSt.step, hi']
          refine congrArg some (SSt.ext' rfl rfl rfl ?_)
          simp only [abs, St.emit, SSt.emit]
          cases wk.vt <;> rfl

/-- Schedules. -/
theorem run_ok (s : St) (h : Inv s) (as : List Act) :
    (s.run as).map abs = (abs s).run as ∧ ∀ s', s.run as = some s' → Inv s' := by
  induction as generalizing s with
  | nil => exact ⟨rfl, fun s' e => by simp only [St.run, Option.some.injEq] at e; exact e ▸ h⟩
  | cons a as ih =>
      obtain ⟨h1, h2⟩ := step_ok s h a
      cases hs : s.step a with
      | none =>
          rw [hs] at h1
          simp only [Option.map_none] at h1
          simp [St.run, SSt.run, hs, ← h1]
      | some s1 =>
          rw [hs] at h1
          simp only [Option.map_some] at h1
          obtain ⟨h3, h4⟩ := ih s1 (h2 s1 hs)
          refine ⟨?_, ?_⟩
          · simp only [St.run, SSt.run, hs, ← h1, Option.bind_some]
            exact h3
          · simp only [St.run, hs, Option.bind_some]
            exact h4

end Verif.Future

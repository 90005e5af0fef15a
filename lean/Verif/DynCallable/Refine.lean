import Verif.DynCallable.Lemmas

namespace Verif.DynCallable.Impl

open Spec (Cell dropOf)

/-- Simulation relation between the concrete memory and the abstract cells. -/
structure Rel (c : State) (a : Spec.State) : Prop where
  log : c.log = a.log
  tmp : ∀ n, c.mem (.tmp n) = none
  dead : ∀ n, a.cells n = none → c.mem (.var n) = none
  alive : ∀ n k, a.cells n = some k → ∃ o, c.mem (.var n) = some o ∧ Rep o k
  rust : ∀ b, a.atRust b = true ↔ c.place b = .rust
  held : ∀ n b, a.cells n = some (.holds b) → c.place b = .cpp
  uniq : ∀ n m b, a.cells n = some (.holds b) → a.cells m = some (.holds b) → n = m

/-- The concrete outcome simulates the abstract one. -/
def Sim (x : Out Unit) : Spec.Out → Prop
  | .ok a => ∃ c, x = .ok () c ∧ Rel c a
  | .terminated l => x = .terminated l
  | .ub => x = .ub
  | .ill => x = .ill

theorem rel_init : Rel init Spec.init where
  log := rfl
  tmp _ := rfl
  dead _ _ := rfl
  alive n k h := by simp [Spec.init] at h
  rust b := by simp [Spec.init, init]
  held n b h := by simp [Spec.init] at h
  uniq n m b h := by simp [Spec.init] at h

variable {c : State} {a : Spec.State}

theorem sim_recv (h : Rel c a) (q : Qual) (b o : Nat) :
    Sim (step q (.recv b o) c) (Spec.step q a (.recv b o)) := by
  have hr := h.rust b
  cases hb : a.atRust b with
  | false =>
    have : c.place b ≠ .rust := fun hh => by simp [hr.2 hh] at hb
    have h1 : step q (.recv b o) c = .ill := by
      cases hp : c.place b <;> simp_all [step, recv]
    cases ho : a.cells o <;> simp [Spec.step, ho, hb, h1, Sim]
  | true =>
    have hp := hr.1 hb
    cases ho : a.cells o with
    | some k =>
      obtain ⟨ob, h1, -⟩ := h.alive _ _ ho
      simp [Spec.step, ho, hb, Sim, step, recv, hp, bind_def, create, h1]
    | none =>
      have h1 := h.dead _ ho
      simp only [Spec.step, ho, hb, Sim, step, recv, hp, bind_def, create, h1, emit]
      refine ⟨_, rfl, ?_, ?_, ?_, ?_, ?_, ?_, ?_⟩
      · simp [h.log]
      · intro n; simp [Function.update_apply, h.tmp n]
      · intro n hn
        by_cases e : n = o
        · simp [e] at hn
        · simp [Function.update_apply, e] at hn ⊢; exact h.dead _ hn
      · intro n k hn
        by_cases e : n = o
        · subst e; simp at hn; subst hn
          exact ⟨_, by simp, .holds b⟩
        · simp [Function.update_apply, e] at hn
          obtain ⟨ob, g1, g2⟩ := h.alive _ _ hn
          exact ⟨ob, by simp [Function.update_apply, e, g1], g2⟩
      · intro b'
        by_cases e : b' = b
        · simp [e]
        · simp [Function.update_apply, e, h.rust b']
      · intro n b' hn
        by_cases e : n = o
        · subst e; simp at hn; subst hn; simp
        · simp [Function.update_apply, e] at hn
          have := h.held _ _ hn
          by_cases e2 : b' = b
          · simp [e2]
          · simp [Function.update_apply, e2, this]
      · intro n m b' hn hm
        have aux : ∀ n, a.cells n = some (.holds b) → False := by
          intro n hn; simp [h.held _ _ hn] at hp
        by_cases e : n = o <;> by_cases e2 : m = o
        · rw [e, e2]
        · subst e; simp at hn; subst hn
          simp [Function.update_apply, e2] at hm
          exact (aux _ hm).elim
        · subst e2; simp at hm; subst hm
          simp [Function.update_apply, e] at hn
          exact (aux _ hn).elim
        · simp [Function.update_apply, e, e2] at hn hm
          exact h.uniq _ _ _ hn hm

/-- Rebuild the relation after the variables changed, given pointwise descriptions. -/
theorem Rel.update (h : Rel c a) {c' : State} {a' : Spec.State}
    (log : c'.log = a'.log) (tmp : ∀ n, c'.mem (.tmp n) = none)
    (cells : ∀ n, (a'.cells n = none ∧ c'.mem (.var n) = none) ∨
      ∃ k o, a'.cells n = some k ∧ c'.mem (.var n) = some o ∧ Rep o k)
    (rust : ∀ b, a'.atRust b = true ↔ c'.place b = .rust)
    (held : ∀ n b, a'.cells n = some (.holds b) → c'.place b = .cpp)
    (uniq : ∀ n m b, a'.cells n = some (.holds b) → a'.cells m = some (.holds b) → n = m) :
    Rel c' a' where
  log := log
  tmp := tmp
  dead n hn := by
    rcases cells n with ⟨-, h1⟩ | ⟨k, o, h1, -⟩
    · exact h1
    · simp [hn] at h1
  alive n k hn := by
    rcases cells n with ⟨h1, -⟩ | ⟨k', o, h1, h2, h3⟩
    · simp [hn] at h1
    · rw [hn] at h1; cases h1; exact ⟨o, h2, h3⟩
  rust := rust
  held := held
  uniq := uniq

theorem Rel.cases (h : Rel c a) (n : Nat) : (a.cells n = none ∧ c.mem (.var n) = none) ∨
      ∃ k o, a.cells n = some k ∧ c.mem (.var n) = some o ∧ Rep o k := by
  cases hn : a.cells n with
  | none => exact .inl ⟨rfl, h.dead _ hn⟩
  | some k => obtain ⟨o, h1, h2⟩ := h.alive _ _ hn; exact .inr ⟨k, o, rfl, h1, h2⟩

theorem sim_default (h : Rel c a) (q : Qual) (o : Nat) :
    Sim (step q (.default o) c) (Spec.step q a (.default o)) := by
  rcases h.cases o with ⟨h1, h2⟩ | ⟨k, ob, h1, h2, h3⟩
  · simp only [Spec.step, h1, Sim, step, create, h2]
    refine ⟨_, rfl, h.update h.log ?_ ?_ h.rust ?_ ?_⟩
    · intro n; simp [Function.update_apply, h.tmp n]
    · intro n
      by_cases e : n = o
      · subst e; exact .inr ⟨_, _, by simp, by simp; rfl, .empty _⟩
      · simpa [Function.update_apply, e] using h.cases n
    · intro n b hn
      by_cases e : n = o
      · simp [e] at hn
      · simp [Function.update_apply, e] at hn; exact h.held _ _ hn
    · intro n m b hn hm
      by_cases e : n = o
      · simp [e] at hn
      · by_cases e2 : m = o
        · simp [e2] at hm
        · simp [Function.update_apply, e, e2] at hn hm; exact h.uniq _ _ _ hn hm
  · simp [Spec.step, h1, Sim, step, create, h2]

/-- A cell moved from `r` to `d`, `d ≠ r`; closures not mentioned elsewhere may be dropped. -/
theorem rel_move (h : Rel c a) {c' : State} {a' : Spec.State} {d r : Nat} {k : Cell} {od or : Obj}
    (hne : d ≠ r) (hrk : a.cells r = some k)
    (ha : a'.cells = Function.update (Function.update a.cells d (some k)) r (some .empty))
    (hr : a'.atRust = a.atRust)
    (log : c'.log = a'.log)
    (hp : (c'.place = c.place) ∨ ∃ b, a.cells d = some (.holds b) ∧
        c'.place = Function.update c.place b .gone)
    (h1 : c'.mem (.var d) = some od) (h2 : Rep od k)
    (h3 : c'.mem (.var r) = some or) (h4 : Rep or .empty)
    (h5 : ∀ l, l ≠ .var d → l ≠ .var r → c'.mem l = c.mem l) : Rel c' a' := by
  have cells : ∀ n, a'.cells n = if n = r then some .empty else if n = d then some k else a.cells n := by
    intro n; rw [ha]; simp [Function.update_apply]
  have cellh : ∀ n b, a'.cells n = some (.holds b) →
      (n = d ∧ a.cells r = some (.holds b)) ∨ (n ≠ d ∧ n ≠ r ∧ a.cells n = some (.holds b)) := by
    intro n b hn
    rw [cells] at hn
    split at hn
    · simp at hn
    · split at hn
      · next e => simp at hn; subst hn; exact .inl ⟨e, hrk⟩
      · exact .inr ⟨by assumption, by assumption, hn⟩
  refine h.update log ?_ ?_ ?_ ?_ ?_
  · intro n; rw [h5 _ (by simp) (by simp)]; exact h.tmp n
  · intro n
    rw [cells]
    by_cases e : n = r
    · subst e; exact .inr ⟨.empty, or, by simp, h3, h4⟩
    · by_cases e2 : n = d
      · subst e2; exact .inr ⟨k, od, by simp [e], h1, h2⟩
      · rw [h5 _ (by simpa using e2) (by simpa using e)]
        simpa [e, e2] using h.cases n
  · intro b
    rw [hr]
    rcases hp with hp | ⟨b', hb', hp⟩
    · rw [hp]; exact h.rust b
    · rw [hp]
      by_cases e : b = b'
      · subst e
        have := h.held _ _ hb'
        have h6 := h.rust b
        simp [this] at h6
        simp [h6]
      · simp [Function.update_apply, e, h.rust b]
  · intro n b hn
    have key : ∃ m, m ≠ d ∧ a.cells m = some (.holds b) := by
      rcases cellh _ _ hn with ⟨-, h6⟩ | ⟨h6, h7, h8⟩
      · exact ⟨r, hne.symm, h6⟩
      · exact ⟨n, h6, h8⟩
    obtain ⟨m, hm, hmb⟩ := key
    rcases hp with hp | ⟨b', hb', hp⟩
    · rw [hp]; exact h.held _ _ hmb
    · rw [hp]
      have : b ≠ b' := by rintro rfl; exact hm (h.uniq _ _ _ hmb hb')
      simp [Function.update_apply, this, h.held _ _ hmb]
  · intro n m b hn hm
    rcases cellh _ _ hn with ⟨e1, g1⟩ | ⟨e1, e2, g1⟩ <;>
      rcases cellh _ _ hm with ⟨e3, g2⟩ | ⟨e3, e4, g2⟩
    · rw [e1, e3]
    · exact absurd (h.uniq _ _ _ g1 g2) (fun e => e4 e.symm)
    · exact absurd (h.uniq _ _ _ g1 g2) (fun e => e2 e)
    · exact h.uniq _ _ _ g1 g2

theorem sim_moveCtor (h : Rel c a) (q : Qual) (d r : Nat) :
    Sim (step q (.moveCtor d r) c) (Spec.step q a (.moveCtor d r)) := by
  rcases h.cases r with ⟨h1, h2⟩ | ⟨k, ob, h1, h2, h3⟩
  · have : step q (.moveCtor d r) c = .ill := by simp [step, implMoveCtor, bind_def, read, h2]
    cases hd : a.cells d <;> simp [Spec.step, h1, Sim, this, hd]
  · rcases h.cases d with ⟨g1, g2⟩ | ⟨kd, od, g1, g2, g3⟩
    · have hne : d ≠ r := by rintro rfl; simp [h1] at g1
      obtain ⟨m', od', or', e1, e2, e3, e4, e5, e6⟩ := implMoveCtor_eq g2 h2 h3
      simp only [Spec.step, h1, g1, Sim, step, e1]
      refine ⟨_, rfl, ?_⟩
      exact rel_move h hne h1 rfl rfl h.log (.inl rfl) e2 e3 e4 e5 e6
    · have : step q (.moveCtor d r) c = .ill := by
        simp [step, implMoveCtor, bind_def, read, h2, create, g2]
      simp [Spec.step, h1, g1, Sim, this]

theorem dropPlace_cases (h : Rel c a) {d : Nat} {k : Cell} (hk : a.cells d = some k) :
    (dropPlace c.place k = c.place) ∨ ∃ b, a.cells d = some (.holds b) ∧
        dropPlace c.place k = Function.update c.place b .gone := by
  cases k with
  | empty => exact .inl rfl
  | spent => exact .inl rfl
  | holds b => exact .inr ⟨b, hk, rfl⟩

theorem Rel.heldOf (h : Rel c a) {d : Nat} {k : Cell} (hk : a.cells d = some k) :
    ∀ b, k = .holds b → c.place b = .cpp := by
  rintro b rfl; exact h.held _ _ hk

/-- Only cells which hold nothing changed, to cells which hold nothing. -/
theorem rel_set (h : Rel c a) {c' : State} {a' : Spec.State} {d : Nat} {k : Cell} {od : Obj}
    (hk : ∀ b, k ≠ .holds b) (ha : a'.cells = Function.update a.cells d (some k))
    (hr : ∀ b, a'.atRust b = true ↔ c'.place b = .rust) (log : c'.log = a'.log)
    (hp : ∀ n b, n ≠ d → a.cells n = some (.holds b) → c'.place b = .cpp)
    (h1 : c'.mem (.var d) = some od) (h2 : Rep od k)
    (h5 : ∀ l, l ≠ .var d → c'.mem l = c.mem l) : Rel c' a' := by
  have cellh : ∀ n b, a'.cells n = some (.holds b) → n ≠ d ∧ a.cells n = some (.holds b) := by
    intro n b hn
    rw [ha] at hn
    by_cases e : n = d
    · subst e; simp at hn; exact absurd hn (hk b)
    · simp [Function.update_apply, e] at hn; exact ⟨e, hn⟩
  refine h.update log ?_ ?_ hr ?_ ?_
  · intro n; rw [h5 _ (by simp)]; exact h.tmp n
  · intro n
    by_cases e : n = d
    · subst e; exact .inr ⟨k, od, by simp [ha], h1, h2⟩
    · rw [ha, h5 _ (by simpa using e)]
      simpa [Function.update_apply, e] using h.cases n
  · intro n b hn; exact hp _ _ (cellh _ _ hn).1 (cellh _ _ hn).2
  · intro n m b hn hm; exact h.uniq _ _ _ (cellh _ _ hn).2 (cellh _ _ hm).2

theorem sim_moveAssign (h : Rel c a) (q : Qual) (d r : Nat) :
    Sim (step q (.moveAssign d r) c) (Spec.step q a (.moveAssign d r)) := by
  rcases h.cases d with ⟨h1, h2⟩ | ⟨k, ob, h1, h2, h3⟩
  · have : step q (.moveAssign d r) c = .ill := by simp [step, bind_def, read, h2]
    simp [Spec.step, h1, Sim, this]
  rcases h.cases r with ⟨g1, g2⟩ | ⟨kr, or, g1, g2, g3⟩
  · have : step q (.moveAssign d r) c = .ill := by simp [step, bind_def, read, h2, g2]
    simp [Spec.step, h1, g1, Sim, this]
  have hst : step q (.moveAssign d r) c = implAssign (.var d) (.var r) c := by
    simp [step, bind_def, read, h2, g2]
  by_cases e : d = r
  · subst e
    rw [h1] at g1; cases g1
    by_cases hk : ∃ b, k = .holds b
    · obtain ⟨b, rfl⟩ := hk
      have := implAssign_self_holds h2 h3 (h.held _ _ h1)
      simp [Spec.step, h1, Sim, hst, this]
    · have hk' : ∀ b, k ≠ .holds b := fun b hb => hk ⟨b, hb⟩
      obtain ⟨m', od', e1, e2, e3, e4⟩ := implAssign_self h2 h3 hk'
      have hs : Spec.step q a (.moveAssign d d) =
          .ok { a with cells := Function.update a.cells d (some .empty) } := by
        simp only [Spec.step, h1, if_true]
      rw [hs, hst, e1]
      exact ⟨_, rfl, rel_set h (by intro b; simp) rfl h.rust h.log
        (fun n b _ hn => h.held _ _ hn) e2 e3 e4⟩
  · obtain ⟨m', od', or', e1, e2, e3, e4, e5, e6⟩ :=
      implAssign_ne (by simpa using e) h2 g2 h3 g3 (h.heldOf h1)
    simp only [Spec.step, h1, g1, e, if_false, Sim, hst, e1]
    exact ⟨_, rfl, rel_move h e g1 rfl rfl (by simp [h.log]) (dropPlace_cases h h1) e2 e3 e4 e5 e6⟩

theorem sim_call (h : Rel c a) (q : Qual) (o : Nat) :
    Sim (step q (.call o) c) (Spec.step q a (.call o)) := by
  rcases h.cases o with ⟨h1, h2⟩ | ⟨k, ob, h1, h2, h3⟩
  · have : step q (.call o) c = .ill := by simp [step, callOperator, bind_def, read, h2]
    simp [Spec.step, h1, Sim, this]
  cases h3 with
  | empty st =>
    have : step q (.call o) c = .ub := by
      cases q <;> simp [step, callOperator, bind_def, read, h2, modify, pure_def, ub]
    simp [Spec.step, h1, Sim, this]
  | spent st =>
    have : step q (.call o) c = .terminated a.log := by
      cases q <;> simp [step, callOperator, bind_def, read, h2, modify, pure_def, terminate, h.log]
    simp [Spec.step, h1, Sim, this]
  | holds b =>
    have hb := h.held _ _ h1
    have nr : ∀ q, q ≠ .rvalue → Sim (step q (.call o) c) (Spec.step q a (.call o)) := by
      intro q hq
      have h4 : step q (.call o) c = .ok () { c with
          place := Function.update c.place b .cpp, log := c.log ++ [.call b] } := by
        cases q <;> first | exact absurd rfl hq | simp [step, callOperator, bind_def, read, h2,
          pure_def, rustInvoker, useBox, hb, emit]
      have h5 : Spec.step q a (.call o) = .ok { a with log := a.log ++ [.call b] } := by
        cases q <;> first | exact absurd rfl hq | simp [Spec.step, h1]
      rw [h4, h5]
      have h6 : Function.update c.place b .cpp = c.place := by rw [← hb]; simp
      rw [h6]
      exact ⟨_, rfl, h.update (by simp [h.log]) h.tmp h.cases h.rust h.held h.uniq⟩
    cases q with
    | const => exact nr _ (by simp)
    | nonconst => exact nr _ (by simp)
    | rvalue =>
      have h4 : step .rvalue (.call o) c = .ok () { c with
          mem := Function.update c.mem (.var o) (some ⟨.stub, .empty, .afterMove⟩),
          place := Function.update c.place b .gone, log := c.log ++ [.consume b] } := by
        simp [step, callOperator, bind_def, read, h2, modify, rustInvoker, useBox, hb, emit]
      have h5 : Spec.step .rvalue a (.call o) = .ok { a with
          cells := Function.update a.cells o (some .spent), log := a.log ++ [.consume b] } := by
        simp [Spec.step, h1]
      rw [h4, h5]
      refine ⟨_, rfl, rel_set h (d := o) (k := .spent) (by intro b; simp) rfl ?_ (by simp [h.log]) ?_
        (by simp) (.spent .stub) ?_⟩
      · intro b'
        by_cases e : b' = b
        · subst e; have := h.rust b'; simp [hb] at this; simp [this]
        · simp [Function.update_apply, e, h.rust b']
      · intro n b' hne hn
        have : b' ≠ b := by rintro rfl; exact hne (h.uniq _ _ _ hn h1)
        simp [Function.update_apply, this, h.held _ _ hn]
      · intro l hl; simp [Function.update_apply, hl]

theorem sim_hasValue (h : Rel c a) (q : Qual) (o : Nat) :
    Sim (step q (.hasValue o) c) (Spec.step q a (.hasValue o)) := by
  rcases h.cases o with ⟨h1, h2⟩ | ⟨k, ob, h1, h2, h3⟩
  · have : step q (.hasValue o) c = .ill := by simp [step, hasValue, bind_def, read, h2]
    simp [Spec.step, h1, Sim, this]
  · simp only [Spec.step, h1, Sim, step, bind_def, hasValue_eq h2 h3, emit]
    exact ⟨_, rfl, h.update (by simp [h.log]) h.tmp h.cases h.rust h.held h.uniq⟩

theorem sim_toAny (h : Rel c a) (q : Qual) (o : Nat) :
    Sim (step q (.toAny o) c) (Spec.step q a (.toAny o)) := by
  rcases h.cases o with ⟨h1, h2⟩ | ⟨k, ob, h1, h2, h3⟩
  · have : step q (.toAny o) c = .ill := by simp [step, toAny, bind_def, read, h2]
    simp [Spec.step, h1, Sim, this]
  have heq : ∀ (o' : Obj), Function.update (Function.update c.mem (.var o) (some o')) (.var o)
      (some ⟨ob.storage, .empty, .null⟩) = Function.update c.mem (.var o)
      (some ⟨ob.storage, .empty, .null⟩) := by intro o'; simp
  cases h3 with
  | empty st =>
    simp only [Spec.step, h1, Sim, step, toAny, bind_def, read, h2, modify, Function.update_self,
      emit, heq]
    exact ⟨_, rfl, rel_set h (d := o) (k := .empty) (by intro b; simp) rfl h.rust (by simp [h.log])
      (fun n b _ hn => h.held _ _ hn) (by simp; rfl) (.empty _)
      (by intro l hl; simp [Function.update_apply, hl])⟩
  | spent st =>
    simp only [Spec.step, h1, Sim, step, toAny, bind_def, read, h2, modify, Function.update_self,
      emit, heq]
    exact ⟨_, rfl, rel_set h (d := o) (k := .empty) (by intro b; simp) rfl h.rust (by simp [h.log])
      (fun n b _ hn => h.held _ _ hn) (by simp; rfl) (.empty _)
      (by intro l hl; simp [Function.update_apply, hl])⟩
  | holds b =>
    have hb := h.held _ _ h1
    simp only [Spec.step, h1, Sim, step, toAny, bind_def, read, h2, modify, Function.update_self,
      emit, heq, useBox, hb]
    refine ⟨_, rfl, rel_set h (d := o) (k := .empty) (by intro b; simp) rfl ?_ (by simp [h.log])
      ?_ (by simp; rfl) (.empty _)
      (by intro l hl; simp [Function.update_apply, hl])⟩
    · intro b'
      by_cases e : b' = b
      · subst e; have := h.rust b'; simp [hb] at this; simp [this]
      · simp [Function.update_apply, e, h.rust b']
    · intro n b' hne hn
      have : b' ≠ b := by rintro rfl; exact hne (h.uniq _ _ _ hn h1)
      simp [Function.update_apply, this, h.held _ _ hn]

theorem sim_destroy (h : Rel c a) (q : Qual) (o : Nat) :
    Sim (step q (.destroy o) c) (Spec.step q a (.destroy o)) := by
  rcases h.cases o with ⟨h1, h2⟩ | ⟨k, ob, h1, h2, h3⟩
  · have : step q (.destroy o) c = .ill := by simp [step, destructor, bind_def, read, h2]
    simp [Spec.step, h1, Sim, this]
  · have e1 := destructor_eq h2 h3 (h.heldOf h1)
    simp only [Spec.step, h1, Sim, step, e1]
    have cellh : ∀ n b, Function.update a.cells o none n = some (.holds b) →
        n ≠ o ∧ a.cells n = some (.holds b) := by
      intro n b hn
      by_cases e : n = o
      · subst e; simp at hn
      · simp [Function.update_apply, e] at hn; exact ⟨e, hn⟩
    refine ⟨_, rfl, h.update (by simp [h.log]) ?_ ?_ ?_ ?_ ?_⟩
    · intro n; simp [Function.update_apply, h.tmp n]
    · intro n
      by_cases e : n = o
      · subst e; simp
      · simpa [Function.update_apply, e] using h.cases n
    · intro b
      rcases dropPlace_cases h h1 with hp | ⟨b', hb', hp⟩
      · rw [hp]; exact h.rust b
      · rw [hp]
        by_cases e : b = b'
        · subst e; have := h.rust b; simp [h.held _ _ hb'] at this; simp [this]
        · simp [Function.update_apply, e, h.rust b]
    · intro n b hn
      obtain ⟨e, hn⟩ := cellh _ _ hn
      rcases dropPlace_cases h h1 with hp | ⟨b', hb', hp⟩
      · rw [hp]; exact h.held _ _ hn
      · rw [hp]
        have : b ≠ b' := by rintro rfl; exact e (h.uniq _ _ _ hn hb')
        simp [Function.update_apply, this, h.held _ _ hn]
    · intro n m b hn hm
      exact h.uniq _ _ _ (cellh _ _ hn).2 (cellh _ _ hm).2

/-- The cells of two variables are exchanged, everything else stays. -/
theorem rel_swap (h : Rel c a) {m' : Loc → Option Obj} {x y : Nat} {kx ky : Cell} {ox oy : Obj}
    (hx : a.cells x = some kx) (hy : a.cells y = some ky)
    (h1 : m' (.var x) = some ox) (h2 : Rep ox ky) (h3 : m' (.var y) = some oy) (h4 : Rep oy kx)
    (ht : ∀ n, m' (.tmp n) = none)
    (h5 : ∀ n, n ≠ x → n ≠ y → m' (.var n) = c.mem (.var n)) :
    Rel { c with mem := m' }
      { a with cells := Function.update (Function.update a.cells x (some ky)) y (some kx) } := by
  have cells : ∀ n, Function.update (Function.update a.cells x (some ky)) y (some kx) n =
      a.cells (if n = x then y else if n = y then x else n) := by
    intro n
    by_cases e : n = y <;> by_cases e2 : n = x
    · subst e; subst e2; simp [hx]
    · have e3 : ¬ y = x := fun h => e2 (e.trans h)
      subst e; simp [hx, e3]
    · subst e2; simp [Function.update_apply, e, hy]
    · simp [Function.update_apply, e, e2]
  refine h.update h.log ht ?_ h.rust ?_ ?_
  · intro n
    by_cases e : n = y
    · subst e; exact .inr ⟨kx, oy, by simp, h3, h4⟩
    · by_cases e2 : n = x
      · subst e2; exact .inr ⟨ky, ox, by simp [Function.update_apply, e], h1, h2⟩
      · simpa [Function.update_apply, e, e2, h5 n e2 e] using h.cases n
  · intro n b hn
    simp only [cells] at hn
    exact h.held _ _ hn
  · intro n m b hn hm
    simp only [cells] at hn hm
    have := h.uniq _ _ _ hn hm
    split at this <;> split at this <;> (try split at this) <;> (try split at this) <;> simp_all

theorem sim_swap (h : Rel c a) (q : Qual) (x y : Nat) :
    Sim (step q (.swap x y) c) (Spec.step q a (.swap x y)) := by
  rcases h.cases x with ⟨h1, h2⟩ | ⟨kx, ox, h1, h2, h3⟩
  · have : step q (.swap x y) c = .ill := by simp [step, swap, bind_def, read, h2]
    simp [Spec.step, h1, Sim, this]
  rcases h.cases y with ⟨g1, g2⟩ | ⟨ky, oy, g1, g2, g3⟩
  · have : step q (.swap x y) c = .ill := by simp [step, swap, bind_def, read, h2, g2]
    simp [Spec.step, h1, g1, Sim, this]
  obtain ⟨m1, t1, x1, e1, e2, e3, e4, e5, e6⟩ := implMoveCtor_eq (h.tmp 0) h2 h3
  have noh : ∀ (s : State) b, Cell.empty = .holds b → s.place b = .cpp := by intro s b h; cases h
  have hst : step q (.swap x y) c = (do
      implAssign (.var x) (.var y); implAssign (.var y) (.tmp 0); destructor (.tmp 0) : M Unit)
      { c with mem := m1 } := by
    have r1 : read (.var x) c = .ok ox c := by simp [read, h2]
    have r2 : read (.var y) c = .ok oy c := by simp [read, g2]
    simp only [step, swap]
    rw [bind_def, r1]; simp only []
    rw [bind_def, r2]; simp only []
    rw [bind_def, e1]
  by_cases e : x = y
  · subst e
    rw [h1] at g1; cases g1
    obtain ⟨m2, x2, f1, f2, f3, f4⟩ := implAssign_self (s := { c with mem := m1 }) e4 e5
      (by intro b; simp)
    obtain ⟨m3, x3, t3, k1, k2, k3, k4, k5, k6⟩ :=
      implAssign_ne (s := { c with mem := m2 }) (d := .var x) (r := .tmp 0) (by simp) f2
        (by simp only; rw [f4 _ (by simp)]; exact e2) f3 e3 (noh _)
    have k7 := destructor_eq (s := { c with mem := m3 }) k4 k5 (noh _)
    have hall : step q (.swap x x) c = .ok () { c with mem := Function.update m3 (.tmp 0) none } := by
      simp only [dropPlace, dropOf, List.append_nil] at k1 k7
      rw [hst, bind_def, f1]; simp only []
      rw [bind_def, k1]; simp only []
      rw [k7]
    rw [hall]
    simp only [Spec.step, h1, Sim]
    refine ⟨_, rfl, rel_swap h (x := x) (y := x) h1 h1 (by simpa [Function.update_apply] using k2) k3
      (by simpa [Function.update_apply] using k2) k3 ?_ ?_⟩
    · intro n
      by_cases en : n = 0
      · subst en; simp
      · simp only [Function.update_apply, Loc.tmp.injEq, en, if_false]
        rw [k6 _ (by simp) (by simpa using en)]
        simp only; rw [f4 _ (by simp)]
        simp only; rw [e6 _ (by simpa using en) (by simp)]
        exact h.tmp n
    · intro n h6 h7
      simp only [Function.update_apply, reduceCtorEq, if_false]
      rw [k6 _ (by simpa using h6) (by simp)]
      simp only; rw [f4 _ (by simpa using h6)]
      simp only; rw [e6 _ (by simp) (by simpa using h6)]
  · have hy1 : m1 (.var y) = some oy := by rw [e6 _ (by simp) (by simpa using Ne.symm e)]; exact g2
    obtain ⟨m2, x2, y2, f1, f2, f3, f4, f5, f6⟩ :=
      implAssign_ne (s := { c with mem := m1 }) (d := .var x) (r := .var y) (by simpa using e) e4 hy1
        e5 g3 (noh _)
    simp only [dropPlace, dropOf, List.append_nil] at f1
    obtain ⟨m3, y3, t3, k1, k2, k3, k4, k5, k6⟩ :=
      implAssign_ne (s := { c with mem := m2 }) (d := .var y) (r := .tmp 0) (by simp) f4
        (by simp only; rw [f6 _ (by simp) (by simp)]; exact e2) f5 e3 (noh _)
    have k7 := destructor_eq (s := { c with mem := m3 }) k4 k5 (noh _)
    have hall : step q (.swap x y) c = .ok () { c with mem := Function.update m3 (.tmp 0) none } := by
      simp only [dropPlace, dropOf, List.append_nil] at k1 k7
      rw [hst, bind_def, f1]; simp only []
      rw [bind_def, k1]; simp only []
      rw [k7]
    rw [hall]
    simp only [Spec.step, h1, g1, Sim]
    refine ⟨_, rfl, rel_swap h (x := x) (y := y) h1 g1 (ox := x2) (oy := y3) ?_ f3
      (by simpa [Function.update_apply] using k2) k3 ?_ ?_⟩
    · simp only [Function.update_apply, reduceCtorEq, if_false]
      rw [k6 _ (by simpa using e) (by simp)]; exact f2
    · intro n
      by_cases en : n = 0
      · subst en; simp
      · simp only [Function.update_apply, Loc.tmp.injEq, en, if_false]
        rw [k6 _ (by simp) (by simpa using en)]
        simp only; rw [f6 _ (by simp) (by simp)]
        simp only; rw [e6 _ (by simpa using en) (by simp)]
        exact h.tmp n
    · intro n h6 h7
      simp only [Function.update_apply, reduceCtorEq, if_false]
      rw [k6 _ (by simpa using h7) (by simp)]
      simp only; rw [f6 _ (by simpa using h6) (by simpa using h7)]
      simp only; rw [e6 _ (by simp) (by simpa using h6)]

/-- The box bits sent for an object of each kind (`st`: for a spent one). -/
def wireBox (st : Slot) : Cell → Slot
  | .empty => .uninit
  | .holds b => .closure b
  | .spent => st

/-- What a by-value object of each kind is encoded to. -/
theorem encode_eq {s : State} {l : Loc} {o : Obj} {k : Cell} (hm : s.mem l = some o) (hr : Rep o k) :
    ∃ st, encode l s = .ok
        ⟨decide (k ≠ .empty), wireBox st k⟩
        { s with mem := Function.update s.mem l (some { o with manager := .empty }) } ∧
      (k = .spent → st = o.storage) := by
  refine ⟨o.storage, ?_, fun _ => rfl⟩
  cases hr <;> simp [encode, bind_def, hasValue, read, hm, modify, pure_def, wireBox]

/-- A move-constructed spent object has uninitialised storage. -/
theorem implMoveCtor_spent {s : State} {d r : Loc} {or : Obj}
    (hd : s.mem d = none) (hr : s.mem r = some or) (rr : Rep or .spent) :
    ∃ m', implMoveCtor d r s = .ok () { s with mem := m' } ∧
      m' d = some ⟨.uninit, .empty, .afterMove⟩ ∧ (∃ or', m' r = some or' ∧ Rep or' .empty) ∧
      ∀ l, l ≠ d → l ≠ r → m' l = s.mem l := by
  have hne : d ≠ r := by rintro rfl; simp [hd] at hr
  have hne' : r ≠ d := fun h => hne h.symm
  cases rr with
  | spent st =>
    refine ⟨Function.update (Function.update s.mem d (some ⟨.uninit, .empty, .afterMove⟩)) r
        (some ⟨st, .empty, .null⟩), ?_, ?_, ⟨⟨st, .empty, .null⟩, by simp, .empty _⟩, ?_⟩
    · simp only [implMoveCtor, implAssign, managedAssign, bind_def, read, hr, create, hd,
        managerRelocate, managerDispose, pure_def, defaultObj, modify, Function.update_apply, hne,
        hne', if_true, if_false]
      congr 2
      funext l
      simp only [Function.update_apply]
      by_cases h1 : l = r <;> by_cases h2 : l = d <;> simp_all
    · simp [Function.update_apply, hne]
    · intro l h1 h2; simp [Function.update_apply, h1, h2]

theorem sim_toRust (h : Rel c a) (q : Qual) (o : Nat) :
    Sim (step q (.toRust o) c) (Spec.step q a (.toRust o)) := by
  rcases h.cases o with ⟨h1, h2⟩ | ⟨k, ob, h1, h2, h3⟩
  · have : step q (.toRust o) c = .ill := by simp [step, toRust, implMoveCtor, bind_def, read, h2]
    simp [Spec.step, h1, Sim, this]
  have noh : ∀ (s : State) b, Cell.empty = .holds b → s.place b = .cpp := by intro s b h; cases h
  obtain ⟨m1, t1, x1, e1, e2, e3, e4, e5, e6⟩ := implMoveCtor_eq (h.tmp 0) h2 h3
  have ht1 : m1 (.tmp 1) = none := by rw [e6 _ (by simp) (by simp)]; exact h.tmp 1
  have hx : ∃ m2 t2 t1', implMoveCtor (.tmp 1) (.tmp 0) { c with mem := m1 } =
        .ok () { c with mem := m2 } ∧ m2 (.tmp 1) = some t2 ∧ Rep t2 k ∧ m2 (.tmp 0) = some t1' ∧
        Rep t1' .empty ∧ (∀ l, l ≠ .tmp 1 → l ≠ .tmp 0 → m2 l = m1 l) ∧
        (k = .spent → t2.storage = .uninit) := by
    by_cases hk : k = .spent
    · subst hk
      obtain ⟨m2, f1, f2, ⟨or', f3, f4⟩, f5⟩ :=
        implMoveCtor_spent (s := { c with mem := m1 }) ht1 e2 e3
      exact ⟨m2, _, or', f1, f2, .spent _, f3, f4, f5, fun _ => rfl⟩
    · obtain ⟨m2, t2, t1', f1, f2, f3, f4, f5, f6⟩ :=
        implMoveCtor_eq (s := { c with mem := m1 }) ht1 e2 e3
      exact ⟨m2, t2, t1', f1, f2, f3, f4, f5, f6, fun h => absurd h hk⟩
  obtain ⟨m2, t2, t1', f1, f2, f3, f4, f5, f6, f7⟩ := hx
  obtain ⟨st, g1, g2⟩ := encode_eq (s := { c with mem := m2 }) f2 f3
  have hd1 : ∀ m : Loc → Option Obj, m (.tmp 1) = some { t2 with manager := .empty } →
      destructor (.tmp 1) { c with mem := m } = .ok () { c with mem := Function.update m (.tmp 1) none } := by
    intro m hm
    simp [destructor, bind_def, read, hm, managerDispose, pure_def, free]
  have hd0 : ∀ m : Loc → Option Obj, m (.tmp 0) = some t1' →
      destructor (.tmp 0) { c with mem := m } = .ok () { c with mem := Function.update m (.tmp 0) none } := by
    intro m hm
    have := destructor_eq (s := { c with mem := m }) hm f5 (noh _)
    simpa [dropPlace, dropOf] using this
  let m4 := Function.update (Function.update (Function.update m2 (.tmp 1)
      (some { t2 with manager := .empty })) (.tmp 1) none) (.tmp 0) none
  let w : Wire := ⟨decide (k ≠ .empty), wireBox st k⟩
  have hst : step q (.toRust o) c = rustDecode w { c with mem := m4 } := by
    simp only [step, toRust]
    rw [bind_def, e1]; simp only []
    rw [bind_def, f1]; simp only []
    rw [bind_def, g1]; simp only []
    rw [bind_def, hd1 _ (by simp)]; simp only []
    rw [bind_def, hd0 _ (by simpa [Function.update_apply] using f4)]
  have m4v : ∀ l, (∀ n, l ≠ .tmp n) → m4 l = m1 l := by
    intro l hl
    simp only [m4, Function.update_apply, hl, if_false]
    exact f6 _ (hl _) (hl _)
  have m4o : m4 (.var o) = some x1 := by rw [m4v _ (by simp)]; exact e4
  have m4n : ∀ n, n ≠ o → m4 (.var n) = c.mem (.var n) := by
    intro n hn; rw [m4v _ (by simp)]; exact e6 _ (by simp) (by simpa using hn)
  have m4t : ∀ n, m4 (.tmp n) = none := by
    intro n
    by_cases n0 : n = 0
    · subst n0; simp [m4]
    · by_cases n1 : n = 1
      · subst n1; simp [m4, Function.update_apply]
      · simp only [m4, Function.update_apply, Loc.tmp.injEq, n0, n1, if_false]
        rw [f6 _ (by simpa using n1) (by simpa using n0), e6 _ (by simpa using n0) (by simp)]
        exact h.tmp n
  have m4l : ∀ l, l ≠ .var o → m4 l = c.mem l := by
    intro l hl
    cases l with
    | var n => exact m4n n (by simpa using hl)
    | tmp n => rw [m4t, h.tmp]
  rw [hst]
  cases k with
  | empty =>
    simp only [Spec.step, h1, Sim, w, wireBox, rustDecode, emit]
    refine ⟨_, rfl, rel_set h (d := o) (k := .empty) (by intro b; simp) ?_ h.rust (by simp [h.log])
      (fun n b _ hn => h.held _ _ hn) m4o e5 m4l⟩
    simp [← h1]
  | spent =>
    have : st = .uninit := by rw [g2 rfl]; exact f7 rfl
    simp [Spec.step, h1, Sim, w, wireBox, rustDecode, this, ub]
  | holds b =>
    have hb := h.held _ _ h1
    simp only [Spec.step, h1, Sim, w, wireBox, rustDecode, bind_def, useBox, hb, emit]
    refine ⟨{ mem := m4, place := Function.update c.place b .rust, log := c.log ++ [.toRust (some b)] },
      by simp [bind_def, useBox, hb, emit], rel_set h (d := o) (k := .empty) (by intro b; simp) rfl ?_ (by simp [h.log])
      ?_ m4o e5 m4l⟩
    · intro b'
      by_cases e : b' = b
      · subst e; simp
      · simp [Function.update_apply, e, h.rust b']
    · intro n b' hne hn
      have : b' ≠ b := by rintro rfl; exact hne (h.uniq _ _ _ hn h1)
      simp [Function.update_apply, this, h.held _ _ hn]

theorem sim_step (h : Rel c a) (q : Qual) (op : Op) : Sim (step q op c) (Spec.step q a op) := by
  cases op with
  | recv b o => exact sim_recv h q b o
  | default o => exact sim_default h q o
  | moveCtor d s => exact sim_moveCtor h q d s
  | moveAssign d s => exact sim_moveAssign h q d s
  | swap x y => exact sim_swap h q x y
  | call o => exact sim_call h q o
  | hasValue o => exact sim_hasValue h q o
  | toRust o => exact sim_toRust h q o
  | toAny o => exact sim_toAny h q o
  | destroy o => exact sim_destroy h q o

theorem sim_run (q : Qual) (p : List Op) : ∀ {c a}, Rel c a →
    Sim (run q p c) (Spec.runFrom q a p) := by
  induction p with
  | nil => intro c a h; exact ⟨c, rfl, h⟩
  | cons op p ih =>
    intro c a h
    have h1 := sim_step h q op
    simp only [run, bind_def, Spec.runFrom]
    revert h1
    cases Spec.step q a op with
    | ok a' => rintro ⟨c', h2, h3⟩; rw [h2]; exact ih h3
    | terminated l => intro h2; rw [h2]; rfl
    | ub => intro h2; rw [h2]; rfl
    | ill => intro h2; rw [h2]; rfl

end Verif.DynCallable.Impl

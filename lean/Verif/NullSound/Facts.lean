import Batteries.Data.List.Basic
import Mathlib.Data.List.Forall2
import Mathlib.Tactic.ByContra
import Verif.NullFlow.Join
import Verif.NullSound.Model
/- Basic facts for C121-C125: which atoms a formula mentions, what an environment says about a store. -/
namespace Verif.NullSound
open NullFlow (Formula Solver Status)

/-- Values for the atoms and addresses for the locations. -/
structure Rho where
  b : Nat → Bool
  l : Nat → Option Nat

/-- Same values below `n`. -/
structure Agree (n : Nat) (ρ ρ' : Rho) : Prop where
  b : ∀ a, a < n → ρ'.b a = ρ.b a
  l : ∀ a, a < n → ρ'.l a = ρ.l a

theorem Agree.refl (n : Nat) (ρ : Rho) : Agree n ρ ρ := ⟨fun _ _ => rfl, fun _ _ => rfl⟩

theorem Agree.trans {n m : Nat} {ρ ρ' ρ'' : Rho} (h1 : Agree n ρ ρ') (h2 : Agree m ρ' ρ'') (h : n ≤ m) : Agree n ρ ρ'' :=
  ⟨fun a ha => (h2.b a (by omega)).trans (h1.b a ha), fun a ha => (h2.l a (by omega)).trans (h1.l a ha)⟩

theorem Agree.mono {n m : Nat} {ρ ρ' : Rho} (h : Agree m ρ ρ') (hn : n ≤ m) : Agree n ρ ρ' :=
  ⟨fun a ha => h.b a (by omega), fun a ha => h.l a (by omega)⟩

theorem Agree.symm {n : Nat} {ρ ρ' : Rho} (h : Agree n ρ ρ') : Agree n ρ' ρ :=
  ⟨fun a ha => (h.b a ha).symm, fun a ha => (h.l a ha).symm⟩

/-- Every atom of the formula satisfies `P`. -/
def FIn (P : Nat → Prop) (f : Formula) : Prop := ∀ a ∈ f.atoms, P a

@[simp] theorem FIn.lit (P : Nat → Prop) (b : Bool) : FIn P (.lit b) := by intro a h; simp [NullFlow.Formula.atoms] at h
@[simp] theorem FIn.atom {P : Nat → Prop} {a : Nat} : FIn P (.atom a) ↔ P a := by simp [FIn, NullFlow.Formula.atoms]
@[simp] theorem FIn.not {P : Nat → Prop} {f : Formula} : FIn P (.not f) ↔ FIn P f := by simp [FIn, NullFlow.Formula.atoms]
@[simp] theorem FIn.and {P : Nat → Prop} {f g : Formula} : FIn P (.and f g) ↔ FIn P f ∧ FIn P g := by
  simp only [FIn, NullFlow.Formula.atoms, List.mem_append]; exact ⟨fun h => ⟨fun a ha => h a (.inl ha), fun a ha => h a (.inr ha)⟩, fun h a ha => ha.elim (h.1 a) (h.2 a)⟩
@[simp] theorem FIn.or {P : Nat → Prop} {f g : Formula} : FIn P (.or f g) ↔ FIn P f ∧ FIn P g := by
  simp only [FIn, NullFlow.Formula.atoms, List.mem_append]; exact ⟨fun h => ⟨fun a ha => h a (.inl ha), fun a ha => h a (.inr ha)⟩, fun h a ha => ha.elim (h.1 a) (h.2 a)⟩
@[simp] theorem FIn.implies {P : Nat → Prop} {f g : Formula} : FIn P (.implies f g) ↔ FIn P f ∧ FIn P g := by
  simp only [FIn, NullFlow.Formula.atoms, List.mem_append]; exact ⟨fun h => ⟨fun a ha => h a (.inl ha), fun a ha => h a (.inr ha)⟩, fun h a ha => ha.elim (h.1 a) (h.2 a)⟩
@[simp] theorem FIn.equals {P : Nat → Prop} {f g : Formula} : FIn P (.equals f g) ↔ FIn P f ∧ FIn P g := by
  simp only [FIn, NullFlow.Formula.atoms, List.mem_append]; exact ⟨fun h => ⟨fun a ha => h a (.inl ha), fun a ha => h a (.inr ha)⟩, fun h a ha => ha.elim (h.1 a) (h.2 a)⟩

theorem FIn.mono {P Q : Nat → Prop} {f : Formula} (h : FIn P f) (hpq : ∀ a, P a → Q a) : FIn Q f := fun a ha => hpq a (h a ha)

/-- Every atom of the property satisfies `P`. -/
def OIn (P : Nat → Prop) (o : Option Formula) : Prop := ∀ f, o = some f → FIn P f

@[simp] theorem OIn.none (P : Nat → Prop) : OIn P none := fun _ h => by cases h
@[simp] theorem OIn.some {P : Nat → Prop} {f : Formula} : OIn P (some f) ↔ FIn P f := by simp [OIn]

/-- Every number in the pointer value satisfies `P`. -/
structure VIn (P : Nat → Prop) (v : PVal) : Prop where
  loc : P v.loc
  fn : OIn P v.fn
  nl : OIn P v.nl

/-- Every number in the values of the environment satisfies `P`. -/
def EIn (P : Nat → Prop) (e : Env) : Prop := ∀ v ∈ e.vals, VIn P v

theorem VIn.mono {P Q : Nat → Prop} {v : PVal} (h : VIn P v) (hpq : ∀ a, P a → Q a) : VIn Q v :=
  ⟨hpq _ h.loc, fun f hf => (h.fn f hf).mono hpq, fun f hf => (h.nl f hf).mono hpq⟩

theorem EIn.mono {P Q : Nat → Prop} {e : Env} (h : EIn P e) (hpq : ∀ a, P a → Q a) : EIn Q e := fun v hv => (h v hv).mono hpq

theorem VIn.nullVal {P : Nat → Prop} (h : P 0) : VIn P nullVal := ⟨h, by simp [NullSound.nullVal], by simp [NullSound.nullVal]⟩

theorem EIn.get {P : Nat → Prop} {e : Env} (h : EIn P e) (h0 : P 0) (x : Nat) : VIn P (e.get x) := by
  unfold Env.get
  rw [List.getD_eq_getElem?_getD]
  cases hx : e.vals[x]? with
  | none => exact VIn.nullVal h0
  | some v => exact h v (List.mem_of_getElem? hx)

theorem EIn.set {P : Nat → Prop} {e : Env} (h : EIn P e) {v : PVal} (hv : VIn P v) (x : Nat) : EIn P (e.set x v) := by
  intro u hu
  rcases List.mem_or_eq_of_mem_set hu with h' | rfl
  · exact h u h'
  · exact hv

theorem eval_agree {n : Nat} {ρ ρ' : Rho} (h : Agree n ρ ρ') {f : Formula} (hf : FIn (· < n) f) : f.eval ρ'.b = f.eval ρ.b :=
  NullFlow.eval_congr fun a ha => h.b a (hf a ha)

/-- What a pointer value says about a pointer; the shared "top" location says nothing. -/
structure RelV (ρ : Rho) (c : Val) (v : PVal) : Prop where
  nl : ∀ f, v.nl = some f → f.eval ρ.b = c.addr.isNone
  fn : KnownNull c → ∀ f, v.fn = some f → f.eval ρ.b = true
  loc : v.loc ≠ 1 → ρ.l v.loc = c.addr

/-- What the environment says about a store. -/
def Rel (ρ : Rho) (σ : State) (e : Env) : Prop := List.Forall₂ (RelV ρ) σ e.vals

theorem RelV.agree {n : Nat} {ρ ρ' : Rho} (h : Agree n ρ ρ') {c : Val} {v : PVal} (hv : VIn (· < n) v) (r : RelV ρ c v) : RelV ρ' c v :=
  ⟨fun f hf => (eval_agree h (hv.nl f hf)).trans (r.nl f hf), fun hc f hf => (eval_agree h (hv.fn f hf)).trans (r.fn hc f hf),
    fun hl => (h.l _ hv.loc).trans (r.loc hl)⟩

theorem Rel.agree {n : Nat} {ρ ρ' : Rho} (h : Agree n ρ ρ') {σ : State} {e : Env} (he : EIn (· < n) e) (r : Rel ρ σ e) : Rel ρ' σ e := by
  unfold Rel EIn at *
  generalize e.vals = vs at *
  induction r with
  | nil => exact .nil
  | cons h1 _ ih => exact .cons (h1.agree h (he _ (by simp))) (ih fun v hv => he v (by simp [hv]))

theorem Rel.get {ρ : Rho} {σ : State} {e : Env} (r : Rel ρ σ e) {x : Nat} {c : Val} (hx : σ[x]? = some c) : RelV ρ c (e.get x) := by
  unfold Rel Env.get at *
  rw [List.getD_eq_getElem?_getD]
  generalize e.vals = vs at *
  induction r generalizing x with
  | nil => simp at hx
  | cons h1 _ ih =>
    cases x with
    | zero => simp at hx; subst hx; simpa using h1
    | succ x => simpa using ih (x := x) (by simpa using hx)

theorem Rel.set {ρ : Rho} {σ : State} {e : Env} (r : Rel ρ σ e) {c : Val} {v : PVal} (h : RelV ρ c v) (x : Nat) :
    Rel ρ (σ.set x c) (e.set x v) := by
  unfold Rel Env.set at *
  simp only
  generalize e.vals = vs at *
  induction r generalizing x with
  | nil => exact .nil
  | cons h1 h2 ih =>
    cases x with
    | zero => exact .cons h h2
    | succ x => exact .cons h1 (ih x)

/-- Setting the abstract value only, to one that describes the same pointer. -/
theorem Rel.setAbs {ρ : Rho} {σ : State} {e : Env} (r : Rel ρ σ e) {v : PVal} {x : Nat}
    (h : ∀ c, σ[x]? = some c → RelV ρ c v) : Rel ρ σ (e.set x v) := by
  unfold Rel Env.set at *
  simp only
  generalize e.vals = vs at *
  induction r generalizing x with
  | nil => exact .nil
  | cons h1 h2 ih =>
    cases x with
    | zero => exact .cons (h _ (by simp)) h2
    | succ x => exact .cons h1 (ih fun c hc => h c (by simpa using hc))

/-- The state is well formed: all numbers are below the counter. -/
structure WF (st : St) : Prop where
  two : 2 ≤ st.n
  vals : EIn (· < st.n) st.env
  fc : FIn (· < st.n) st.env.fc

/-- The state describes the store. -/
structure Inv (ρ : Rho) (σ : State) (st : St) : Prop where
  wf : WF st
  sat : st.env.fc.eval ρ.b = true
  rel : Rel ρ σ st.env
  l0 : ρ.l 0 = none

/-! ### What a step may do to the numbers -/

/-- One state follows from another: it mentions old numbers and new ones only, and no diagnostic is lost. -/
structure Grow (st st' : St) : Prop where
  le : st.n ≤ st'.n
  ds : ∀ w ∈ st.ds, w ∈ st'.ds
  len : st'.env.vals.length = st.env.vals.length
  vals : ∀ P : Nat → Prop, P 0 → P 1 → (∀ a, st.n ≤ a → a < st'.n → P a) → EIn P st.env → EIn P st'.env
  fc : ∀ P : Nat → Prop, P 0 → P 1 → (∀ a, st.n ≤ a → a < st'.n → P a) → EIn P st.env → FIn P st.env.fc → FIn P st'.env.fc

/-- A value computed on the way from one state to the other. -/
def VGrow (st st' : St) (v : PVal) : Prop :=
  ∀ P : Nat → Prop, P 0 → P 1 → (∀ a, st.n ≤ a → a < st'.n → P a) → EIn P st.env → VIn P v

theorem Grow.refl (st : St) : Grow st st := ⟨Nat.le_refl _, fun _ h => h, rfl, fun _ _ _ _ h => h, fun _ _ _ _ _ h => h⟩

theorem Grow.trans {a b c : St} (h1 : Grow a b) (h2 : Grow b c) : Grow a c where
  le := Nat.le_trans h1.le h2.le
  ds := fun w h => h2.ds w (h1.ds w h)
  len := h2.len.trans h1.len
  vals := fun P p0 p1 hp h => h2.vals P p0 p1 (fun x hx hx' => hp x (Nat.le_trans h1.le hx) hx') (h1.vals P p0 p1 (fun x hx hx' => hp x hx (Nat.lt_of_lt_of_le hx' h2.le)) h)
  fc := fun P p0 p1 hp h hf => h2.fc P p0 p1 (fun x hx hx' => hp x (Nat.le_trans h1.le hx) hx')
    (h1.vals P p0 p1 (fun x hx hx' => hp x hx (Nat.lt_of_lt_of_le hx' h2.le)) h)
    (h1.fc P p0 p1 (fun x hx hx' => hp x hx (Nat.lt_of_lt_of_le hx' h2.le)) h hf)

theorem VGrow.later {a b c : St} {v : PVal} (h1 : VGrow a b v) (h2 : Grow b c) : VGrow a c v :=
  fun P p0 p1 hp h => h1 P p0 p1 (fun x hx hx' => hp x hx (Nat.lt_of_lt_of_le hx' h2.le)) h

theorem VGrow.earlier {a b c : St} {v : PVal} (h1 : Grow a b) (h2 : Grow b c) (h : VGrow b c v) : VGrow a c v :=
  fun P p0 p1 hp he => h P p0 p1 (fun x hx hx' => hp x (Nat.le_trans h1.le hx) hx')
    (h1.vals P p0 p1 (fun x hx hx' => hp x hx (Nat.lt_of_lt_of_le hx' h2.le)) he)

theorem Grow.wf {st st' : St} (h : Grow st st') (w : WF st) : WF st' where
  two := Nat.le_trans w.two h.le
  vals := h.vals (· < st'.n) (by have := w.two; have := h.le; omega) (by have := w.two; have := h.le; omega) (fun _ _ h => h)
    (w.vals.mono fun _ ha => Nat.lt_of_lt_of_le ha h.le)
  fc := h.fc (· < st'.n) (by have := w.two; have := h.le; omega) (by have := w.two; have := h.le; omega) (fun _ _ h => h)
    (w.vals.mono fun _ ha => Nat.lt_of_lt_of_le ha h.le) (w.fc.mono fun _ ha => Nat.lt_of_lt_of_le ha h.le)

theorem VGrow.below {st st' : St} {v : PVal} (h : VGrow st st' v) (hle : st.n ≤ st'.n) (w : WF st) : VIn (· < st'.n) v :=
  h (· < st'.n) (by have := w.two; omega) (by have := w.two; omega) (fun _ _ h => h) (w.vals.mono fun _ ha => Nat.lt_of_lt_of_le ha hle)

theorem Grow.report (st : St) (b : Bool) (w : Fault) : Grow st (st.report b w) := by
  unfold St.report
  split
  · exact ⟨Nat.le_refl _, fun u h => by simp [h], rfl, fun _ _ _ _ h => h, fun _ _ _ _ _ h => h⟩
  · exact Grow.refl st

theorem Inv.report {ρ : Rho} {σ : State} {st : St} (h : Inv ρ σ st) (b : Bool) (w : Fault) : Inv ρ σ (st.report b w) := by
  unfold St.report
  split
  · exact ⟨⟨h.wf.two, h.wf.vals, h.wf.fc⟩, h.sat, h.rel, h.l0⟩
  · exact h

@[simp] theorem report_env (st : St) (b : Bool) (w : Fault) : (st.report b w).env = st.env := by unfold St.report; split <;> rfl
@[simp] theorem report_n (st : St) (b : Bool) (w : Fault) : (st.report b w).n = st.n := by unfold St.report; split <;> rfl
theorem mem_report (st : St) (w : Fault) : w ∈ (st.report true w).ds := by simp [St.report]

theorem Grow.assume (st : St) (f : Formula) (hf : ∀ P : Nat → Prop, P 0 → P 1 → EIn P st.env → FIn P st.env.fc → FIn P f) : Grow st (st.assume f) :=
  ⟨Nat.le_refl _, fun _ h => h, rfl, fun _ _ _ _ h => h, fun P p0 p1 _ he h => FIn.and.2 ⟨h, hf P p0 p1 he h⟩⟩

theorem Inv.assume {ρ : Rho} {σ : State} {st : St} (h : Inv ρ σ st) {f : Formula} (hf : FIn (· < st.n) f) (he : f.eval ρ.b = true) :
    Inv ρ σ (st.assume f) :=
  ⟨⟨h.wf.two, h.wf.vals, FIn.and.2 ⟨h.wf.fc, hf⟩⟩, by show (Formula.and _ _).eval _ = true; simp [NullFlow.Formula.eval, h.sat, he], h.rel, h.l0⟩

/-- The state after a change of the values of fresh numbers. -/
theorem Inv.agree {ρ ρ' : Rho} {σ : State} {st : St} (h : Inv ρ σ st) (ha : Agree st.n ρ ρ') : Inv ρ' σ st :=
  ⟨h.wf, by rw [eval_agree ha h.wf.fc]; exact h.sat, h.rel.agree ha h.wf.vals, (ha.l 0 (by have := h.wf.two; omega)).trans h.l0⟩

/-- Using up numbers. -/
theorem Inv.next {ρ : Rho} {σ : State} {st : St} (h : Inv ρ σ st) {m : Nat} (hm : st.n ≤ m) : Inv ρ σ { st with n := m } :=
  ⟨⟨Nat.le_trans h.wf.two hm, h.wf.vals.mono fun _ ha => Nat.lt_of_lt_of_le ha hm, h.wf.fc.mono fun _ ha => Nat.lt_of_lt_of_le ha hm⟩, h.sat, h.rel, h.l0⟩

theorem Grow.next (st : St) {m : Nat} (hm : st.n ≤ m) : Grow st { st with n := m } :=
  ⟨hm, fun _ h => h, rfl, fun _ _ _ _ h => h, fun _ _ _ _ _ h => h⟩

/-- New values for number `n`. -/
def Rho.upd (ρ : Rho) (n : Nat) (b : Bool) (l : Option Nat) : Rho := ⟨fun a => if a = n then b else ρ.b a, fun a => if a = n then l else ρ.l a⟩

theorem Agree.upd (ρ : Rho) (n : Nat) (b : Bool) (l : Option Nat) : Agree n ρ (ρ.upd n b l) :=
  ⟨fun a ha => by simp [Rho.upd, Nat.ne_of_lt ha], fun a ha => by simp [Rho.upd, Nat.ne_of_lt ha]⟩

@[simp] theorem Rho.upd_b (ρ : Rho) (n : Nat) (b : Bool) (l : Option Nat) : (ρ.upd n b l).b n = b := by simp [Rho.upd]
@[simp] theorem Rho.upd_l (ρ : Rho) (n : Nat) (b : Bool) (l : Option Nat) : (ρ.upd n b l).l n = l := by simp [Rho.upd]

/-! ### The solver -/

theorem proves_sound (s : Solver) {e : Env} {f : Formula} (h : proves s e f = true) {ρ : Nat → Bool} (hρ : e.fc.eval ρ = true) : f.eval ρ = true := by
  unfold proves at h
  have := s.unsat_sound _ (of_decide_eq_true h)
  by_contra hf
  refine this ⟨ρ, fun g hg => ?_⟩
  rcases hg with rfl | rfl
  · exact hρ
  · simpa [NullFlow.Formula.eval] using hf

theorem proves_not_sound (s : Solver) {e : Env} {f : Formula} (h : proves s e (.not f) = true) {ρ : Nat → Bool} (hρ : e.fc.eval ρ = true) : f.eval ρ = false := by
  have := proves_sound s h hρ
  simpa [NullFlow.Formula.eval] using this

theorem mayBeNull_eval {ρ : Nat → Bool} {v : PVal} (h1 : ∀ f, v.fn = some f → f.eval ρ = true) (h2 : ∀ f, v.nl = some f → f.eval ρ = true) :
    (mayBeNull v).eval ρ = true := by
  unfold mayBeNull
  cases hf : v.fn <;> cases hn : v.nl <;> simp_all [NullFlow.Formula.eval]

/-- A pointer that is null and comes from an annotated source is found to be nullable. -/
theorem nullable_of_knownNull (s : Solver) (hs : ∀ Q, s.solve Q ≠ .timedOut) {ρ : Rho} {e : Env} {c : Val} {v : PVal}
    (hsat : e.fc.eval ρ.b = true) (r : RelV ρ c v) (hc : KnownNull c) : isNullable s e v = true := by
  have hfn := r.fn hc
  have hnl : ∀ f, v.nl = some f → f.eval ρ.b = true := fun f hf => by rw [r.nl f hf, hc.1]; rfl
  have hall : allows s e (mayBeNull v) = true := by
    unfold allows
    apply decide_eq_true
    cases hr : s.solve (fun g => g = e.fc ∨ g = mayBeNull v) with
    | satisfiable => rfl
    | timedOut => exact absurd hr (hs _)
    | unsatisfiable =>
      refine absurd ⟨ρ.b, fun g hg => ?_⟩ (s.unsat_sound _ hr)
      rcases hg with rfl | rfl
      · exact hsat
      · exact mayBeNull_eval hfn hnl
  unfold isNullable
  cases hn : v.nl with
  | none => simpa using hall
  | some nl =>
    have h1 := hnl nl hn
    by_cases hlit : nl = .lit false
    · subst hlit; simp [NullFlow.Formula.eval] at h1
    · by_cases hp : proves s e nl = true
      · have hnf : proves s e (.lit false) = false := by
          cases hpf : proves s e (.lit false) with
          | false => rfl
          | true => have := proves_sound s hpf hsat; simp [NullFlow.Formula.eval] at this
        simp [hlit, hp, hnf]
      · simp [hlit, hp, hall]

end Verif.NullSound

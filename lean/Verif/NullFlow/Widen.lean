import Verif.NullFlow.JoinProps
/- C42: widening reaches a fixed point and is sound. -/
namespace Verif.NullFlow
local notation "Atom" => Nat

/-- One widening at a loop head: the context, the tokens of the previous and the current environment, and the
current pointer. -/
structure Iter where
  ctx : Ctx
  prevT : Atom
  curT : Atom
  cur : Ptr

/-- The effects of a history of widenings of one pointer: each result is the next iteration's previous value.
(Pointers without null state are not widened by the analysis; the framework handles them.) -/
def effects (s : Solver) (top : Nat) : Ptr → List Iter → List Effect
  | _, [] => []
  | prev, i :: is =>
    match widen s i.ctx top i.prevT i.curT prev i.cur with
    | none => effects s top prev is
    | some (p, e) => e :: effects s top p is

/-- What is left to lose. -/
def budget (top : Nat) (p : Ptr) : Nat :=
  (if p.loc = top then 0 else 1) +
  (match p.state with
   | none => 0
   | some st => (if st.fromNullable = none then 0 else 1) + (if st.isNull = none then 0 else 1))

theorem widenProperty_spec (s : Solver) (c : Ctx) (pT cT : Atom) (prev cur : Option Formula) :
    let r := widenProperty s c pT cT prev cur
    (r.1 = cur ∨ r.1 = none) ∧
    (r.2 = .changed → prev ≠ none ∧ r.1 = none) ∧
    (prev = none → r.1 = none) ∧ (cur = none → r.1 = none) ∧
    (r.2 = .unchanged → prev = none ∨ prev = r.1 ∨ ∃ f g, prev = some f ∧ r.1 = some g ∧ cur = some g ∧
      ((∀ ρ, Run c pT ρ → f.eval ρ = true) ∧ (∀ ρ, Run c cT ρ → g.eval ρ = true) ∨
       (∀ ρ, Run c pT ρ → f.eval ρ = false) ∧ (∀ ρ, Run c cT ρ → g.eval ρ = false))) := by
  unfold widenProperty
  by_cases h : prev = cur
  · subst h; simp
  · simp only [h, if_false]
    cases prev with
    | none => simp
    | some p =>
      cases cur with
      | none => simp
      | some q =>
        simp only
        by_cases hp : ((proves s c pT p && proves s c cT q) || (proves s c pT (.not p) && proves s c cT (.not q))) = true
        · simp only [hp, if_true]
          refine ⟨Or.inl trivial, by simp, by simp, by simp, fun _ => Or.inr (Or.inr ⟨p, q, rfl, rfl, rfl, ?_⟩)⟩
          simp only [Bool.or_eq_true, Bool.and_eq_true] at hp
          rcases hp with ⟨a, b⟩ | ⟨a, b⟩
          · exact Or.inl ⟨proves_sound s a, proves_sound s b⟩
          · refine Or.inr ⟨fun ρ r => ?_, fun ρ r => ?_⟩
            · simpa [Formula.eval] using proves_sound s a ρ r
            · simpa [Formula.eval] using proves_sound s b ρ r
        · simp [hp]

theorem widen_cases (s : Solver) (c : Ctx) (top : Nat) (pT cT : Atom) (prev cur : Ptr) {r : Ptr} {e : Effect}
    (h : widen s c top pT cT prev cur = some (r, e)) :
    ∃ ps cs, prev.state = some ps ∧ cur.state = some cs ∧
      ((e = .unchanged ∧ r = cur ∧ prev.loc = cur.loc ∧ (widenProperty s c pT cT ps.fromNullable cs.fromNullable).2 = .unchanged ∧
          (widenProperty s c pT cT ps.isNull cs.isNull).2 = .unchanged) ∨
       (r.state = some ⟨(widenProperty s c pT cT ps.fromNullable cs.fromNullable).1, (widenProperty s c pT cT ps.isNull cs.isNull).1⟩ ∧
        (r.loc = if prev.loc = cur.loc then cur.loc else top) ∧
        (e = .unchanged ↔ r.loc = prev.loc ∧ (widenProperty s c pT cT ps.fromNullable cs.fromNullable).2 = .unchanged ∧
          (widenProperty s c pT cT ps.isNull cs.isNull).2 = .unchanged))) := by
  unfold widen at h
  cases hp : prev.state with
  | none => rw [hp] at h; simp at h
  | some ps =>
    cases hc : cur.state with
    | none => rw [hp, hc] at h; simp at h
    | some cs =>
      rw [hp, hc] at h
      simp only at h
      refine ⟨ps, cs, rfl, rfl, ?_⟩
      by_cases hu : prev.loc = cur.loc ∧ (widenProperty s c pT cT ps.fromNullable cs.fromNullable).2 = .unchanged ∧
        (widenProperty s c pT cT ps.isNull cs.isNull).2 = .unchanged
      · rw [if_pos hu] at h
        simp only [Option.some.injEq, Prod.mk.injEq] at h
        obtain ⟨rfl, rfl⟩ := h
        exact Or.inl ⟨rfl, rfl, hu⟩
      · rw [if_neg hu] at h
        simp only [Option.some.injEq, Prod.mk.injEq] at h
        obtain ⟨rfl, rfl⟩ := h
        refine Or.inr ⟨rfl, rfl, ?_⟩
        simp only
        split <;> simp_all

/-- C42: the widened value never says more than the current one: its location is the current one or top, and each
property is the current one or top. So it is NonNull only if the current value is, and a current value that may be
null from a nullable source stays Nullable. -/
theorem widen_sound (s : Solver) (c : Ctx) (top : Nat) (pT cT : Atom) (prev cur : Ptr) {r : Ptr} {e : Effect}
    (h : widen s c top pT cT prev cur = some (r, e)) :
    ∃ cs rs, cur.state = some cs ∧ r.state = some rs ∧ (r.loc = cur.loc ∨ r.loc = top) ∧
      (rs.fromNullable = cs.fromNullable ∨ rs.fromNullable = none) ∧ (rs.isNull = cs.isNull ∨ rs.isNull = none) ∧
      (∀ T ac, getNullability s c T rs ac = .NonNull → getNullability s c T cs ac = .NonNull) ∧
      (s.Complete → ∀ T ac, FromNullableAndMaybeNull c T cs ac → getNullability s c T rs ac = .Nullable) := by
  obtain ⟨ps, cs, hp, hc, hor⟩ := widen_cases s c top pT cT prev cur h
  have f1 := (widenProperty_spec s c pT cT ps.fromNullable cs.fromNullable).1
  have f2 := (widenProperty_spec s c pT cT ps.isNull cs.isNull).1
  have main : ∀ rs : NullState, (rs.fromNullable = cs.fromNullable ∨ rs.fromNullable = none) → (rs.isNull = cs.isNull ∨ rs.isNull = none) →
      (∀ T ac, getNullability s c T rs ac = .NonNull → getNullability s c T cs ac = .NonNull) ∧
      (s.Complete → ∀ T ac, FromNullableAndMaybeNull c T cs ac → getNullability s c T rs ac = .Nullable) := by
    intro rs h1 h2
    constructor
    · intro T ac hn
      obtain ⟨nl, e1, e2⟩ := (getNullability_eq s c T rs ac).1.mp hn
      rcases h2 with h2 | h2
      · exact (getNullability_eq s c T cs ac).1.mpr ⟨nl, by rw [← h2]; exact e1, e2⟩
      · rw [h2] at e1; simp at e1
    · intro hs T ac ⟨ρ, hr, ha, m1, m2⟩
      have hF : FromNullableAndMaybeNull c T rs ac := by
        refine ⟨ρ, hr, ha, fun f hf => ?_, fun f hf => ?_⟩
        · rcases h1 with h1 | h1
          · exact m1 f (by rw [← h1]; exact hf)
          · rw [h1] at hf; simp at hf
        · rcases h2 with h2 | h2
          · exact m2 f (by rw [← h2]; exact hf)
          · rw [h2] at hf; simp at hf
      rw [(verdict_exact s hs c T rs ac).2]
      refine ⟨?_, Or.inr hF⟩
      rintro ⟨nl, hnl, hall⟩
      obtain ⟨ρ, r, a, -, m⟩ := hF
      have := m nl hnl
      rw [hall ρ r a] at this
      simp at this
  rcases hor with ⟨-, rfl, -⟩ | ⟨hst, hloc, -⟩
  · exact ⟨cs, cs, hc, hc, Or.inl rfl, Or.inl rfl, Or.inl rfl, main cs (Or.inl rfl) (Or.inl rfl)⟩
  · refine ⟨cs, _, hc, hst, ?_, f1, f2, main _ f1 f2⟩
    rw [hloc]; split <;> simp

/-- C42: "unchanged" means what the fixed-point iteration needs: the location did not change, and for each property the
previous value was top, or is equal to the current one, or both have the same constant value at their points. -/
theorem widen_unchanged (s : Solver) (c : Ctx) (top : Nat) (pT cT : Atom) (prev cur : Ptr) {r : Ptr}
    (h : widen s c top pT cT prev cur = some (r, .unchanged)) :
    ∃ ps cs, prev.state = some ps ∧ cur.state = some cs ∧ r.loc = prev.loc ∧
      ∀ b1 b2, (b1 = ps.fromNullable ∧ b2 = cs.fromNullable ∨ b1 = ps.isNull ∧ b2 = cs.isNull) →
        b1 = none ∨ b1 = b2 ∨ ∃ f g, b1 = some f ∧ b2 = some g ∧ ∃ v, (∀ ρ, Run c pT ρ → f.eval ρ = v) ∧ (∀ ρ, Run c cT ρ → g.eval ρ = v) := by
  obtain ⟨ps, cs, hp, hc, hor⟩ := widen_cases s c top pT cT prev cur h
  have props : ∀ b1 b2, (widenProperty s c pT cT b1 b2).2 = .unchanged →
      b1 = none ∨ b1 = b2 ∨ ∃ f g, b1 = some f ∧ b2 = some g ∧ ∃ v, (∀ ρ, Run c pT ρ → f.eval ρ = v) ∧ (∀ ρ, Run c cT ρ → g.eval ρ = v) := by
    intro b1 b2 hu
    obtain ⟨h1, -, -, h4, h5⟩ := widenProperty_spec s c pT cT b1 b2
    rcases h5 hu with h | h | ⟨f, g, hf, hg, hg', hv⟩
    · exact Or.inl h
    · rcases h1 with h1 | h1
      · exact Or.inr (Or.inl (h.trans h1))
      · exact Or.inl (h.trans h1)
    · refine Or.inr (Or.inr ⟨f, g, hf, hg', ?_⟩)
      rcases hv with hv | hv
      · exact ⟨true, hv⟩
      · exact ⟨false, hv⟩
  have hall : r.loc = prev.loc ∧ (widenProperty s c pT cT ps.fromNullable cs.fromNullable).2 = .unchanged ∧
          (widenProperty s c pT cT ps.isNull cs.isNull).2 = .unchanged := by
    rcases hor with ⟨-, rfl, hl, a, b⟩ | ⟨-, -, hiff⟩
    · exact ⟨hl.symm, a, b⟩
    · exact hiff.mp rfl
  refine ⟨ps, cs, hp, hc, hall.1, ?_⟩
  rintro b1 b2 (⟨rfl, rfl⟩ | ⟨rfl, rfl⟩)
  · exact props _ _ hall.2.1
  · exact props _ _ hall.2.2

/-- A changed widening uses up part of the budget. -/
theorem widen_changed_budget (s : Solver) (c : Ctx) (top : Nat) (pT cT : Atom) (prev cur : Ptr) {r : Ptr}
    (h : widen s c top pT cT prev cur = some (r, .changed)) : budget top r < budget top prev := by
  obtain ⟨ps, cs, hp, hc, hor⟩ := widen_cases s c top pT cT prev cur h
  rcases hor with ⟨he, -⟩ | ⟨hst, hloc, hiff⟩
  · simp at he
  · obtain ⟨-, a1, a2, -, -⟩ := widenProperty_spec s c pT cT ps.fromNullable cs.fromNullable
    obtain ⟨-, b1, b2, -, -⟩ := widenProperty_spec s c pT cT ps.isNull cs.isNull
    generalize widenProperty s c pT cT ps.fromNullable cs.fromNullable = x at *
    generalize widenProperty s c pT cT ps.isNull cs.isNull = y at *
    have hne : ¬ (r.loc = prev.loc ∧ x.2 = .unchanged ∧ y.2 = .unchanged) := fun hh => by have := hiff.mpr hh; simp at this
    have key : (if r.loc = top then 0 else 1) ≤ (if prev.loc = top then 0 else 1) ∧
        (r.loc ≠ prev.loc → (if r.loc = top then 0 else 1) < (if prev.loc = top then (0:Nat) else 1)) := by
      by_cases e : prev.loc = cur.loc
      · rw [if_pos e] at hloc; rw [hloc, ← e]; simp
      · rw [if_neg e] at hloc
        rw [hloc]
        refine ⟨by simp, fun hh => ?_⟩
        have : prev.loc ≠ top := fun h' => hh h'.symm
        simp [this]
    have fx : (if x.1 = none then 0 else 1) ≤ (if ps.fromNullable = none then (0:Nat) else 1) ∧
        (x.2 = .changed → (if x.1 = none then 0 else 1) < (if ps.fromNullable = none then (0:Nat) else 1)) := by
      refine ⟨?_, fun hh => ?_⟩
      · by_cases e : ps.fromNullable = none
        · simp [a2 e, e]
        · simp only [e, if_false]; split <;> omega
      · obtain ⟨k1, k2⟩ := a1 hh; simp [k1, k2]
    have fy : (if y.1 = none then 0 else 1) ≤ (if ps.isNull = none then (0:Nat) else 1) ∧
        (y.2 = .changed → (if y.1 = none then 0 else 1) < (if ps.isNull = none then (0:Nat) else 1)) := by
      refine ⟨?_, fun hh => ?_⟩
      · by_cases e : ps.isNull = none
        · simp [b2 e, e]
        · simp only [e, if_false]; split <;> omega
      · obtain ⟨k1, k2⟩ := b1 hh; simp [k1, k2]
    unfold budget
    rw [hst, hp]
    simp only
    have eff : ∀ z : Effect, z = .unchanged ∨ z = .changed := by intro z; cases z <;> simp
    by_cases hl : r.loc = prev.loc
    · rcases eff x.2 with hx | hx
      · rcases eff y.2 with hy | hy
        · exact absurd ⟨hl, hx, hy⟩ hne
        · have := fy.2 hy; omega
      · have := fx.2 hx; omega
    · have := key.2 hl; omega

/-- C42: a pointer reports a change at most three times in a row, so it cannot by itself keep a loop from settling. -/
theorem widen_changes_bounded (s : Solver) (top : Nat) (is : List Iter) : ∀ (prev : Ptr),
    (∀ e ∈ effects s top prev is, e = .changed) → (effects s top prev is).length ≤ budget top prev ∧ budget top prev ≤ 3 := by
  have hb : ∀ p, budget top p ≤ 3 := by
    intro p; unfold budget
    cases p.state with
    | none => simp only; split <;> omega
    | some st => simp only; (repeat' split) <;> omega
  induction is with
  | nil => intro prev _; exact ⟨by simp [effects], hb _⟩
  | cons i is ih =>
    intro prev hall
    refine ⟨?_, hb _⟩
    unfold effects at hall ⊢
    cases hw : widen s i.ctx top i.prevT i.curT prev i.cur with
    | none => rw [hw] at hall; exact (ih prev hall).1
    | some re =>
      obtain ⟨r, e⟩ := re
      rw [hw] at hall
      simp only at hall ⊢
      have he : e = .changed := hall e List.mem_cons_self
      subst he
      have := widen_changed_budget s i.ctx top i.prevT i.curT prev i.cur hw
      have := (ih r (fun e he => hall e (List.mem_cons_of_mem _ he))).1
      simp only [List.length_cons]
      omega

/-! Disagreement. `widenNullabilityProperty` says that a property that is already top stays top, but when nothing is
"changed" `widen` returns the current value, whose property need not be top. A later iteration can then report a change
again; two pointers out of step keep the loop changing for ever. -/

def loopCtx : Ctx := { next := 1, tokens := [0], inv := [], fc := fun _ => none, deps := fun _ => [] }
def known (k : Atom) : Ptr := ⟨0, some ⟨some (.atom (k + 1)), some (.lit true)⟩⟩
def unknown : Ptr := ⟨0, some ⟨none, some (.lit true)⟩⟩

/-- Iteration `k`: the current value is a value about which nothing is provable. -/
def iters : Nat → Nat → List Iter
  | 0, _ => []
  | n + 1, k => ⟨loopCtx, 0, 0, known (k + 1)⟩ :: iters n (k + 1)

theorem loopCtx_run (b : Bool) : Run loopCtx 0 (fun a => if a = 0 then true else b) := by
  refine ⟨by simp [loopCtx], ?_, ?_, rfl⟩
  · intro t hr _
    cases hr with
    | refl => rfl
    | step _ hd => simp [loopCtx] at hd
  · intro t C _ h; simp [loopCtx] at h

theorem loopCtx_unproved (s : Solver) (k : Nat) :
    proves s loopCtx 0 (.atom (k + 1)) = false ∧ proves s loopCtx 0 (.not (.atom (k + 1))) = false := by
  constructor
  · cases h : proves s loopCtx 0 (.atom (k + 1)) with
    | false => rfl
    | true => have := proves_sound s h _ (loopCtx_run false); simp [Formula.eval] at this
  · cases h : proves s loopCtx 0 (.not (.atom (k + 1))) with
    | false => rfl
    | true => have := proves_sound s h _ (loopCtx_run true); simp [Formula.eval] at this

theorem widen_known (s : Solver) (top k : Nat) :
    widen s loopCtx top 0 0 (known k) (known (k + 1)) = some (unknown, .changed) := by
  obtain ⟨h1, h2⟩ := loopCtx_unproved s k
  simp [widen, known, unknown, widenProperty, h1, h2]

theorem widen_unknown (s : Solver) (top k : Nat) :
    widen s loopCtx top 0 0 unknown (known k) = some (known k, .unchanged) := by
  simp [widen, known, unknown, widenProperty]

/-- Disagreement: a top property does not stay top. -/
theorem top_does_not_stay_top : ∃ (prev cur r : Ptr) (c : Ctx) (pT cT : Atom), ∀ (s : Solver) (top : Nat),
    prev.state = some ⟨none, some (.lit true)⟩ ∧ widen s c top pT cT prev cur = some (r, .unchanged) ∧
    r.state = some ⟨some (.atom 1), some (.lit true)⟩ :=
  ⟨unknown, known 0, known 0, loopCtx, 0, 0, fun s top => ⟨rfl, widen_unknown s top 0, rfl⟩⟩

/-- Disagreement: for two pointers widened over the same iterations, however many iterations there are, every iteration
changes one of them. -/
theorem two_pointers_never_settle (s : Solver) (top : Nat) (n : Nat) : ∀ k,
    (effects s top (known k) (iters n k)).length = n ∧ (effects s top unknown (iters n k)).length = n ∧
    ∀ i < n, (effects s top (known k) (iters n k))[i]? = some .changed ∨ (effects s top unknown (iters n k))[i]? = some .changed := by
  induction n with
  | zero => intro k; simp [iters, effects]
  | succ n ih =>
    intro k
    obtain ⟨h1, h2, h3⟩ := ih (k + 1)
    simp only [iters, effects, widen_known, widen_unknown, List.length_cons]
    refine ⟨by omega, by omega, fun i hi => ?_⟩
    cases i with
    | zero => simp
    | succ i =>
      simp only [List.getElem?_cons_succ]
      exact (h3 i (by omega)).symm

end Verif.NullFlow

import Mathlib.Algebra.Order.BigOperators.Group.Finset
import Verif.NullSound.Unique
/- C124: the iteration over every loop stops. -/
namespace Verif.NullSound
open NullFlow (Formula Solver Status)

/-! ### Widening one value -/

theorem widenProperty_changed (s : Solver) (p e : Env) {a b : Option Formula} (h : (widenProperty s p e a b).2 = true) :
    a.isSome = true ∧ (widenProperty s p e a b).1 = none := by
  revert h
  unfold widenProperty
  split
  · intro h; cases h
  · rename_i hne
    cases a <;> cases b <;> simp
    split <;> simp

theorem widenProperty_some (s : Solver) (p e : Env) (a b : Option Formula) : (widenProperty s p e a b).1.isSome = true → a.isSome = true := by
  unfold widenProperty
  split
  · rename_i h; rw [h]; exact id
  · cases a <;> cases b <;> simp

theorem widenProperty_same (s : Solver) (p e : Env) {a b : Option Formula} (h : (widenProperty s p e a b).2 = false) :
    a = none ∨ (widenProperty s p e a b).1 = b := by
  unfold widenProperty at h ⊢
  split
  · exact .inr rfl
  · cases a <;> cases b <;> simp_all
    split <;> simp_all

/-- A location that survives was in both values. -/
theorem widenVal_loc (s : Solver) (p e : Env) (a b : PVal) (h : (widenVal s p e a b).1.loc ≠ 1) :
    a.loc = (widenVal s p e a b).1.loc ∧ b.loc = (widenVal s p e a b).1.loc := by
  unfold widenVal at h ⊢
  split
  · rename_i h; subst h; exact ⟨rfl, rfl⟩
  · simp only at h ⊢
    split
    · rename_i hne hh; exact ⟨hh.1, rfl⟩
    · rename_i hne hh
      simp only [hne, hh, if_false] at h
      by_cases hl : a.loc = b.loc
      · simp [hl]
      · simp [hl, topLoc] at h

theorem widenVal_changed (s : Solver) (p e : Env) {a b : PVal} (hl : a.loc = b.loc) (h : (widenVal s p e a b).2 = true) : (widenVal s p e a b).1 ≠ a ∧ a ≠ b := by
  unfold widenVal at h ⊢
  split at h
  · cases h
  · rename_i hne
    refine ⟨?_, hne⟩
    simp only [hne, if_false] at h ⊢
    split at h
    · cases h
    · rename_i hh
      rw [if_neg hh]
      intro he
      have f1 : (widenProperty s p e a.fn b.fn).1 = a.fn := congrArg PVal.fn he
      have f2 : (widenProperty s p e a.nl b.nl).1 = a.nl := congrArg PVal.nl he
      cases c1 : (widenProperty s p e a.fn b.fn).2 with
      | true =>
        have := widenProperty_changed s p e c1
        rw [f1] at this; rw [this.2] at this; simp at this
      | false =>
        cases c2 : (widenProperty s p e a.nl b.nl).2 with
        | true =>
          have := widenProperty_changed s p e c2
          rw [f2] at this; rw [this.2] at this; simp at this
        | false => exact hh ⟨hl, c1, c2⟩

/-- A value with an unknown property, widened with a fully known one, is another value. -/
theorem widenVal_refine (s : Solver) (p e : Env) {a b : PVal} (hl : a.loc = b.loc) (ha : comp a = false) (hb : comp b = true) : (widenVal s p e a b).1 ≠ a := by
  cases h : (widenVal s p e a b).2 with
  | true => exact (widenVal_changed s p e hl h).1
  | false =>
    intro he
    have hne : a ≠ b := fun h => by rw [h, hb] at ha; cases ha
    unfold widenVal at h he
    simp only [hne, if_false] at h he
    split at h
    · rename_i hh; rw [if_pos hh] at he; exact hne he.symm
    · rename_i hh
      simp only [hl, if_true, decide_true, Bool.true_and, Bool.not_eq_false', Bool.and_eq_true, Bool.not_eq_true'] at h
      exact hh ⟨hl, h.1, h.2⟩

/-- How much of a value widening can forget. -/
def rk (v : PVal) : Nat := if v.loc = 1 then (if v.fn.isSome then 1 else 0) + (if v.nl.isSome then 1 else 0) else 3

theorem rk_le (v : PVal) : rk v ≤ 3 := by unfold rk; split <;> (try split) <;> (try split) <;> omega

theorem widenVal_rk (s : Solver) (p e : Env) (a b : PVal) (hb : b.loc ≠ 1) :
    rk (widenVal s p e a b).1 ≤ rk a ∧ (a.loc ≠ b.loc → (widenVal s p e a b).2 = true → rk (widenVal s p e a b).1 < rk a) := by
  by_cases hl : a.loc = b.loc
  · exact ⟨(rk_le _).trans (by unfold rk; rw [hl, if_neg hb]), fun h => absurd hl h⟩
  · have hne : a ≠ b := fun h => hl (by rw [h])
    have hv : widenVal s p e a b = (⟨1, (widenProperty s p e a.fn b.fn).1, (widenProperty s p e a.nl b.nl).1⟩,
        !(decide (1 = a.loc) && !(widenProperty s p e a.fn b.fn).2 && !(widenProperty s p e a.nl b.nl).2)) := by
      unfold widenVal; simp [hne, hl, topLoc]
    have s1 := widenProperty_some s p e a.fn b.fn
    have s2 := widenProperty_some s p e a.nl b.nl
    have k1 := @widenProperty_changed s p e a.fn b.fn
    have k2 := @widenProperty_changed s p e a.nl b.nl
    rw [hv]
    generalize widenProperty s p e a.fn b.fn = R1 at *
    generalize widenProperty s p e a.nl b.nl = R2 at *
    obtain ⟨f, c1⟩ := R1
    obtain ⟨g, c2⟩ := R2
    obtain ⟨al, af, an⟩ := a
    simp only at s1 s2 k1 k2 ⊢
    by_cases h1 : al = 1
    · subst h1
      cases af <;> cases an <;> cases f <;> cases g <;> cases c1 <;> cases c2 <;> simp_all [rk]
    · cases f <;> cases g <;> simp [rk, h1]

/-! ### Widening an environment -/

theorem widenVals_get (s : Solver) (p e : Env) : ∀ (ps qs : List PVal) (i : Nat) (a b : PVal), ps[i]? = some a → qs[i]? = some b →
    (widenVals s p e ps qs).1[i]? = some (widenVal s p e a b).1
  | [], _, i, a, b, h, _ => by simp at h
  | _ :: _, [], i, a, b, _, h => by simp at h
  | x :: ps, y :: qs, 0, a, b, h1, h2 => by simp at h1 h2; subst h1; subst h2; simp [widenVals]
  | x :: ps, y :: qs, i + 1, a, b, h1, h2 => by
    simp at h1 h2; simpa [widenVals] using widenVals_get s p e ps qs i a b h1 h2

theorem widenVals_changed (s : Solver) (p e : Env) : ∀ (ps qs : List PVal), (widenVals s p e ps qs).2 = true →
    ∃ (i : Nat) (a b : PVal), ps[i]? = some a ∧ qs[i]? = some b ∧ (widenVal s p e a b).2 = true
  | [], _, h => by simp [widenVals] at h
  | _ :: _, [], h => by simp [widenVals] at h
  | x :: ps, y :: qs, h => by
    simp only [widenVals, Bool.or_eq_true] at h
    rcases h with h | h
    · exact ⟨0, x, y, rfl, rfl, h⟩
    · obtain ⟨i, a, b, h1, h2, h3⟩ := widenVals_changed s p e ps qs h
      exact ⟨i + 1, a, b, by simpa using h1, by simpa using h2, h3⟩

/-- The measure at one variable. -/
def mu1 (entry w : Env) (i : Nat) : Nat := rk (w.get i) + (if w.get i = entry.get i ∧ comp (entry.get i) = false then 1 else 0)

/-- The measure. -/
def mu (entry w : Env) : Nat := ∑ i ∈ Finset.range entry.vals.length, mu1 entry w i

theorem mu_le (entry w : Env) : mu entry w ≤ 4 * entry.vals.length := by
  have : mu entry w ≤ (Finset.range entry.vals.length).card • 4 := Finset.sum_le_card_nsmul _ _ _ fun i _ => by
    have := rk_le (w.get i)
    unfold mu1; split <;> omega
  simpa [Nat.mul_comm] using this

theorem get_of {e : Env} {i : Nat} {v : PVal} (h : e.vals[i]? = some v) : e.get i = v := by simp [Env.get, List.getD_eq_getElem?_getD, h]

theorem ex_get {e : Env} {i : Nat} (h : i < e.vals.length) : ∃ v, e.vals[i]? = some v := ⟨_, List.getElem?_eq_getElem h⟩

/-- What the iteration knows when it widens `w` with `b`, where `w` is joined with `entry` at `m`, and a pass over the
result gives `b`. -/
structure Step (entry : Env) (m : Nat) (head w b : Env) : Prop where
  lw : w.vals.length = entry.vals.length
  lb : b.vals.length = entry.vals.length
  ue : U entry
  ne : NT entry
  be : ∀ v ∈ entry.vals, v.loc < m
  bw : ∀ v ∈ w.vals, v.loc < m
  zw : ∀ v ∈ w.vals, v.loc = 0 → v = nullVal
  only : ∀ c ∈ entry.vals, comp c = true → ∀ v ∈ w.vals, v.loc = c.loc → v = c
  ub : U b
  nb : NT b
  from_ : ∀ (i : Nat) (r : PVal), head.vals[i]? = some r → (entry.vals[i]? = some r ∧ w.vals[i]? = some r) ∨ m ≤ r.loc
  pass : ∀ (ℓ : Nat) (C : PVal → Prop), ℓ ≠ 0 → (∀ v, C v → (v.fn.isSome && v.nl.isSome) = true) → ℓ < m → QL ℓ C head → QL ℓ C b

/-- An entry value with an unknown property that has been replaced never comes back. -/
theorem Step.gone {entry : Env} {m : Nat} {head w b : Env} (h : Step entry m head w b) {i : Nat} {c : PVal} (hi : entry.vals[i]? = some c) (hc : comp c = false)
    (hw : w.vals[i]? ≠ some c) : ∀ v ∈ b.vals, v.loc ≠ c.loc := by
  have hm : c ∈ entry.vals := List.mem_of_getElem? hi
  have h0 : c.loc ≠ 0 := fun e => by rw [h.ue.zero c hm e] at hc; cases hc
  have : QL c.loc (fun _ => False) head := by
    intro v hv hl
    obtain ⟨j, hj⟩ := List.getElem?_of_mem hv
    rcases h.from_ j v hj with ⟨h1, h2⟩ | h1
    · by_cases hij : j = i
      · subst hij
        have := Option.some.inj (h1.symm.trans hi); subst this
        exact hw h2
      · have := h.ue.uniq j i v c hij h1 hi hl
        rw [this.1, hc] at this; exact absurd this.2 (by decide)
    · have := h.be c hm; omega
  exact fun v hv hl => h.pass c.loc _ h0 (fun _ h => h.elim) (h.be c hm) this v hv hl

theorem Step.down (s : Solver) {entry : Env} {m : Nat} {head w b : Env} (h : Step entry m head w b) (hc : (widen s w b).2 = true) :
    mu entry (widen s w b).1 < mu entry w := by
  have hget : ∀ i, i < entry.vals.length → ∃ a c, w.vals[i]? = some a ∧ b.vals[i]? = some c ∧ w.get i = a ∧ b.get i = c ∧ (widen s w b).1.get i = (widenVal s w b a c).1 := by
    intro i hi
    obtain ⟨a, ha⟩ := ex_get (e := w) (i := i) (h.lw ▸ hi)
    obtain ⟨c, hc⟩ := ex_get (e := b) (i := i) (h.lb ▸ hi)
    exact ⟨a, c, ha, hc, get_of ha, get_of hc, get_of (widenVals_get s w b _ _ i a c ha hc)⟩
  -- no entry value comes back
  have hk : ∀ i, i < entry.vals.length → (widen s w b).1.get i = entry.get i → comp (entry.get i) = false → w.get i = entry.get i := by
    intro i hi he hcomp
    obtain ⟨c, hc⟩ := ex_get hi
    rw [get_of hc] at he hcomp ⊢
    by_contra hne
    obtain ⟨a, d, ha, hd, ga, _, gw⟩ := hget i hi
    have hgone := h.gone hc hcomp (fun hw => hne (get_of hw)) d (List.mem_of_getElem? hd)
    rw [gw] at he
    have := widenVal_loc s w b a d (by rw [he]; exact h.ne c (List.mem_of_getElem? hc))
    rw [he] at this
    exact hgone this.2
  have hle : ∀ i, i < entry.vals.length → mu1 entry (widen s w b).1 i ≤ mu1 entry w i := by
    intro i hi
    obtain ⟨a, c, _, hb, ga, _, gw⟩ := hget i hi
    have hr := (widenVal_rk s w b a c (h.nb c (List.mem_of_getElem? hb))).1
    unfold mu1
    by_cases hd : (widen s w b).1.get i = entry.get i ∧ comp (entry.get i) = false
    · have := hk i hi hd.1 hd.2
      rw [if_pos hd, if_pos ⟨this, hd.2⟩, gw, ga]; omega
    · rw [if_neg hd, gw, ga]; omega
  refine Finset.sum_lt_sum (fun i hi => hle i (Finset.mem_range.1 hi)) ?_
  obtain ⟨x, a, c, ha, hcx, hch⟩ := widenVals_changed s w b w.vals b.vals hc
  have hxl : x < entry.vals.length := by
    rw [← h.lw]; exact (List.getElem?_eq_some_iff.1 ha).1
  -- a variable whose entry value is forgotten
  have drop : ∀ j, j < entry.vals.length → w.get j = entry.get j → comp (entry.get j) = false → (widen s w b).1.get j ≠ entry.get j →
      ∃ i ∈ Finset.range entry.vals.length, mu1 entry (widen s w b).1 i < mu1 entry w i := by
    intro j hj h1 h2 h3
    refine ⟨j, Finset.mem_range.2 hj, ?_⟩
    obtain ⟨a, c, _, hb, ga, _, gw⟩ := hget j hj
    have hr := (widenVal_rk s w b a c (h.nb c (List.mem_of_getElem? hb))).1
    unfold mu1
    rw [if_neg (fun h => h3 h.1), if_pos ⟨h1, h2⟩, gw, ga]; omega
  by_cases hl : a.loc = c.loc
  · have ⟨hres, hne⟩ := widenVal_changed s w b hl hch
    have h1 : a.loc ≠ 1 := hl ▸ h.nb c (List.mem_of_getElem? hcx)
    have h0 : a.loc ≠ 0 := fun h0 => hne ((h.zw a (List.mem_of_getElem? ha) h0).trans (h.ub.zero c (List.mem_of_getElem? hcx) (hl ▸ h0)).symm)
    have hlt := h.bw a (List.mem_of_getElem? ha)
    have : ∃ v ∈ head.vals, v.loc = a.loc := by
      by_contra hno
      exact h.pass a.loc (fun _ => False) h0 (fun _ h => h.elim) hlt (fun v hv hl => hno ⟨v, hv, hl⟩) c (List.mem_of_getElem? hcx) hl.symm
    obtain ⟨v, hv, hvl⟩ := this
    obtain ⟨j, hj⟩ := List.getElem?_of_mem hv
    rcases h.from_ j v hj with ⟨j1, j2⟩ | hbig
    · have hjl : j < entry.vals.length := (List.getElem?_eq_some_iff.1 j1).1
      cases hcv : comp v with
      | true =>
        have hq : QL a.loc (· = v) head := by
          intro u hu hul
          obtain ⟨k, hk⟩ := List.getElem?_of_mem hu
          rcases h.from_ k u hk with ⟨k1, _⟩ | hbig
          · by_cases hkj : k = j
            · subst hkj; exact Option.some.inj (k1.symm.trans j1)
            · exact (h.ue.uniq k j u v hkj k1 j1 (hul.trans hvl.symm)).1
          · omega
        have e1 := h.pass a.loc _ h0 (fun u hu => by subst hu; exact hcv) hlt hq c (List.mem_of_getElem? hcx) hl.symm
        have e2 := h.only v (List.mem_of_getElem? j1) hcv a (List.mem_of_getElem? ha) hvl.symm
        exact absurd (e2.trans e1.symm) hne
      | false =>
        have gj : entry.get j = v := get_of j1
        refine drop j hjl ((get_of j2).trans gj.symm) (by rw [gj]; exact hcv) ?_
        rw [gj]
        by_cases hjx : j = x
        · subst hjx
          have := Option.some.inj (j2.symm.trans ha); subst this
          rw [show (widen s w b).1.get j = _ from get_of (widenVals_get s w b _ _ j _ c ha hcx)]
          exact hres
        · obtain ⟨a', c', ha', hc', _, _, gw⟩ := hget j hjl
          have := Option.some.inj (j2.symm.trans ha'); subst this
          rw [gw]
          by_cases hcl : c'.loc = v.loc
          · have := h.ub.uniq j x c' c hjx hc' hcx (by rw [hcl, hvl, hl])
            exact widenVal_refine s w b hcl.symm hcv this.2
          · intro he
            have := widenVal_loc s w b v c' (by rw [he, hvl]; exact h1)
            rw [he] at this
            exact hcl this.2
    · omega
  · have hr := (widenVal_rk s w b a c (h.nb c (List.mem_of_getElem? hcx))).2 hl hch
    refine ⟨x, Finset.mem_range.2 hxl, ?_⟩
    have gw : (widen s w b).1.get x = (widenVal s w b a c).1 := get_of (widenVals_get s w b _ _ x a c ha hcx)
    unfold mu1
    by_cases hd : (widen s w b).1.get x = entry.get x ∧ comp (entry.get x) = false
    · have := hk x hxl hd.1 hd.2
      rw [if_pos hd, if_pos ⟨this, hd.2⟩, gw, get_of ha]; omega
    · rw [if_neg hd, gw, get_of ha]; omega

/-! ### Loops -/

/-- What the iteration needs to know about a pass. -/
structure PassOk (pass : Nat → Env → Option Pass) (L n : Nat) (head : Env) (p : Pass) : Prop where
  eq : pass n head = some p
  g : PG n head p
  u : ∀ b, p.back = some b → U b
  nt : ∀ b, p.back = some b → NT b
  ql : ∀ b, p.back = some b → ∀ (ℓ : Nat) (C : PVal → Prop), ℓ ≠ 0 → (∀ v, C v → (v.fn.isSome && v.nl.isSome) = true) → ℓ < n → QL ℓ C head → QL ℓ C b

/-- What holds of the environment of the block that jumps back. -/
structure OldOk (entry : Env) (w : Env) : Prop where
  zw : ∀ v ∈ w.vals, v.loc = 0 → v = nullVal
  only : ∀ c ∈ entry.vals, comp c = true → ∀ v ∈ w.vals, v.loc = c.loc → v = c

/-- The states of the iteration. -/
inductive LI (s : Solver) (ne : Nat) (entry : Env) : Nat → Env → Option Env → Nat → Prop
  | first {fuel : Nat} : 4 * entry.vals.length + 2 ≤ fuel → LI s ne entry ne entry none fuel
  | next {m : Nat} {w : Env} {fuel : Nat} : Grow ⟨ne, entry, []⟩ ⟨m, w, []⟩ → OldOk entry w → mu entry w + 1 ≤ fuel →
      LI s ne entry (join s m entry w).1 (join s m entry w).2 (some w) fuel

theorem loop_converges (s : Solver) (pass : Nat → Env → Option Pass) {ne : Nat} {entry : Env} (we : WF ⟨ne, entry, []⟩) (ue : U entry) (nte : NT entry)
    (hpass : ∀ n head, WF ⟨n, head, []⟩ → U head → NT head → head.vals.length = entry.vals.length → ∃ p, PassOk pass entry.vals.length n head p) :
    ∀ (fuel n : Nat) (head : Env) (old : Option Env), LI s ne entry n head old fuel → ∃ p, loop s pass entry fuel n head old = some p := by
  intro fuel
  induction fuel with
  | zero => intro n head old h; cases h <;> omega
  | succ fuel ih =>
    intro n head old hli
    have hw : WF ⟨n, head, []⟩ ∧ U head ∧ NT head ∧ head.vals.length = entry.vals.length ∧ Grow ⟨ne, entry, []⟩ ⟨n, head, []⟩ := by
      cases hli with
      | first => exact ⟨we, ue, nte, rfl, Grow.refl _⟩
      | @next m w _ g _ _ =>
        have gh := grow_head s g
        have h2 : 2 ≤ m := Nat.le_trans we.two g.le
        exact ⟨gh.wf we, u_join s ue (we.vals.mono fun x hx => Nat.lt_of_lt_of_le hx g.le) h2, NT.join s h2 nte, gh.len, gh⟩
    obtain ⟨wh, uh, nh, lh, gh⟩ := hw
    obtain ⟨p, po⟩ := hpass n head wh uh nh lh
    simp only [loop, po.eq]
    cases hbk : p.back with
    | none => exact ⟨_, rfl⟩
    | some b =>
      have gb := gh.trans (po.g.back b hbk)
      have key : ∀ (w : Env) (c : Bool), Grow ⟨ne, entry, []⟩ ⟨p.n, w, []⟩ → OldOk entry w → (c = true → mu entry w + 1 ≤ fuel) →
          ∃ q, (if c = true then if (join s p.n entry w).2.vals = head.vals then some (⟨(join s p.n entry w).1, some b, p.exit, p.ds⟩ : Pass)
            else loop s pass entry fuel (join s p.n entry w).1 (join s p.n entry w).2 (some w) else some p) = some q := by
        intro w c gw ow hm
        split
        · rename_i hc
          split
          · exact ⟨_, rfl⟩
          · exact ih _ _ (some w) (.next gw ow (hm hc))
        · exact ⟨_, rfl⟩
      have hob : ∀ c ∈ entry.vals, comp c = true → QL c.loc (· = c) head → ∀ v ∈ b.vals, v.loc = c.loc → v = c := by
        intro c hcm hcc hq v hv hl
        by_cases h0 : c.loc = 0
        · exact ((po.u b hbk).zero v hv (hl.trans h0)).trans (ue.zero c hcm h0).symm
        · exact po.ql b hbk c.loc _ h0 (fun u hu => by subst hu; exact hcc) (Nat.lt_of_lt_of_le (we.vals c hcm).loc gh.le) hq v hv hl
      cases hli with
      | first hf =>
        refine key b true gb ⟨(po.u b hbk).zero, fun c hcm hcc => hob c hcm hcc fun u hu hul => ?_⟩ fun _ => by have := mu_le entry b; omega
        obtain ⟨k, hk⟩ := List.getElem?_of_mem hu
        obtain ⟨j, hj⟩ := List.getElem?_of_mem hcm
        by_cases hkj : k = j
        · subst hkj; exact Option.some.inj (hk.symm.trans hj)
        · exact (ue.uniq k j u c hkj hk hj hul).1
      | @next m w _ g ow hf =>
        have hfrom := (joinVals_from s entry w entry.vals w.vals m (.or entry.fc w.fc)).1
        have hbm : ∀ v ∈ entry.vals, v.loc < m := fun v hv => Nat.lt_of_lt_of_le (we.vals v hv).loc g.le
        have hob' : ∀ c ∈ entry.vals, comp c = true → ∀ v ∈ b.vals, v.loc = c.loc → v = c := by
          intro c hcm hcc
          refine hob c hcm hcc fun u hu hul => ?_
          obtain ⟨k, hk⟩ := List.getElem?_of_mem hu
          obtain ⟨j, hj⟩ := List.getElem?_of_mem hcm
          rcases hfrom k u hk with ⟨k1, _⟩ | hbig
          · by_cases hkj : k = j
            · subst hkj; exact Option.some.inj (k1.symm.trans hj)
            · exact (ue.uniq k j u c hkj k1 hj hul).1
          · have := hbm c hcm; omega
        have st : Step entry m (join s m entry w).2 w b :=
          { lw := g.len, lb := gb.len, ue := ue, ne := nte, be := hbm, bw := fun v hv => ((g.wf we).vals v hv).loc, zw := ow.zw, only := ow.only,
            ub := po.u b hbk, nb := po.nt b hbk, from_ := hfrom,
            pass := fun ℓ C h0 hC hl => po.ql b hbk ℓ C h0 hC (Nat.lt_of_lt_of_le hl (join_le s m entry w)) }
        have hlw : w.vals.length = b.vals.length := g.len.trans gb.len.symm
        refine key (widen s w b).1 (widen s w b).2 (grow_widen s gb w hlw) ?_ fun hc => by have := st.down s hc; omega
        have hmem : ∀ v ∈ (widen s w b).1.vals, v.loc ≠ 1 → ∃ a c, a ∈ w.vals ∧ c ∈ b.vals ∧ v = (widenVal s w b a c).1 ∧ a.loc = v.loc ∧ c.loc = v.loc := by
          intro v hv h1
          obtain ⟨i, hi⟩ := List.getElem?_of_mem hv
          have hil : i < entry.vals.length := by
            have := (List.getElem?_eq_some_iff.1 hi).1
            rw [(grow_widen s gb w hlw).len] at this; exact this
          obtain ⟨a, ha⟩ := ex_get (e := w) (i := i) (by rw [show w.vals.length = entry.vals.length from g.len]; exact hil)
          obtain ⟨c, hc⟩ := ex_get (e := b) (i := i) (by rw [show b.vals.length = entry.vals.length from gb.len]; exact hil)
          have e := widenVals_get s w b _ _ i a c ha hc
          have e : v = (widenVal s w b a c).1 := Option.some.inj (hi.symm.trans e)
          have hl := widenVal_loc s w b a c (by rw [← e]; exact h1)
          rw [← e] at hl
          exact ⟨a, c, List.mem_of_getElem? ha, List.mem_of_getElem? hc, e, hl.1, hl.2⟩
        refine ⟨fun v hv h0 => ?_, fun c hcm hcc v hv hl => ?_⟩
        · obtain ⟨a, c, ha, hc, e, l1, l2⟩ := hmem v hv (by omega)
          have e1 := ow.zw a ha (l1.trans h0)
          have e2 := (po.u b hbk).zero c hc (l2.trans h0)
          subst e1; subst e2
          rw [e]; simp [widenVal]
        · obtain ⟨a, c', ha, hc', e, l1, l2⟩ := hmem v hv (by rw [hl]; exact nte c hcm)
          have e1 := ow.only c hcm hcc a ha (l1.trans hl)
          have e2 := hob' c hcm hcc c' hc' (l2.trans hl)
          rw [e1, e2] at e
          rw [e]; simp [widenVal]

theorem stmt_converges (s : Solver) (d : Decls) {fuel m : Nat} (hf : 4 * m + 2 ≤ fuel) : ∀ (S : Stmt) (st : St), st.env.vals.length = m →
    WF st → U st.env → NT st.env → ∃ r, stmt s d fuel S st = some r
  | .skip, st, _, _, _, _ => ⟨_, rfl⟩
  | .seq a b, st, hm, w, u, nt => by
    obtain ⟨ra, ha⟩ := stmt_converges s d hf a st hm w u nt
    simp only [stmt, ha]
    cases he : ra.env with
    | none => exact ⟨_, rfl⟩
    | some e =>
      have g := (sg_stmt s d fuel a st ra ha).g e he
      exact stmt_converges s d hf b _ (g.len.trans hm) (g.wf w) (u_stmt s d fuel a st ra ha w u e he) (NT.stmt s d fuel a st ra ha w.two nt e he)
  | .assign x R, st, _, _, _, _ => ⟨_, rfl⟩
  | .deref o, st, _, _, _, _ => ⟨_, rfl⟩
  | .bump x z, st, _, _, _, _ => ⟨_, rfl⟩
  | .reset x, st, _, _, _, _ => ⟨_, rfl⟩
  | .move x y, st, _, _, _, _ => ⟨_, rfl⟩
  | .swap x y, st, _, _, _, _ => ⟨_, rfl⟩
  | .ite c a b, st, hm, w, u, nt => by
    have hB := bg_branch s d c st
    have uB := u_branch s d c w u
    have nB := NT.branch s d c w.two nt
    simp only [stmt]
    generalize branch s d c st = B at hB uB nB ⊢
    obtain ⟨r1, h1⟩ := stmt_converges s d hf a ⟨B.n, B.t, B.ds⟩ (hB.t.len.trans hm) (hB.t.wf w) uB.1 nB.1
    have la : B.n ≤ r1.n := (sg_stmt s d fuel a _ r1 h1).le
    have w1 : WF ⟨r1.n, B.f, r1.ds⟩ := by
      have := hB.f.wf w
      exact ⟨Nat.le_trans this.two la, this.vals.mono fun x hx => Nat.lt_of_lt_of_le hx la, this.fc.mono fun x hx => Nat.lt_of_lt_of_le hx la⟩
    obtain ⟨r2, h2⟩ := stmt_converges s d hf b ⟨r1.n, B.f, r1.ds⟩ (hB.f.len.trans hm) w1 uB.2 nB.2
    simp only [h1, h2]
    cases r1.env <;> cases r2.env <;> exact ⟨_, rfl⟩
  | .while c b, st, hm, w, u, nt => by
    simp only [stmt]
    generalize hP : loop s _ st.env fuel st.n st.env none = P
    cases P with
    | some p => exact ⟨_, rfl⟩
    | none =>
      exfalso
      refine absurd (loop_converges s _ (ne := st.n) (entry := st.env) ⟨w.two, w.vals, w.fc⟩ u nt ?_ fuel st.n st.env none (.first (by rw [hm]; exact hf))) (by rw [hP]; simp)
      intro n head wh uh nh lh
      have hB := bg_branch s d c ⟨n, head, []⟩
      have uB := u_branch s d c wh uh
      have nB := NT.branch s d c wh.two nh
      have qB := fun (ℓ : Nat) (C : PVal → Prop) (h0 : ℓ ≠ 0) (hC : ∀ v, C v → (v.fn.isSome && v.nl.isSome) = true) => nt_branch h0 hC s d c (st := ⟨n, head, []⟩)
      generalize hBe : branch s d c ⟨n, head, []⟩ = B at hB uB nB qB
      have lt : B.t.vals.length = m := hB.t.len.trans (lh.trans hm)
      obtain ⟨r, hr⟩ := stmt_converges s d hf b ⟨B.n, B.t, B.ds⟩ lt (hB.t.wf wh) uB.1 nB.1
      have gr := sg_stmt s d fuel b _ r hr
      refine ⟨⟨r.n, r.env, B.f, r.ds⟩, by simp only [hBe, hr], ⟨fun e he => (hB.t.trans (gr.g e he)).nods, (hB.f.next' gr.le).nods⟩, fun e he => ?_, fun e he => ?_,
        fun e he ℓ C h0 hC hl hq => ?_⟩
      · exact u_stmt s d fuel b _ r hr (hB.t.wf wh) uB.1 e he
      · exact NT.stmt s d fuel b _ r hr (hB.t.wf wh).two nB.1 e he
      · exact nt_stmt h0 hC s d fuel b _ r hr (Nat.lt_of_lt_of_le hl hB.t.le) (qB ℓ C h0 hC hl hq).1 e he
  | .ret o, st, _, _, _, _ => ⟨_, rfl⟩
  | .abort, st, _, _, _, _ => ⟨_, rfl⟩

/-- The state at the entry of a function. -/
structure InitOk (L : Nat) (st : St) : Prop where
  len : st.env.vals.length = L
  wf : WF st
  u : U st.env
  nt : NT st.env

theorem initVals_ok (d : Decls) : ∀ (m x L : Nat) (st : St), InitOk L st → InitOk (L + m) (initVals d m x st)
  | 0, _, _, _, h => h
  | m + 1, x, L, st, h => by
    have hk := ur_fromKind h.wf h.u (d.kind x)
    have vg := vg_fromKind st (d.kind x)
    have hl := fromKind_loc st (d.kind x)
    have hn := fromKind_n st (d.kind x)
    have he := fromKind_env st (d.kind x)
    have hwf := vg.g.wf h.wf
    have hvb := vg.v.below vg.g.le h.wf
    simp only [initVals]
    generalize st.fromKind (d.kind x) = R at hk hl hn he hwf hvb
    obtain ⟨v, st1⟩ := R
    simp only at hk hl hn he hwf hvb ⊢
    rw [show L + (m + 1) = (L + 1) + m by omega]
    refine initVals_ok d m (x + 1) (L + 1) _ ⟨by simp [he, h.len], ⟨hwf.two, ?_, hwf.fc⟩, ⟨?_, ?_⟩, ?_⟩
    · intro u hu
      simp only [List.mem_append, List.mem_singleton] at hu
      rcases hu with hu | rfl
      · exact hwf.vals u hu
      · exact hvb
    · have hg : ∀ (i : Nat) (u : PVal), (st1.env.vals ++ [v])[i]? = some u → st1.env.vals[i]? = some u ∨ (i = st1.env.vals.length ∧ u = v) := by
        intro i u hi
        rw [List.getElem?_append] at hi
        split at hi
        · exact .inl hi
        · rename_i hge
          obtain ⟨h1, h2⟩ := List.getElem?_eq_some_iff.1 hi
          simp at h1
          refine .inr ⟨by omega, ?_⟩
          simpa using h2.symm
      intro a b u w hab ha hb hlw
      rcases hg a u ha with h1 | ⟨h1, h1'⟩ <;> rcases hg b w hb with h2 | ⟨h2, h2'⟩
      · exact hk.e.uniq a b u w hab h1 h2 hlw
      · subst h2'
        have := hk.v.uniq u (List.mem_of_getElem? h1) hlw
        exact ⟨this, this ▸ hk.v.comp⟩
      · subst h1'
        exact ⟨(hk.v.uniq w (List.mem_of_getElem? h2) hlw.symm).symm, hk.v.comp⟩
      · omega
    · intro u hu h0
      simp only [List.mem_append, List.mem_singleton] at hu
      rcases hu with hu | rfl
      · exact hk.e.zero u hu h0
      · exact hk.v.zero h0
    · intro u hu
      simp only [List.mem_append, List.mem_singleton] at hu
      rcases hu with hu | rfl
      · exact h.nt u (he ▸ hu)
      · have := h.wf.two; omega

/-- C124: for every function with `m` pointer variables and every solver, the analysis ends with a list of diagnostics if each
loop may be gone over `4 m + 2` times. -/
theorem diagnose_converges (s : Solver) (d : Decls) (m : Nat) (body : Stmt) {fuel : Nat} (hf : 4 * m + 2 ≤ fuel) :
    ∃ ds, diagnose s d fuel m body = some ds := by
  have h := initVals_ok d m 0 0 ⟨2, ⟨.lit true, []⟩, []⟩ ⟨rfl, ⟨Nat.le_refl 2, fun v hv => (by cases hv), FIn.lit _ _⟩,
    ⟨fun x y u v _ hx => by simp at hx, fun v hv => by cases hv⟩, fun v hv => by cases hv⟩
  rw [Nat.zero_add] at h
  obtain ⟨r, hr⟩ := stmt_converges s d hf body _ h.len h.wf h.u h.nt
  exact ⟨r.ds, by simp [diagnose, hr]⟩

end Verif.NullSound

import Verif.NullSound.NoTop
/- Facts for C124: in every state, variables with the same location have the same value; a value with an unknown
property is the only one with its location. -/
namespace Verif.NullSound
open NullFlow (Formula Solver Status)

/-- Both properties are known. -/
def comp (v : PVal) : Bool := v.fn.isSome && v.nl.isSome

/-- The invariant on an environment. -/
structure U (e : Env) : Prop where
  uniq : ∀ (x y : Nat) (u v : PVal), x ≠ y → e.vals[x]? = some u → e.vals[y]? = some v → u.loc = v.loc → u = v ∧ comp u = true
  zero : ∀ v ∈ e.vals, v.loc = 0 → v = nullVal

/-- The invariant on a value that is about to be stored. -/
structure UV (v : PVal) (e : Env) : Prop where
  comp : comp v = true
  uniq : ∀ u ∈ e.vals, u.loc = v.loc → u = v
  zero : v.loc = 0 → v = nullVal

theorem U.null {e : Env} (h : U e) : UV nullVal e := ⟨rfl, fun u hu hl => h.zero u hu hl, fun _ => rfl⟩

theorem U.set {e : Env} (h : U e) {v : PVal} (hv : UV v e) (x : Nat) : U (e.set x v) := by
  have hg : ∀ y u, (e.set x v).vals[y]? = some u → (y = x ∧ u = v) ∨ (y ≠ x ∧ e.vals[y]? = some u) := by
    intro y u hy
    simp only [Env.set, List.getElem?_set] at hy
    split at hy
    · rename_i hxy
      split at hy
      · exact .inl ⟨hxy.symm, (Option.some.inj hy).symm⟩
      · cases hy
    · rename_i hxy; exact .inr ⟨fun h => hxy h.symm, hy⟩
  refine ⟨fun a b u w hab ha hb hl => ?_, fun u hu h0 => ?_⟩
  · rcases hg a u ha with ⟨rfl, rfl⟩ | ⟨_, ha'⟩ <;> rcases hg b w hb with ⟨rfl, rfl⟩ | ⟨_, hb'⟩
    · exact absurd rfl hab
    · exact ⟨(hv.uniq w (List.mem_of_getElem? hb') hl.symm).symm, hv.comp⟩
    · have := hv.uniq u (List.mem_of_getElem? ha') hl
      exact ⟨this, this ▸ hv.comp⟩
    · exact h.uniq a b u w hab ha' hb' hl
  · rcases List.mem_or_eq_of_mem_set hu with h' | rfl
    · exact h.zero u h' h0
    · exact hv.zero h0

theorem UV.set {e : Env} {v w : PVal} (h : UV v e) (hw : w.loc = v.loc → w = v) (x : Nat) : UV v (e.set x w) :=
  ⟨h.comp, fun u hu hl => by
    rcases List.mem_or_eq_of_mem_set hu with h' | rfl
    · exact h.uniq u h' hl
    · exact hw hl, h.zero⟩

theorem U.of {e e' : Env} (h : U e) (he : e'.vals = e.vals) : U e' := ⟨by rw [he]; exact h.uniq, by rw [he]; exact h.zero⟩
theorem UV.of {v : PVal} {e e' : Env} (h : UV v e) (he : e'.vals = e.vals) : UV v e' := ⟨h.comp, by rw [he]; exact h.uniq, h.zero⟩

/-- A value with a new location. -/
theorem UV.fresh {e : Env} {n : Nat} (hb : EIn (· < n) e) (h2 : 2 ≤ n) {v : PVal} (hl : n ≤ v.loc) (hc : NullSound.comp v = true) : UV v e :=
  ⟨hc, fun u hu h => by have : u.loc < n := (hb u hu).loc; omega, fun h => by omega⟩

/-- Value and environment. -/
structure UR (r : PVal × St) : Prop where
  v : UV r.1 r.2.env
  e : U r.2.env

theorem ur_fromKind {st : St} (w : WF st) (h : U st.env) (k : Kind) : UR (st.fromKind k) :=
  ⟨UV.fresh (n := st.n) (by rw [fromKind_env]; exact w.vals) w.two (by rw [fromKind_loc]; exact Nat.le_refl _) (by cases k <;> rfl), by rw [fromKind_env]; exact h⟩

theorem get_mem (e : Env) (x : Nat) : e.get x = nullVal ∨ e.vals[x]? = some (e.get x) := by
  unfold Env.get
  rw [List.getD_eq_getElem?_getD]
  cases e.vals[x]? <;> simp

/-- Unpacking, and values read before. -/
theorem ur_unpack {st : St} (h : U st.env) (x : Nat) : UR (st.unpack x) ∧ ∀ v, UV v st.env → UV v (st.unpack x).2.env := by
  unfold St.unpack
  simp only
  split
  · rename_i hc
    refine ⟨⟨⟨hc, fun u hu hl => ?_, fun h0 => ?_⟩, h⟩, fun v hv => hv⟩
    · rcases get_mem st.env x with hx | hx
      · rw [hx] at hl ⊢; exact h.zero u hu hl
      · obtain ⟨y, hy⟩ := List.getElem?_of_mem hu
        by_cases hxy : y = x
        · subst hxy; exact Option.some.inj (hy.symm.trans hx)
        · exact (h.uniq y x u _ hxy hy hx hl).1
    · rcases get_mem st.env x with hx | hx
      · exact hx
      · exact h.zero _ (List.mem_of_getElem? hx) h0
  · rename_i hc
    have hx : st.env.vals[x]? = some (st.env.get x) := by
      rcases get_mem st.env x with hx | hx
      · rw [hx] at hc; simp [nullVal] at hc
      · exact hx
    have h0 : (st.env.get x).loc ≠ 0 := fun h0 => by
      rw [h.zero _ (List.mem_of_getElem? hx) h0] at hc; simp [nullVal] at hc
    have hu : ∀ u y, st.env.vals[y]? = some u → u.loc = (st.env.get x).loc → y = x := by
      intro u y hy hl
      by_cases hxy : y = x
      · exact hxy
      · have := h.uniq y x u _ hxy hy hx hl
        exact absurd (this.1 ▸ this.2) hc
    generalize hV : (⟨(st.env.get x).loc, some (freshIfTop (st.env.get x).fn st.n).1,
      some (freshIfTop (st.env.get x).nl (freshIfTop (st.env.get x).fn st.n).2).1⟩ : PVal) = V
    have hVl : V.loc = (st.env.get x).loc := by rw [← hV]
    have hVc : comp V = true := by rw [← hV]; rfl
    have hg : ∀ y u, (st.env.set x V).vals[y]? = some u → (y = x ∧ u = V) ∨ (y ≠ x ∧ st.env.vals[y]? = some u) := by
      intro y u hy
      simp only [Env.set, List.getElem?_set] at hy
      split at hy
      · rename_i hxy
        split at hy
        · exact .inl ⟨hxy.symm, (Option.some.inj hy).symm⟩
        · cases hy
      · rename_i hxy; exact .inr ⟨fun h => hxy h.symm, hy⟩
    refine ⟨⟨⟨hVc, fun u hu' hl => ?_, fun h => absurd (hVl ▸ h) h0⟩, ⟨fun a b u w hab ha hb hl => ?_, fun u hu' hl => ?_⟩⟩, fun v hv => hv.set (fun hl => ?_) x⟩
    · obtain ⟨y, hy⟩ := List.getElem?_of_mem hu'
      rcases hg y u hy with ⟨_, rfl⟩ | ⟨hne, hy'⟩
      · rfl
      · exact absurd (hu u y hy' (hl.trans hVl)) hne
    · rcases hg a u ha with ⟨rfl, rfl⟩ | ⟨hna, ha'⟩ <;> rcases hg b w hb with ⟨rfl, rfl⟩ | ⟨hnb, hb'⟩
      · exact absurd rfl hab
      · exact absurd (hu w b hb' (hl.symm.trans hVl)) hnb
      · exact absurd (hu u a ha' (hl.trans hVl)) hna
      · exact h.uniq a b u w hab ha' hb' hl
    · obtain ⟨y, hy⟩ := List.getElem?_of_mem hu'
      rcases hg y u hy with ⟨_, rfl⟩ | ⟨hne, hy'⟩
      · exact absurd (hVl ▸ hl) h0
      · exact h.zero u (List.mem_of_getElem? hy') hl
    · have := hv.uniq _ (List.mem_of_getElem? hx) (hVl.symm.trans hl)
      exact absurd (show NullSound.comp (st.env.get x) = true by rw [this]; exact hv.comp) hc

theorem UR.report {v : PVal} {st : St} (h : UR (v, st)) (b : Bool) (w : Fault) : UR (v, st.report b w) := ⟨by simpa using h.v, by simpa using h.e⟩

theorem ur_operand (s : Solver) (d : Decls) {st : St} (w : WF st) (h : U st.env) (o : Operand) :
    UR (operand s d st o) ∧ ∀ v, UV v st.env → UV v (operand s d st o).2.env := by
  cases o with
  | var x =>
    have := ur_unpack h x
    exact ⟨this.1.report _ _, fun v hv => by simp only [operand, report_env]; exact this.2 v hv⟩
  | null => exact ⟨⟨h.null, h⟩, fun v hv => hv⟩
  | obj => exact ⟨ur_fromKind w h .nonnull, fun v hv => hv⟩

theorem operand_mem (s : Solver) (d : Decls) (st : St) (x : Nat) : (operand s d st (.var x)).1 = nullVal ∨ (operand s d st (.var x)).1 ∈ (operand s d st (.var x)).2.env.vals := by
  simp only [operand, report_env]
  unfold St.unpack
  simp only
  rcases get_mem st.env x with hx | hx
  · rw [hx]; left; rfl
  · split
    · exact .inr (List.mem_of_getElem? hx)
    · right
      have hl : x < st.env.vals.length := by
        rw [List.getElem?_eq_some_iff] at hx; exact hx.1
      exact List.mem_of_getElem? (i := x) (by simp [Env.set, hl])

theorem u_argVals (s : Solver) (d : Decls) (as : List Arg) : ∀ {st : St}, WF st → U st.env → U (argVals s d st as).2.env := by
  induction as with
  | nil => intro st _ h; exact h
  | cons a as ih =>
    intro st w h
    cases a with
    | val o k => exact ih ((vg_operand s d st o).g.wf w) (ur_operand s d w h o).1.e
    | out x k => exact ih w h

theorem u_reportArgs (s : Solver) (vs : List (PVal × Kind)) : ∀ {st : St}, U st.env → U (reportArgs s st vs).env := by
  induction vs with
  | nil => intro st h; exact h
  | cons a as ih => intro st h; exact ih (by simpa using h)

theorem u_outParams (as : List Arg) : ∀ {st : St} {v : PVal}, WF st → U st.env → UV v st.env → v.loc < st.n →
    U (outParams st as).env ∧ UV v (outParams st as).env := by
  induction as with
  | nil => intro st v _ h hv _; exact ⟨h, hv⟩
  | cons a as ih =>
    intro st v w h hv hl
    cases a with
    | val o k => exact ih w h hv hl
    | out x k =>
      simp only [outParams]
      split
      · have hf := ur_fromKind w h .unspecified
        have vg := vg_fromKind st .unspecified
        refine ih (vg.g.set' vg.v x |>.wf w) (hf.e.set hf.v x) (UV.set (by rw [fromKind_env]; exact hv) (fun he => ?_) x) (Nat.lt_succ_of_lt hl)
        rw [fromKind_loc] at he; omega
      · exact ih w h hv hl

theorem eitherProp_some (st : St) (ok : Formula) {f g : Option Formula} (hf : f.isSome = true) (hg : g.isSome = true) :
    (eitherProp st ok f g).1.isSome = true := by
  cases f <;> cases g <;> simp_all [eitherProp]

theorem ur_rhs (s : Solver) (d : Decls) {st : St} (w : WF st) (h : U st.env) (r : Rhs) : UR (rhs s d st r) := by
  cases r with
  | use o => exact (ur_operand s d w h o).1
  | call as k =>
    have g1 := grow_argVals s d as st
    have g2 := grow_reportArgs s (argVals s d st as).1 (argVals s d st as).2
    have w2 := g2.wf (g1.wf w)
    have hf := ur_fromKind w2 (u_reportArgs s _ (u_argVals s d as w h)) k
    have vg := vg_fromKind (reportArgs s (argVals s d st as).2 (argVals s d st as).1) k
    have := u_outParams as (vg.g.wf w2) hf.e hf.v (by rw [fromKind_loc, fromKind_n]; exact Nat.lt_succ_self _)
    exact ⟨this.2, this.1⟩
  | cast o =>
    have ho := (ur_operand s d w h o).1
    have wo := (vg_operand s d st o).g.wf w
    exact ⟨UV.fresh (n := (operand s d st o).2.n) wo.vals wo.two (Nat.le_refl _) ho.v.comp, ho.e⟩
  | offset o zero =>
    have ho := (ur_operand s d w h o).1.report (!zero && isNullable s (operand s d st o).2.env (operand s d st o).1) .arith
    exact ur_fromKind (((vg_operand s d st o).g.report' _ _).wf w) ho.e .nonnull
  | release x =>
    have ho := (ur_operand s d w h (.var x)).1
    exact ⟨ho.v.set (fun he => (ho.v.zero he.symm).symm) x, ho.e.set ho.e.null x⟩
  | spCast x dyn =>
    have ho := (ur_operand s d w h (.var x)).1
    have wo := (vg_operand s d st (.var x)).g.wf w
    simp only [rhs]
    generalize operand s d st (.var x) = R at ho wo ⊢
    obtain ⟨v, st1⟩ := R
    have e := ho.e
    have f : UV ⟨st1.n, some (.atom st1.n), some (.atom (st1.n + 1))⟩ st1.env := UV.fresh (n := st1.n) wo.vals wo.two (Nat.le_refl _) rfl
    simp only at e f ⊢
    cases dyn <;> cases hn : v.nl <;> cases hf : v.fn <;> simp only [if_true, if_false, Bool.false_eq_true] <;>
      exact ⟨f.of rfl, e.of rfl⟩
  | valueOr k o =>
    simp only [rhs]
    have h1 := (ur_operand s d w h o).1
    have w1 := (vg_operand s d st o).g.wf w
    generalize operand s d st o = R at h1 w1 ⊢
    obtain ⟨a, st1⟩ := R
    have hk := ur_fromKind w1 h1.e k
    have hl := fromKind_loc st1 k
    have hn := fromKind_n st1 k
    have hke := fromKind_env st1 k
    simp only at h1 w1 hk hke ⊢
    generalize st1.fromKind k = R at hk hl hn hke ⊢
    obtain ⟨r, st2⟩ := R
    have h3 : comp (valueOrArg s st2 o a).1 = true ∧ (valueOrArg s st2 o a).2.env = st2.env := by
      unfold valueOrArg
      split
      · split
        · exact ⟨rfl, rfl⟩
        · exact ⟨rfl, rfl⟩
      · exact ⟨h1.v.comp, rfl⟩
    simp only at hk hl hke ⊢
    have c1 := hk.v.comp
    have c2 := h3.1
    simp only [comp, Bool.and_eq_true] at c1 c2
    have p1 := eitherProp_some { (valueOrArg s st2 o a).2 with n := (valueOrArg s st2 o a).2.n + 1 } (.atom (valueOrArg s st2 o a).2.n) c1.1 c2.1
    have e1 := eitherProp_env { (valueOrArg s st2 o a).2 with n := (valueOrArg s st2 o a).2.n + 1 } (.atom (valueOrArg s st2 o a).2.n) r.fn (valueOrArg s st2 o a).1.fn
    generalize eitherProp { (valueOrArg s st2 o a).2 with n := (valueOrArg s st2 o a).2.n + 1 } (.atom (valueOrArg s st2 o a).2.n) r.fn (valueOrArg s st2 o a).1.fn = R at p1 e1 ⊢
    obtain ⟨fn, st5⟩ := R
    simp only at p1 e1 ⊢
    have p2 := eitherProp_some st5 (.atom (valueOrArg s st2 o a).2.n) c1.2 c2.2
    have e2 := eitherProp_env st5 (.atom (valueOrArg s st2 o a).2.n) r.nl (valueOrArg s st2 o a).1.nl
    generalize eitherProp st5 (.atom (valueOrArg s st2 o a).2.n) r.nl (valueOrArg s st2 o a).1.nl = R at p2 e2 ⊢
    obtain ⟨nl, st6⟩ := R
    simp only at p2 e2 ⊢
    have he : st6.env.vals = st1.env.vals := by rw [e2, e1, h3.2, hke]
    have b1 : EIn (· < st1.n) st6.env := by unfold EIn; rw [he]; exact w1.vals
    exact ⟨UV.fresh b1 w1.two (Nat.le_of_eq hl.symm) (by simp [comp, p1, p2]), h1.e.of he⟩
  | checkNe o1 o2 =>
    simp only [rhs]
    have h1 := (ur_operand s d w h o1).1
    have w1 := (vg_operand s d st o1).g.wf w
    generalize operand s d st o1 = R at h1 w1 ⊢
    obtain ⟨a, st1⟩ := R
    have h2 := (ur_operand s d w1 h1.e o2).1
    have w2 := (vg_operand s d st1 o2).g.wf w1
    simp only at h1 h2 w2 ⊢
    generalize operand s d st1 o2 = R at h2 w2 ⊢
    obtain ⟨b, st2⟩ := R
    have h3 := ur_fromKind w2 h2.e .nullable
    simp only at h3 ⊢
    generalize st2.fromKind .nullable = R at h3 ⊢
    obtain ⟨r, st3⟩ := R
    simp only at h3 ⊢
    have e4 := ppc_env st3 (.atom st2.n) a.nl b.nl true
    generalize processPointerComparison st3 (.atom st2.n) a.nl b.nl true = R at e4 ⊢
    obtain ⟨res, st4⟩ := R
    cases res <;> exact ⟨h3.v.of e4, h3.e.of e4⟩

/-- Where the values of a join come from. -/
theorem joinVals_from (s : Solver) (e1 e2 : Env) : ∀ (vs1 vs2 : List PVal) (n : Nat) (fc : Formula),
    (∀ (i : Nat) (r : PVal), (joinVals s e1 e2 vs1 vs2 n fc).1[i]? = some r → (vs1[i]? = some r ∧ vs2[i]? = some r) ∨ n ≤ r.loc) ∧
    ((∀ v ∈ vs1, v.loc < n) → ∀ (i j : Nat) (r r' : PVal), i ≠ j → (joinVals s e1 e2 vs1 vs2 n fc).1[i]? = some r → (joinVals s e1 e2 vs1 vs2 n fc).1[j]? = some r' →
      n ≤ r.loc → r.loc ≠ r'.loc)
  | [], _, _, _ => ⟨by simp [joinVals], by simp [joinVals]⟩
  | _ :: _, [], _, _ => ⟨by simp [joinVals], by simp [joinVals]⟩
  | v1 :: vs1, v2 :: vs2, n, fc => by
    have hle := (joinVal_in s e1 e2 n fc v1 v2).1
    have hv : (v1 = v2 ∧ joinVal s e1 e2 n fc v1 v2 = (v1, n, fc)) ∨ ((joinVal s e1 e2 n fc v1 v2).1.loc = n ∧ n < (joinVal s e1 e2 n fc v1 v2).2.1) := by
      unfold joinVal
      split
      · rename_i h; exact .inl ⟨h, rfl⟩
      · refine .inr ⟨rfl, ?_⟩
        have a1 := (mergeFormulas_in s e1 e2 (n + 1) fc v1.fn v2.fn).1
        have a2 := (mergeFormulas_in s e1 e2 (mergeFormulas s e1 e2 (n + 1) fc v1.fn v2.fn).2.1 (mergeFormulas s e1 e2 (n + 1) fc v1.fn v2.fn).2.2 v1.nl v2.nl).1
        exact Nat.lt_of_lt_of_le (Nat.lt_of_lt_of_le (Nat.lt_succ_self n) a1) a2
    simp only [joinVals]
    generalize joinVal s e1 e2 n fc v1 v2 = R at hle hv ⊢
    obtain ⟨v, n', fc'⟩ := R
    simp only at hle hv ⊢
    obtain ⟨ih1, ih2⟩ := joinVals_from s e1 e2 vs1 vs2 n' fc'
    generalize joinVals s e1 e2 vs1 vs2 n' fc' = R at ih1 ih2 ⊢
    obtain ⟨vs, n'', fc''⟩ := R
    simp only at ih1 ih2 ⊢
    refine ⟨fun i r hi => ?_, fun hb i j r r' hij hi hj hr => ?_⟩
    · cases i with
      | zero =>
        simp at hi ⊢; subst hi
        rcases hv with ⟨h, hv⟩ | ⟨hv, _⟩
        · cases hv; exact .inl ⟨rfl, h.symm⟩
        · exact .inr (Nat.le_of_eq hv.symm)
      | succ i =>
        simp at hi ⊢
        rcases ih1 i r hi with h | h
        · exact .inl h
        · exact .inr (Nat.le_trans hle h)
    · have hold : ∀ (k : Nat) (q : PVal), vs[k]? = some q → q.loc < n ∨ n' ≤ q.loc := by
        intro k q hk
        rcases ih1 k q hk with h | h
        · exact .inl (hb q (by simp [List.mem_of_getElem? h.1]))
        · exact .inr h
      have hb' : ∀ v ∈ vs1, v.loc < n' := fun v hv => Nat.lt_of_lt_of_le (hb v (by simp [hv])) hle
      have h0 : n ≤ v.loc → v.loc < n' := by
        intro h
        rcases hv with ⟨_, hv⟩ | ⟨h1, h2⟩
        · cases hv; have := hb v1 (by simp); omega
        · omega
      have h0' : v.loc < n' ∨ v.loc < n := by
        rcases hv with ⟨_, hv⟩ | ⟨h1, h2⟩
        · cases hv; exact .inr (hb v1 (by simp))
        · left; omega
      cases i with
      | zero =>
        cases j with
        | zero => exact absurd rfl hij
        | succ j =>
          simp at hi hj; subst hi
          have := h0 hr
          rcases hold j r' hj with h | h <;> omega
      | succ i =>
        simp at hi
        rcases hold i r hi with h | h
        · omega
        · cases j with
          | zero => simp at hj; subst hj; rcases h0' with h' | h' <;> omega
          | succ j => simp at hj; exact ih2 hb' i j r r' (fun e => hij (by rw [e])) hi hj h

theorem u_join (s : Solver) {n : Nat} {e1 e2 : Env} (h : U e1) (hb : EIn (· < n) e1) (h2 : 2 ≤ n) : U (join s n e1 e2).2 := by
  obtain ⟨f1, f2⟩ := joinVals_from s e1 e2 e1.vals e2.vals n (.or e1.fc e2.fc)
  have f2 := f2 fun v hv => (hb v hv).loc
  refine ⟨fun x y u v hxy hx hy hl => ?_, fun v hv h0 => ?_⟩
  · rcases f1 x u hx with a | a
    · rcases f1 y v hy with b | b
      · exact h.uniq x y u v hxy a.1 b.1 hl
      · exact absurd hl.symm (f2 y x v u hxy.symm hy hx b)
    · exact absurd hl (f2 x y u v hxy hx hy a)
  · obtain ⟨x, hx⟩ := List.getElem?_of_mem hv
    rcases f1 x v hx with a | a
    · exact h.zero v (List.mem_of_getElem? a.1) h0
    · omega

theorem u_branch (s : Solver) (d : Decls) : ∀ (c : Cond) {st : St}, WF st → U st.env → U (branch s d c st).t ∧ U (branch s d c st).f
  | .nz o, st, w, h => by
    have hv := (ur_operand s d w h o).1.e
    simp only [branch]
    cases (operand s d st o).1.nl <;> exact ⟨hv.of rfl, hv.of rfl⟩
  | .isz o, st, w, h => by
    have hv := (ur_operand s d w h o).1.e
    simp only [branch]
    cases (operand s d st o).1.nl <;> exact ⟨hv.of rfl, hv.of rfl⟩
  | .eq neg o1 o2, st, w, h => by
    simp only [branch]
    have h1 := (ur_operand s d w h o1).1
    have w1 := (vg_operand s d st o1).g.wf w
    generalize operand s d st o1 = R at h1 w1 ⊢
    obtain ⟨a, st1⟩ := R
    have h2 := (ur_operand s d w1 h1.e o2).1
    simp only at h1 h2 ⊢
    generalize operand s d st1 o2 = R at h2 ⊢
    obtain ⟨b, st2⟩ := R
    have h3 := U.of (e' := (processPointerComparison { st2 with n := st2.n + 1 } (if neg = true then Formula.not (if a.loc = b.loc then .lit true else .atom st2.n) else if a.loc = b.loc then .lit true else .atom st2.n) a.nl b.nl neg).2.env) h2.e (ppc_env _ _ _ _ _)
    exact ⟨h3.of rfl, h3.of rfl⟩
  | .eqSmart neg x y, st, w, h => by
    have h1 := (ur_operand s d w h (.var x)).1
    have w1 := (vg_operand s d st (.var x)).g.wf w
    have h2 := (ur_operand s d w1 h1.e (.var y)).1
    exact ⟨h2.e.of rfl, h2.e.of rfl⟩
  | .other, st, w, h => ⟨h.of rfl, h.of rfl⟩
  | .and a b, st, w, h => by
    have ha := u_branch s d a w h
    have ga := bg_branch s d a st
    have hb := u_branch s d b (st := ⟨(branch s d a st).n, (branch s d a st).t, (branch s d a st).ds⟩) (ga.t.wf w) ha.1
    have lb := (bg_branch s d b ⟨(branch s d a st).n, (branch s d a st).t, (branch s d a st).ds⟩).t.le
    have wf := ga.f.wf w
    exact ⟨hb.1, u_join s ha.2 (wf.vals.mono fun x hx => Nat.lt_of_lt_of_le hx lb) (Nat.le_trans wf.two lb)⟩
  | .or a b, st, w, h => by
    have ha := u_branch s d a w h
    have ga := bg_branch s d a st
    have hb := u_branch s d b (st := ⟨(branch s d a st).n, (branch s d a st).f, (branch s d a st).ds⟩) (ga.f.wf w) ha.2
    have lb := (bg_branch s d b ⟨(branch s d a st).n, (branch s d a st).f, (branch s d a st).ds⟩).t.le
    have wt := ga.t.wf w
    exact ⟨u_join s ha.1 (wt.vals.mono fun x hx => Nat.lt_of_lt_of_le hx lb) (Nat.le_trans wt.two lb), hb.2⟩

theorem u_loop (s : Solver) (pass : Nat → Env → Option Pass)
    (hpass : ∀ n head p, pass n head = some p → PG n head p ∧ (WF ⟨n, head, []⟩ → U head → U p.exit)) {ne : Nat} {entry : Env} (we : WF ⟨ne, entry, []⟩)
    (ue : U entry) : ∀ (fuel n : Nat) (head : Env) (old : Option Env) (p : Pass), Grow ⟨ne, entry, []⟩ ⟨n, head, []⟩ → U head →
      (∀ o, old = some o → o.vals.length = entry.vals.length) → loop s pass entry fuel n head old = some p → U p.exit := by
  intro fuel
  induction fuel with
  | zero => intro n head old p _ _ _ h; simp [loop] at h
  | succ fuel ih =>
    intro n head old p hg hu ho h
    simp only [loop] at h
    cases hp : pass n head with
    | none => simp [hp] at h
    | some q =>
      obtain ⟨pg, hq⟩ := hpass n head q hp
      have hq := hq (hg.wf we) hu
      simp only [hp] at h
      cases hb : q.back with
      | none => simp only [hb] at h; exact Option.some.inj h ▸ hq
      | some b =>
        simp only [hb] at h
        have gb := hg.trans (pg.back b hb)
        have key : ∀ (w : Env) (c : Bool), Grow ⟨ne, entry, []⟩ ⟨q.n, w, []⟩ →
            (if c = true then if (join s q.n entry w).2.vals = head.vals then some ⟨(join s q.n entry w).1, some b, q.exit, q.ds⟩
              else loop s pass entry fuel (join s q.n entry w).1 (join s q.n entry w).2 (some w) else some q) = some p → U p.exit := by
          intro w c gw h
          split at h
          · split at h
            · have := Option.some.inj h; subst this; exact hq
            · exact ih _ _ _ _ (grow_head s gw) (u_join s ue (we.vals.mono fun x hx => Nat.lt_of_lt_of_le hx gw.le) (Nat.le_trans we.two gw.le))
                (fun o ho => Option.some.inj ho ▸ gw.len) h
          · exact Option.some.inj h ▸ hq
        cases old with
        | none => exact key b true gb h
        | some o => exact key _ _ (grow_widen s gb o ((ho o rfl).trans gb.len.symm)) h

theorem u_stmt (s : Solver) (d : Decls) (fuel : Nat) : ∀ (S : Stmt) (st : St) (r : SR), stmt s d fuel S st = some r → WF st → U st.env →
    ∀ e, r.env = some e → U e
  | .skip, st, r, h, w, hn, e, he => by
    simp only [stmt] at h
    have := Option.some.inj h; subst this
    exact Option.some.inj he ▸ hn
  | .seq a b, st, r, h, w, hn, e, he => by
    simp only [stmt] at h
    cases ha : stmt s d fuel a st with
    | none => simp [ha] at h
    | some ra =>
      have ia := u_stmt s d fuel a st ra ha w hn
      have ga := sg_stmt s d fuel a st ra ha
      simp only [ha] at h
      cases hra : ra.env with
      | none => simp only [hra] at h; have := Option.some.inj h; subst this; rw [hra] at he; cases he
      | some e1 =>
        simp only [hra] at h
        exact u_stmt s d fuel b _ r h ((ga.g e1 hra).wf w) (ia e1 hra) e he
  | .assign x R, st, r, h, w, hn, e, he => by
    simp only [stmt] at h
    have hv := ur_rhs s d w hn R
    have := Option.some.inj h; subst this
    have := Option.some.inj he; subst this
    simp only [report_env]
    exact hv.e.set hv.v x
  | .deref o, st, r, h, w, hn, e, he => by
    simp only [stmt] at h
    have := Option.some.inj h; subst this
    have := Option.some.inj he; subst this
    simp only [report_env]
    exact (ur_operand s d w hn o).1.e
  | .bump x zero, st, r, h, w, hn, e, he => by
    simp only [stmt] at h
    have hv := ur_fromKind (st := st.report (!zero && isNullable s st.env (st.env.get x)) .arith) ((Grow.report _ _ _).wf w) (by simpa using hn) .nonnull
    have := Option.some.inj h; subst this
    have := Option.some.inj he; subst this
    exact hv.e.set hv.v x
  | .reset x, st, r, h, w, hn, e, he => by
    simp only [stmt] at h
    have := Option.some.inj h; subst this
    have := Option.some.inj he; subst this
    simp only [report_env]
    exact hn.set hn.null x
  | .move x y, st, r, h, w, hn, e, he => by
    simp only [stmt] at h
    have hv := (ur_operand s d w hn (.var y)).1
    have := Option.some.inj h; subst this
    have := Option.some.inj he; subst this
    simp only [report_env]
    have h1 := hv.e.set hv.v x
    exact h1.set h1.null y
  | .swap x y, st, r, h, w, hn, e, he => by
    simp only [stmt] at h
    have hv := (ur_operand s d w hn (.var x)).1
    have w1 := (vg_operand s d st (.var x)).g.wf w
    have hw := ur_operand s d w1 hv.e (.var y)
    have hv2 := hw.2 _ hv.v
    have hmem : (operand s d (operand s d st (.var x)).2 (.var y)).1 = nullVal ∨ (operand s d (operand s d st (.var x)).2 (.var y)).1 ∈ (operand s d (operand s d st (.var x)).2 (.var y)).2.env.vals :=
      operand_mem s d _ y
    have := Option.some.inj h; subst this
    have := Option.some.inj he; subst this
    refine U.set (hw.1.e.set hw.1.v x) (hv2.set (fun hl => ?_) x) y
    rcases hmem with hm | hm
    · rw [hm] at hl ⊢; exact (hv2.zero hl.symm).symm
    · exact hv2.uniq _ hm hl
  | .ite c a b, st, r, h, w, hn, e, he => by
    simp only [stmt] at h
    have hB := u_branch s d c w hn
    have gB := bg_branch s d c st
    generalize branch s d c st = B at hB h gB
    cases ha : stmt s d fuel a ⟨B.n, B.t, B.ds⟩ with
    | none => simp [ha] at h
    | some r1 =>
      have ia := u_stmt s d fuel a _ r1 ha (gB.t.wf w) hB.1
      have ga := sg_stmt s d fuel a _ r1 ha
      simp only [ha] at h
      have la : B.n ≤ r1.n := ga.le
      have w1 : WF ⟨r1.n, B.f, r1.ds⟩ := by
        have := gB.f.wf w
        exact ⟨Nat.le_trans this.two la, this.vals.mono fun x hx => Nat.lt_of_lt_of_le hx la, this.fc.mono fun x hx => Nat.lt_of_lt_of_le hx la⟩
      cases hb : stmt s d fuel b ⟨r1.n, B.f, r1.ds⟩ with
      | none => simp [hb] at h
      | some r2 =>
        have ib := u_stmt s d fuel b _ r2 hb w1 hB.2
        have lb : r1.n ≤ r2.n := (sg_stmt s d fuel b _ r2 hb).le
        simp only [hb] at h
        cases e1 : r1.env with
        | none =>
          cases e2 : r2.env with
          | none => simp only [e1, e2] at h; have := Option.some.inj h; subst this; cases he
          | some u => simp only [e1, e2] at h; have := Option.some.inj h; subst this; exact Option.some.inj he ▸ ib u e2
        | some u1 =>
          cases e2 : r2.env with
          | none => simp only [e1, e2] at h; have := Option.some.inj h; subst this; exact Option.some.inj he ▸ ia u1 e1
          | some u2 =>
            simp only [e1, e2] at h; have := Option.some.inj h; subst this
            have wu := (ga.g u1 e1).wf (gB.t.wf w)
            exact Option.some.inj he ▸ u_join s (ia u1 e1) (wu.vals.mono fun x hx => Nat.lt_of_lt_of_le hx lb) (Nat.le_trans wu.two lb)
  | .while c b, st, r, h, w, hn, e, he => by
    simp only [stmt] at h
    generalize hl : loop s _ st.env fuel st.n st.env none = P at h
    cases P with
    | none => simp at h
    | some p =>
      simp only at h
      have := Option.some.inj h; subst this
      refine Option.some.inj he ▸ u_loop s _ ?_ (ne := st.n) (entry := st.env) ⟨w.two, w.vals, w.fc⟩ hn fuel st.n st.env none p (Grow.refl _) hn (fun o h => by cases h) hl
      intro n head q hq
      have hB := @u_branch s d c ⟨n, head, []⟩
      have gB := bg_branch s d c ⟨n, head, []⟩
      generalize branch s d c ⟨n, head, []⟩ = B at hB hq gB
      cases hb : stmt s d fuel b ⟨B.n, B.t, B.ds⟩ with
      | none => simp [hb] at hq
      | some rb =>
        have ib := sg_stmt s d fuel b _ rb hb
        simp only [hb] at hq
        have := Option.some.inj hq; subst this
        exact ⟨⟨fun e he => (gB.t.trans (ib.g e he)).nods, (gB.f.next' ib.le).nods⟩, fun w hn => (hB w hn).2⟩
  | .ret o, st, r, h, w, hn, e, he => by
    simp only [stmt] at h
    have := Option.some.inj h; subst this; cases he
  | .abort, st, r, h, w, hn, e, he => by
    simp only [stmt] at h
    have := Option.some.inj h; subst this; cases he

end Verif.NullSound

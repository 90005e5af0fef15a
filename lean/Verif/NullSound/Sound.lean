import Verif.NullSound.Join
/- Facts for C121-C125: loops, statements, whole functions. -/
namespace Verif.NullSound
open NullFlow (Formula Solver Status)

variable {ρ : Rho} {σ : State} {st : St}

/-! ### Loops -/

/-- If the join gives back values with old locations only, both environments had these values. -/
theorem joinVals_old (s : Solver) (e1 e2 : Env) : ∀ (vs1 vs2 : List PVal) (n : Nat) (fc : Formula), vs1.length = vs2.length →
    (∀ v ∈ (joinVals s e1 e2 vs1 vs2 n fc).1, v.loc < n) → vs1 = (joinVals s e1 e2 vs1 vs2 n fc).1 ∧ vs2 = (joinVals s e1 e2 vs1 vs2 n fc).1
  | [], [], _, _, _, _ => ⟨rfl, rfl⟩
  | _ :: _, [], _, _, h, _ => by simp at h
  | [], _ :: _, _, _, h, _ => by simp at h
  | v1 :: vs1, v2 :: vs2, n, fc, h, hv => by
    simp only [joinVals] at hv ⊢
    have h1 : (joinVal s e1 e2 n fc v1 v2).1.loc < n := hv _ (by simp)
    unfold joinVal at h1
    simp only at h1
    split at h1
    · rename_i heq
      subst heq
      have e : joinVal s e1 e2 n fc v1 v1 = (v1, n, fc) := by simp [joinVal]
      rw [e] at hv ⊢
      simp only at hv ⊢
      have ih := joinVals_old s e1 e2 vs1 vs2 n fc (by simpa using h) (fun v hm => hv v (by simp [hm]))
      exact ⟨congrArg (v1 :: ·) ih.1, congrArg (v1 :: ·) ih.2⟩
    · exact absurd h1 (Nat.lt_irrefl _)

/-- A widened value says less. -/
theorem widenVals_sound (s : Solver) (p e : Env) : ∀ (ps qs : List PVal) (σ : State), ps.length = qs.length → List.Forall₂ (RelV ρ) σ qs →
    List.Forall₂ (RelV ρ) σ (widenVals s p e ps qs).1
  | [], [], _, _, h => by cases h; exact .nil
  | _ :: _, [], _, h, _ => by simp at h
  | [], _ :: _, _, h, _ => by simp at h
  | a :: ps, b :: qs, _, hl, h => by
    cases h with
    | cons h1 h2 =>
      have prop : ∀ a b f, (widenProperty s p e a b).1 = some f → b = some f := by
        intro a b f hf
        unfold widenProperty at hf
        split at hf
        · exact hf
        · cases a <;> cases b <;> simp only at hf <;> try cases hf
          split at hf
          · exact hf
          · cases hf
      suffices hw : RelV ρ _ (widenVal s p e a b).1 from .cons hw (widenVals_sound s p e ps qs _ (by simpa using hl) h2)
      unfold widenVal
      simp only
      split
      · exact h1
      · split
        · exact h1
        · refine ⟨fun f hf => h1.nl f (prop _ _ _ hf), fun hk f hf => h1.fn hk f (prop _ _ _ hf), fun hl => ?_⟩
          simp only at hl ⊢
          split at hl
          · rename_i hab; rw [if_pos hab]; exact h1.loc hl
          · exact absurd rfl hl

/-- If widening changes nothing, the previous environment describes what the current one does: properties that are the
same mention old numbers only, the others are the same constants. -/
theorem widenVals_back (s : Solver) {p e : Env} {ρ ρw : Rho} (hp : p.fc.eval ρw.b = true) (he : e.fc.eval ρ.b = true) {P Q : Nat → Prop}
    (hag : ∀ a, P a → Q a → ρw.b a = ρ.b a ∧ ρw.l a = ρ.l a) : ∀ (ps qs : List PVal) (σ : State), ps.length = qs.length → (widenVals s p e ps qs).2 = false →
    (∀ v ∈ ps, VIn P v) → (∀ v ∈ qs, VIn Q v) → List.Forall₂ (RelV ρ) σ qs → List.Forall₂ (RelV ρw) σ ps
  | [], [], _, _, _, _, _, h => by cases h; exact .nil
  | _ :: _, [], _, h, _, _, _, _ => by simp at h
  | [], _ :: _, _, h, _, _, _, _ => by simp at h
  | a :: ps, b :: qs, _, hl, hc, hP, hQ, h => by
    cases h with
    | cons h1 h2 =>
      simp only [widenVals, Bool.or_eq_false_iff] at hc
      have same : ∀ f, FIn P f → FIn Q f → f.eval ρw.b = f.eval ρ.b := fun f h1 h2 => NullFlow.eval_congr fun x hx => (hag x (h1 x hx) (h2 x hx)).1
      have prop : ∀ a b, OIn P a → OIn Q b → (widenProperty s p e a b).2 = false → ∀ f, a = some f → ∃ g, b = some g ∧ f.eval ρw.b = g.eval ρ.b := by
        intro a b hA hB hf f ha
        subst ha
        unfold widenProperty at hf
        split at hf
        · rename_i heq
          exact ⟨f, heq.symm, same f (OIn.some.1 hA) (by rw [← heq] at hB; exact OIn.some.1 hB)⟩
        · cases b with
          | none => simp at hf
          | some g =>
            simp only at hf
            split at hf
            · rename_i hpr
              simp only [Bool.or_eq_true, Bool.and_eq_true] at hpr
              refine ⟨g, rfl, ?_⟩
              rcases hpr with hpr | hpr
              · rw [proves_sound s hpr.1 hp, proves_sound s hpr.2 he]
              · rw [proves_not_sound s hpr.1 hp, proves_not_sound s hpr.2 he]
            · cases hf
      have ha := hP a (by simp)
      have hb := hQ b (by simp)
      refine .cons ?_ (widenVals_back s hp he hag ps qs _ (by simpa using hl) hc.2 (fun v hv => hP v (by simp [hv])) (fun v hv => hQ v (by simp [hv])) h2)
      have hc1 : a = b ∨ ((widenProperty s p e a.fn b.fn).2 = false ∧ (widenProperty s p e a.nl b.nl).2 = false) := by
        have h0 := hc.1
        unfold widenVal at h0
        simp only at h0
        split at h0
        · rename_i h; exact .inl h
        · split at h0
          · rename_i h; exact .inr h.2
          · simp at h0; exact .inr ⟨h0.1.2, h0.2⟩
      have hc2 : (widenProperty s p e a.fn b.fn).2 = false ∧ (widenProperty s p e a.nl b.nl).2 = false := by
        rcases hc1 with h | h
        · subst h; simp [widenProperty]
        · exact h
      refine ⟨fun f hf => ?_, fun hk f hf => ?_, fun hl => ?_⟩
      · obtain ⟨g, hg, e⟩ := prop _ _ ha.nl hb.nl hc2.2 f hf
        rw [e]; exact h1.nl g hg
      · obtain ⟨g, hg, e⟩ := prop _ _ ha.fn hb.fn hc2.1 f hf
        rw [e]; exact h1.fn hk g hg
      · have hloc : a.loc = b.loc := by
          have h0 := hc.1
          unfold widenVal at h0
          simp only at h0
          split at h0
          · rename_i h; rw [h]
          · split at h0
            · rename_i h; exact h.1
            · simp at h0
              split at h0
              · rename_i h; exact h
              · exact absurd h0.1.1.symm hl
        have hbl : P b.loc := hloc ▸ ha.loc
        rw [hloc, (hag _ hbl hb.loc).2]
        exact h1.loc (hloc ▸ hl)

section Loop
variable (s : Solver) (ne : Nat) (entry : Env) (Step : State → State → Prop)

/-- What the analysis of the body does, for one iteration of the program. -/
def PassSound (pass : Nat → Env → Option Pass) : Prop :=
  ∀ n head p ρ σ, pass n head = some p → NT head → Inv ρ σ ⟨n, head, []⟩ → ∀ σ', Step σ σ' → ∃ b ρ', p.back = some b ∧ Agree n ρ ρ' ∧ Inv ρ' σ' ⟨p.n, b, []⟩

/-- The head of the loop describes the stores the loop starts in. -/
def Reach (n : Nat) (head : Env) : Prop :=
  ∀ ρe σe, Inv ρe σe ⟨ne, entry, []⟩ → ∃ ρ, Agree ne ρe ρ ∧ Inv ρ σe ⟨n, head, []⟩

/-- The head of the loop describes, with a store, the stores after an iteration. -/
def Stable (n : Nat) (head : Env) : Prop :=
  ∀ ρe σe σ1, Inv ρe σe ⟨ne, entry, []⟩ → Step σe σ1 → ∀ ρ σ σ', Agree ne ρe ρ → Inv ρ σ ⟨n, head, []⟩ → Step σ σ' →
    ∃ ρ', Agree ne ρe ρ' ∧ Inv ρ' σ' ⟨n, head, []⟩

/-- The state of the fixpoint iteration. -/
inductive LoopInv : Nat → Env → Option Env → Prop
  | first : LoopInv ne entry none
  | next {m : Nat} {w : Env} : Grow ⟨ne, entry, []⟩ ⟨m, w, []⟩ →
      (∀ ρe σe σ1, Inv ρe σe ⟨ne, entry, []⟩ → Step σe σ1 → ∃ ρw, Agree ne ρe ρw ∧ w.fc.eval ρw.b = true) →
      LoopInv (join s m entry w).1 (join s m entry w).2 (some w)

/-- What the loop hands on. -/
structure LoopRes (pass : Nat → Env → Option Pass) (p : Pass) : Prop where
  ex : ∃ n head q, pass n head = some q ∧ p.exit = q.exit ∧ p.ds = q.ds ∧ q.n ≤ p.n ∧ Grow ⟨ne, entry, []⟩ ⟨n, head, []⟩ ∧ NT head ∧
    Reach ne entry n head ∧ Stable ne entry Step n head

end Loop

theorem loop_sound (s : Solver) {ne : Nat} {entry : Env} (wfe : WF ⟨ne, entry, []⟩) (nte : NT entry) {Step : State → State → Prop} {pass : Nat → Env → Option Pass}
    (hg : ∀ n head p, pass n head = some p → PG n head p) (hp : PassSound Step pass) :
    ∀ (fuel n : Nat) (head : Env) (old : Option Env) (p : Pass), LoopInv s ne entry Step n head old → loop s pass entry fuel n head old = some p →
      LoopRes ne entry Step pass p := by
  intro fuel
  induction fuel with
  | zero => intro n head old p _ h; simp [loop] at h
  | succ fuel ih =>
    intro n head old p hi h
    -- the head, statically and dynamically
    have gh : Grow ⟨ne, entry, []⟩ ⟨n, head, []⟩ := by
      cases hi with
      | first => exact Grow.refl _
      | next gw _ => exact grow_head s gw
    have wh : WF ⟨n, head, []⟩ := gh.wf wfe
    have hr : Reach ne entry n head := by
      intro ρe σe ie
      cases hi with
      | first => exact ⟨ρe, Agree.refl _ _, ie⟩
      | @next m w gw _ =>
        obtain ⟨ρ', a, i⟩ := join_sound s true (e1 := entry) (e2 := w) (ds' := []) ie gw.le gw.len.symm (wfe.up gw.le) (gw.wf wfe)
        exact ⟨ρ', a.mono gw.le, i⟩
    have hnt : NT head := by
      cases hi with
      | first => exact nte
      | next gw _ => exact NT.join s (Nat.le_trans wfe.two gw.le) nte
    simp only [loop] at h
    cases hps : pass n head with
    | none => simp [hps] at h
    | some q =>
      have pg := hg n head q hps
      simp only [hps] at h
      cases hb : q.back with
      | none =>
        simp only [hb] at h
        have := Option.some.inj h
        subst this
        refine ⟨n, head, q, hps, rfl, rfl, Nat.le_refl _, gh, hnt, hr, fun ρe σe σ1 ie st1 ρ σ σ' ha i hstep => ?_⟩
        obtain ⟨b, _, hb', _⟩ := hp n head q ρ σ hps hnt i σ' hstep
        rw [hb] at hb'; cases hb'
      | some b =>
        simp only [hb] at h
        have gb := gh.trans (pg.back b hb)
        have wb := gb.wf wfe
        -- one iteration of the program from the entry shows that the back edge can be reached
        have wit : ∀ ρe σe σ1, Inv ρe σe ⟨ne, entry, []⟩ → Step σe σ1 → ∃ ρw, Agree ne ρe ρw ∧ b.fc.eval ρw.b = true := by
          intro ρe σe σ1 ie hstep
          obtain ⟨ρ1, a1, i1⟩ := hr ρe σe ie
          obtain ⟨b', ρ2, hb', a2, i2⟩ := hp n head q ρ1 σe hps hnt i1 σ1 hstep
          rw [hb] at hb'; cases hb'
          exact ⟨ρ2, a1.trans a2 gh.le, i2.sat⟩
        have key : ∀ (w : Env) (c : Bool), Grow ⟨ne, entry, []⟩ ⟨q.n, w, []⟩ → w.fc = b.fc →
            (∀ {ρ : Rho} {σ : State}, Rel ρ σ b → Rel ρ σ w) → (c = false → Stable ne entry Step n head) →
            (if c = true then if (join s q.n entry w).2.vals = head.vals then some ⟨(join s q.n entry w).1, some b, q.exit, q.ds⟩
              else loop s pass entry fuel (join s q.n entry w).1 (join s q.n entry w).2 (some w) else some q) = some p →
            LoopRes ne entry Step pass p := by
          intro w c gw hfc hrel hst h
          split at h
          · split at h
            · rename_i heq
              cases h
              refine ⟨n, head, q, hps, rfl, rfl, join_le s q.n entry w, gh, hnt, hr, fun ρe σe σ1 ie st1 ρ σ σ' ha i hstep => ?_⟩
              -- the values are those of the entry
              have hv : entry.vals = head.vals ∧ w.vals = head.vals := by
                have := joinVals_old s entry w entry.vals w.vals q.n (.or entry.fc w.fc) gw.len.symm (fun v hv => by
                  have hv : v ∈ (join s q.n entry w).2.vals := hv
                  rw [heq] at hv
                  have h1 := (wh.vals v hv).loc
                  have h2 := pg.exit.le
                  simp only at h1 h2
                  omega)
                have e : (joinVals s entry w entry.vals w.vals q.n (.or entry.fc w.fc)).1 = head.vals := heq
                rw [e] at this
                exact this
              obtain ⟨b', ρ', hb', a', i'⟩ := hp n head q ρ σ hps hnt i σ' hstep
              rw [hb] at hb'; cases hb'
              obtain ⟨ρ1, a1, i1⟩ := hr ρe σe ie
              have rw' : Rel ρ' σ' w := hrel i'.rel
              have rh : Rel ρ' σ' entry := by unfold Rel at rw' ⊢; rw [hv.1, ← hv.2]; exact rw'
              have ag : Agree ne ρ' ρ1 := (ha.trans a' gh.le).symm.trans a1 (Nat.le_refl _)
              have rh1 := rh.agree ag wfe.vals
              refine ⟨ρ1, a1, i1.wf, i1.sat, ?_, i1.l0⟩
              unfold Rel at rh1 ⊢
              rw [hv.1] at rh1
              exact rh1
            · exact ih _ _ _ _ (.next gw fun ρe σe σ1 ie hstep => by rw [hfc]; exact wit ρe σe σ1 ie hstep) h
          · rename_i hc
            have := Option.some.inj h
            subst this
            exact ⟨n, head, q, hps, rfl, rfl, Nat.le_refl _, gh, hnt, hr, hst (by simpa using hc)⟩
        cases hi with
        | first => exact key b true gb rfl (fun h => h) (fun h => by cases h) h
        | @next m o go wo =>
          have hlen : o.vals.length = b.vals.length := go.len.trans gb.len.symm
          refine key (widen s o b).1 (widen s o b).2 (grow_widen s gb o hlen) rfl (fun h => widenVals_sound s o b o.vals b.vals _ hlen h) (fun hc => ?_) h
          intro ρe σe σ1 ie st1 ρ σ σ' ha i hstep
          obtain ⟨b', ρ', hb', a', i'⟩ := hp _ _ q ρ σ hps hnt i σ' hstep
          rw [hb] at hb'; cases hb'
          obtain ⟨ρw, aw, sw⟩ := wo ρe σe σ1 ie st1
          have two := wfe.two
          have lem := go.le
          simp only at two lem
          -- the values of the back edge: numbers of the entry, or new ones
          have hq : EIn (fun a => a < ne ∨ m ≤ a) b := by
            have h1 : EIn (fun a => a < ne ∨ m ≤ a) (join s m entry o).2 :=
              join_vals s m entry o (fun a ha _ => .inr ha) (wfe.vals.mono fun a ha => .inl ha)
            refine (pg.back b hb).vals _ (.inl (by omega)) (.inl (by omega)) (fun a ha _ => .inr ?_) h1
            have := join_le s m entry o
            simp only at ha
            omega
          have ag : Agree ne ρe ρ' := ha.trans a' gh.le
          have ro : Rel ρw σ' o := by
            refine widenVals_back s (P := (· < m)) (Q := fun a => a < ne ∨ m ≤ a) sw i'.sat ?_ o.vals b.vals σ' hlen hc (go.wf wfe).vals hq i'.rel
            intro a hpa hqa
            rcases hqa with h | h
            · rw [aw.b a h, ag.b a h, aw.l a h, ag.l a h]; exact ⟨rfl, rfl⟩
            · exact absurd hpa (by omega)
          have io : Inv ρw σ' ⟨m, o, []⟩ := ⟨go.wf wfe, sw, ro, (aw.l 0 (by omega)).trans ie.l0⟩
          obtain ⟨ρ2, a2, i2⟩ := join_sound s false (e1 := entry) (e2 := o) (ds' := []) io (Nat.le_refl _) go.len.symm (wfe.up go.le) (go.wf wfe)
          exact ⟨ρ2, aw.trans a2 go.le, i2⟩

/-! ### Statements -/

/-- What the result of the analysis says about the end of an execution. -/
def Good (ρ : Rho) (n : Nat) (r : SR) : Out → Prop
  | .norm σ' => ∃ e ρ', r.env = some e ∧ Agree n ρ ρ' ∧ Inv ρ' σ' ⟨r.n, e, r.ds⟩
  | .left => True
  | .fault w => w ∈ r.ds

theorem nullable_report (s : Solver) (hs : ∀ Q, s.solve Q ≠ .timedOut) {c : Val} {v : PVal} (h : Inv ρ σ st) (r : RelV ρ c v) (hc : KnownNull c)
    {b : Bool} (hb : b = true) (w : Fault) : w ∈ (st.report (b && isNullable s st.env v) w).ds := by
  rw [nullable_of_knownNull s hs h.sat r hc, hb]
  exact mem_report st w

theorem stmt_sound (s : Solver) (hs : ∀ Q, s.solve Q ≠ .timedOut) (d : Decls) (fuel : Nat) : ∀ (S : Stmt), S.plain →
    ∀ (st : St) (r : SR) (ρ : Rho) (σ : State) (o : Out), stmt s d fuel S st = some r → NT st.env → Inv ρ σ st → Exec KnownNull d S σ o → Good ρ st.n r o
  | .skip, _, st, r, ρ, σ, o, h, nt, i, hx => by
    simp only [stmt] at h
    cases h; cases hx
    exact ⟨_, ρ, rfl, Agree.refl _ _, i⟩
  | .seq a b, hp, st, r, ρ, σ, o, h, nt, i, hx => by
    simp only [stmt] at h
    cases ha : stmt s d fuel a st with
    | none => simp [ha] at h
    | some ra =>
      have ia := stmt_sound s hs d fuel a hp.1 st ra ρ σ
      have ga := sg_stmt s d fuel a st ra ha
      simp only [ha] at h
      cases hx with
      | @seq _ _ _ σ1 _ h1 h2 =>
        obtain ⟨e, ρ1, he, a1, i1⟩ := ia _ ha nt i h1
        simp only [he] at h
        have := stmt_sound s hs d fuel b hp.2 ⟨ra.n, e, ra.ds⟩ r ρ1 σ1 o h (NT.stmt s d fuel a st ra ha i.wf.two nt e he) i1 h2
        cases o with
        | norm σ' =>
          obtain ⟨e', ρ2, he', a2, i2⟩ := this
          exact ⟨e', ρ2, he', a1.trans a2 ga.le, i2⟩
        | left => trivial
        | fault w => exact this
      | seqLeft h1 => trivial
      | seqFault h1 =>
        have hw := ia _ ha nt i h1
        cases he : ra.env with
        | none => simp only [he] at h; cases h; exact hw
        | some e =>
          simp only [he] at h
          exact (sg_stmt s d fuel b _ r h).ds _ hw
  | .assign x R, hp, st, r, ρ, σ, o, h, nt, i, hx => by
    simp only [stmt] at h
    cases h
    have vg := vg_rhs s d st R
    cases hx with
    | assignFault he => exact (Grow.report _ _ _).ds _ (rhs_fault s hs d i he)
    | @assignBad _ _ _ σ' c he hk hb =>
      obtain ⟨ρ1, a1, i1, r1⟩ := rhs_sound s hs d hp i he
      exact nullable_report s hs i1 r1 hb (by simp [hk]) _
    | @assign _ _ _ σ' c he hk =>
      obtain ⟨ρ1, a1, i1, r1⟩ := rhs_sound s hs d hp i he
      have i2 := i1.report (decide (d.kind x = .nonnull) && isNullable s (rhs s d st R).2.env (rhs s d st R).1) .store
      refine ⟨_, ρ1, rfl, a1, i2.set ?_ ?_⟩
      · simpa using vg.v.below vg.g.le i.wf
      · simpa using i1.rel.set r1 x
  | .deref u, _, st, r, ρ, σ, o, h, nt, i, hx => by
    simp only [stmt] at h
    cases h
    cases hx with
    | derefMoved hf => exact (Grow.report _ _ _).ds _ (operand_fault s hs d i hf)
    | @derefBad _ _ c ho hb =>
      obtain ⟨ρ1, a1, i1, r1⟩ := operand_sound s d i u c
      have := nullable_report s hs i1 (r1 ho.reads) hb (b := true) rfl .deref
      rw [Bool.true_and] at this
      exact this
    | @deref _ _ c ho hb =>
      obtain ⟨ρ1, a1, i1, r1⟩ := operand_sound s d i u c
      exact ⟨_, ρ1, rfl, a1, i1.report _ _⟩
  | .bump x z, hp, st, r, ρ, σ, o, h, nt, i, hx => by
    simp only [stmt] at h
    cases h
    cases hx with
    | @bumpBad _ _ c hx hb => exact nullable_report s hs i (i.rel.get hx) hb (b := !false) rfl .arith
    | @bump _ _ c c' hx hb hc =>
      have i1 := i.report (!false && isNullable s st.env (st.env.get x)) .arith
      obtain ⟨ρ1, a1, i2, _, r2⟩ := fromKind_sound i1 .nonnull c'
      have vg := vg_fromKind (st.report (!false && isNullable s st.env (st.env.get x)) .arith) .nonnull
      exact ⟨_, ρ1, rfl, by simpa using a1, i2.set (vg.v.below vg.g.le i1.wf) (i2.rel.set (r2 hc) x)⟩
    | bumpZero => cases hp
  | .reset x, _, st, r, ρ, σ, o, h, nt, i, hx => by
    simp only [stmt] at h
    cases h
    cases hx with
    | resetBad hk => simp only [hk, decide_true]; exact mem_report _ _
    | reset hk =>
      have i1 := i.report (decide (d.kind x = .nonnull)) .store
      have two := i1.wf.two
      exact ⟨_, ρ, rfl, Agree.refl _ _, i1.set (VIn.nullVal (by show 0 < _; omega)) (i1.rel.set (relV_null rfl i1.l0) x)⟩
  | .move x y, hp, st, r, ρ, σ, o, h, nt, i, hx => by
    simp only [stmt] at h
    cases h
    have vg := vg_operand s d st (.var y)
    cases hx with
    | moveMoved hf => exact (Grow.report _ _ _).ds _ (operand_fault s hs d i hf)
    | @moveBad _ _ _ c ho hk hb =>
      obtain ⟨ρ1, a1, i1, r1⟩ := operand_sound s d i (.var y) c
      exact nullable_report s hs i1 (r1 ho.reads) hb (by simp [hk]) _
    | @move _ _ _ c hne ho hk =>
      obtain ⟨ρ1, a1, i1, r1⟩ := operand_sound s d i (.var y) c
      have i2 := i1.report (decide (d.kind x = .nonnull) && isNullable s (operand s d st (.var y)).2.env (operand s d st (.var y)).1) .store
      have hv := vg.v.below vg.g.le i.wf
      have i3 := i2.set (v := (operand s d st (.var y)).1) (x := x) (by simpa using hv) (σ' := σ.set x c) (by simpa using i1.rel.set (r1 ho.reads) x)
      have two := i1.wf.two
      have i4 := i3.set (v := nullVal) (x := y) (VIn.nullVal (by simp; omega)) (σ' := (σ.set x c).set y ⟨none, true⟩) (i3.rel.set (relV_null rfl i1.l0) y)
      exact ⟨_, ρ1, rfl, a1, i4⟩
    | moveSelf => exact absurd rfl hp
  | .swap x y, _, st, r, ρ, σ, o, h, nt, i, hx => by
    simp only [stmt] at h
    cases h
    have vg := vg_operand s d st (.var x)
    have vg2 := vg_operand s d (operand s d st (.var x)).2 (.var y)
    cases hx with
    | swapMoved hm hf =>
      simp at hm
      rcases hm with rfl | rfl
      · exact vg2.g.ds _ (operand_fault s hs d i hf)
      · obtain ⟨ρ1, _, i1, _⟩ := operand_sound s d i (.var x) ⟨none, true⟩
        exact operand_fault s hs d i1 hf
    | @swap _ _ _ c e h1 h2 =>
      obtain ⟨ρ1, a1, i1, r1⟩ := operand_sound s d i (.var x) c
      obtain ⟨ρ2, a2, i2, r2⟩ := operand_sound s d i1 (.var y) e
      have hv1 := vg.v.below vg.g.le i.wf
      have hv2 := vg2.v.below vg2.g.le i1.wf
      have r1 := (r1 h1.reads).agree a2 hv1
      have r2 := r2 h2.reads
      have hv1' := hv1.mono fun a (ha : a < _) => Nat.lt_of_lt_of_le ha vg2.g.le
      have i3 := i2.set hv2 (x := x) (i2.rel.set r2 x)
      have i4 := i3.set hv1' (x := y) (i3.rel.set r1 y)
      exact ⟨_, ρ2, rfl, a1.trans a2 vg.g.le, i4⟩
  | .ite c a b, hp, st, r, ρ, σ, o, h, nt, i, hx => by
    simp only [stmt] at h
    have hB := bg_branch s d c st
    have sB := @branch_sound σ s d c ρ st hp.1 nt i
    have fB := @branch_fault σ s hs d c ρ st hp.1 nt i
    have nB := NT.branch s d c i.wf.two nt
    generalize branch s d c st = B at hB sB fB nB h
    cases ha : stmt s d fuel a ⟨B.n, B.t, B.ds⟩ with
    | none => simp [ha] at h
    | some r1 =>
      have ia := sg_stmt s d fuel a _ r1 ha
      have sa := @fun ρ => stmt_sound s hs d fuel a hp.2.1 ⟨B.n, B.t, B.ds⟩ r1 ρ σ o ha nB.1
      simp only [ha] at h
      cases hb : stmt s d fuel b ⟨r1.n, B.f, r1.ds⟩ with
      | none => simp [hb] at h
      | some r2 =>
        have ib := sg_stmt s d fuel b _ r2 hb
        have sb := @fun ρ => stmt_sound s hs d fuel b hp.2.2 ⟨r1.n, B.f, r1.ds⟩ r2 ρ σ o hb nB.2
        simp only [hb] at h
        have hds : ∀ w ∈ r2.ds, w ∈ r.ds := by
          cases e1 : r1.env <;> cases e2 : r2.env <;> simp only [e1, e2] at h <;> cases h <;> exact fun _ h => h
        have l1 : B.n ≤ r1.n := ia.le
        have l2 : r1.n ≤ r2.n := ib.le
        have lB : st.n ≤ B.n := hB.t.le
        have wt := hB.t.wf i.wf
        have wf := (hB.f.wf i.wf).up (ds' := r1.ds) l1
        -- the environment behind one branch describes the store, so does that behind the statement
        have fin : ∀ (side : Bool) (e : Env) (ρ' : Rho) (σ' : State) (n' : Nat) ds', (if side then r1.env else r2.env) = some e → Agree st.n ρ ρ' → n' ≤ r2.n → st.n ≤ n' →
            Inv ρ' σ' ⟨n', e, ds'⟩ → Good ρ st.n r (.norm σ') := by
          intro side e ρ' σ' n' ds' he ha' hn hn' i'
          have iu : Inv ρ' σ' ⟨r2.n, e, r2.ds⟩ := (Inv.next i' hn).ds r2.ds
          cases e1 : r1.env with
          | none =>
            cases e2 : r2.env with
            | none => rw [e1, e2] at he; cases side <;> simp at he
            | some u =>
              simp only [e1, e2] at h
              cases h
              cases side
              · simp [e2] at he; subst he; exact ⟨_, ρ', rfl, ha', iu⟩
              · simp [e1] at he
          | some u1 =>
            cases e2 : r2.env with
            | none =>
              simp only [e1, e2] at h
              cases h
              cases side
              · simp [e2] at he
              · simp [e1] at he; subst he; exact ⟨_, ρ', rfl, ha', iu⟩
            | some u2 =>
              simp only [e1, e2] at h
              cases h
              have g1 := ia.g u1 e1
              have g2 := ib.g u2 e2
              have len1 := g1.len.trans hB.t.len
              have len2 := g2.len.trans hB.f.len
              have hee : e = if side then u1 else u2 := by cases side <;> simp [e1, e2] at he <;> simp [he]
              rw [hee] at i'
              obtain ⟨ρ2, a2, i2⟩ := join_sound s side (ds' := r2.ds) i' hn (len1.trans len2.symm) ((g1.wf wt).up l2) ((g2.wf wf).up (Nat.le_refl _))
              exact ⟨_, ρ2, rfl, ha'.trans a2 (by omega), i2⟩
        cases hx with
        | iteFault hh => exact hds _ (ib.ds _ (ia.ds _ (fB hh)))
        | iteTrue hh hx =>
          obtain ⟨ρ1, a1, i1⟩ := sB _ hh
          have := sa ρ1 i1 hx
          cases o with
          | norm σ' =>
            obtain ⟨e, ρ2, he, a2, i2⟩ := this
            exact fin true e ρ2 σ' r1.n r1.ds he (a1.trans a2 lB) l2 (by omega) i2
          | left => trivial
          | fault w => exact hds _ (ib.ds _ this)
        | iteFalse hh hx =>
          obtain ⟨ρ1, a1, i1⟩ := sB _ hh
          have := sb ρ1 ((Inv.next i1 l1).ds r1.ds) hx
          cases o with
          | norm σ' =>
            obtain ⟨e, ρ2, he, a2, i2⟩ := this
            exact fin false e ρ2 σ' r2.n r2.ds he (a1.trans a2 (by simp only; omega)) (Nat.le_refl _) (by omega) i2
          | left => trivial
          | fault w => exact hds _ this
  | .while c b, hp, st, r, ρ, σ, o, h, nt, i, hx => by
    simp only [stmt] at h
    have hpass : ∀ n head p, (match stmt s d fuel b ⟨(branch s d c ⟨n, head, []⟩).n, (branch s d c ⟨n, head, []⟩).t, (branch s d c ⟨n, head, []⟩).ds⟩ with
        | none => none
        | some r => some (⟨r.n, r.env, (branch s d c ⟨n, head, []⟩).f, r.ds⟩ : Pass)) = some p → PG n head p ∧
          (NT head → ∀ ρ σ, Inv ρ σ ⟨n, head, []⟩ → (Holds KnownNull d σ c none → Fault.movedFrom ∈ p.ds) ∧
            (Holds KnownNull d σ c (some false) → ∃ ρ', Agree n ρ ρ' ∧ Inv ρ' σ ⟨p.n, p.exit, []⟩) ∧
            (Holds KnownNull d σ c (some true) → (∀ w, Exec KnownNull d b σ (.fault w) → w ∈ p.ds) ∧
              ∀ σ', Exec KnownNull d b σ (.norm σ') → ∃ e ρ', p.back = some e ∧ Agree n ρ ρ' ∧ Inv ρ' σ' ⟨p.n, e, []⟩)) := by
      intro n head p hpp
      have hB := bg_branch s d c ⟨n, head, []⟩
      have sB := fun (ρ : Rho) (σ : State) => @branch_sound σ s d c ρ ⟨n, head, []⟩ hp.1
      have fB := fun (ρ : Rho) (σ : State) => @branch_fault σ s hs d c ρ ⟨n, head, []⟩ hp.1
      have nB := @NT.branch s d c ⟨n, head, []⟩
      generalize branch s d c ⟨n, head, []⟩ = B at hB sB fB nB hpp
      cases hb : stmt s d fuel b ⟨B.n, B.t, B.ds⟩ with
      | none => simp [hb] at hpp
      | some rb =>
        have ib := sg_stmt s d fuel b _ rb hb
        have lb : B.n ≤ rb.n := ib.le
        have ln : n ≤ B.n := hB.t.le
        have sb := fun ρ σ o => stmt_sound s hs d fuel b hp.2 ⟨B.n, B.t, B.ds⟩ rb ρ σ o hb
        simp only [hb] at hpp
        cases hpp
        refine ⟨⟨fun e he => (hB.t.trans (ib.g e he)).nods, (hB.f.next' ib.le).nods⟩, fun hn ρ σ i => ⟨fun hh => ib.ds _ (fB ρ σ hn i hh), fun hh => ?_, fun hh => ?_⟩⟩
        · obtain ⟨ρ1, a1, i1⟩ := sB ρ σ hn i _ hh
          exact ⟨ρ1, a1, (Inv.next i1 lb).ds []⟩
        · obtain ⟨ρ1, a1, i1⟩ := sB ρ σ hn i _ hh
          refine ⟨fun w hw => sb ρ1 σ _ (nB i.wf.two hn).1 i1 hw, fun σ' hn' => ?_⟩
          obtain ⟨e, ρ2, he, a2, i2⟩ := sb ρ1 σ _ (nB i.wf.two hn).1 i1 hn'
          exact ⟨e, ρ2, he, a1.trans a2 ln, i2.ds []⟩
    generalize hl : loop s _ st.env fuel st.n st.env none = P at h
    cases P with
    | none => simp at h
    | some p =>
      simp only at h
      cases h
      have wfe : WF ⟨st.n, st.env, []⟩ := ⟨i.wf.two, i.wf.vals, i.wf.fc⟩
      have ie : Inv ρ σ ⟨st.n, st.env, []⟩ := i.ds []
      obtain ⟨n, head, q, hq, hex, hds, hqn, gh, hnt, hreach, hstable⟩ := (loop_sound s wfe nt (Step := fun σ σ' => Holds KnownNull d σ c (some true) ∧ Exec KnownNull d b σ (.norm σ'))
        (fun n head p h => (hpass n head p h).1)
        (fun n head p ρ σ h hn i σ' hst => ((hpass n head p h).2 hn ρ σ i).2.2 hst.1 |>.2 σ' hst.2) fuel st.n st.env none p .first hl).ex
      have hq := (hpass n head q hq).2 hnt
      -- every iteration
      have main : ∀ S σ0 o, Exec KnownNull d S σ0 o → S = .while c b → (σ0 = σ ∨ ∃ σ1, Holds KnownNull d σ c (some true) ∧ Exec KnownNull d b σ (.norm σ1)) →
          ∀ ρ0, Agree st.n ρ ρ0 → Inv ρ0 σ0 ⟨n, head, []⟩ →
          Good ρ st.n ⟨p.n, some p.exit, st.ds ++ p.ds⟩ o := by
        intro S σ0 o hx
        induction hx with
        | @whileFault c' s' σ0 hh =>
          intro hS hw ρ0 a0 i0
          cases hS
          have := (hq ρ0 σ0 i0).1 hh
          show _ ∈ st.ds ++ p.ds
          rw [hds]; simp [this]
        | @whileFalse c' s' σ0 hh =>
          intro hS hw ρ0 a0 i0
          cases hS
          obtain ⟨ρ1, a1, i1⟩ := (hq ρ0 σ0 i0).2.1 hh
          refine ⟨_, ρ1, rfl, a0.trans a1 gh.le, ?_⟩
          rw [hex]
          exact (Inv.next i1 hqn).ds _
        | whileLeft hh hb => intro _ _ _ _ _; trivial
        | @whileBad c' s' σ0 w hh hb =>
          intro hS hw ρ0 a0 i0
          cases hS
          have := ((hq ρ0 σ0 i0).2.2 hh).1 w hb
          show _ ∈ st.ds ++ p.ds
          rw [hds]; simp [this]
        | @whileTrue c' s' σ0 σ1 r' hh hb hx _ ih =>
          intro hS hw ρ0 a0 i0
          cases hS
          have hw' : ∃ σ1, Holds KnownNull d σ c (some true) ∧ Exec KnownNull d b σ (.norm σ1) := by
            rcases hw with rfl | hw
            · exact ⟨σ1, hh, hb⟩
            · exact hw
          obtain ⟨σ2, hw2⟩ := hw'
          obtain ⟨ρ1, a1, i1⟩ := hstable ρ σ σ2 ie hw2 ρ0 σ0 σ1 a0 i0 ⟨hh, hb⟩
          exact ih rfl (.inr ⟨σ2, hw2⟩) ρ1 a1 i1
        | _ => intro hS; cases hS
      obtain ⟨ρ0, a0, i0⟩ := hreach ρ σ ie
      exact main _ σ o hx rfl (.inl rfl) ρ0 a0 i0
  | .ret u, _, st, r, ρ, σ, o, h, nt, i, hx => by
    simp only [stmt] at h
    cases h
    cases hx with
    | retMoved hf => exact (Grow.report _ _ _).ds _ (operand_fault s hs d i hf)
    | @retBad _ _ c ho hk hb =>
      obtain ⟨ρ1, a1, i1, r1⟩ := operand_sound s d i u c
      exact nullable_report s hs i1 (r1 ho.reads) hb (by simp [hk]) _
    | ret => trivial
  | .abort, _, st, r, ρ, σ, o, h, nt, i, hx => by
    cases hx; trivial

end Verif.NullSound

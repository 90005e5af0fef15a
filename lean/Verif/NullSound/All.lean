import Verif.NullFlow.Checks
import Verif.NullSound.Sound
import Verif.NullSound.Strict
/-
C121-C125: what "no warnings" from the nullability checker means for the executions of a function.
-/
namespace Verif.NullSound
open NullFlow (Formula Solver Status)

theorem initVals_sound (d : Decls) : ∀ (vs : List Val) (x : Nat) (σ : State) (st : St) (ρ : Rho), Inv ρ σ st →
    (∀ i v, vs[i]? = some v → FromKind (d.kind (x + i)) v) →
    ∃ ρ', Inv ρ' (σ ++ vs) (initVals d vs.length x st)
  | [], _, σ, st, ρ, h, _ => ⟨ρ, by simpa [initVals] using h⟩
  | v :: vs, x, σ, st, ρ, h, hv => by
    obtain ⟨ρ1, a1, i1, _, r1⟩ := fromKind_sound h (d.kind x) v
    have vg := vg_fromKind st (d.kind x)
    have hr := r1 (by simpa using hv 0 v rfl)
    have i2 : Inv ρ1 (σ ++ [v]) { (st.fromKind (d.kind x)).2 with env := { (st.fromKind (d.kind x)).2.env with vals := (st.fromKind (d.kind x)).2.env.vals ++ [(st.fromKind (d.kind x)).1] } } := by
      refine ⟨⟨i1.wf.two, ?_, i1.wf.fc⟩, i1.sat, ?_, i1.l0⟩
      · intro u hu
        simp only [List.mem_append, List.mem_singleton] at hu
        rcases hu with hu | rfl
        · exact i1.wf.vals u hu
        · exact vg.v.below vg.g.le h.wf
      · exact List.rel_append i1.rel (.cons hr .nil)
    obtain ⟨ρ2, i3⟩ := initVals_sound d vs (x + 1) _ _ ρ1 i2 (fun i w hw => by
      have := hv (i + 1) w (by simpa using hw)
      rwa [show x + (i + 1) = x + 1 + i by omega] at this)
    refine ⟨ρ2, ?_⟩
    simpa [initVals] using i3

theorem initVals_nt (d : Decls) : ∀ (m x : Nat) (st : St), 2 ≤ st.n → NT st.env → NT (initVals d m x st).env
  | 0, _, _, _, h => h
  | m + 1, x, st, h2, h => by
    have hv := nv_fromKind (ℓ := 1) (C := fun _ => False) h2 h (d.kind x)
    refine initVals_nt d m (x + 1) _ hv.lt ?_
    intro u hu
    simp only [List.mem_append, List.mem_singleton] at hu
    rcases hu with hu | rfl
    · exact hv.e u hu
    · exact hv.v

/-- C121: for a covered function, every null pointer from a source the annotations speak about that is dereferenced,
offset, passed, returned or stored where a non-null pointer is needed, in any execution from any store the annotations
allow, is reported. -/
theorem fault_reported (s : Solver) (hs : NullFlow.Solver.Complete s) (d : Decls) {fuel m : Nat} {body : Stmt} {ds : List Fault}
    (hd : diagnose s d fuel m body = some ds) (hc : body.plain) {σ : State} (hm : σ.length = m) (hσ : Starts d σ) {w : Fault}
    (hx : Exec KnownNull d body σ (.fault w)) : w ∈ ds := by
  subst hm
  obtain ⟨r, hr, rfl⟩ := Option.map_eq_some_iff.1 hd
  have h0 : Inv ⟨fun _ => true, fun _ => none⟩ [] ⟨2, ⟨.lit true, []⟩, []⟩ :=
    ⟨⟨Nat.le_refl 2, fun v hv => (by cases hv), FIn.lit _ _⟩, rfl, .nil, rfl⟩
  obtain ⟨ρ, i⟩ := initVals_sound d σ 0 [] _ _ h0 (fun i v hv => by simpa using hσ i v hv)
  exact stmt_sound s hs d fuel body hc _ r ρ σ _ hr (initVals_nt d σ.length 0 _ (Nat.le_refl 2) (fun v hv => by cases hv)) (by simpa using i) hx

/-- C121: no warnings, no such fault. -/
theorem no_warnings_no_fault (s : Solver) (hs : NullFlow.Solver.Complete s) (d : Decls) {fuel m : Nat} {body : Stmt}
    (hd : diagnose s d fuel m body = some []) (hc : body.plain) {σ : State} (hm : σ.length = m) (hσ : Starts d σ) (w : Fault) :
    ¬ Exec KnownNull d body σ (.fault w) :=
  fun hx => by cases fault_reported s hs d hd hc hm hσ hx

/-- C122: in a covered function whose callees are all annotated, every use of a null pointer where a non-null one is
needed is reported, whatever its source. -/
theorem annotated_fault_reported (s : Solver) (hs : NullFlow.Solver.Complete s) (d : Decls) {fuel m : Nat} {body : Stmt} {ds : List Fault}
    (hd : diagnose s d fuel m body = some ds) (hc : body.plain) (ha : body.annotated) {σ : State} (hm : σ.length = m) (hσ : StartsAnnotated d σ)
    {w : Fault} (hx : Exec AnyNull d body σ (.fault w)) : w ∈ ds := by
  obtain ⟨h1, h2⟩ := markFrom_starts hσ
  obtain ⟨o', x', so⟩ := SS.exec hx h2 ha
  cases so
  exact fault_reported s hs d hd hc ((markFrom_len d σ 0).trans hm) h1 x'

/-- C122: no warnings, no null pointer where a non-null one is needed. -/
theorem annotated_no_warnings_no_fault (s : Solver) (hs : NullFlow.Solver.Complete s) (d : Decls) {fuel m : Nat} {body : Stmt}
    (hd : diagnose s d fuel m body = some []) (hc : body.plain) (ha : body.annotated) {σ : State} (hm : σ.length = m) (hσ : StartsAnnotated d σ)
    (w : Fault) : ¬ Exec AnyNull d body σ (.fault w) :=
  fun hx => by cases annotated_fault_reported s hs d hd hc ha hm hσ hx

end Verif.NullSound

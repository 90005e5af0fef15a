import Verif.Infer.Conclude
import Verif.NullFlow.Checks
import Mathlib.Data.Prod.Lex
import Mathlib.Order.WithBot
/- The hypotheses of C126-C131 are met by a small program:
   `struct B { virtual void f(int* p); }; struct D : B { void f(int* p) override { *p = 0; } };` -/
namespace Verif.Infer
open Verif.NullFlow (Formula Ctx Solver NullState Source Run Reach idealSolver idealSolver_complete)
open Verif.NullMerge (Has relevant MustBeNonnull MustBeNullable Nullability mergeEvidence)

/-- Atoms: 0, 1 the symbolic nullability of `p`; 2 `p` is null; 3 the token of the block. A Nonnull pointer is not null. -/
def exC : Ctx where
  next := 4
  tokens := [3]
  inv := [.implies (.atom 0) (.not (.atom 2))]
  fc := fun t => if t = 3 then some (.lit true) else none
  deps := fun _ => []
def exSlot : InferableSlot := ⟨0, 1, 1, "D.f", false⟩
def exB : List (Nat × Behavior) := [(3, .requires true (.not (.atom 2)) "d.cc:1" NullMerge.UNCHECKED_DEREFERENCE)]
def exMs : List Method := [{ usr := "B.f", slots := [1], overridden := [] }, { usr := "D.f", slots := [1], overridden := ["B.f"] }]
def exEv : Evidence := evidenceOf "D.f" 1 false NullMerge.UNCHECKED_DEREFERENCE "d.cc:1"

theorem exRun (ρ : Nat → Bool) (h3 : ρ 3 = true) (h : ρ 0 = true → ρ 2 = false) : Run exC 3 ρ := by
  have hr : ∀ t, Reach exC 3 t → t = 3 := by
    intro t ht
    induction ht with
    | refl => rfl
    | step _ hm _ => simp [exC] at hm
  refine ⟨?_, ?_, ?_, h3⟩
  · intro g hg
    simp only [exC, List.mem_singleton] at hg
    subst hg
    simp only [Formula.eval]
    cases h0 : ρ 0 with
    | false => simp
    | true => simp [h h0]
  · intro t ht hn; rw [hr t ht] at hn; simp [exC] at hn
  · intro t C ht hC
    rw [hr t ht] at hC ⊢
    simp only [exC, if_true, Option.some.injEq] at hC
    subst hC; simp [Formula.eval, h3]

theorem exOpen : Open exC 3 (.not (.atom 2)) := by
  constructor
  · intro h
    have := h (fun a => a = 3 || a = 2) (exRun _ (by decide) (by decide))
    simp [Formula.eval] at this
  · intro h
    have := h (fun a => a = 3) (exRun _ (by decide) (by decide))
    simp [Formula.eval] at this

theorem exSuffices : NonnullSuffices exC 3 (.not (.atom 2)) exSlot := by
  refine ⟨⟨fun a => a = 3 || a = 0, exRun _ (by decide) (by decide), by decide⟩, fun ρ hr hn => ?_⟩
  have := hr.inv (.implies (.atom 0) (.not (.atom 2))) (by simp [exC])
  simp only [Formula.eval] at this ⊢
  rw [show ρ 0 = true from hn] at this
  simpa using this

theorem exFirst : FirstChoice [exSlot] (NonnullSuffices exC 3 (.not (.atom 2))) exSlot :=
  ⟨[], [], rfl, exSuffices, by simp, by simp [exSlot]⟩

theorem exExported : Exported exC (exB.map Prod.fst) (exportCtx exC [3]) := by
  refine exportCtx_exported _ _ _ (fun _ _ => rfl) ?_
  intro u hu t ht
  simp only [exB, List.map_cons, List.map_nil, List.mem_singleton] at hu
  subst hu
  induction ht with
  | refl => simp
  | step _ hm _ => simp [exC] at hm

theorem exBasesFirst : BasesFirst exMs := by
  intro pre m post h hr b hb hm
  match pre with
  | [] => simp only [exMs, List.nil_append, List.cons.injEq] at h; obtain ⟨rfl, -⟩ := h; simp at hb
  | [x] =>
    simp only [exMs, List.cons_append, List.nil_append, List.cons.injEq] at h
    obtain ⟨rfl, rfl, -⟩ := h
    simp only [List.mem_singleton] at hb
    exact ⟨_, List.mem_singleton.2 rfl, ⟨rfl, by simp, by simp⟩, hb.symm⟩
  | x :: y :: rest => simp [exMs] at h

theorem exConsistent : Consistent exMs := by
  intro m hm m' hm' _ _ hu b
  simp only [exMs, List.mem_cons, List.not_mem_nil, or_false] at hm hm'
  rcases hm with rfl | rfl <;> rcases hm' with rfl | rfl <;> simp at hu ⊢

theorem exIndex : IndexOf exMs (virtualIndex exMs) := index_exact exBasesFirst exConsistent

theorem exOverrides : Overrides exMs "D.f" "B.f" :=
  Relation.TransGen.single ⟨_, List.mem_cons_of_mem _ (List.mem_singleton.2 rfl), ⟨rfl, by simp, by simp⟩, rfl, by simp, by simp⟩

/-- The order of `llvm::sort`. -/
def exLe (a b : Option String × Option Nat) : Prop :=
  (toLex (show WithBot String × WithBot Nat from a)) ≤ (toLex (show WithBot String × WithBot Nat from b))

noncomputable def exSort (l : List Evidence) : List Evidence :=
  open Classical in l.mergeSort (fun a b => decide (exLe (a.usr, a.slot) (b.usr, b.slot)))

theorem exSorts : Sorts exSort exLe where
  perm l := List.mergeSort_perm _ _
  sorted l := by
    have h := List.pairwise_mergeSort (le := fun a b : Evidence => open Classical in decide (exLe (a.usr, a.slot) (b.usr, b.slot)))
      (fun a b c h1 h2 => by
        simp only [decide_eq_true_eq] at *
        exact le_trans (α := WithBot String ×ₗ WithBot Nat) h1 h2)
      (fun a b => by
        simp only [Bool.or_eq_true, decide_eq_true_eq]
        exact le_total (α := WithBot String ×ₗ WithBot Nat) _ _) l
    exact h.imp (fun h => by simpa using h)
  antisymm a b h1 h2 := by
    have := le_antisymm (α := WithBot String ×ₗ WithBot Nat) h1 h2
    exact toLex_inj.1 this

def exOrder : NullMerge.Order String String := ⟨id, id, fun _ => .refl _, fun _ => .refl _⟩
def exSums : List Summarised := [⟨summarize [exSlot] (exportCtx exC [3]) exB, ["D.f"]⟩]

/-- The summary gives one piece of evidence in every round. -/
theorem exFound (fp : String → Nat → Nat) (prev : Previous) :
    (collectEvidenceFromSummary idealSolver fp prev (fun _ => false) (summarize [exSlot] (exportCtx exC [3]) exB)) = ([exEv], true) := by
  rw [summary_lossless idealSolver idealSolver idealSolver_complete idealSolver_complete exC _ [exSlot] exB exExported fp prev _ (fun _ _ => rfl)]
  have hm := (dereference_found idealSolver_complete idealSolver_complete exExported fp prev (fun _ _ => false) exSums ["D.f"] 0
    (by simp [exSums]) (fun _ _ => rfl) (List.mem_singleton.2 rfl) exOpen exFirst (by decide)).1
  have hl : (collectDirect idealSolver exC fp prev [exSlot] exB).length ≤ 1 := by
    simp only [collectDirect, exB, List.flatMap_cons, List.flatMap_nil, List.append_nil]
    exact requirement_one idealSolver exC 3 fp prev [exSlot] _ _ _
  match hc : collectDirect idealSolver exC fp prev [exSlot] exB with
  | [] => rw [hc] at hm; simp at hm
  | [x] => rw [hc, List.mem_singleton] at hm; rw [← hm]; rfl
  | x :: y :: l => rw [hc] at hl; simp at hl

theorem exRound (fp : String → Nat → Nat) (prev : Previous) :
    roundEvidence idealSolver (fun _ _ => false) fp (virtualIndex exMs) [] exSums prev = [exEv, { exEv with usr := some "B.f" }] := by
  simp only [roundEvidence, exSums, List.zipIdx_cons, List.zipIdx_nil, List.flatMap_cons, List.flatMap_nil, List.append_nil, exFound]
  decide +kernel

/-- After every round but none, the parameter is Nonnull in the base class too. -/
example (fp : String → Nat → Nat) (n : Nat) :
    ∃ v, AMap.get? (inferRounds exOrder exSort idealSolver (fun _ _ _ => false) fp (virtualIndex exMs) [] exSums (n + 1)) (some "B.f", some 1) = some v ∧
      v.nullability = some .NONNULL ∧ v.trivial = false := by
  have hev : evidenceIn exOrder exSort idealSolver (fun _ _ _ => false) fp (virtualIndex exMs) [] exSums n "B.f" 1 =
      [{ exEv with usr := some "B.f" }] := by
    unfold evidenceIn
    rw [exRound]
    decide +kernel
  refine dereference_inferred_for_base exSorts idealSolver_complete idealSolver_complete exExported (fun _ _ _ => false) fp exIndex [] exSums
    ["D.f"] 0 (by simp [exSums]) n (fun _ _ => rfl) ?_ (List.mem_singleton.2 rfl) exOpen exFirst (by decide) rfl (by decide) exOverrides
    ?_ ?_ ?_
  · intro x hx e he
    simp only [exSums, List.zipIdx_cons, List.zipIdx_nil, List.mem_singleton] at hx
    subst hx
    simp only [exFound, List.mem_singleton] at he
    subst he
    exact Or.inl (List.mem_singleton.2 rfl)
  · rintro ⟨m, hm, -, -, ht⟩
    simp only [exMs, List.mem_cons, List.not_mem_nil, or_false] at hm
    rcases hm with rfl | rfl <;> simp at ht
  · show (evidenceIn exOrder exSort idealSolver (fun _ _ _ => false) fp (virtualIndex exMs) [] exSums n "B.f" 1).length < 2 ^ 32
    rw [hev]; decide
  · show Unannotated (evidenceIn exOrder exSort idealSolver (fun _ _ _ => false) fp (virtualIndex exMs) [] exSums n "B.f" 1)
    rw [hev]
    constructor <;> · rintro ⟨e, he, hk⟩; simp [relevant, exEv, evidenceOf] at he; subst he; revert hk; decide

/-- And from the second round on, the value of `p` is taken not to be null. -/
example (fp : String → Nat → Nat) (n : Nat) (ρ : Nat → Bool) (hr : Run exC 3 ρ)
    (ha : AsInferred fp (previousOf fp (inferRounds exOrder exSort idealSolver (fun _ _ _ => false) fp (virtualIndex exMs) [] exSums (n + 1))) [exSlot] ρ) :
    ρ 2 = false := by
  have hev : evidenceIn exOrder exSort idealSolver (fun _ _ _ => false) fp (virtualIndex exMs) [] exSums n "D.f" 1 = [exEv] := by
    unfold evidenceIn
    rw [exRound]
    decide +kernel
  have hmem : ∀ k, Has (evidenceIn exOrder exSort idealSolver (fun _ _ _ => false) fp (virtualIndex exMs) [] exSums n "D.f" 1) k →
      k = NullMerge.UNCHECKED_DEREFERENCE := by
    intro k hk
    rw [hev] at hk
    obtain ⟨e, he, hk⟩ := hk
    simp [relevant, exEv, evidenceOf] at he; subst he; exact hk.symm
  have := dereference_settled exSorts idealSolver_complete idealSolver_complete exExported (fun _ _ _ => false) fp (virtualIndex exMs) [] exSums
    ["D.f"] 0 (by simp [exSums]) n (fun _ _ => rfl) (List.mem_singleton.2 rfl) exOpen exFirst (by decide) rfl
    (by show (evidenceIn exOrder exSort idealSolver (fun _ _ _ => false) fp (virtualIndex exMs) [] exSums n "D.f" 1).length < 2 ^ 32
        rw [hev]; decide)
    ⟨fun h => by have := hmem _ h; revert this; decide, fun h => by have := hmem _ h; revert this; decide⟩
    (by
      rintro (⟨k, hk, h⟩ | ⟨h, -⟩)
      · have := hmem _ h; subst this; revert hk; decide
      · have := hmem _ h; revert this; decide) ρ hr ha
  simpa [Formula.eval] using this

/-- Disagreement: a template instantiated with a class declared after it is visited before that class, so the index misses what the
class's method overrides: `template <class T> struct D : T { void f(int*) override; }; struct A { virtual void f(int*); };
struct B : A { void f(int*) override; }; D<B> d;`, visited at the template's position (A first here). -/
theorem instantiation_before_base :
    let ms : List Method := [{ usr := "A.f", slots := [1], overridden := [] }, { usr := "D<B>.f", slots := [1], overridden := ["B.f"] },
      { usr := "B.f", slots := [1], overridden := ["A.f"] }]
    Consistent ms ∧ Overrides ms "D<B>.f" "A.f" ∧ "A.f" ∉ (AMap.get? (virtualIndex ms).bases "D<B>.f").getD [] ∧
      ¬ BasesFirst ms := by
  intro ms
  have hc : Consistent ms := by
    intro m hm m' hm' _ _ hu b
    simp only [ms, List.mem_cons, List.not_mem_nil, or_false] at hm hm'
    rcases hm with rfl | rfl | rfl <;> rcases hm' with rfl | rfl | rfl <;> simp at hu ⊢
  have hov : Overrides ms "D<B>.f" "A.f" := by
    refine Relation.TransGen.head (b := "B.f") ?_ (Relation.TransGen.single ?_)
    · exact ⟨_, List.mem_cons_of_mem _ List.mem_cons_self, ⟨rfl, by simp, by simp⟩, rfl, by simp, by simp⟩
    · exact ⟨_, List.mem_cons_of_mem _ (List.mem_cons_of_mem _ List.mem_cons_self), ⟨rfl, by simp, by simp⟩, rfl, by simp, by simp⟩
  have hno : "A.f" ∉ (AMap.get? (virtualIndex ms).bases "D<B>.f").getD [] := by decide +kernel
  exact ⟨hc, hov, hno, fun hb => hno (((index_exact hb hc).bases _ _).2 hov)⟩

/-- Disagreement: evidence about references goes up and down, but not on to the other overrides of a method. -/
theorem siblings_not_reached :
    let ms : List Method := [{ usr := "A.f", slots := [0], overridden := [] }, { usr := "B.f", slots := [0], overridden := ["A.f"] },
      { usr := "C.f", slots := [0], overridden := ["A.f"] }]
    let raw := [evidenceOf "B.f" 0 false NullMerge.NONNULL_REFERENCE_RETURN ""]
    Has (about "A.f" 0 (spread (virtualIndex ms) raw)) NullMerge.NONNULL_REFERENCE_RETURN ∧
      about "C.f" 0 (spread (virtualIndex ms) raw) = [] := by
  intro ms raw
  refine ⟨⟨evidenceOf "A.f" 0 false NullMerge.NONNULL_REFERENCE_RETURN "", by decide +kernel, rfl⟩, by decide +kernel⟩

/-- Disagreement: an annotation on an override is taken for one on the method it overrides. `B.f` is not annotated, and is called with
null; its parameter is inferred Nonnull, without conflict, and as nothing new (so it is not used in the next round). -/
theorem override_annotation_hides_conflict :
    let raw := [evidenceOf "B.f" 1 false NullMerge.NULLABLE_ARGUMENT "", evidenceOf "D.f" 1 false NullMerge.ANNOTATED_NONNULL ""]
    ¬ Has (about "B.f" 1 raw) NullMerge.ANNOTATED_NONNULL ∧ MustBeNullable (about "B.f" 1 raw) ∧
      (mergeEvidence exOrder (about "B.f" 1 (spread (virtualIndex exMs) raw))).verdict = (some .NONNULL, false, true) := by
  intro raw
  refine ⟨?_, Or.inl ⟨NullMerge.NULLABLE_ARGUMENT, by decide, ⟨evidenceOf "B.f" 1 false NullMerge.NULLABLE_ARGUMENT "", by decide +kernel, rfl⟩⟩, ?_⟩
  · rw [about_has]
    rintro ⟨e, he, hu, -, -, hk⟩
    simp only [raw, List.mem_cons, List.not_mem_nil, or_false] at he
    rcases he with rfl | rfl
    · revert hk; decide
    · simp [evidenceOf] at hu
  · have h1 : Has (about "B.f" 1 (spread (virtualIndex exMs) raw)) NullMerge.ANNOTATED_NONNULL :=
      ⟨evidenceOf "B.f" 1 false NullMerge.ANNOTATED_NONNULL "", by decide +kernel, rfl⟩
    have h2 : ¬ Has (about "B.f" 1 (spread (virtualIndex exMs) raw)) NullMerge.ANNOTATED_NULLABLE := by
      have : ∀ e ∈ relevant (about "B.f" 1 (spread (virtualIndex exMs) raw)), e.kind ≠ NullMerge.ANNOTATED_NULLABLE := by decide +kernel
      rintro ⟨e, he, hk⟩; exact this e he hk
    refine (NullMerge.inference_decision exOrder _ (by decide +kernel) ?_).2.1 h1 h2
    obtain ⟨e, he, _⟩ := h1
    intro h0; rw [h0] at he; simp at he

/-- Disagreement: evidence about a parameter captured by a lambda is not passed on to the methods that the parameter's method overrides,
as the lambda's scope does not include that method. -/
theorem captured_parameter_not_propagated :
    ({ exEv with usr := some "B.f" } ∈ propagate (virtualIndex exMs) exEv) ∧
      propagate { scopedIndex (virtualIndex exMs) ["lambda"] with overrides := (virtualIndex exMs).overrides } exEv = [exEv] := by
  constructor <;> decide +kernel

end Verif.Infer

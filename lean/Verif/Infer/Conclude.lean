import Verif.Infer.Rounds
/- C130, C131: what is concluded about methods and their overrides, and about pointers that are dereferenced. -/
namespace Verif.Infer
open Verif.NullFlow (Formula Ctx Solver NullState Source Run)
open Verif.NullMerge (Has relevant MustBeNonnull MustBeNullable Nullability mergeEvidence)

local notation "Atom" => Nat

/-- Nobody annotated it. -/
def Unannotated (es : List Evidence) : Prop := ¬ Has es NullMerge.ANNOTATED_NONNULL ∧ ¬ Has es NullMerge.ANNOTATED_NULLABLE

theorem demand_verdict (o : NullMerge.Order String String) (es : List Evidence) (hlen : es.length < 2 ^ 32) (ha : Unannotated es) (k : EKind)
    (h : Has es k) :
    (k ∈ NullMerge.demandsNonnull → (mergeEvidence o es).nullability = some .NONNULL ∨ (mergeEvidence o es).conflict = true) ∧
    (k ∈ NullMerge.demandsNullable → (mergeEvidence o es).nullability = some .NULLABLE ∨ (mergeEvidence o es).conflict = true) ∧
    (k = NullMerge.UNCHECKED_DEREFERENCE → (mergeEvidence o es).nullability = some .NONNULL ∧ (mergeEvidence o es).trivial = false) := by
  have hne : relevant es ≠ [] := by
    obtain ⟨e, he, _⟩ := h
    intro h0; rw [h0] at he; simp at he
  obtain ⟨-, -, -, h4⟩ := NullMerge.inference_decision o es hlen hne
  obtain ⟨h5, h6, h7, h8, h9, -⟩ := h4 ha.1 ha.2
  refine ⟨fun hk => ?_, fun hk => ?_, fun hk => ⟨h9 (hk ▸ h), h5⟩⟩
  · have hm : MustBeNonnull es := ⟨k, hk, h⟩
    by_cases hn : MustBeNullable es
    · exact Or.inr (h6.2 ⟨hm, hn⟩)
    · exact Or.inl (h7 hm hn)
  · have hm : MustBeNullable es := Or.inl ⟨k, hk, h⟩
    by_cases hn : MustBeNonnull es
    · exact Or.inr (h6.2 ⟨hn, hm⟩)
    · exact Or.inl (h8 hm hn)

/-- C130: what forces a method's slot one way, and constrains overrides, forces the slot of every override the same way, or the conflict
is reported. -/
theorem forced_down {ms : List Method} {ix : VIndex} (hix : IndexOf ms ix) (o : NullMerge.Order String String) (raw : List Evidence)
    {d b : String} (ho : Overrides ms d b) {i : Nat} {k : EKind} (h : Downward i k) (hb : Has (about b i (spread ix raw)) k)
    (hlen : (about d i (spread ix raw)).length < 2 ^ 32) (ha : Unannotated (about d i (spread ix raw))) :
    (k ∈ NullMerge.demandsNonnull → (mergeEvidence o (about d i (spread ix raw))).nullability = some .NONNULL ∨
      (mergeEvidence o (about d i (spread ix raw))).conflict = true) ∧
    (k ∈ NullMerge.demandsNullable → (mergeEvidence o (about d i (spread ix raw))).nullability = some .NULLABLE ∨
      (mergeEvidence o (about d i (spread ix raw))).conflict = true) :=
  have hv := demand_verdict o _ hlen ha k (flows_down hix raw ho h hb)
  ⟨hv.1, hv.2.1⟩

/-- C130: what forces an override's slot one way, and constrains what is overridden, forces the slot of every method it overrides the
same way, or the conflict is reported (tests apart). -/
theorem forced_up {ms : List Method} {ix : VIndex} (hix : IndexOf ms ix) (o : NullMerge.Order String String) (raw : List Evidence)
    {d b : String} (ho : Overrides ms d b) {i : Nat} {k : EKind} (h : Upward i k)
    (ht : InTest ms b ∨ ∀ c, c = d ∨ Overrides ms c d → ¬ InTest ms c) (hd : Has (about d i (spread ix raw)) k)
    (hlen : (about b i (spread ix raw)).length < 2 ^ 32) (ha : Unannotated (about b i (spread ix raw))) :
    (k ∈ NullMerge.demandsNonnull → (mergeEvidence o (about b i (spread ix raw))).nullability = some .NONNULL ∨
      (mergeEvidence o (about b i (spread ix raw))).conflict = true) ∧
    (k ∈ NullMerge.demandsNullable → (mergeEvidence o (about b i (spread ix raw))).nullability = some .NULLABLE ∨
      (mergeEvidence o (about b i (spread ix raw))).conflict = true) :=
  have hv := demand_verdict o _ hlen ha k (flows_up hix raw ho h ht hd)
  ⟨hv.1, hv.2.1⟩

section
variable {o : NullMerge.Order String String} {sort : List Evidence → List Evidence}
  {r : (Option String × Option Nat) → (Option String × Option Nat) → Prop}

/-- The evidence about slot `i` of `u` in round `n + 1`. -/
def evidenceIn (o : NullMerge.Order String String) (sort : List Evidence → List Evidence) (s : Solver) (limit : Nat → Nat → Nat → Bool)
    (fp : String → Nat → Nat) (tu : VIndex) (decls : List Evidence) (sums : List Summarised) (n : Nat) (u : String) (i : Nat) : List Evidence :=
  about u i (roundEvidence s (limit n) fp tu decls sums (previousOf fp (inferRounds o sort s limit fp tu decls sums n)))

theorem verdict_of_dereference (hsort : Sorts sort r) (s : Solver) (limit : Nat → Nat → Nat → Bool) (fp : String → Nat → Nat) (tu : VIndex)
    (decls : List Evidence) (sums : List Summarised) (n : Nat) (u : String) (i : Nat)
    (h : Has (evidenceIn o sort s limit fp tu decls sums n u i) NullMerge.UNCHECKED_DEREFERENCE)
    (hlen : (evidenceIn o sort s limit fp tu decls sums n u i).length < 2 ^ 32)
    (ha : Unannotated (evidenceIn o sort s limit fp tu decls sums n u i)) :
    ∃ v, AMap.get? (inferRounds o sort s limit fp tu decls sums (n + 1)) (some u, some i) = some v ∧
      v.nullability = some .NONNULL ∧ v.trivial = false := by
  have hne : evidenceIn o sort s limit fp tu decls sums n u i ≠ [] := by
    obtain ⟨e, he, _⟩ := h
    intro h0; rw [h0] at he; simp [relevant] at he
  obtain ⟨v, hv, hvv⟩ := (round_verdict hsort s limit fp tu decls sums n u i).2 hne
  have hd := (demand_verdict o _ hlen ha _ h).2.2 rfl
  simp only [NullMerge.Inference.verdict, Prod.mk.injEq] at hvv
  exact ⟨v, hv, hvv.1.trans hd.1, hvv.2.2.trans hd.2⟩

variable {s s' : Solver} {c : Ctx} {lc : LogicalContext} {slots : List InferableSlot} {bs : List (Atom × Behavior)}

theorem dereference_found (hs : s.Complete) (hs' : s'.Complete) (hx : Exported c (bs.map Prod.fst) lc) (fp : String → Nat → Nat)
    (prev : Previous) (limit : Nat → Nat → Bool) (sums : List Summarised) (scope : List String) (j : Nat)
    (hj : (⟨summarize slots lc bs, scope⟩, j) ∈ sums.zipIdx) (hl : ∀ m < bs.length, limit j m = false)
    {T : Atom} {f : Formula} {loc : String} {k : EKind} (hb : (T, .requires true f loc k) ∈ bs) (hop : Open c T f) {i : InferableSlot}
    (hi : FirstChoice slots (NonnullSuffices c T f) i) (hu : i.usr ≠ "") :
    evidenceOf i.usr i.slot i.crosses k loc ∈ collectDirect s c fp prev slots bs ∧
    (collectEvidenceFromSummary s' fp prev (limit j) (summarize slots lc bs)).1 = collectDirect s c fp prev slots bs ∧
    evidenceOf i.usr i.slot i.crosses k loc ∈ found s' limit fp sums prev := by
  have h1 : evidenceOf i.usr i.slot i.crosses k loc ∈ collectDirect s c fp prev slots bs := by
    refine List.mem_flatMap.2 ⟨_, hb, ?_⟩
    exact (nonnull_mem hs slots f loc k _).2 ⟨hop, i, hi, hu, rfl⟩
  have h2 := summary_lossless s s' hs hs' c lc slots bs hx fp prev (limit j) hl
  refine ⟨h1, by rw [h2], List.mem_flatMap.2 ⟨_, hj, ?_⟩⟩
  simp only [h2]
  exact h1

/-- C131: a pointer that some definition dereferences without a check is inferred Nonnull in every round, unless annotated: when it is
not settled that the dereferenced value is not null, and the slot is the first choice to make it so. -/
theorem dereference_inferred (hsort : Sorts sort r) (hs : s.Complete) (hs' : s'.Complete) (hx : Exported c (bs.map Prod.fst) lc)
    (limit : Nat → Nat → Nat → Bool) (fp : String → Nat → Nat) (tu : VIndex) (decls : List Evidence) (sums : List Summarised)
    (scope : List String) (j : Nat) (hj : (⟨summarize slots lc bs, scope⟩, j) ∈ sums.zipIdx) (n : Nat)
    (hl : ∀ m < bs.length, limit n j m = false) {T : Atom} {f : Formula} {loc : String}
    (hb : (T, .requires true f loc NullMerge.UNCHECKED_DEREFERENCE) ∈ bs) (hop : Open c T f) {i : InferableSlot}
    (hi : FirstChoice slots (NonnullSuffices c T f) i) (hu : i.usr ≠ "") (hcr : i.crosses = false)
    (hlen : (evidenceIn o sort s' limit fp tu decls sums n i.usr i.slot).length < 2 ^ 32)
    (ha : Unannotated (evidenceIn o sort s' limit fp tu decls sums n i.usr i.slot)) :
    ∃ v, AMap.get? (inferRounds o sort s' limit fp tu decls sums (n + 1)) (some i.usr, some i.slot) = some v ∧
      v.nullability = some .NONNULL ∧ v.trivial = false := by
  refine verdict_of_dereference hsort s' limit fp tu decls sums n i.usr i.slot ?_ hlen ha
  obtain ⟨h1, h2, -⟩ := dereference_found hs hs' hx fp (previousOf fp (inferRounds o sort s' limit fp tu decls sums n)) (limit n) sums scope j hj hl
    hb hop hi hu
  refine (about_has _ _ _ _).2 ⟨evidenceOf i.usr i.slot i.crosses NullMerge.UNCHECKED_DEREFERENCE loc, ?_, rfl, rfl, hcr, rfl⟩
  · unfold roundEvidence
    refine List.mem_append_right _ (List.mem_flatMap.2 ⟨_, hj, List.mem_flatMap.2 ⟨_, ?_, List.mem_cons_self⟩⟩)
    simp only [h2]
    exact h1

/-- C131: and so is the same parameter of every method that the dereferencing method overrides. -/
theorem dereference_inferred_for_base (hsort : Sorts sort r) (hs : s.Complete) (hs' : s'.Complete) (hx : Exported c (bs.map Prod.fst) lc)
    (limit : Nat → Nat → Nat → Bool) (fp : String → Nat → Nat) {ms : List Method} {tu : VIndex} (hix : IndexOf ms tu) (decls : List Evidence)
    (sums : List Summarised) (scope : List String) (j : Nat) (hj : (⟨summarize slots lc bs, scope⟩, j) ∈ sums.zipIdx) (n : Nat)
    (hl : ∀ m < bs.length, limit n j m = false)
    (hsc : InScope tu s' (limit n) fp sums (previousOf fp (inferRounds o sort s' limit fp tu decls sums n)))
    {T : Atom} {f : Formula} {loc : String}
    (hb : (T, .requires true f loc NullMerge.UNCHECKED_DEREFERENCE) ∈ bs) (hop : Open c T f) {i : InferableSlot}
    (hi : FirstChoice slots (NonnullSuffices c T f) i) (hu : i.usr ≠ "") (hcr : i.crosses = false) (hparam : i.slot ≠ 0)
    {base : String} (ho : Overrides ms i.usr base) (ht : InTest ms i.usr → InTest ms base)
    (hlen : (evidenceIn o sort s' limit fp tu decls sums n base i.slot).length < 2 ^ 32)
    (ha : Unannotated (evidenceIn o sort s' limit fp tu decls sums n base i.slot)) :
    ∃ v, AMap.get? (inferRounds o sort s' limit fp tu decls sums (n + 1)) (some base, some i.slot) = some v ∧
      v.nullability = some .NONNULL ∧ v.trivial = false := by
  refine verdict_of_dereference hsort s' limit fp tu decls sums n base i.slot ?_ hlen ha
  obtain ⟨-, -, h3⟩ := dereference_found hs hs' hx fp (previousOf fp (inferRounds o sort s' limit fp tu decls sums n)) (limit n) sums scope j hj hl
    hb hop hi hu
  unfold evidenceIn
  rw [roundEvidence_spread s' (limit n) fp tu decls sums _ hsc]
  have hup : Upward i.slot NullMerge.UNCHECKED_DEREFERENCE := by
    unfold Upward; rw [if_neg hparam]; decide
  refine (upward_exact hix _ base hup).2 ⟨i.usr, ?_, Or.inr ⟨ho, ht⟩⟩
  exact (about_has _ _ _ _).2 ⟨_, List.mem_append_right _ h3, rfl, rfl, hcr, rfl⟩

/-- C131: from the round after, the dereferenced value is taken not to be null, unless the conclusion was in conflict. -/
theorem dereference_settled (hsort : Sorts sort r) (hs : s.Complete) (hs' : s'.Complete) (hx : Exported c (bs.map Prod.fst) lc)
    (limit : Nat → Nat → Nat → Bool) (fp : String → Nat → Nat) (tu : VIndex) (decls : List Evidence) (sums : List Summarised)
    (scope : List String) (j : Nat) (hj : (⟨summarize slots lc bs, scope⟩, j) ∈ sums.zipIdx) (n : Nat)
    (hl : ∀ m < bs.length, limit n j m = false) {T : Atom} {f : Formula} {loc : String}
    (hb : (T, .requires true f loc NullMerge.UNCHECKED_DEREFERENCE) ∈ bs) (hop : Open c T f) {i : InferableSlot}
    (hi : FirstChoice slots (NonnullSuffices c T f) i) (hu : i.usr ≠ "") (hcr : i.crosses = false)
    (hlen : (evidenceIn o sort s' limit fp tu decls sums n i.usr i.slot).length < 2 ^ 32)
    (ha : Unannotated (evidenceIn o sort s' limit fp tu decls sums n i.usr i.slot))
    (hcon : ¬ MustBeNullable (evidenceIn o sort s' limit fp tu decls sums n i.usr i.slot)) :
    ∀ ρ, Run c T ρ → AsInferred fp (previousOf fp (inferRounds o sort s' limit fp tu decls sums (n + 1))) slots ρ → f.eval ρ = true := by
  obtain ⟨h1, h2, -⟩ := dereference_found hs hs' hx fp (previousOf fp (inferRounds o sort s' limit fp tu decls sums n)) (limit n) sums scope j hj hl
    hb hop hi hu
  have hHas : Has (evidenceIn o sort s' limit fp tu decls sums n i.usr i.slot) NullMerge.UNCHECKED_DEREFERENCE := by
    refine (about_has _ _ _ _).2 ⟨evidenceOf i.usr i.slot i.crosses NullMerge.UNCHECKED_DEREFERENCE loc, ?_, rfl, rfl, hcr, rfl⟩
    · unfold roundEvidence
      refine List.mem_append_right _ (List.mem_flatMap.2 ⟨_, hj, List.mem_flatMap.2 ⟨_, ?_, List.mem_cons_self⟩⟩)
      simp only [h2]
      exact h1
  have hne : evidenceIn o sort s' limit fp tu decls sums n i.usr i.slot ≠ [] := by
    obtain ⟨e, he, _⟩ := hHas
    intro h0; rw [h0] at he; simp [relevant] at he
  have hrel : relevant (evidenceIn o sort s' limit fp tu decls sums n i.usr i.slot) ≠ [] := by
    obtain ⟨e, he, _⟩ := hHas
    intro h0; rw [h0] at he; simp at he
  obtain ⟨v, hv, hvv⟩ := (round_verdict hsort s' limit fp tu decls sums n i.usr i.slot).2 hne
  obtain ⟨-, -, -, h4⟩ := NullMerge.inference_decision o _ hlen hrel
  obtain ⟨h5, h6, -, -, h9, -⟩ := h4 ha.1 ha.2
  have hcf : (mergeEvidence o (evidenceIn o sort s' limit fp tu decls sums n i.usr i.slot)).conflict = false := by
    rw [Bool.eq_false_iff]; intro h; exact hcon (h6.1 h).2
  have hnn := h9 hHas
  simp only [NullMerge.Inference.verdict, Prod.mk.injEq] at hvv
  have hp : fp i.usr i.slot ∈ (previousOf fp (inferRounds o sort s' limit fp tu decls sums (n + 1))).nonnull :=
    (previous_exact fp _ _).1.2 ⟨_, AMap.mem_of_get? _ hv, hvv.1.trans hnn, hvv.2.1.trans hcf, hvv.2.2.trans h5, rfl⟩
  intro ρ hr has
  obtain ⟨b, a, e, p, -, -⟩ := hi
  exact p.2 ρ hr ((has i (by rw [e]; simp)).2.2 hp)

end
end Verif.Infer

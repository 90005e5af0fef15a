import Verif.Infer.Evidence
import Verif.NullMerge.Spec
/- C128: acting on the evidence settles the requirement. -/
namespace Verif.Infer
open Verif.NullFlow (Formula Ctx Solver NullState Source Run)

local notation "Atom" => Nat

/-- C127: whatever the solver manages to answer, evidence for a requirement names a slot for which marking suffices. -/
theorem requirement_sound (s : Solver) (c : Ctx) (T : Atom) (fp : String → Nat → Nat) (prev : Previous) (slots : List InferableSlot)
    (nn : Bool) (f : Formula) (loc : String) (k : EKind) (ev : Evidence)
    (h : ev ∈ collect ⟨s, c, T⟩ slots (slotConstraints fp prev slots) prev (.requires nn f loc k)) :
    ∃ i ∈ slots, ev = evidenceOf i.usr i.slot i.crosses k loc ∧
      (if nn then NonnullSuffices c T f i else NullableSuffices c T f i) := by
  cases nn with
  | true =>
    have h' : ev ∈ mustBeTrueByMarkingNonnull ⟨s, c, T⟩ slots f loc k := h
    rw [nonnull_choose] at h'
    split at h'
    · simp at h'
    · simp only [List.mem_flatMap, Option.mem_toList] at h'
      obtain ⟨i, hi, he⟩ := h'
      obtain ⟨b, a, e, p, -, -⟩ := choose_some hi
      exact ⟨i, by rw [e]; simp, ((mem_emit _ _ _ _ _ _).1 he).2, nonnullHelps_sound s f i p⟩
  | false =>
    have h' : ev ∈ mustBeTrueByMarkingNullable ⟨s, c, T⟩ slots f loc k := h
    unfold mustBeTrueByMarkingNullable at h'
    split at h'
    · simp at h'
    · simp only [List.mem_flatMap] at h'
      obtain ⟨i, hi, he⟩ := h'
      split at he
      next hp => exact ⟨i, hi, ((mem_emit _ _ _ _ _ _).1 he).2, nullableHelps_sound s f i hp⟩
      next => simp at he

/-- C127: at most one slot is asked to be Nonnull for a requirement. -/
theorem requirement_one (s : Solver) (c : Ctx) (T : Atom) (fp : String → Nat → Nat) (prev : Previous) (slots : List InferableSlot)
    (f : Formula) (loc : String) (k : EKind) :
    (collect ⟨s, c, T⟩ slots (slotConstraints fp prev slots) prev (.requires true f loc k)).length ≤ 1 :=
  nonnull_le_one ⟨s, c, T⟩ slots f loc k

/-- C127: the evidence for a requirement is the same whatever has been inferred before: acting on it does not withdraw it. -/
theorem requirement_stable (s : Solver) (c : Ctx) (T : Atom) (fp : String → Nat → Nat) (prev prev' : Previous)
    (slots : List InferableSlot) (nn : Bool) (f : Formula) (loc : String) (k : EKind) :
    collect ⟨s, c, T⟩ slots (slotConstraints fp prev slots) prev (.requires nn f loc k) =
      collect ⟨s, c, T⟩ slots (slotConstraints fp prev' slots) prev' (.requires nn f loc k) := by
  cases nn <;> rfl

/-- C128: once the symbol and slot that evidence names have been inferred Nonnull, the requirement holds in every run that has the
inferred annotations. -/
theorem requirement_settled (s : Solver) (c : Ctx) (T : Atom) (fp : String → Nat → Nat) (prev prev' : Previous)
    (slots : List InferableSlot) (f : Formula) (loc : String) (k : EKind) (ev : Evidence)
    (h : ev ∈ collect ⟨s, c, T⟩ slots (slotConstraints fp prev slots) prev (.requires true f loc k))
    (u : String) (n : Nat) (hu : ev.usr = some u) (hn : ev.slot = some n) (hp : fp u n ∈ prev'.nonnull) :
    ∀ ρ, Run c T ρ → AsInferred fp prev' slots ρ → f.eval ρ = true := by
  obtain ⟨i, hi, rfl, hs⟩ := requirement_sound s c T fp prev slots true f loc k ev h
  simp only [evidenceOf, Option.some.injEq] at hu hn
  subst hu hn
  intro ρ hr ha
  exact hs.2 ρ hr ((ha i hi).2.2 hp)

/-- C128: likewise for Nullable. -/
theorem requirement_settled_nullable (s : Solver) (c : Ctx) (T : Atom) (fp : String → Nat → Nat) (prev prev' : Previous)
    (slots : List InferableSlot) (f : Formula) (loc : String) (k : EKind) (ev : Evidence)
    (h : ev ∈ collect ⟨s, c, T⟩ slots (slotConstraints fp prev slots) prev (.requires false f loc k))
    (u : String) (n : Nat) (hu : ev.usr = some u) (hn : ev.slot = some n) (hp : fp u n ∈ prev'.nullable) :
    ∀ ρ, Run c T ρ → AsInferred fp prev' slots ρ → f.eval ρ = true := by
  obtain ⟨i, hi, rfl, hs⟩ := requirement_sound s c T fp prev slots false f loc k ev h
  simp only [evidenceOf, Option.some.injEq] at hu hn
  subst hu hn
  intro ρ hr ha
  exact hs.2 ρ hr ((ha i hi).1.2 hp)

/-- C128: a value that evidence required not to be null is judged Nonnull from then on: passing it on, returning it or assigning it gives
Nonnull evidence. -/
theorem settled_value_is_nonnull (s : Solver) (hs : s.Complete) (c : Ctx) (T : Atom) (fp : String → Nat → Nat) (prev prev' : Previous)
    (slots : List InferableSlot) (st : NullState) (nl : Formula) (hnl : st.isNull = some nl) (loc : String) (k : EKind) (ev : Evidence)
    (h : ev ∈ collect ⟨s, c, T⟩ slots (slotConstraints fp prev slots) prev (.requires true (.not nl) loc k))
    (u : String) (n : Nat) (hu : ev.usr = some u) (hn : ev.slot = some n) (hp : fp u n ∈ prev'.nonnull)
    (usr : String) (husr : usr ≠ "") (slot : Nat) (cr const : Bool) (loc' : String) :
    collect ⟨s, c, T⟩ slots (slotConstraints fp prev' slots) prev' (.argBinding usr slot ⟨false, const⟩ cr (some st) loc') =
      [evidenceOf usr slot cr NullMerge.NONNULL_ARGUMENT loc'] ∧
    collect ⟨s, c, T⟩ slots (slotConstraints fp prev' slots) prev' (.returned usr ⟨false, const⟩ st loc') =
      [evidenceOf usr 0 false NullMerge.NONNULL_RETURN loc'] := by
  have hset := requirement_settled s c T fp prev prev' slots _ loc k ev h u n hu hn hp
  have hv : ValueIs c T (AsInferred fp prev' slots) (some st) .NonNull :=
    ⟨nl, hnl, fun ρ hr ha => by simpa [Formula.eval] using hset ρ hr ha⟩
  have hk := (valueKind_iff hs (eval_slotConstraints fp prev' slots) (some st) .NonNull).2 hv
  constructor
  · show emit usr slot (argKind (valueKind ⟨s, c, T⟩ (slotConstraints fp prev' slots) (some st)) _) cr loc' = _
    rw [hk]
    simp [emit, husr, argKind, evidenceOf, makeEvidence]
  · show emit usr 0 (retKind (valueKind ⟨s, c, T⟩ (slotConstraints fp prev' slots) (some st)) _) false loc' = _
    rw [hk]
    simp [emit, husr, retKind, evidenceOf, makeEvidence]

/-- C128: what a passed or returned value says: evidence that forces Nullable exactly for values that may be null, evidence that forces
Nonnull exactly for Nonnull values bound to a reference through which null could be stored. -/
theorem value_evidence_demands (v : NullFlow.Kind) (ref const : Bool) (k : EKind) (h : ArgEvidence v ref const k ∨ RetEvidence v ref const k) :
    (k ∈ NullMerge.demandsNullable ↔ v = .Nullable) ∧ (k ∈ NullMerge.demandsNonnull ↔ v = .NonNull ∧ ref = true ∧ const = false) := by
  cases v <;> cases ref <;> cases const <;>
    (simp only [ArgEvidence, RetEvidence] at h; rcases h with rfl | rfl <;> exact ⟨by decide, by decide⟩)

end Verif.Infer

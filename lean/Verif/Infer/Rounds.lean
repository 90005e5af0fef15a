import Verif.Infer.Flow
import Verif.Infer.Fix
import Verif.Infer.Roundtrip
import Verif.NullMerge.Samples
/- C130, C131: the index of a definition, rounds of inference, and what they conclude. -/
namespace Verif.Infer
open Verif.NullFlow (Formula Ctx Solver NullState Source Run)
open Verif.NullMerge (Has relevant MustBeNonnull MustBeNullable Nullability)

local notation "Atom" => Nat

/-! The part of the index kept with a definition. -/

theorem mem_testFold (tu : VIndex) (bs : List String) : ∀ (t : List String) (x : String),
    x ∈ bs.foldl (fun t b => if tu.inTest.contains b then insertSet t b else t) t ↔ x ∈ t ∨ (x ∈ bs ∧ x ∈ tu.inTest) := by
  induction bs with
  | nil => intro t x; simp
  | cons b bs ih =>
    intro t x
    rw [List.foldl_cons, ih]
    by_cases hb : b ∈ tu.inTest
    · simp only [List.contains_iff_mem, hb, if_true, mem_insertSet, List.mem_cons]
      constructor
      · rintro ((h | rfl) | ⟨h1, h2⟩)
        · exact Or.inl h
        · exact Or.inr ⟨Or.inl rfl, hb⟩
        · exact Or.inr ⟨Or.inr h1, h2⟩
      · rintro (h | ⟨rfl | h1, h2⟩)
        · exact Or.inl (Or.inl h)
        · exact Or.inl (Or.inr rfl)
        · exact Or.inr ⟨h1, h2⟩
    · simp only [List.contains_iff_mem, hb, if_false, List.mem_cons]
      constructor
      · rintro (h | ⟨h1, h2⟩)
        · exact Or.inl h
        · exact Or.inr ⟨Or.inr h1, h2⟩
      · rintro (h | ⟨rfl | h1, h2⟩)
        · exact Or.inl h
        · exact absurd h2 hb
        · exact Or.inr ⟨h1, h2⟩

structure ScopeInv (tu : VIndex) (scope : List String) (ix : VIndex) : Prop where
  bases : ∀ u, AMap.get? ix.bases u = if u ∈ scope then AMap.get? tu.bases u else none
  sub : ∀ x ∈ ix.inTest, x ∈ tu.inTest
  self : ∀ u ∈ scope, ∀ bs, AMap.get? tu.bases u = some bs → ∀ x, x = u ∨ x ∈ bs → x ∈ tu.inTest → x ∈ ix.inTest

def scopeStep (tu : VIndex) (ix : VIndex) (u : String) : VIndex :=
  match AMap.get? tu.bases u with
  | none => ix
  | some bs =>
    let ix := if tu.inTest.contains u then { ix with inTest := insertSet ix.inTest u } else ix
    { ix with bases := AMap.insert ix.bases u bs,
              inTest := bs.foldl (fun t b => if tu.inTest.contains b then insertSet t b else t) ix.inTest }

theorem scopeInv_step {tu : VIndex} {pre : List String} {ix : VIndex} (h : ScopeInv tu pre ix) (u : String) :
    ScopeInv tu (pre ++ [u]) (scopeStep tu ix u) := by
  unfold scopeStep
  cases hb : AMap.get? tu.bases u with
  | none =>
    refine ⟨fun v => ?_, h.sub, fun v hv bs hbs => ?_⟩
    · simp only [h.bases v, List.mem_append, List.mem_singleton]
      by_cases hvu : v = u
      · subst hvu; simp [hb]
      · simp [hvu]
    · rcases List.mem_append.1 hv with hv | hv
      · exact h.self v hv bs hbs
      · rw [List.mem_singleton.1 hv, hb] at hbs; simp at hbs
  | some bs =>
    have h1 : ∀ x, x ∈ (if tu.inTest.contains u then { ix with inTest := insertSet ix.inTest u } else ix : VIndex).inTest ↔
        x ∈ ix.inTest ∨ (x = u ∧ u ∈ tu.inTest) := by
      intro x
      by_cases hu : u ∈ tu.inTest
      · simp [hu, mem_insertSet]
      · simp [hu]
    have h2 : (if tu.inTest.contains u then { ix with inTest := insertSet ix.inTest u } else ix : VIndex).bases = ix.bases := by
      split <;> rfl
    show ScopeInv tu (pre ++ [u]) { (if tu.inTest.contains u then { ix with inTest := insertSet ix.inTest u } else ix : VIndex) with
      bases := _, inTest := _ }
    generalize (if tu.inTest.contains u then { ix with inTest := insertSet ix.inTest u } else ix : VIndex) = ix1 at h1 h2 ⊢
    refine ⟨fun v => ?_, fun x hx => ?_, fun v hv bs' hbs x hx hxt => ?_⟩
    · simp only [h2, List.mem_append, List.mem_singleton]
      by_cases hvu : v = u
      · subst hvu; simp [AMap.get?_insert_self, hb]
      · rw [AMap.get?_insert_ne _ _ (Ne.symm hvu), h.bases]; simp [hvu]
    · rcases (mem_testFold tu bs _ x).1 hx with hx | hx
      · rcases (h1 x).1 hx with hx | ⟨rfl, hx⟩
        · exact h.sub x hx
        · exact hx
      · exact hx.2
    · refine (mem_testFold tu bs _ x).2 ?_
      rcases List.mem_append.1 hv with hv | hv
      · exact Or.inl ((h1 x).2 (Or.inl (h.self v hv bs' hbs x hx hxt)))
      · rw [List.mem_singleton.1 hv] at hx hbs
        rw [hb, Option.some.injEq] at hbs
        subst hbs
        rcases hx with rfl | hx
        · exact Or.inl ((h1 x).2 (Or.inr ⟨rfl, hxt⟩))
        · exact Or.inr ⟨hx, hxt⟩

theorem scopedIndex_inv (tu : VIndex) (scope : List String) : ScopeInv tu scope (scopedIndex tu scope) := by
  have gen : ∀ (post pre : List String) (ix : VIndex), ScopeInv tu pre ix → ScopeInv tu (pre ++ post) (post.foldl (scopeStep tu) ix) := by
    intro post
    induction post with
    | nil => intro pre ix h; simpa using h
    | cons u post ih =>
      intro pre ix h
      have := ih (pre ++ [u]) _ (scopeInv_step h u)
      simpa using this
  have h0 : ScopeInv tu [] ⟨[], [], []⟩ := ⟨fun u => by simp [AMap.get?], fun x hx => by simp at hx, fun u hu => by simp at hu⟩
  exact gen scope [] _ h0

/-- C130: evidence about a function that the definition references (or is) goes where the index of the whole translation unit says. -/
theorem scoped_propagation (tu : VIndex) (scope : List String) (e : Evidence)
    (h : e.usr.getD "" ∈ scope ∨ AMap.get? tu.bases (e.usr.getD "") = none) :
    propagate { scopedIndex tu scope with overrides := tu.overrides } e = propagate tu e := by
  have hi := scopedIndex_inv tu scope
  have key : ∀ u k r, (u ∈ scope ∨ AMap.get? tu.bases u = none) →
      additionalTargets { scopedIndex tu scope with overrides := tu.overrides } u k r = additionalTargets tu u k r := by
    intro u k r hu
    have hup : ∀ t : Targets,
        (match AMap.get? (scopedIndex tu scope).bases u with
          | some bs => baseTargets u (scopedIndex tu scope).inTest bs t
          | none => t) =
        (match AMap.get? tu.bases u with
          | some bs => baseTargets u tu.inTest bs t
          | none => t) := by
      intro t
      cases hb : AMap.get? tu.bases u with
      | none =>
        have : AMap.get? (scopedIndex tu scope).bases u = none := by rw [hi.bases, hb]; simp
        rw [this]
      | some bs =>
        have hus : u ∈ scope := hu.resolve_right (by simp [hb])
        have : AMap.get? (scopedIndex tu scope).bases u = some bs := by rw [hi.bases, hb]; simp [hus]
        rw [this]
        have hc : ∀ x, x = u ∨ x ∈ bs → (scopedIndex tu scope).inTest.contains x = tu.inTest.contains x := by
          intro x hx
          rw [Bool.eq_iff_iff]
          simp only [List.contains_iff_mem]
          exact ⟨hi.sub x, hi.self u hus bs hb x hx⟩
        simp only [baseTargets, hc u (Or.inl rfl)]
        split
        · rfl
        · congr 2
          · exact List.filter_congr (fun x hx => hc x (Or.inr hx))
          · exact List.filter_congr (fun x hx => by rw [hc x (Or.inr hx)])
    unfold additionalTargets
    cases flowDirection k r with
    | baseToDerived => rfl
    | derivedToBase => exact hup _
    | both => exact hup _
  unfold propagate
  rw [key _ _ _ h]

/-- The evidence found in the summaries, before propagation. -/
def found (s : Solver) (limit : Nat → Nat → Bool) (fp : String → Nat → Nat) (sums : List Summarised) (prev : Previous) : List Evidence :=
  sums.zipIdx.flatMap (fun x => (collectEvidenceFromSummary s fp prev (limit x.2) x.1.summary).1)

/-- All evidence of a definition is about functions in its scope, or about symbols that override nothing. -/
def InScope (tu : VIndex) (s : Solver) (limit : Nat → Nat → Bool) (fp : String → Nat → Nat) (sums : List Summarised) (prev : Previous) : Prop :=
  ∀ x ∈ sums.zipIdx, ∀ e ∈ (collectEvidenceFromSummary s fp prev (limit x.2) x.1.summary).1,
    e.usr.getD "" ∈ x.1.scope ∨ AMap.get? tu.bases (e.usr.getD "") = none

/-- C130: the evidence of a round is that of declarations and summaries, spread over the methods of the translation unit. -/
theorem roundEvidence_spread (s : Solver) (limit : Nat → Nat → Bool) (fp : String → Nat → Nat) (tu : VIndex) (decls : List Evidence)
    (sums : List Summarised) (prev : Previous) (h : InScope tu s limit fp sums prev) :
    roundEvidence s limit fp tu decls sums prev = spread tu (decls ++ found s limit fp sums prev) := by
  unfold roundEvidence spread found
  rw [List.flatMap_append, List.flatMap_assoc]
  congr 1
  exact flatMap_congr' (fun x hx => flatMap_congr' (fun e he => scoped_propagation tu _ e (h x hx e he)))

/-! What a round concludes. -/

/-- `sort` sorts by symbol and slot, in some way. -/
structure Sorts (sort : List Evidence → List Evidence) (r : (Option String × Option Nat) → (Option String × Option Nat) → Prop) : Prop where
  perm : ∀ l, (sort l).Perm l
  sorted : ∀ l, (sort l).Pairwise (fun a b => r (a.usr, a.slot) (b.usr, b.slot))
  antisymm : ∀ a b, r a b → r b a → a = b

variable {o : NullMerge.Order String String} {sort : List Evidence → List Evidence}
  {r : (Option String × Option Nat) → (Option String × Option Nat) → Prop}

/-- C131: after any number of rounds, each symbol and slot has the verdict of exactly its evidence in the last round; without evidence it
has none. -/
theorem round_verdict (hsort : Sorts sort r) (s : Solver) (limit : Nat → Nat → Nat → Bool) (fp : String → Nat → Nat) (tu : VIndex)
    (decls : List Evidence) (sums : List Summarised) (n : Nat) (u : String) (i : Nat) :
    let mine := about u i (roundEvidence s (limit n) fp tu decls sums (previousOf fp (inferRounds o sort s limit fp tu decls sums n)))
    (mine = [] → AMap.get? (inferRounds o sort s limit fp tu decls sums (n + 1)) (some u, some i) = none) ∧
    (mine ≠ [] → ∃ v, AMap.get? (inferRounds o sort s limit fp tu decls sums (n + 1)) (some u, some i) = some v ∧
      v.verdict = (NullMerge.mergeEvidence o mine).verdict) := by
  intro mine
  have h := NullMerge.grouping_by_slot o r hsort.antisymm
    (roundEvidence s (limit n) fp tu decls sums (previousOf fp (inferRounds o sort s limit fp tu decls sums n))) _
    (hsort.perm _) (hsort.sorted _) (some u) (some i)
  have hm : (roundEvidence s (limit n) fp tu decls sums (previousOf fp (inferRounds o sort s limit fp tu decls sums n))).filter
      (fun e => decide ((e.usr, e.slot) = (some u, some i))) = mine := by
    apply List.filter_congr
    intro e _
    simp
  simp only [hm] at h
  exact h

/-- C131: only what was concluded without conflict, and is new, is taken for granted in the next round. -/
theorem previous_exact (fp : String → Nat → Nat) (res : List ((Option String × Option Nat) × NullMerge.Inference String String)) (p : Nat) :
    (p ∈ (previousOf fp res).nonnull ↔ ∃ x ∈ res, x.2.nullability = some .NONNULL ∧ x.2.conflict = false ∧ x.2.trivial = false ∧
      p = fp (x.1.1.getD "") (x.1.2.getD 0)) ∧
    (p ∈ (previousOf fp res).nullable ↔ ∃ x ∈ res, x.2.nullability = some .NULLABLE ∧ x.2.conflict = false ∧ x.2.trivial = false ∧
      p = fp (x.1.1.getD "") (x.1.2.getD 0)) := by
  have hget : ∀ (q : Option Nullability) (v : Nullability), v ≠ .UNKNOWN → (q.getD .UNKNOWN = v ↔ q = some v) := by
    intro q v hv
    cases q with
    | none => simp [Ne.symm hv]
    | some a => simp
  constructor
  · simp only [previousOf, List.mem_map, List.mem_filter, Bool.and_eq_true, Bool.not_eq_true', decide_eq_true_eq,
      hget _ Nullability.NONNULL (by decide)]
    constructor
    · rintro ⟨x, ⟨⟨h1, h2, h3⟩, h4⟩, rfl⟩; exact ⟨x, h1, h4, h3, h2, rfl⟩
    · rintro ⟨x, h1, h4, h3, h2, rfl⟩; exact ⟨x, ⟨⟨h1, h2, h3⟩, h4⟩, rfl⟩
  · simp only [previousOf, List.mem_map, List.mem_filter, Bool.and_eq_true, Bool.not_eq_true', decide_eq_true_eq,
      hget _ Nullability.NULLABLE (by decide)]
    constructor
    · rintro ⟨x, ⟨⟨h1, h2, h3⟩, h4⟩, rfl⟩; exact ⟨x, h1, h4, h3, h2, rfl⟩
    · rintro ⟨x, h1, h4, h3, h2, rfl⟩; exact ⟨x, ⟨⟨h1, h2, h3⟩, h4⟩, rfl⟩

end Verif.Infer

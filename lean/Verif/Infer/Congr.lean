import Verif.Infer.Context
/- Evidence does not depend on the names of atoms (C126). -/
namespace Verif.Infer
open Verif.NullFlow (Formula Ctx Solver NullState Source Run Reach)

local notation "Atom" => Nat

def renSource (σ : Nat → Nat) : Source → Source
  | .symbolic n u => .symbolic (σ n) (σ u)
  | .concrete k => .concrete k

def renState (σ : Nat → Nat) (st : NullState) : NullState := ⟨st.fromNullable.map (ren σ), st.isNull.map (ren σ)⟩

def renSlot (σ : Nat → Nat) (i : InferableSlot) : InferableSlot := { i with nonnull := σ i.nonnull, nullable := σ i.nullable }

def renInit (σ : Nat → Nat) (i : InitOnExit) : InitOnExit := { i with st := renState σ i.st }

def renBehavior (σ : Nat → Nat) : Behavior → Behavior
  | .requires b f loc k => .requires b (ren σ f) loc k
  | .assignedToType lc lhs fp rt rhs loc => .assignedToType lc (renSource σ lhs) fp (rt.map (renSource σ)) (renState σ rhs) loc
  | .invariantDecl usr slot cr tm loc => .invariantDecl usr slot cr (renSource σ tm) loc
  | .invariantExpr t tm fp loc => .invariantExpr (renSource σ t) (renSource σ tm) fp loc
  | .fromValue ty st loc k => .fromValue (renSource σ ty) (st.map (renState σ)) loc k
  | .argBinding usr slot t cr st loc => .argBinding usr slot t cr (st.map (renState σ)) loc
  | .abortIfEqual f1 l1 f2 l2 => .abortIfEqual (ren σ f1) l1 (ren σ f2) l2
  | .returned usr t st loc => .returned usr t (renState σ st) loc
  | .onExit ctor late => .onExit (ctor.map (renInit σ)) (late.map (renInit σ))

def SDom (m : List (Nat × Nat)) : Source → Prop
  | .symbolic n u => Dom m n ∧ Dom m u
  | .concrete _ => True

def StDom (m : List (Nat × Nat)) (st : NullState) : Prop :=
  (∀ f, st.fromNullable = some f → FDom m f) ∧ ∀ f, st.isNull = some f → FDom m f

def SlotDom (m : List (Nat × Nat)) (i : InferableSlot) : Prop := Dom m i.nonnull ∧ Dom m i.nullable

theorem isNonnull_ren (σ : Nat → Nat) (s : Source) : (renSource σ s).isNonnull = ren σ s.isNonnull := by cases s <;> rfl
theorem isNullable_ren (σ : Nat → Nat) (s : Source) : (renSource σ s).isNullable = ren σ s.isNullable := by cases s <;> rfl
theorem sym_ren (σ : Nat → Nat) (i : InferableSlot) : (renSlot σ i).sym = renSource σ i.sym := rfl

theorem fdom_isNonnull {m : List (Nat × Nat)} {s : Source} (h : SDom m s) : FDom m s.isNonnull := by
  cases s with
  | symbolic n u => intro a ha; simp [Source.isNonnull, Formula.atoms] at ha; subst ha; exact h.1
  | concrete k => intro a ha; simp [Source.isNonnull, Formula.atoms] at ha
theorem fdom_isNullable {m : List (Nat × Nat)} {s : Source} (h : SDom m s) : FDom m s.isNullable := by
  cases s with
  | symbolic n u => intro a ha; simp [Source.isNullable, Formula.atoms] at ha; subst ha; exact h.2
  | concrete k => intro a ha; simp [Source.isNullable, Formula.atoms] at ha

theorem fdom_and {m : List (Nat × Nat)} {f g : Formula} (hf : FDom m f) (hg : FDom m g) : FDom m (.and f g) := by
  intro a ha
  rcases List.mem_append.mp ha with h | h
  · exact hf a h
  · exact hg a h
theorem fdom_implies {m : List (Nat × Nat)} {f g : Formula} (hf : FDom m f) (hg : FDom m g) : FDom m (.implies f g) := by
  intro a ha
  rcases List.mem_append.mp ha with h | h
  · exact hf a h
  · exact hg a h
theorem fdom_not {m : List (Nat × Nat)} {f : Formula} (hf : FDom m f) : FDom m (.not f) := hf
theorem fdom_lit (m : List (Nat × Nat)) (b : Bool) : FDom m (.lit b) := by intro a ha; simp [Formula.atoms] at ha

theorem ren_eq_lit (σ : Nat → Nat) (f : Formula) (b : Bool) : ren σ f = .lit b ↔ f = .lit b := by
  cases f <;> simp [ren]

theorem flatMap_congr' {α β : Type} {l : List α} {f g : α → List β} (h : ∀ a ∈ l, f a = g a) : l.flatMap f = l.flatMap g := by
  induction l with
  | nil => rfl
  | cons a l ih => rw [List.flatMap_cons, List.flatMap_cons, h a (by simp), ih (fun b hb => h b (List.mem_cons_of_mem _ hb))]

/-- The two environments answer alike. -/
structure Same (e e' : Env) (m : List (Nat × Nat)) : Prop where
  proves : ∀ f, FDom m f → e'.proves (ren (sub m) f) = e.proves f
  allows : ∀ f, FDom m f → e'.allows (ren (sub m) f) = e.allows f

section
variable {e e' : Env} {m : List (Nat × Nat)} (h : Same e e' m)
include h

theorem nonnullHelps_ren {f : Formula} (hf : FDom m f) {i : InferableSlot} (hi : SlotDom m i) :
    nonnullHelps e' (ren (sub m) f) (renSlot (sub m) i) = nonnullHelps e f i := by
  have hd : FDom m i.sym.isNonnull := fdom_isNonnull (s := i.sym) hi
  unfold nonnullHelps
  rw [sym_ren, isNonnull_ren, h.allows _ hd, show Formula.implies (ren (sub m) i.sym.isNonnull) (ren (sub m) f) =
    ren (sub m) (.implies i.sym.isNonnull f) from rfl, h.proves _ (fdom_implies hd hf)]

theorem nullableHelps_ren {f : Formula} (hf : FDom m f) {i : InferableSlot} (hi : SlotDom m i) :
    nullableHelps e' (ren (sub m) f) (renSlot (sub m) i) = nullableHelps e f i := by
  have hd : FDom m i.sym.isNullable := fdom_isNullable (s := i.sym) hi
  unfold nullableHelps
  rw [sym_ren, isNullable_ren, h.allows _ hd, show Formula.implies (ren (sub m) i.sym.isNullable) (ren (sub m) f) =
    ren (sub m) (.implies i.sym.isNullable f) from rfl, h.proves _ (fdom_implies hd hf)]

omit h in
theorem firstPass_ren (hp hp' : InferableSlot → Bool) (slots : List InferableSlot)
    (hh : ∀ i ∈ slots, hp' (renSlot (sub m) i) = hp i) : ∀ fb : List InferableSlot,
    firstPass hp' (slots.map (renSlot (sub m))) (fb.map (renSlot (sub m))) =
      ((firstPass hp slots fb).1.map (renSlot (sub m)), (firstPass hp slots fb).2.map (renSlot (sub m))) := by
  induction slots with
  | nil => intro fb; rfl
  | cons i rest ih =>
    intro fb
    have ih := ih (fun j hj => hh j (List.mem_cons_of_mem _ hj))
    simp only [List.map_cons, firstPass]
    rw [show (renSlot (sub m) i).crosses = i.crosses from rfl, hh i (by simp)]
    split
    · have := ih (fb ++ [i])
      rw [List.map_append] at this
      exact this
    · split
      · rfl
      · exact ih fb

omit h in
theorem find_ren (hp hp' : InferableSlot → Bool) (slots : List InferableSlot)
    (hh : ∀ i ∈ slots, hp' (renSlot (sub m) i) = hp i) :
    (slots.map (renSlot (sub m))).find? hp' = (slots.find? hp).map (renSlot (sub m)) := by
  induction slots with
  | nil => rfl
  | cons i rest ih =>
    have ih := ih (fun j hj => hh j (List.mem_cons_of_mem _ hj))
    simp only [List.map_cons, List.find?_cons]
    rw [hh i (by simp)]
    cases hp i
    · exact ih
    · rfl

omit h in
theorem firstPass_mem (hp : InferableSlot → Bool) (slots : List InferableSlot) : ∀ fb : List InferableSlot,
    ∀ i ∈ (firstPass hp slots fb).2, i ∈ slots ∨ i ∈ fb := by
  induction slots with
  | nil => intro fb i hi; exact .inr hi
  | cons j rest ih =>
    intro fb i hi
    simp only [firstPass] at hi
    split at hi
    · rcases ih _ i hi with h | h
      · exact .inl (List.mem_cons_of_mem _ h)
      · rcases List.mem_append.mp h with h | h
        · exact .inr h
        · simp at h; subst h; exact .inl (by simp)
    · split at hi
      · exact .inr hi
      · rcases ih _ i hi with h | h
        · exact .inl (List.mem_cons_of_mem _ h)
        · exact .inr h

theorem markNonnull_ren {f : Formula} (hf : FDom m f) {slots : List InferableSlot} (hs : ∀ i ∈ slots, SlotDom m i)
    (loc : String) (k : EKind) :
    mustBeTrueByMarkingNonnull e' (slots.map (renSlot (sub m))) (ren (sub m) f) loc k =
      mustBeTrueByMarkingNonnull e slots f loc k := by
  unfold mustBeTrueByMarkingNonnull
  rw [h.proves f hf, show Formula.not (ren (sub m) f) = ren (sub m) (.not f) from rfl, h.proves _ (fdom_not hf)]
  have hfp := firstPass_ren (m := m) (nonnullHelps e f) (nonnullHelps e' (ren (sub m) f)) slots
    (fun i hi => nonnullHelps_ren h hf (hs i hi)) []
  rw [List.map_nil] at hfp
  rw [hfp]
  generalize hP : firstPass (nonnullHelps e f) slots [] = P
  obtain ⟨o, fb⟩ := P
  cases o with
  | some i => rfl
  | none =>
    simp only [Option.map_none]
    rw [find_ren (nonnullHelps e f) _ fb (fun i hi => nonnullHelps_ren h hf (hs i ?_))]
    · cases fb.find? (nonnullHelps e f) <;> rfl
    · have := firstPass_mem (nonnullHelps e f) slots [] i (by rw [hP]; exact hi)
      simpa using this

theorem markNullable_ren {f : Formula} (hf : FDom m f) {slots : List InferableSlot} (hs : ∀ i ∈ slots, SlotDom m i)
    (loc : String) (k : EKind) :
    mustBeTrueByMarkingNullable e' (slots.map (renSlot (sub m))) (ren (sub m) f) loc k =
      mustBeTrueByMarkingNullable e slots f loc k := by
  unfold mustBeTrueByMarkingNullable
  rw [h.proves f hf, show Formula.not (ren (sub m) f) = ren (sub m) (.not f) from rfl, h.proves _ (fdom_not hf)]
  congr 1
  rw [List.flatMap_map]
  apply flatMap_congr'
  intro i hi
  rw [nullableHelps_ren h hf (hs i hi)]
  rfl

theorem knownNonnull_ren {con : Formula} (hc : FDom m con) {s : Source} (hs : SDom m s) :
    knownNonnull e' (ren (sub m) con) (renSource (sub m) s) = knownNonnull e con s := by
  cases s with
  | concrete k => rfl
  | symbolic n u => exact h.proves (.implies con (Source.symbolic n u).isNonnull) (fdom_implies hc (fdom_isNonnull hs))

theorem knownNullable_ren {con : Formula} (hc : FDom m con) {s : Source} (hs : SDom m s) :
    knownNullable e' (ren (sub m) con) (renSource (sub m) s) = knownNullable e con s := by
  cases s with
  | concrete k => rfl
  | symbolic n u => exact h.proves (.implies con (Source.symbolic n u).isNullable) (fdom_implies hc (fdom_isNullable hs))

theorem isNullable_same {con : Formula} (hc : FDom m con) {st : NullState} (hs : StDom m st) :
    NullFlow.isNullable e'.s e'.c e'.T (renState (sub m) st) (some (ren (sub m) con)) =
      NullFlow.isNullable e.s e.c e.T st (some con) := by
  rw [NullFlow.isNullable_eq, NullFlow.isNullable_eq]
  have hmay : NullFlow.mayFormula (renState (sub m) st) (some (ren (sub m) con)) = ren (sub m) (NullFlow.mayFormula st (some con)) := by
    obtain ⟨fn, nl⟩ := st
    cases fn <;> cases nl <;> rfl
  have hmayd : FDom m (NullFlow.mayFormula st (some con)) := by
    obtain ⟨fn, nl⟩ := st
    have h1 := hs.1
    have h2 := hs.2
    cases fn <;> cases nl <;> simp only [NullFlow.mayFormula] <;>
      refine fdom_and ?_ hc <;>
      first
      | exact fdom_lit _ _
      | exact fdom_and (fdom_lit _ _) (h1 _ rfl)
      | exact fdom_and (fdom_lit _ _) (h2 _ rfl)
      | exact fdom_and (fdom_and (fdom_lit _ _) (h1 _ rfl)) (h2 _ rfl)
  have ha : NullFlow.allows e'.s e'.c e'.T (NullFlow.mayFormula (renState (sub m) st) (some (ren (sub m) con))) =
      NullFlow.allows e.s e.c e.T (NullFlow.mayFormula st (some con)) := by
    rw [hmay]; exact h.allows _ hmayd
  rw [ha]
  cases hn : st.isNull with
  | none => simp [renState, hn]
  | some nl =>
    have hp : NullFlow.proves e'.s e'.c e'.T (NullFlow.impFormula (ren (sub m) nl) (some (ren (sub m) con))) =
        NullFlow.proves e.s e.c e.T (NullFlow.impFormula nl (some con)) :=
      h.proves (.implies con nl) (fdom_implies hc (hs.2 nl hn))
    have hb : NullFlow.proves e'.s e'.c e'.T (.lit false) = NullFlow.proves e.s e.c e.T (.lit false) :=
      h.proves (.lit false) (fdom_lit _ _)
    simp only [renState, hn, Option.map_some, hp, hb, reduceCtorEq, false_and, if_false]

theorem getNullability_same {con : Formula} (hc : FDom m con) {st : NullState} (hs : StDom m st) :
    NullFlow.getNullability e'.s e'.c e'.T (renState (sub m) st) (some (ren (sub m) con)) =
      NullFlow.getNullability e.s e.c e.T st (some con) := by
  unfold NullFlow.getNullability
  rw [isNullable_same h hc hs]
  cases hn : st.isNull with
  | none => simp [renState, hn]
  | some nl =>
    have hp : NullFlow.proves e'.s e'.c e'.T (.not (.and (ren (sub m) con) (ren (sub m) nl))) =
        NullFlow.proves e.s e.c e.T (.not (.and con nl)) :=
      h.proves (.not (.and con nl)) (fdom_and hc (hs.2 nl hn))
    simp only [renState, hn, Option.map_some, hp]

theorem valueKind_same {con : Formula} (hc : FDom m con) {st : Option NullState} (hs : ∀ x, st = some x → StDom m x) :
    valueKind e' (ren (sub m) con) (st.map (renState (sub m))) = valueKind e con st := by
  cases st with
  | some st => exact getNullability_same h hc (hs st rfl)
  | none =>
    have := isNullable_same h hc (st := ⟨some (.lit true), some (.lit true)⟩)
      ⟨fun f hf => by cases hf; exact fdom_lit _ _, fun f hf => by cases hf; exact fdom_lit _ _⟩
    simp only [valueKind, Option.map_none, NullFlow.getNullabilityForNullptrT, NullFlow.isReachableNullptrLiteral]
    exact congrArg (fun b : Bool => if b = true then NullFlow.Kind.Nullable else NullFlow.Kind.Unspecified) this

omit h in
/-- The parts of a behaviour mention only atoms in the map. -/
def BDom (prev : Previous) (m : List (Nat × Nat)) : Behavior → Prop
  | .requires _ f _ _ => FDom m f
  | .assignedToType _ lhs fp rt rhs _ => SDom m (overridden prev fp lhs) ∧ (∀ r, rt = some r → SDom m r) ∧ StDom m rhs
  | .invariantDecl _ _ _ tm _ => SDom m tm
  | .invariantExpr t tm fp _ => SDom m t ∧ SDom m (overridden prev fp tm)
  | .fromValue ty st _ _ => SDom m ty ∧ ∀ x, st = some x → StDom m x
  | .argBinding _ _ _ _ st _ => ∀ x, st = some x → StDom m x
  | .abortIfEqual f1 _ f2 _ => FDom m f1 ∧ FDom m f2
  | .returned _ _ st _ => StDom m st
  | .onExit ctor late => (∀ i ∈ ctor, StDom m i.st) ∧ ∀ i ∈ late, StDom m i.st

omit h in
theorem overridden_ren (σ : Nat → Nat) (prev : Previous) (fp : Option Nat) (s : Source) :
    overridden prev fp (renSource σ s) = renSource σ (overridden prev fp s) := by
  unfold overridden
  cases fp with
  | none => rfl
  | some p =>
    simp only [overlay]
    split
    · rfl
    · split <;> rfl

theorem assigned_ren {con : Formula} (hc : FDom m con) {slots : List InferableSlot} (hs : ∀ i ∈ slots, SlotDom m i)
    {lhs : Source} (hl : SDom m lhs) {rhs : NullState} (hr : StDom m rhs) (loc : String) :
    assignedToNonnull e' (slots.map (renSlot (sub m))) (ren (sub m) con) (renSource (sub m) lhs) (renState (sub m) rhs) loc =
      assignedToNonnull e slots con lhs rhs loc := by
  unfold assignedToNonnull
  cases hn : rhs.isNull with
  | none => simp [renState, hn]
  | some nl =>
    simp only [renState, hn, Option.map_some]
    rw [knownNonnull_ren h hc hl]
    rw [show Formula.not (ren (sub m) nl) = ren (sub m) (.not nl) from rfl, markNonnull_ren h (fdom_not (hr.2 nl hn)) hs]

/-- Evidence does not depend on the names of the atoms. -/
theorem collect_ren {con : Formula} (hc : FDom m con) {slots : List InferableSlot} (hs : ∀ i ∈ slots, SlotDom m i)
    (prev : Previous) (b : Behavior) (hb : BDom prev m b) :
    collect e' (slots.map (renSlot (sub m))) (ren (sub m) con) prev (renBehavior (sub m) b) = collect e slots con prev b := by
  cases b with
  | requires nn f loc k =>
    cases nn
    · exact markNullable_ren h hb hs loc k
    · exact markNonnull_ren h hb hs loc k
  | assignedToType lc lhs fp rt rhs loc =>
    obtain ⟨h1, h2, h3⟩ := hb
    simp only [renBehavior, collect, collectAssignmentToType]
    rw [overridden_ren]
    cases rt with
    | none => exact assigned_ren h hc hs h1 h3 loc
    | some r =>
      simp only [Option.map_some]
      rw [knownNonnull_ren h hc h1, knownNullable_ren h hc h1, isNonnull_ren, isNullable_ren,
        markNonnull_ren h (fdom_isNonnull (h2 r rfl)) hs, markNullable_ren h (fdom_isNullable (h2 r rfl)) hs,
        assigned_ren h hc hs h1 h3 loc]
  | invariantDecl usr slot cr tm loc =>
    simp only [renBehavior, collect, collectInvariantDecl]
    rw [knownNonnull_ren h hc hb, knownNullable_ren h hc hb]
  | invariantExpr t tm fp loc =>
    simp only [renBehavior, collect, collectInvariantExpr]
    rw [overridden_ren, knownNonnull_ren h hc hb.2, knownNullable_ren h hc hb.2, isNonnull_ren, isNullable_ren,
      markNonnull_ren h (fdom_isNonnull hb.1) hs, markNullable_ren h (fdom_isNullable hb.1) hs]
  | fromValue ty st loc k =>
    simp only [renBehavior, collect, collectAssignmentFromValue]
    have hd := fdom_isNullable hb.1
    rw [isNullable_ren, h.proves _ hd, h.allows _ hd, valueKind_same h hc hb.2]
    rw [find_ren (fun i => e.proves (.implies i.sym.isNullable ty.isNullable)) _ slots (fun i hi => ?_)]
    · congr 1
      cases slots.find? (fun i => e.proves (.implies i.sym.isNullable ty.isNullable)) <;> rfl
    · rw [sym_ren, isNullable_ren]
      exact h.proves (.implies i.sym.isNullable ty.isNullable) (fdom_implies (fdom_isNullable (s := i.sym) (hs i hi)) hd)
  | argBinding usr slot t cr st loc =>
    simp only [renBehavior, collect, collectArgBinding]
    rw [valueKind_same h hc hb]
  | abortIfEqual f1 l1 f2 l2 =>
    simp only [renBehavior, collect, collectAbortIfEqual]
    rw [h.proves _ hb.1, h.proves _ hb.2, show Formula.not (ren (sub m) f1) = ren (sub m) (.not f1) from rfl,
      show Formula.not (ren (sub m) f2) = ren (sub m) (.not f2) from rfl, markNonnull_ren h (fdom_not hb.1) hs,
      markNonnull_ren h (fdom_not hb.2) hs]
  | returned usr t st loc =>
    simp only [renBehavior, collect, collectReturn]
    rw [getNullability_same h hc hb]
  | onExit ctor late =>
    simp only [renBehavior, collect, List.flatMap_map]
    congr 1
    · apply flatMap_congr'
      intro i hi
      exact congrArg (fun b : Bool => if b = true then emit i.usr 0 NullMerge.LEFT_NULLABLE_BY_CONSTRUCTOR false i.loc else [])
        (isNullable_same h hc (hb.1 i hi))
    · apply flatMap_congr'
      intro i hi
      exact congrArg (fun b : Bool => if b = true then [] else emit i.usr 0 NullMerge.LEFT_NOT_NULLABLE_BY_LATE_INITIALIZER false i.loc)
        (isNullable_same h hc (hb.2 i hi))

end
end Verif.Infer

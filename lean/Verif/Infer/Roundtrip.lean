import Verif.Infer.Congr
/- C126: evidence from a saved summary is the evidence of the analysis that was summarised. -/
namespace Verif.Infer
open Verif.NullFlow (Formula Ctx Solver NullState Source Run Reach)

local notation "Atom" => Nat

theorem fromProto_toProto (k : NullFlow.Kind) : fromProto (toProto k) = k := by cases k <;> rfl

theorem loads_ptn : Loads (fun s => loadPtn (savePtn s)) renSource SDom := by
  refine ⟨fun s st => ?_, fun s st st' he hd => ?_⟩
  · cases s with
    | concrete k => exact ⟨Step.refl _, trivial, by simp [savePtn, loadPtn, renSource, fromProto_toProto]⟩
    | symbolic n u =>
      have := (loads_map (loads_pair loads_getAtom loads_getAtom) (fun _ : Unit => (n, u)) (fun _ q => Source.symbolic q.1 q.2)).ok () st
      exact this
  · cases s with
    | concrete k => exact ⟨trivial, rfl⟩
    | symbolic n u => exact ⟨⟨he.dom hd.1, he.dom hd.2⟩, by simp only [renSource]; rw [he.sub hd.1, he.sub hd.2]⟩

theorem loads_state : Loads (fun s => loadState (saveState s)) renState StDom :=
  loads_map (loads_pair (loads_opt loads_parse) (loads_opt loads_parse)) (fun s : NullState => (s.fromNullable, s.isNull))
    (fun _ q => NullState.mk q.1 q.2)

theorem loads_slot : Loads (fun i => loadSlot (saveSlot i)) renSlot SlotDom :=
  loads_map (loads_pair loads_getAtom loads_getAtom) (fun i : InferableSlot => (i.nonnull, i.nullable))
    (fun i q => { i with nonnull := q.1, nullable := q.2 })

theorem loads_init : Loads (fun i => loadInit (saveInit i)) renInit (fun m i => StDom m i.st) :=
  loads_map loads_state (fun i : InitOnExit => i.st) (fun i q => { i with st := q })

theorem loadOpt_map {α β γ : Type} (ld : β → LoadSt → γ × LoadSt) (f : α → β) (o : Option α) (st : LoadSt) :
    loadOpt ld (o.map f) st = loadOpt (fun a => ld (f a)) o st := by cases o <;> rfl

theorem loadList_map {α β γ : Type} (ld : β → LoadSt → γ × LoadSt) (f : α → β) (l : List α) : ∀ st : LoadSt,
    loadList ld (l.map f) st = loadList (fun a => ld (f a)) l st := by
  induction l with
  | nil => intro st; rfl
  | cons a l ih => intro st; simp only [List.map_cons, loadList, ih]

theorem loads_overridden (prev : Previous) (fp : Option Nat) :
    Loads (fun s => loadOverridden prev fp (savePtn s)) (fun σ s => renSource σ (overridden prev fp s))
      (fun m s => SDom m (overridden prev fp s)) := by
  refine ⟨fun s st => ?_, fun s st st' he hd => loads_ptn.ext _ st st' he hd⟩
  cases fp with
  | none => exact loads_ptn.ok s st
  | some p =>
    cases h : overlay prev p with
    | none =>
      rw [show loadOverridden prev (some p) (savePtn s) st = loadPtn (savePtn s) st by simp only [loadOverridden, h],
        show overridden prev (some p) s = s by simp only [overridden, h, Option.getD_none]]
      exact loads_ptn.ok s st
    | some o =>
      have ho : ∃ k, o = .concrete k := by
        unfold overlay at h
        split at h
        · exact ⟨_, (Option.some.inj h).symm⟩
        · split at h
          · exact ⟨_, (Option.some.inj h).symm⟩
          · cases h
      obtain ⟨k, rfl⟩ := ho
      rw [show loadOverridden prev (some p) (savePtn s) st = (.concrete k, st) by simp only [loadOverridden, h],
        show overridden prev (some p) s = .concrete k by simp only [overridden, h, Option.getD_some]]
      exact ⟨Step.refl _, trivial, rfl⟩

/-- Loading a saved behaviour and collecting its evidence: some map `σ` extending the one at hand renames it. -/
theorem collectFromBehavior_saved (e : Env) (slots : List InferableSlot) (con : Formula) (prev : Previous) (b : Behavior)
    (st : LoadSt) : ∃ st', collectFromBehavior e slots con prev (some (saveBehavior b)) st =
        some (collect e slots con prev (renBehavior (sub st'.map) b), st') ∧ Step st st' ∧ BDom prev st'.map b := by
  cases b with
  | requires nn f loc k =>
    obtain ⟨h1, h2, h3⟩ := loads_parse.ok f st
    refine ⟨_, ?_, h1, h2⟩
    cases nn
    · simp only [saveBehavior, collectFromBehavior, renBehavior, collect]; rw [← h3]
    · simp only [saveBehavior, collectFromBehavior, renBehavior, collect]; rw [← h3]
  | assignedToType lc lhs fp rt rhs loc =>
    obtain ⟨h1, h2, h3⟩ := (loads_pair (loads_pair (loads_overridden prev fp) (loads_opt loads_ptn)) loads_state).ok ((lhs, rt), rhs) st
    simp only [Prod.mk.injEq] at h3
    refine ⟨_, ?_, h1, ⟨h2.1.1, h2.1.2, h2.2⟩⟩
    simp only [saveBehavior, collectFromBehavior, renBehavior, collect, loadOpt_map, overridden_ren]
    rw [← h3.1.1, ← h3.1.2, ← h3.2]
  | invariantDecl usr slot cr tm loc =>
    obtain ⟨h1, h2, h3⟩ := loads_ptn.ok tm st
    refine ⟨_, ?_, h1, h2⟩
    simp only [saveBehavior, collectFromBehavior, renBehavior, collect, invariantMalformed, loadOverridden, Option.isSome_some, Option.isSome_none,
      Bool.and_self, bne_self_eq_false, Bool.or_self, Option.getD_some]
    rw [← h3]
    rfl
  | invariantExpr t tm fp loc =>
    obtain ⟨h1, h2, h3⟩ := (loads_pair (loads_overridden prev fp) loads_ptn).ok (tm, t) st
    simp only [Prod.mk.injEq] at h3
    refine ⟨_, ?_, h1, ⟨h2.2, h2.1⟩⟩
    simp only [saveBehavior, collectFromBehavior, renBehavior, collect, overridden_ren, invariantMalformed, Option.isSome_some, Option.isSome_none,
      Bool.and_self, bne_self_eq_false, Bool.or_self]
    rw [← h3.1, ← h3.2]
    rfl
  | fromValue ty s loc k =>
    obtain ⟨h1, h2, h3⟩ := (loads_pair loads_ptn (loads_opt loads_state)).ok (ty, s) st
    simp only [Prod.mk.injEq] at h3
    refine ⟨_, ?_, h1, h2⟩
    simp only [saveBehavior, collectFromBehavior, renBehavior, collect, loadOpt_map]
    rw [← h3.1, ← h3.2]
  | argBinding usr slot t cr s loc =>
    obtain ⟨h1, h2, h3⟩ := (loads_opt loads_state).ok s st
    refine ⟨_, ?_, h1, h2⟩
    simp only [saveBehavior, collectFromBehavior, renBehavior, collect, loadOpt_map]
    rw [← h3]
  | abortIfEqual f1 l1 f2 l2 =>
    obtain ⟨h1, h2, h3⟩ := (loads_pair loads_parse loads_parse).ok (f1, f2) st
    simp only [Prod.mk.injEq] at h3
    refine ⟨_, ?_, h1, h2⟩
    simp only [saveBehavior, collectFromBehavior, renBehavior, collect]
    rw [← h3.1, ← h3.2]
  | returned usr t s loc =>
    obtain ⟨h1, h2, h3⟩ := loads_state.ok s st
    refine ⟨_, ?_, h1, h2⟩
    simp only [saveBehavior, collectFromBehavior, renBehavior, collect, Option.getD_some]
    rw [← h3]
  | onExit ctor late =>
    obtain ⟨h1, h2, h3⟩ := (loads_pair (loads_list loads_init) (loads_list loads_init)).ok (ctor, late) st
    simp only [Prod.mk.injEq] at h3
    refine ⟨_, ?_, h1, h2⟩
    simp only [saveBehavior, collectFromBehavior, renBehavior, collect, loadList_map]
    rw [← h3.1, ← h3.2]

theorem slotConstraints_ren (fp : String → Nat → Nat) (prev : Previous) (σ : Nat → Nat) (slots : List InferableSlot) :
    slotConstraints fp prev (slots.map (renSlot σ)) = ren σ (slotConstraints fp prev slots) := by
  have gen : ∀ (slots : List InferableSlot) (f : Formula),
      (slots.map (renSlot σ)).foldl (fun con i =>
        let nullable := if prev.nullable.contains (fp i.usr i.slot) then i.sym.isNullable else .not i.sym.isNullable
        let nonnull := if prev.nonnull.contains (fp i.usr i.slot) then i.sym.isNonnull else .not i.sym.isNonnull
        .and con (.and nullable nonnull)) (ren σ f) = ren σ (slots.foldl (fun con i =>
        let nullable := if prev.nullable.contains (fp i.usr i.slot) then i.sym.isNullable else .not i.sym.isNullable
        let nonnull := if prev.nonnull.contains (fp i.usr i.slot) then i.sym.isNonnull else .not i.sym.isNonnull
        .and con (.and nullable nonnull)) f) := by
    intro slots
    induction slots with
    | nil => intro f; rfl
    | cons i slots ih =>
      intro f
      rw [List.map_cons, List.foldl_cons, List.foldl_cons, ← ih]
      congr 1
      simp only [ren]
      congr 2
      · by_cases hp : prev.nullable.contains (fp i.usr i.slot) = true
        · rw [if_pos hp, if_pos (show prev.nullable.contains (fp (renSlot σ i).usr (renSlot σ i).slot) = true from hp)]; rfl
        · rw [if_neg hp, if_neg (show ¬ prev.nullable.contains (fp (renSlot σ i).usr (renSlot σ i).slot) = true from hp)]; rfl
      · by_cases hp : prev.nonnull.contains (fp i.usr i.slot) = true
        · rw [if_pos hp, if_pos (show prev.nonnull.contains (fp (renSlot σ i).usr (renSlot σ i).slot) = true from hp)]; rfl
        · rw [if_neg hp, if_neg (show ¬ prev.nonnull.contains (fp (renSlot σ i).usr (renSlot σ i).slot) = true from hp)]; rfl
  exact gen slots (.lit true)

theorem slotConstraints_dom (fp : String → Nat → Nat) (prev : Previous) (m : List (Nat × Nat)) (slots : List InferableSlot)
    (h : ∀ i ∈ slots, SlotDom m i) : FDom m (slotConstraints fp prev slots) := by
  have gen : ∀ (slots : List InferableSlot) (f : Formula), FDom m f → (∀ i ∈ slots, SlotDom m i) →
      FDom m (slots.foldl (fun con i =>
        let nullable := if prev.nullable.contains (fp i.usr i.slot) then i.sym.isNullable else .not i.sym.isNullable
        let nonnull := if prev.nonnull.contains (fp i.usr i.slot) then i.sym.isNonnull else .not i.sym.isNonnull
        .and con (.and nullable nonnull)) f) := by
    intro slots
    induction slots with
    | nil => intro f hf _; exact hf
    | cons i slots ih =>
      intro f hf hs
      rw [List.foldl_cons]
      refine ih _ (fdom_and hf (fdom_and ?_ ?_)) (fun j hj => hs j (List.mem_cons_of_mem _ hj))
      · have := fdom_isNullable (s := i.sym) (hs i (by simp)); split <;> exact this
      · have := fdom_isNonnull (s := i.sym) (hs i (by simp)); split <;> exact this
  exact gen slots _ (fdom_lit _ _) h

theorem collectLoop_saved {s s' : Solver} (hs : s.Complete) (hs' : s'.Complete) {c c' : Ctx} {used : List Atom} {st0 : LoadSt}
    (himg : ∀ st', St.WF st' → Ext st0 st' → ∀ T ∈ used, Dom st'.map T → Image c c' T st'.map)
    (fp : String → Nat → Nat) (prev : Previous) (limit : Nat → Bool) (slots : List InferableSlot)
    (hslots : ∀ i ∈ slots, SlotDom st0.map i) (bs : List (Atom × Behavior)) :
    (∀ b ∈ bs, b.1 ∈ used) → (∀ n < bs.length, limit n = false) → ∀ st, St.WF st → Ext st0 st →
    collectLoop s' c' (slots.map (renSlot (sub st0.map))) (slotConstraints fp prev (slots.map (renSlot (sub st0.map)))) prev limit
      (bs.map (fun b => ⟨b.1, some (saveBehavior b.2)⟩)) st = (collectDirect s c fp prev slots bs, true) := by
  induction bs with
  | nil => intro _ _ st _ _; rfl
  | cons b bs ih =>
    intro hu hl st w he
    obtain ⟨a1, a2, a3⟩ := getAtom_spec b.1 st
    generalize hA : getAtom b.1 st = A at a1 a2 a3
    obtain ⟨st', hcol, hst, hbd⟩ := collectFromBehavior_saved ⟨s', c', A.1⟩ (slots.map (renSlot (sub st0.map)))
      (slotConstraints fp prev (slots.map (renSlot (sub st0.map)))) prev b.2 A.2
    have w' : St.WF st' := hst.1 (a1.1 w)
    have he' : Ext st0 st' := he.trans (a1.2.trans hst.2)
    have hTd : Dom st'.map b.1 := hst.2.dom a2
    have himg' := himg st' w' he' b.1 (hu b (by simp)) hTd
    have hT : A.1 = sub st'.map b.1 := by rw [hst.2.sub a2]; exact a3
    have hsl : ∀ i ∈ slots, SlotDom st'.map i := fun i hi => (loads_slot.ext i st0 st' he' (hslots i hi)).1
    have hren : slots.map (renSlot (sub st0.map)) = slots.map (renSlot (sub st'.map)) :=
      List.map_congr_left fun i hi => ((loads_slot.ext i st0 st' he' (hslots i hi)).2).symm
    have hsame : Same ⟨s, c, b.1⟩ ⟨s', c', A.1⟩ st'.map := by
      rw [hT]
      exact ⟨fun f hf => proves_image hs hs' w' himg' f hf, fun f hf => allows_image hs hs' w' himg' f hf⟩
    have hev : collect ⟨s', c', A.1⟩ (slots.map (renSlot (sub st0.map))) (slotConstraints fp prev (slots.map (renSlot (sub st0.map)))) prev
        (renBehavior (sub st'.map) b.2) = collect ⟨s, c, b.1⟩ slots (slotConstraints fp prev slots) prev b.2 := by
      rw [hren, slotConstraints_ren]
      exact collect_ren hsame (slotConstraints_dom fp prev _ slots hsl) hsl prev b.2 hbd
    simp only [List.map_cons, collectLoop]
    rw [hA, hcol, hev]
    simp only [List.length_map]
    rw [hl bs.length (by simp)]
    simp only [Bool.false_eq_true, if_false]
    rw [ih (fun x hx => hu x (List.mem_cons_of_mem _ hx)) (fun n hn => hl n (by simp; omega)) st' w' he']
    rfl

/-- C126: collecting evidence from a saved and reloaded summary gives exactly the evidence that the analysis itself would
give, in the same order, whatever the atom numbers were, in every round (for all previous inferences). -/
theorem summary_lossless (s s' : Solver) (hs : s.Complete) (hs' : s'.Complete) (c : Ctx) (lc : LogicalContext)
    (slots : List InferableSlot) (bs : List (Atom × Behavior)) (hx : Exported c (bs.map Prod.fst) lc)
    (fp : String → Nat → Nat) (prev : Previous) (limit : Nat → Bool) (hl : ∀ n < bs.length, limit n = false) :
    collectEvidenceFromSummary s' fp prev limit (summarize slots lc bs) = (collectDirect s c fp prev slots bs, true) := by
  have w0 : St.WF ⟨0, []⟩ := ⟨fun n a h => by simp at h, fun n k a h => by simp at h⟩
  obtain ⟨c1, c2⟩ := loadCtx_image hx ⟨0, []⟩
  obtain ⟨l1, l2, l3⟩ := (loads_list loads_slot).ok slots (loadCtx lc ⟨0, []⟩).2
  simp only [collectEvidenceFromSummary, summarize, loadList_map]
  rw [l3]
  exact collectLoop_saved hs hs' (fun st' w' he T hT hd => c2 st' w' (l1.2.trans he) T hT hd) fp prev limit slots l2 bs
    (fun b hb => List.mem_map_of_mem hb) hl _ (l1.1 (c1.1 w0)) (Ext.refl _)

end Verif.Infer

import Verif.Infer.Spec
import Verif.NullFlow.Verdict
/- Loading a saved summary renames atoms injectively (C126). -/
namespace Verif.Infer
open Verif.NullFlow (Formula Ctx Solver NullState Source Run Reach)

local notation "Atom" => Nat

/-- Renaming the atoms of a formula. -/
def ren (σ : Nat → Nat) : Formula → Formula
  | .atom a => .atom (σ a)
  | .lit b => .lit b
  | .not f => .not (ren σ f)
  | .and f g => .and (ren σ f) (ren σ g)
  | .or f g => .or (ren σ f) (ren σ g)
  | .implies f g => .implies (ren σ f) (ren σ g)
  | .equals f g => .equals (ren σ f) (ren σ g)

theorem eval_ren (σ : Nat → Nat) (ρ : Nat → Bool) (f : Formula) : (ren σ f).eval ρ = f.eval (fun a => ρ (σ a)) := by
  induction f <;> simp_all [ren, Formula.eval]

theorem eval_congr (f : Formula) (ρ ρ' : Nat → Bool) (h : ∀ a ∈ f.atoms, ρ a = ρ' a) : f.eval ρ = f.eval ρ' := by
  induction f with
  | atom a => exact h a (by simp [Formula.atoms])
  | lit b => rfl
  | not f ih => simp only [Formula.eval]; rw [ih h]
  | and f g ihf ihg =>
    simp only [Formula.eval]; rw [ihf fun a ha => h a (by simp [Formula.atoms, ha]), ihg fun a ha => h a (by simp [Formula.atoms, ha])]
  | or f g ihf ihg =>
    simp only [Formula.eval]; rw [ihf fun a ha => h a (by simp [Formula.atoms, ha]), ihg fun a ha => h a (by simp [Formula.atoms, ha])]
  | implies f g ihf ihg =>
    simp only [Formula.eval]; rw [ihf fun a ha => h a (by simp [Formula.atoms, ha]), ihg fun a ha => h a (by simp [Formula.atoms, ha])]
  | equals f g ihf ihg =>
    simp only [Formula.eval]; rw [ihf fun a ha => h a (by simp [Formula.atoms, ha]), ihg fun a ha => h a (by simp [Formula.atoms, ha])]

theorem ren_congr (f : Formula) (σ τ : Nat → Nat) (h : ∀ a ∈ f.atoms, σ a = τ a) : ren σ f = ren τ f := by
  induction f with
  | atom a => simp [ren, h a (by simp [Formula.atoms])]
  | lit b => rfl
  | not f ih => simp only [ren]; rw [ih h]
  | and f g ihf ihg =>
    simp only [ren]; rw [ihf fun a ha => h a (by simp [Formula.atoms, ha]), ihg fun a ha => h a (by simp [Formula.atoms, ha])]
  | or f g ihf ihg =>
    simp only [ren]; rw [ihf fun a ha => h a (by simp [Formula.atoms, ha]), ihg fun a ha => h a (by simp [Formula.atoms, ha])]
  | implies f g ihf ihg =>
    simp only [ren]; rw [ihf fun a ha => h a (by simp [Formula.atoms, ha]), ihg fun a ha => h a (by simp [Formula.atoms, ha])]
  | equals f g ihf ihg =>
    simp only [ren]; rw [ihf fun a ha => h a (by simp [Formula.atoms, ha]), ihg fun a ha => h a (by simp [Formula.atoms, ha])]

/-- The map as a function. -/
def sub (m : List (Nat × Nat)) (n : Nat) : Nat := (AMap.get? m n).getD 0

/-- `n` is in the map. -/
def Dom (m : List (Nat × Nat)) (n : Nat) : Prop := (AMap.get? m n).isSome = true

/-- Different numbers get different atoms, all made by this arena. -/
structure St.WF (st : LoadSt) : Prop where
  lt : ∀ n a, AMap.get? st.map n = some a → a < st.next
  inj : ∀ n k a, AMap.get? st.map n = some a → AMap.get? st.map k = some a → n = k

/-- `st'` extends `st`. -/
def Ext (st st' : LoadSt) : Prop := ∀ n a, AMap.get? st.map n = some a → AMap.get? st'.map n = some a

theorem Ext.refl (st : LoadSt) : Ext st st := fun _ _ h => h
theorem Ext.trans {a b c : LoadSt} (h : Ext a b) (g : Ext b c) : Ext a c := fun n x hx => g n x (h n x hx)
theorem Ext.dom {a b : LoadSt} (h : Ext a b) {n : Nat} (hn : Dom a.map n) : Dom b.map n := by
  unfold Dom at *
  obtain ⟨x, hx⟩ := Option.isSome_iff_exists.mp hn
  simp [h n x hx]
theorem Ext.sub {a b : LoadSt} (h : Ext a b) {n : Nat} (hn : Dom a.map n) : sub b.map n = sub a.map n := by
  unfold Dom at *
  obtain ⟨x, hx⟩ := Option.isSome_iff_exists.mp hn
  simp [Infer.sub, h n x hx, hx]

/-- Every atom of the formula is in the map. -/
def FDom (m : List (Nat × Nat)) (f : Formula) : Prop := ∀ a ∈ f.atoms, Dom m a
theorem Ext.fdom {a b : LoadSt} (h : Ext a b) {f : Formula} (hf : FDom a.map f) : FDom b.map f :=
  fun x hx => h.dom (hf x hx)
theorem Ext.ren {a b : LoadSt} (h : Ext a b) {f : Formula} (hf : FDom a.map f) : ren (Infer.sub b.map) f = ren (Infer.sub a.map) f :=
  ren_congr f _ _ (fun x hx => h.sub (hf x hx))

/-- A loading function: it keeps the map well-formed and extends it. -/
def Step (st st' : LoadSt) : Prop := (St.WF st → St.WF st') ∧ Ext st st'

theorem Step.refl (st : LoadSt) : Step st st := ⟨id, Ext.refl _⟩
theorem Step.trans {a b c : LoadSt} (h : Step a b) (g : Step b c) : Step a c := ⟨fun w => g.1 (h.1 w), h.2.trans g.2⟩

theorem insert_step (n : Nat) (st : LoadSt) (h : AMap.get? st.map n = none) :
    Step st { next := st.next + 1, map := AMap.insert st.map n st.next } := by
  refine ⟨fun w => ⟨fun k a hk => ?_, fun k l a hk hl => ?_⟩, fun k a hk => ?_⟩
  · simp only [AMap.get?_insert] at hk
    split at hk
    · have := Option.some.inj hk; simp; omega
    · have := w.lt k a hk; simp; omega
  · simp only [AMap.get?_insert] at hk hl
    split at hk <;> split at hl
    · omega
    · have h1 := Option.some.inj hk; have := w.lt l a hl; omega
    · have h1 := Option.some.inj hl; have := w.lt k a hk; omega
    · exact w.inj k l a hk hl
  · simp only [AMap.get?_insert]
    split
    · subst_vars; rw [h] at hk; exact absurd hk (by simp)
    · exact hk

theorem getAtom_spec (n : Nat) (st : LoadSt) :
    Step st (getAtom n st).2 ∧ Dom (getAtom n st).2.map n ∧ (getAtom n st).1 = sub (getAtom n st).2.map n := by
  unfold getAtom
  cases h : AMap.get? st.map n with
  | some a =>
    refine ⟨⟨fun w => ⟨fun k b hk => ?_, w.inj⟩, fun k b hk => hk⟩, by simp [Dom, h], by simp [sub, h]⟩
    have := w.lt k b hk; simp; omega
  | none => exact ⟨insert_step n st h, by simp [Dom, AMap.get?_insert], by simp [sub, AMap.get?_insert]⟩

theorem parse_spec (f : Formula) : ∀ st : LoadSt,
    Step st (parse f st).2 ∧ FDom (parse f st).2.map f ∧ (parse f st).1 = ren (sub (parse f st).2.map) f := by
  have bin : ∀ (f g : Formula) (st : LoadSt),
      (∀ st : LoadSt, Step st (parse f st).2 ∧ FDom (parse f st).2.map f ∧ (parse f st).1 = ren (sub (parse f st).2.map) f) →
      (∀ st : LoadSt, Step st (parse g st).2 ∧ FDom (parse g st).2.map g ∧ (parse g st).1 = ren (sub (parse g st).2.map) g) →
      Step st (parse g (parse f st).2).2 ∧ (∀ a ∈ f.atoms ++ g.atoms, Dom (parse g (parse f st).2).2.map a) ∧
      (parse f st).1 = ren (sub (parse g (parse f st).2).2.map) f ∧
      (parse g (parse f st).2).1 = ren (sub (parse g (parse f st).2).2.map) g := by
    intro f g st hf hg
    obtain ⟨s1, d1, e1⟩ := hf st
    obtain ⟨s2, d2, e2⟩ := hg (parse f st).2
    refine ⟨s1.trans s2, fun a ha => ?_, ?_, e2⟩
    · rcases List.mem_append.mp ha with h | h
      · exact s2.2.dom (d1 a h)
      · exact d2 a h
    · rw [s2.2.ren d1]; exact e1
  induction f with
  | atom n =>
    intro st
    simp only [parse]
    cases h : AMap.get? st.map n with
    | some a => exact ⟨Step.refl _, by intro x hx; simp [Formula.atoms] at hx; subst hx; simp [Dom, h], by simp [ren, sub, h]⟩
    | none =>
      exact ⟨insert_step n st h, by intro x hx; simp [Formula.atoms] at hx; subst hx; simp [Dom, AMap.get?_insert],
        by simp [ren, sub, AMap.get?_insert]⟩
  | lit b => intro st; exact ⟨Step.refl _, by intro x hx; simp [Formula.atoms] at hx, rfl⟩
  | not f ih =>
    intro st
    obtain ⟨s1, d1, e1⟩ := ih st
    exact ⟨s1, d1, by simp only [parse, ren]; rw [e1]⟩
  | and f g ihf ihg =>
    intro st
    obtain ⟨h1, h2, h3, h4⟩ := bin f g st ihf ihg
    exact ⟨h1, h2, by simp only [parse, ren]; rw [← h3, ← h4]⟩
  | or f g ihf ihg =>
    intro st
    obtain ⟨h1, h2, h3, h4⟩ := bin f g st ihf ihg
    exact ⟨h1, h2, by simp only [parse, ren]; rw [← h3, ← h4]⟩
  | implies f g ihf ihg =>
    intro st
    obtain ⟨h1, h2, h3, h4⟩ := bin f g st ihf ihg
    exact ⟨h1, h2, by simp only [parse, ren]; rw [← h3, ← h4]⟩
  | equals f g ihf ihg =>
    intro st
    obtain ⟨h1, h2, h3, h4⟩ := bin f g st ihf ihg
    exact ⟨h1, h2, by simp only [parse, ren]; rw [← h3, ← h4]⟩

/-! What loading each part gives: `Loads ld r dom` says that loading `a` gives `r σ a` for the final map `σ`, with the atoms
of `a` in the map. -/
structure Loads {α β : Type} (ld : α → LoadSt → β × LoadSt) (r : (Nat → Nat) → α → β) (dom : List (Nat × Nat) → α → Prop) : Prop where
  ok : ∀ a st, Step st (ld a st).2 ∧ dom (ld a st).2.map a ∧ (ld a st).1 = r (sub (ld a st).2.map) a
  ext : ∀ a st st', Ext st st' → dom st.map a → dom st'.map a ∧ r (sub st'.map) a = r (sub st.map) a

theorem loads_getAtom : Loads getAtom (fun σ n => σ n) Dom :=
  ⟨fun n st => getAtom_spec n st, fun _ _ _ h hd => ⟨h.dom hd, h.sub hd⟩⟩

theorem loads_parse : Loads parse ren FDom := ⟨parse_spec, fun _ _ _ h hd => ⟨h.fdom hd, h.ren hd⟩⟩

theorem loads_opt {α β : Type} {ld : α → LoadSt → β × LoadSt} {r : (Nat → Nat) → α → β} {dom : List (Nat × Nat) → α → Prop}
    (h : Loads ld r dom) : Loads (loadOpt ld) (fun σ o => o.map (r σ)) (fun m o => ∀ a, o = some a → dom m a) := by
  refine ⟨fun o st => ?_, fun o st st' he hd => ?_⟩
  · cases o with
    | none => exact ⟨Step.refl _, by simp, rfl⟩
    | some a =>
      obtain ⟨h1, h2, h3⟩ := h.ok a st
      exact ⟨h1, fun b hb => by cases hb; exact h2, by simp only [loadOpt, Option.map]; rw [← h3]⟩
  · cases o with
    | none => exact ⟨by simp, rfl⟩
    | some a =>
      obtain ⟨h1, h2⟩ := h.ext a st st' he (hd a rfl)
      exact ⟨fun b hb => by cases hb; exact h1, by simp only [Option.map]; rw [h2]⟩

theorem loads_list {α β : Type} {ld : α → LoadSt → β × LoadSt} {r : (Nat → Nat) → α → β} {dom : List (Nat × Nat) → α → Prop}
    (h : Loads ld r dom) : Loads (loadList ld) (fun σ l => l.map (r σ)) (fun m l => ∀ a ∈ l, dom m a) := by
  have hext : ∀ (l : List α) (st st' : LoadSt), Ext st st' → (∀ a ∈ l, dom st.map a) →
      (∀ a ∈ l, dom st'.map a) ∧ l.map (r (sub st'.map)) = l.map (r (sub st.map)) := by
    intro l st st' he hd
    exact ⟨fun a ha => (h.ext a st st' he (hd a ha)).1, List.map_congr_left fun a ha => (h.ext a st st' he (hd a ha)).2⟩
  refine ⟨fun l => ?_, hext⟩
  induction l with
  | nil => intro st; exact ⟨Step.refl _, by simp, rfl⟩
  | cons a l ih =>
    intro st
    obtain ⟨h1, h2, h3⟩ := h.ok a st
    obtain ⟨g1, g2, g3⟩ := ih (ld a st).2
    obtain ⟨k1, k2⟩ := h.ext a _ _ g1.2 h2
    refine ⟨h1.trans g1, ?_, ?_⟩
    · intro b hb
      rcases List.mem_cons.mp hb with rfl | hb
      · exact k1
      · exact g2 b hb
    · simp only [loadList, List.map_cons]
      rw [k2, ← h3, ← g3]

/-- Loading two things in a row. -/
theorem loads_pair {α β γ δ : Type} {ld : α → LoadSt → β × LoadSt} {r : (Nat → Nat) → α → β} {dom : List (Nat × Nat) → α → Prop}
    {ld' : γ → LoadSt → δ × LoadSt} {r' : (Nat → Nat) → γ → δ} {dom' : List (Nat × Nat) → γ → Prop}
    (h : Loads ld r dom) (h' : Loads ld' r' dom') :
    Loads (fun (p : α × γ) st => let a := ld p.1 st; let b := ld' p.2 a.2; ((a.1, b.1), b.2))
      (fun σ p => (r σ p.1, r' σ p.2)) (fun m p => dom m p.1 ∧ dom' m p.2) := by
  refine ⟨fun p st => ?_, fun p st st' he hd => ?_⟩
  · obtain ⟨h1, h2, h3⟩ := h.ok p.1 st
    obtain ⟨g1, g2, g3⟩ := h'.ok p.2 (ld p.1 st).2
    obtain ⟨k1, k2⟩ := h.ext p.1 _ _ g1.2 h2
    exact ⟨h1.trans g1, ⟨k1, g2⟩, by simp only; rw [k2, ← h3, ← g3]⟩
  · obtain ⟨h1, h2⟩ := h.ext p.1 st st' he hd.1
    obtain ⟨g1, g2⟩ := h'.ext p.2 st st' he hd.2
    exact ⟨⟨h1, g1⟩, by rw [h2, g2]⟩

/-- Converting the input and the output of a loading function. -/
theorem loads_map {α β γ δ : Type} {ld : α → LoadSt → β × LoadSt} {r : (Nat → Nat) → α → β} {dom : List (Nat × Nat) → α → Prop}
    (h : Loads ld r dom) (f : γ → α) (g : γ → β → δ) :
    Loads (fun c st => (g c (ld (f c) st).1, (ld (f c) st).2)) (fun σ c => g c (r σ (f c))) (fun m c => dom m (f c)) := by
  refine ⟨fun c st => ?_, fun c st st' he hd => ?_⟩
  · obtain ⟨h1, h2, h3⟩ := h.ok (f c) st
    exact ⟨h1, h2, by simp only; rw [← h3]⟩
  · obtain ⟨h1, h2⟩ := h.ext (f c) st st' he hd
    exact ⟨h1, by rw [h2]⟩

end Verif.Infer

import Verif.CallOrder.Order

/-!
# Lifetime analysis of a call graph: what does not depend on the order
-/

namespace Verif.CallOrder

variable {L E : Type}

/-! ## Only functions that are reached -/

/-- Everything that has a result or is being visited has `R`. -/
def Within (R : Nat → Prop) (s : St L E) : Prop :=
  (∀ g, (s.analyzed g).isSome = true → R g) ∧ ∀ g ∈ funcs s.visited, R g

theorem mem_funcs_take {v : List Entry} {n g : Nat} (h : g ∈ funcs (v.take n)) : g ∈ funcs v := by
  simp only [funcs, List.mem_map] at h ⊢
  obtain ⟨e, he, h⟩ := h
  exact ⟨e, List.mem_of_mem_take he, h⟩

theorem mem_funcs_drop {v : List Entry} {n g : Nat} (h : g ∈ funcs (v.drop n)) : g ∈ funcs v := by
  simp only [funcs, List.mem_map] at h ⊢
  obtain ⟨e, he, h⟩ := h
  exact ⟨e, List.mem_of_mem_drop he, h⟩

theorem Within.set {R : Nat → Prop} {a : Results L E} (h : ∀ g, (a g).isSome = true → R g) {f : Nat} (hf : R f)
    (r : Res L E) : ∀ g, (a.set f r g).isSome = true → R g := by
  intro g hg
  by_cases hgf : g = f
  · rw [hgf]; exact hf
  · simp only [Results.set, hgf, if_false] at hg
    exact h g hg

theorem finish_within {R : Nat → Prop} (p : Prog L E) (k f : Nat) (s : St L E) (hf : R f) (h : Within R s) :
    Within R (finish p k f s) := by
  unfold finish
  simp only
  split
  · exact h
  · split
    · exact ⟨Within.set h.1 hf _, fun g hg => h.2 g (mem_funcs_drop hg)⟩
    · refine ⟨fun g hg => ?_, fun g hg => h.2 g (mem_funcs_drop hg)⟩
      by_cases hm : g ∈ ((s.visited.take (s.visited.length - k)).reverse.map (·.func))
      · refine h.2 g (mem_funcs_take (n := s.visited.length - k) ?_)
        simpa [funcs] using hm
      · simp only at hg
        rw [analyzeGroup_outside p _ _ g hm] at hg
        exact h.1 g hg

theorem foldlM_within {R : Nat → Prop} {f : St L E → Nat → Option (St L E)} (Q : Nat → Prop)
    (hf : ∀ s c r, Q c → f s c = some r → Within R s → Within R r) : ∀ (cs : List Nat) (s r : St L E), (∀ c ∈ cs, Q c) →
    cs.foldlM f s = some r → Within R s → Within R r
  | [], s, r, _, h, hs => by
      simp only [List.foldlM_nil, pure, Option.some.injEq] at h
      subst h
      exact hs
  | c :: cs, s, r, hq, h, hs => by
      simp only [List.foldlM_cons, Option.bind_eq_bind, Option.bind_eq_some_iff] at h
      obtain ⟨s1, h1, h2⟩ := h
      exact foldlM_within Q hf cs s1 r (fun c h => hq c (List.mem_cons_of_mem _ h)) h2 (hf s c s1 (hq c (by simp)) h1 hs)

theorem go_within {R : Nat → Prop} (p : Prog L E) (hR : ∀ f g, R f → p.Calls f g → R g) : ∀ n (s : St L E) f s',
    (p.builtin f = false → R f) → go p n s f = some s' → Within R s → Within R s' := by
  intro n
  induction n with
  | zero => intro s f s' _ h; simp [go] at h
  | succ n ih =>
      intro s f s' hf h hw
      simp only [go] at h
      split at h
      · simp only [Option.some.injEq] at h; subst h; exact hw
      · rename_i hb
        have hb : p.builtin f = false := by simpa using hb
        have hf := hf hb
        split at h
        · simp only [Option.some.injEq] at h; subst h
          exact ⟨Within.set hw.1 hf _, hw.2⟩
        · rename_i hd
          split at h
          · simp only [Option.some.injEq] at h; subst h; exact hw
          · rename_i ha
            have hna : s.analyzed f = none := by simpa using ha
            have hdef : p.defined f = true := by
              by_contra hne
              exact hd ⟨by simpa using hne, by rw [hna]; rfl⟩
            split at h
            · rename_i v hv
              simp only [Option.some.injEq] at h; subst h
              refine ⟨hw.1, ?_⟩
              simp only
              rw [(mark_some hv).1.funcs]
              exact hw.2
            · split at h
              · simp only [Option.some.injEq] at h; subst h
                exact ⟨Within.set hw.1 hf _, hw.2⟩
              · rename_i cs hcs
                simp only [Option.map_eq_some_iff] at h
                obtain ⟨t, ht, rfl⟩ := h
                refine finish_within p _ f t hf ?_
                refine foldlM_within (fun c => p.builtin c = false → R c) ?_ cs _ t ?_ ht ?_
                · intro s c r hc h hs
                  split at h
                  · simp only [Option.some.injEq] at h; subst h; exact hs
                  · exact ih s c r hc h hs
                · intro c hc hcb
                  exact hR f c hf ⟨hb, hdef, ⟨cs, hcs, hc⟩, hcb⟩
                · refine ⟨hw.1, fun g hg => ?_⟩
                  simp only [funcs, List.map_cons, List.mem_cons] at hg
                  rcases hg with rfl | hg
                  · exact hf
                  · exact hw.2 g hg

/-- A function has a result exactly if it is asked for or reached, and is not a builtin. -/
theorem result_iff {p : Prog L E} (hl : p.Local) {fuel : Nat} {fs : List Nat} {s : St L E}
    (h : analyzeAll p fuel fs = some s) (f : Nat) :
    (s.analyzed f).isSome = true ↔ p.builtin f = false ∧ (f ∈ fs ∨ ∃ g ∈ fs, p.Reaches g f) := by
  have snoc : ∀ {a b c}, p.Reaches a b → p.Calls b c → p.Reaches a c := by
    intro a b c h h'
    induction h with
    | one h => exact .step h (.one h')
    | step h _ ih => exact .step h (ih h')
  constructor
  · intro hs
    have hw : Within (fun f => f ∈ fs ∨ ∃ g ∈ fs, p.Reaches g f) s := by
      refine foldlM_within (fun c => c ∈ fs) ?_ fs _ s (fun c h => h) h ⟨by simp, by simp [funcs]⟩
      intro s c r hc h hs
      refine go_within p ?_ fuel s c r (fun _ => .inl hc) h hs
      rintro a b (ha | ⟨g, hg, hr⟩) hab
      · exact .inr ⟨a, ha, .one hab⟩
      · exact .inr ⟨g, hg, snoc hr hab⟩
    refine ⟨?_, hw.1 f hs⟩
    obtain ⟨hi, -, -, -⟩ := fold_post hl fuel fs _ s (Inv.start p) rfl h
    by_contra hb
    rw [hi.notBuiltin f (by simpa using hb)] at hs
    simp at hs
  · rintro ⟨hb, hf⟩
    obtain ⟨-, -, h1, h2⟩ := handled_all hl h
    exact (h1 f).2 (h2 f hb hf)

/-! ## Without recursion -/

/-- The same program, with the callees of functions listed in another order, or more than once. -/
structure Reordered (p q : Prog L E) : Prop where
  builtin : q.builtin = p.builtin
  defined : q.defined = p.defined
  annotated : q.annotated = p.annotated
  single : q.single = p.single
  ok : ∀ f cs, p.callees f = .ok cs → ∃ ds, q.callees f = .ok ds ∧ ∀ g, g ∈ ds ↔ g ∈ cs
  err : ∀ f e, p.callees f = .err e → q.callees f = .err e

theorem Reordered.calls {p q : Prog L E} (h : Reordered p q) (f g : Nat) : q.Calls f g ↔ p.Calls f g := by
  unfold Prog.Calls
  rw [h.builtin, h.defined]
  constructor
  · rintro ⟨h1, h2, ⟨cs, h3, h4⟩, h5⟩
    cases hp : p.callees f with
    | err e => rw [h.err f e hp] at h3; cases h3
    | ok ds =>
        obtain ⟨cs', h6, h7⟩ := h.ok f ds hp
        rw [h3] at h6
        cases h6
        exact ⟨h1, h2, ⟨ds, rfl, (h7 g).1 h4⟩, h5⟩
  · rintro ⟨h1, h2, ⟨cs, h3, h4⟩, h5⟩
    obtain ⟨ds, h6, h7⟩ := h.ok f cs h3
    exact ⟨h1, h2, ⟨ds, h6, (h7 g).2 h4⟩, h5⟩

theorem Reordered.reaches {p q : Prog L E} (h : Reordered p q) (f g : Nat) : q.Reaches f g ↔ p.Reaches f g := by
  constructor
  · intro hr
    induction hr with
    | one h' => exact .one ((h.calls _ _).1 h')
    | step h' _ ih => exact .step ((h.calls _ _).1 h') ih
  · intro hr
    induction hr with
    | one h' => exact .one ((h.calls _ _).2 h')
    | step h' _ ih => exact .step ((h.calls _ _).2 h') ih

theorem Reordered.local {p q : Prog L E} (h : Reordered p q) (hl : p.Local) : q.Local := by
  intro f cs A B hcs hab
  rw [h.single]
  cases hp : p.callees f with
  | err e => rw [h.err f e hp] at hcs; cases hcs
  | ok ds =>
      obtain ⟨cs', h6, h7⟩ := h.ok f ds hp
      rw [hcs] at h6
      cases h6
      exact hl f ds A B hp fun g hg => hab g ((h7 g).2 hg)

/-- What a result is, without groups. -/
theorem result_eq {p : Prog L E} (hl : p.Local) {fuel : Nat} {fs : List Nat} {s : St L E}
    (h : analyzeAll p fuel fs = some s) (hr : ∀ f, (f ∈ fs ∨ ∃ g ∈ fs, p.Reaches g f) → ¬ p.Reaches f f) {f : Nat}
    (hf : (s.analyzed f).isSome = true) :
    s.analyzed f = some (if p.defined f = false then p.annotated f else match p.callees f with
      | .err e => .err e
      | .ok _ => p.single f s.analyzed) := by
  obtain ⟨hi, -, -, -⟩ := fold_post hl fuel fs _ s (Inv.start p) rfl h
  obtain ⟨e, he, hfe⟩ := List.mem_flatMap.1 ((hi.handledIff f).1 hf)
  have hs := hi.sound e he
  cases e with
  | declared f' =>
      simp only [Event.members, List.mem_singleton] at hfe
      subst hfe
      rw [if_pos hs.1]; exact hs.2
  | noCallees f' =>
      simp only [Event.members, List.mem_singleton] at hfe
      subst hfe
      obtain ⟨h1, e, h2, h3⟩ := hs
      rw [if_neg (by simp [h1]), h2]; exact h3
  | alone f' =>
      simp only [Event.members, List.mem_singleton] at hfe
      subst hfe
      obtain ⟨h1, ⟨cs, h2⟩, h3⟩ := hs
      rw [if_neg (by simp [h1]), h2]; exact h3
  | group gs =>
      obtain ⟨f', h1, h2⟩ := hi.cyclic _ he
      have hm : f' ∈ gs := List.mem_of_mem_head? h1
      have := (result_iff hl h f').1 ((hi.handledIff f').2 (List.mem_flatMap.2 ⟨_, he, hm⟩))
      exact absurd h2 (hr f' this.2)

/-- Without recursion the results do not depend on the order of the functions, nor on that of the callees. -/
theorem order_irrelevant {p q : Prog L E} (hl : p.Local) (hpq : Reordered p q) {n m : Nat} {fs gs : List Nat} {s t : St L E}
    (hs : analyzeAll p n fs = some s) (ht : analyzeAll q m gs = some t) (hfs : ∀ f, f ∈ gs ↔ f ∈ fs)
    (hr : ∀ f, (f ∈ fs ∨ ∃ g ∈ fs, p.Reaches g f) → ¬ p.Reaches f f) : t.analyzed = s.analyzed := by
  have hlq := hpq.local hl
  have hiff : ∀ f, (t.analyzed f).isSome = true ↔ (s.analyzed f).isSome = true := by
    intro f
    rw [result_iff hl hs, result_iff hlq ht, hpq.builtin, hfs]
    simp only [hfs, hpq.reaches]
  have hr' : ∀ f, (f ∈ gs ∨ ∃ g ∈ gs, q.Reaches g f) → ¬ q.Reaches f f := by
    intro f
    simp only [hfs, hpq.reaches]
    exact hr f
  obtain ⟨hi, -, -, -⟩ := fold_post hl n fs _ s (Inv.start p) rfl hs
  have key : ∀ k, k ≤ s.log.length → ∀ f ∈ handled (s.log.take k), t.analyzed f = s.analyzed f := by
    intro k
    induction k with
    | zero => intro _ f hf; simp [handled] at hf
    | succ k ih =>
        intro hk f hf
        have hsplit : s.log = s.log.take k ++ s.log[k] :: s.log.drop (k + 1) := by
          rw [← List.drop_eq_getElem_cons (by omega), List.take_append_drop]
        rw [List.take_succ_eq_append_getElem (by omega), handled_append, List.mem_append] at hf
        rcases hf with hf | hf
        · exact ih (by omega) f hf
        · have hfe : f ∈ (s.log[k]).members := by simpa [handled] using hf
          have hmem : s.log[k] ∈ s.log := List.getElem_mem _
          have hfs' : (s.analyzed f).isSome = true := (hi.handledIff f).2 (List.mem_flatMap.2 ⟨_, hmem, hfe⟩)
          have hft : (t.analyzed f).isSome = true := (hiff f).2 hfs'
          have hfb : p.builtin f = false := ((result_iff hl hs f).1 hfs').1
          rw [result_eq hl hs hr hfs', result_eq hlq ht hr' hft, hpq.defined, hpq.annotated, hpq.single]
          by_cases hd : p.defined f = false
          · rw [if_pos hd, if_pos hd]
          · rw [if_neg hd, if_neg hd]
            cases hc : p.callees f with
            | err e => rw [hpq.err f e hc]
            | ok cs =>
                obtain ⟨ds, h6, h7⟩ := hpq.ok f cs hc
                rw [h6]
                simp only [Option.some.injEq]
                refine hl f cs _ _ hc fun g hg => ?_
                by_cases hgb : p.builtin g = true
                · have h1 : ¬ (s.analyzed g).isSome = true := fun h => by
                    have := ((result_iff hl hs g).1 h).1
                    rw [hgb] at this; simp at this
                  have h2 : ¬ (t.analyzed g).isSome = true := fun h => h1 ((hiff g).1 h)
                  simp only [Bool.not_eq_true, Option.isSome_eq_false_iff, Option.isNone_iff_eq_none] at h1 h2
                  rw [h1, h2]
                · have hcall : p.Calls f g := ⟨hfb, by simpa using hd, ⟨cs, hc, hg⟩, by simpa using hgb⟩
                  rcases hi.after _ _ _ hsplit f hfe g hcall with h | ⟨gs', hgr, hgm⟩
                  · exact ih (by omega) g h
                  · have hmem' : Event.group gs' ∈ s.log := by rw [← hgr]; exact hmem
                    obtain ⟨f', h1, h2⟩ := hi.cyclic _ hmem'
                    have hm : f' ∈ gs' := List.mem_of_mem_head? h1
                    have := (result_iff hl hs f').1
                      ((hi.handledIff f').2 (List.mem_flatMap.2 ⟨_, hmem', hm⟩))
                    exact absurd h2 (hr f' this.2)
  funext f
  by_cases hf : (s.analyzed f).isSome = true
  · exact key s.log.length (Nat.le_refl _) f (by rw [List.take_length]; exact (hi.handledIff f).1 hf)
  · have h2 : ¬ (t.analyzed f).isSome = true := fun h => hf ((hiff f).1 h)
    simp only [Bool.not_eq_true, Option.isSome_eq_false_iff, Option.isNone_iff_eq_none] at hf h2
    rw [hf, h2]

end Verif.CallOrder

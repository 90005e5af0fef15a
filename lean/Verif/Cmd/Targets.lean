import Verif.Cmd.Model

/-
Targets, headers and features (C175).
-/

namespace Verif.Cmd

variable {O : Order}

/-- What is known after some pairs of targets and headers, targets and features, and crate names -/
theorem addHeaders_spec (t : Str) : ∀ (hs : List Str) (M : Maps),
    ((∀ h ∈ hs, h ≠ []) → ∃ M', M.addHeaders O t hs = some M') ∧
    (∀ M', M.addHeaders O t hs = some M' → (∀ h ∈ hs, h ≠ []) ∧ M'.features = M.features ∧ M'.crates = M.crates ∧
      ∀ x, M'.headers x = if x ∈ hs then
          match M.headers x with
          | none => some t
          | some t' => if O.lt t t' then some t else some t'
        else M.headers x)
  | [], M => ⟨fun _ => ⟨M, rfl⟩, fun M' h => by
      cases h
      exact ⟨nofun, rfl, rfl, fun x => by simp⟩⟩
  | h :: hs, M => by
      obtain ⟨h1, h2⟩ := addHeaders_spec t hs (M.addHeader O t h)
      constructor
      · intro hn
        rw [Maps.addHeaders, if_neg (hn h (List.mem_cons_self ..))]
        exact h1 fun x hx => hn x (List.mem_cons_of_mem _ hx)
      · intro M' hM
        rw [Maps.addHeaders] at hM
        split at hM
        · cases hM
        · rename_i hne
          obtain ⟨a, b, c, d⟩ := h2 M' hM
          refine ⟨?_, b, c, fun x => ?_⟩
          · intro y hy
            rcases List.mem_cons.mp hy with rfl | hy
            · exact hne
            · exact a y hy
          · rw [d x]
            have e : (M.addHeader O t h).headers x = if x = h then
                (match M.headers h with
                | none => some t
                | some t' => if O.lt t t' then some t else some t')
              else M.headers x := rfl
            rw [e]
            by_cases hx : x = h
            · subst hx
              rw [if_pos rfl, if_pos (List.mem_cons_self ..)]
              split
              · cases M.headers x with
                | none => simp [O.irrefl]
                | some t' =>
                  simp only
                  cases hl : O.lt t t' <;> simp [O.irrefl, hl]
              · rfl
            · rw [if_neg hx]
              have : (x ∈ h :: hs) ↔ x ∈ hs := by simp [hx]
              simp only [this]

theorem addFeatures_spec (t : Str) : ∀ (fs : List Str) (M : Maps),
    ((∀ f ∈ fs, f ≠ []) → ∃ M', M.addFeatures t fs = some M') ∧
    (∀ M', M.addFeatures t fs = some M' → (∀ f ∈ fs, f ≠ []) ∧ M'.headers = M.headers ∧ M'.crates = M.crates ∧
      ∀ x f, f ∈ M'.features x ↔ f ∈ M.features x ∨ (x = t ∧ f ∈ fs))
  | [], M => ⟨fun _ => ⟨M, rfl⟩, fun M' h => by
      cases h
      exact ⟨nofun, rfl, rfl, fun x f => by simp⟩⟩
  | f :: fs, M => by
      obtain ⟨h1, h2⟩ := addFeatures_spec t fs { M with features := fun x => if x = t then f :: M.features x else M.features x }
      constructor
      · intro hn
        rw [Maps.addFeatures, if_neg (hn f (List.mem_cons_self ..))]
        exact h1 fun x hx => hn x (List.mem_cons_of_mem _ hx)
      · intro M' hM
        rw [Maps.addFeatures] at hM
        split at hM
        · cases hM
        · rename_i hne
          obtain ⟨a, b, c, d⟩ := h2 M' hM
          refine ⟨?_, b, c, fun x g => ?_⟩
          · intro y hy
            rcases List.mem_cons.mp hy with rfl | hy
            · exact hne
            · exact a y hy
          · rw [d x g]
            by_cases hx : x = t
            · simp only [hx, if_true, List.mem_cons, true_and]
              constructor
              · rintro ((h | h) | h)
                · exact .inr (.inl h)
                · exact .inl h
                · exact .inr (.inr h)
              · rintro (h | h | h)
                · exact .inl (.inr h)
                · exact .inl (.inl h)
                · exact .inr h
            · simp [hx]

/-- The least of the targets with the header `h`, and of the one in `o` -/
def Least (O : Order) (as : List Target) (o : Option Str) (h : Str) (r : Option Str) : Prop :=
  match r with
  | none => o = none ∧ ∀ t, ¬ HasHeader as t h
  | some t => (o = some t ∨ HasHeader as t h) ∧ (∀ t', HasHeader as t' h → O.lt t' t = false) ∧
      ∀ t', o = some t' → O.lt t' t = false

theorem hasHeader_cons {a : Target} {as : List Target} {t h : Str} :
    HasHeader (a :: as) t h ↔ (a.t = t ∧ h ∈ a.h) ∨ HasHeader as t h := by
  unfold HasHeader
  simp

theorem hasFeature_cons {a : Target} {as : List Target} {t f : Str} :
    HasFeature (a :: as) t f ↔ (a.t = t ∧ f ∈ a.f) ∨ HasFeature as t f := by
  unfold HasFeature
  simp

theorem addTarget_spec (a : Target) (M : Maps) :
    ((M.addTarget O a).isSome ↔ a.t ≠ [] ∧ (∀ h ∈ a.h, h ≠ []) ∧ ∀ f ∈ a.f, f ≠ []) ∧
    ∀ M', M.addTarget O a = some M' →
      (∀ x, M'.headers x = if x ∈ a.h then
          match M.headers x with
          | none => some a.t
          | some t' => if O.lt a.t t' then some a.t else some t'
        else M.headers x) ∧
      (∀ x f, f ∈ M'.features x ↔ f ∈ M.features x ∨ (x = a.t ∧ f ∈ a.f)) ∧
      ∀ x, M'.crates x = if x = a.t then a.c.or (M.crates x) else M.crates x := by
  unfold Maps.addTarget
  by_cases ht : a.t = []
  · rw [if_pos ht]
    exact ⟨⟨nofun, fun h => absurd ht h.1⟩, nofun⟩
  rw [if_neg ht]
  obtain ⟨p1, p2⟩ := addHeaders_spec (O := O) a.t a.h M
  cases h1 : M.addHeaders O a.t a.h with
  | none =>
    refine ⟨⟨nofun, fun h => ?_⟩, nofun⟩
    obtain ⟨M', e⟩ := p1 h.2.1
    rw [h1] at e; cases e
  | some M1 =>
    obtain ⟨q1, q2, q3, q4⟩ := p2 M1 h1
    obtain ⟨r1, r2⟩ := addFeatures_spec a.t a.f M1
    cases h2 : M1.addFeatures a.t a.f with
    | none =>
      refine ⟨⟨fun h => ?_, fun h => ?_⟩, fun M' h => ?_⟩
      · simp only [h2] at h; cases h
      · obtain ⟨M', e⟩ := r1 h.2.2
        rw [h2] at e; cases e
      · simp only [h2] at h; cases h
    | some M2 =>
      obtain ⟨s1, s2, s3, s4⟩ := r2 M2 h2
      simp only [h2]
      refine ⟨⟨fun _ => ⟨ht, q1, s1⟩, fun _ => rfl⟩, fun M' e => ?_⟩
      have e := Option.some.inj e
      subst e
      have e1 : (M2.addCrate a.t a.c).headers = M2.headers := by cases a.c <;> rfl
      have e2 : (M2.addCrate a.t a.c).features = M2.features := by cases a.c <;> rfl
      refine ⟨fun x => ?_, fun x f => ?_, fun x => ?_⟩
      · rw [e1, s2, q4]
      · rw [e2, s4, q2]
      · rw [← q3, ← s3]
        cases a.c with
        | none => simp [Maps.addCrate]
        | some c =>
          show (if x = a.t then some c else M2.crates x) = _
          split <;> rfl

theorem parse_spec : ∀ (as : List Target) (M : Maps),
    ((parseTargets O M as).isSome ↔ Named as) ∧
    ∀ M', parseTargets O M as = some M' →
      (∀ h, Least O as (M.headers h) h (M'.headers h)) ∧
      (∀ t f, f ∈ M'.features t ↔ f ∈ M.features t ∨ HasFeature as t f) ∧
      ∀ t, M'.crates t = ((as.reverse.find? fun a => a.t == t && a.c.isSome).bind Target.c).or (M.crates t)
  | [], M => by
      refine ⟨⟨fun _ => nofun, fun _ => rfl⟩, fun M' e => ?_⟩
      cases e
      refine ⟨fun h => ?_, fun t f => by simp [HasFeature], fun t => by simp⟩
      unfold Least
      cases hm : M.headers h with
      | none => exact ⟨rfl, by simp [HasHeader]⟩
      | some t =>
        refine ⟨.inl rfl, by simp [HasHeader], fun t' e => ?_⟩
        cases e
        exact O.irrefl _
  | a :: as, M => by
      obtain ⟨p1, p2⟩ := addTarget_spec (O := O) a M
      rw [parseTargets]
      have hN : Named (a :: as) ↔ (a.t ≠ [] ∧ (∀ h ∈ a.h, h ≠ []) ∧ ∀ f ∈ a.f, f ≠ []) ∧ Named as := by
        unfold Named
        simp
      rw [hN]
      cases h1 : M.addTarget O a with
      | none =>
        refine ⟨⟨nofun, fun h => ?_⟩, nofun⟩
        have := p1.mpr h.1
        rw [h1] at this
        cases this
      | some M1 =>
        obtain ⟨q1, q2⟩ := parse_spec as M1
        obtain ⟨r1, r2, r3⟩ := p2 M1 h1
        simp only
        refine ⟨⟨fun h => ⟨p1.mp (by rw [h1]; rfl), q1.mp h⟩, fun h => q1.mpr h.2⟩, fun M' e => ?_⟩
        obtain ⟨s1, s2, s3⟩ := q2 M' e
        refine ⟨fun h => ?_, fun t f => ?_, fun t => ?_⟩
        · have hs := s1 h
          have hr := r1 h
          unfold Least at hs ⊢
          cases hm : M'.headers h with
          | none =>
            rw [hm] at hs
            simp only at hs ⊢
            rw [hr] at hs
            obtain ⟨hs1, hs2⟩ := hs
            split at hs1
            · split at hs1
              · cases hs1
              · split at hs1 <;> cases hs1
            · refine ⟨hs1, fun t ht => ?_⟩
              rcases hasHeader_cons.mp ht with ⟨-, ht⟩ | ht
              · exact absurd ht (by assumption)
              · exact hs2 t ht
          | some t =>
            rw [hm] at hs
            simp only at hs ⊢
            obtain ⟨hs1, hs2, hs3⟩ := hs
            by_cases hmem : h ∈ a.h
            · rw [hr, if_pos hmem] at hs1 hs3
              cases hMh : M.headers h with
              | none =>
                simp only [hMh] at hs1 hs3
                refine ⟨.inr (hasHeader_cons.mpr ?_), fun t' ht' => ?_, nofun⟩
                · rcases hs1 with e | hs1
                  · exact .inl ⟨Option.some.inj e, hmem⟩
                  · exact .inr hs1
                · rcases hasHeader_cons.mp ht' with ⟨e, -⟩ | ht'
                  · rw [← e]; exact hs3 _ rfl
                  · exact hs2 _ ht'
              | some u =>
                simp only [hMh] at hs1 hs3
                cases hl : O.lt a.t u with
                | true =>
                  rw [hl] at hs1 hs3
                  simp only [if_true] at hs1 hs3
                  refine ⟨.inr (hasHeader_cons.mpr ?_), fun t' ht' => ?_, fun t' e => ?_⟩
                  · rcases hs1 with e | hs1
                    · exact .inl ⟨Option.some.inj e, hmem⟩
                    · exact .inr hs1
                  · rcases hasHeader_cons.mp ht' with ⟨e, -⟩ | ht'
                    · rw [← e]; exact hs3 _ rfl
                    · exact hs2 _ ht'
                  · cases e
                    cases hx : O.lt u t with
                    | false => rfl
                    | true =>
                      have := O.trans _ _ _ hl hx
                      rw [hs3 _ rfl] at this
                      cases this
                | false =>
                  rw [hl] at hs1 hs3
                  simp only [Bool.false_eq_true, if_false] at hs1 hs3
                  refine ⟨?_, fun t' ht' => ?_, fun t' e => ?_⟩
                  · rcases hs1 with e | hs1
                    · exact .inl e
                    · exact .inr (hasHeader_cons.mpr (.inr hs1))
                  · rcases hasHeader_cons.mp ht' with ⟨e, -⟩ | ht'
                    · rw [← e]
                      cases hx : O.lt a.t t with
                      | false => rfl
                      | true =>
                        have hut := hs3 _ rfl
                        rcases O.total u t with h | h | h
                        · rw [hut] at h; cases h
                        · rw [h] at hl; rw [hx] at hl; cases hl
                        · have := O.trans _ _ _ hx h
                          rw [hl] at this; cases this
                    · exact hs2 _ ht'
                  · cases e
                    exact hs3 _ rfl
            · rw [hr, if_neg hmem] at hs1 hs3
              refine ⟨?_, fun t' ht' => ?_, hs3⟩
              · rcases hs1 with e | hs1
                · exact .inl e
                · exact .inr (hasHeader_cons.mpr (.inr hs1))
              · rcases hasHeader_cons.mp ht' with ⟨-, ht⟩ | ht'
                · exact absurd ht hmem
                · exact hs2 _ ht'
        · rw [s2, r2, hasFeature_cons]
          constructor
          · rintro ((h | ⟨rfl, h⟩) | h)
            · exact .inl h
            · exact .inr (.inl ⟨rfl, h⟩)
            · exact .inr (.inr h)
          · rintro (h | ⟨rfl, h⟩ | h)
            · exact .inl (.inl h)
            · exact .inl (.inr ⟨rfl, h⟩)
            · exact .inr h
        · rw [s3, r3, List.reverse_cons, List.find?_append]
          cases hf : as.reverse.find? fun a => a.t == t && a.c.isSome with
          | some b =>
            have hb := List.find?_some hf
            simp only [Bool.and_eq_true] at hb
            obtain ⟨c, hc⟩ := Option.isSome_iff_exists.mp hb.2
            simp [hc]
          | none =>
            simp only [Option.bind_none, Option.none_or]
            by_cases ht : t = a.t
            · subst ht
              cases hc : a.c <;> simp [hc]
            · have : (a.t == t) = false := by simpa using fun e => ht e.symm
              simp [ht, this]

/-- C175: The descriptions of targets are accepted exactly if no name in them is empty. -/
theorem targets_accepted (as : List Target) : (parseTargets O .empty as).isSome ↔ Named as :=
  (parse_spec as .empty).1

/-- C175: A header belongs to the first, alphabetically, of the targets that have it, and to none only if no target has it. -/
theorem header_owner {as : List Target} {M : Maps} (h : parseTargets O .empty as = some M) (x t : Str) :
    M.headers x = some t ↔ HasHeader as t x ∧ ∀ t', HasHeader as t' x → O.lt t' t = false := by
  have := ((parse_spec as .empty).2 M h).1 x
  unfold Least at this
  cases hx : M.headers x with
  | none =>
    rw [hx] at this
    exact ⟨nofun, fun ht => absurd ht.1 (this.2 t)⟩
  | some u =>
    rw [hx] at this
    obtain ⟨h1, h2, -⟩ := this
    have h1 : HasHeader as u x := h1.elim (fun e => by cases e) id
    constructor
    · intro e; cases e; exact ⟨h1, h2⟩
    · rintro ⟨h3, h4⟩
      rcases O.total u t with h | h | h
      · rw [h4 u h1] at h; cases h
      · rw [h]
      · rw [h2 t h3] at h; cases h

/-- C175: Each target has all features that are listed for it anywhere, and no others. -/
theorem target_features {as : List Target} {M : Maps} (h : parseTargets O .empty as = some M) (t f : Str) :
    f ∈ M.features t ↔ HasFeature as t f := by
  rw [((parse_spec as .empty).2 M h).2.1]
  simp [Maps.empty]

/-- C175: The name of a crate is the last that is given for the target. -/
theorem crate_name {pre post : List Target} {a : Target} {c : Str} {M : Maps} (ha : a.c = some c)
    (hp : ∀ b ∈ post, b.t = a.t → b.c = none) (h : parseTargets O .empty (pre ++ a :: post) = some M) :
    M.crates a.t = some c := by
  rw [((parse_spec _ .empty).2 M h).2.2, List.reverse_append, List.reverse_cons, List.append_assoc, List.find?_append]
  have : post.reverse.find? (fun b => b.t == a.t && b.c.isSome) = none := by
    rw [List.find?_eq_none]
    intro b hb
    have hb := List.mem_reverse.mp hb
    simp only [Bool.and_eq_true, beq_iff_eq, not_and]
    intro e
    rw [hp b hb e]
    decide
  rw [this]
  simp [ha]

/-- C175: Owners of headers and features do not depend on the order of the descriptions. -/
theorem order_irrelevant {as bs : List Target} (hp : as.Perm bs) {M N : Maps} (h : parseTargets O .empty as = some M)
    (h' : parseTargets O .empty bs = some N) : M.headers = N.headers ∧ ∀ t f, f ∈ M.features t ↔ f ∈ N.features t := by
  have hh : ∀ t x, HasHeader as t x ↔ HasHeader bs t x := fun t x => by
    unfold HasHeader
    simp only [hp.mem_iff]
  refine ⟨funext fun x => Option.ext fun t => ?_, fun t f => ?_⟩
  · rw [header_owner h, header_owner h']
    simp only [hh]
  · rw [target_features h, target_features h']
    unfold HasFeature
    simp only [hp.mem_iff]

/-- C175: If the command line is accepted, each public header belongs to a target that has it. -/
theorem public_headers_owned {as : List Target} {M : Maps} (h : parseTargets O .empty as = some M) {F : Flags}
    (hc : create F M = true) : ∀ x ∈ F.publicHeaders, ∃ t, M.headers x = some t ∧ HasHeader as t x := by
  intro x hx
  unfold create at hc
  simp only [Bool.and_eq_true, List.all_eq_true] at hc
  obtain ⟨t, ht⟩ := Option.isSome_iff_exists.mp (hc.2 x hx)
  exact ⟨t, ht, ((header_owner h x t).mp ht).1⟩

/-- C175: and the command line is accepted exactly if all that is needed is given. -/
theorem create_iff {as : List Target} {M : Maps} (h : parseTargets O .empty as = some M) (F : Flags) :
    create F M = true ↔ F.target ≠ [] ∧ F.rsOut ≠ [] ∧ F.ccOut ≠ [] ∧ F.publicHeaders ≠ [] ∧ F.supportFormat ≠ [] ∧
      F.hasPlaceholder = true ∧ (F.scanned = [] ↔ F.instantiationsOut = []) ∧
      ∀ x ∈ F.publicHeaders, ∃ t, HasHeader as t x := by
  have hown : ∀ x, (M.headers x).isSome ↔ ∃ t, HasHeader as t x := by
    intro x
    have := ((parse_spec as .empty).2 M h).1 x
    unfold Least at this
    cases hx : M.headers x with
    | none =>
      rw [hx] at this
      exact ⟨nofun, fun ⟨t, ht⟩ => absurd ht (this.2 t)⟩
    | some u =>
      rw [hx] at this
      exact ⟨fun _ => ⟨u, this.1.elim (fun e => by cases e) id⟩, fun _ => rfl⟩
  unfold create
  simp only [Bool.and_eq_true, List.all_eq_true, hown]
  have e : ∀ (a b : List Char), (!a.isEmpty) = true ↔ a ≠ [] := fun a _ => by cases a <;> simp
  have e1 : (!(F.scanned.isEmpty != F.instantiationsOut.isEmpty)) = true ↔ (F.scanned = [] ↔ F.instantiationsOut = []) := by
    cases F.scanned <;> cases F.instantiationsOut <;> simp
  have e2 : (!F.publicHeaders.isEmpty) = true ↔ F.publicHeaders ≠ [] := by cases F.publicHeaders <;> simp
  rw [e _ [], e _ [], e _ [], e _ [], e1, e2]
  constructor
  · rintro ⟨⟨⟨⟨⟨⟨a, b⟩, c⟩, d⟩, f, g⟩, h⟩, i⟩
    exact ⟨a, b, c, d, f, g, h, i⟩
  · rintro ⟨a, b, c, d, f, g, h, i⟩
    exact ⟨⟨⟨⟨⟨⟨a, b⟩, c⟩, d⟩, f, g⟩, h⟩, i⟩

end Verif.Cmd

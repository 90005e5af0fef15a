import Verif.RsTypes.CollideSpec

/-
Model of cc_bindings_from_rs/generate_bindings/avoid_colliding_types.rs, and C166.
-/

namespace Verif.RsTypes

deriving instance DecidableEq for RTy, RTys

mutual
/-- `get_preferred_type` (avoid_colliding_types.rs:73-112) -/
def pref : RTy → RTy
  | .int s .w32 => .int s .size
  | .int s .w64 => .int s .size
  | .tuple ts => .tuple (prefs ts)
  | .ref l m t => .ref l m (pref t)
  | .slice t => .slice (pref t)
  | .raw m t => .raw m (pref t)
  | .array t n => .array (pref t) n
  | t => t
def prefs : RTys → RTys
  | .nil => .nil
  | .cons t ts => .cons (pref t) (prefs ts)
end

/-- `avoid_colliding_types` (avoid_colliding_types.rs:23-59): each item, and whether it is kept. -/
def avoid {α : Type} (key : α → RTy) (xs : List α) : List (α × Bool) :=
  let present := (xs.filter fun x => decide (key x = pref (key x))).map fun x => pref (key x)
  xs.map fun x => (x, decide (key x = pref (key x)) || !decide (pref (key x) ∈ present))

variable {α : Type} {key : α → RTy}

/-- C166: nothing is lost and the order does not change. -/
theorem avoid_items (xs : List α) : (avoid key xs).map Prod.fst = xs := by
  unfold avoid
  simp [Function.comp_def]

theorem mem_avoid {xs : List α} {x : α} {b : Bool} : (x, b) ∈ avoid key xs ↔ x ∈ xs ∧
    (b = true ↔ key x = pref (key x) ∨ ∀ y ∈ xs, key y = pref (key y) → key y ≠ pref (key x)) := by
  have key : ∀ z : α, (decide (key z = pref (key z)) || !decide (pref (key z) ∈
      (xs.filter fun x => decide (key x = pref (key x))).map fun x => pref (key x))) = true ↔
      (key z = pref (key z) ∨ ∀ y ∈ xs, key y = pref (key y) → key y ≠ pref (key z)) := by
    intro z
    rw [Bool.or_eq_true, decide_eq_true_eq, Bool.not_eq_true', decide_eq_false_iff_not]
    refine or_congr Iff.rfl ⟨fun h y hy h1 h2 => h ?_, fun h hm => ?_⟩
    · exact List.mem_map.mpr ⟨y, List.mem_filter.mpr ⟨hy, by simp [← h1]⟩, by rw [← h1]; exact h2⟩
    · obtain ⟨y, hy, h2⟩ := List.mem_map.mp hm
      obtain ⟨hy, h1⟩ := List.mem_filter.mp hy
      have h1 := of_decide_eq_true h1
      exact h y hy h1 (by rw [h1]; exact h2)
  unfold avoid
  rw [List.mem_map]
  constructor
  · rintro ⟨z, hz, he⟩
    cases he
    exact ⟨hz, key _⟩
  · rintro ⟨hx, hb⟩
    refine ⟨x, hx, ?_⟩
    rw [Prod.mk.injEq]
    exact ⟨rfl, by rw [Bool.eq_iff_iff, hb]; exact key x⟩

mutual
theorem pref_pref : ∀ t : RTy, pref (pref t) = pref t
  | .prim _ | .never | .cvoid | .str | .adt _ | .gen _ _ | .rvref _ _ _ | .maybeUninit _
  | .fn _ _ _ _ _ _ => by simp [pref]
  | .int s w => by cases w <;> simp [pref]
  | .tuple ts => by simp [pref, prefs_prefs ts]
  | .ref l m t => by simp [pref, pref_pref t]
  | .slice t => by simp [pref, pref_pref t]
  | .raw m t => by simp [pref, pref_pref t]
  | .array t n => by simp [pref, pref_pref t]
theorem prefs_prefs : ∀ ts : RTys, prefs (prefs ts) = prefs ts
  | .nil => by simp [prefs]
  | .cons t ts => by simp [prefs, pref_pref t, prefs_prefs ts]
end

/-- C166: an item is rejected exactly if another one has its preferred type; that one is kept. -/
theorem rejected_iff {xs : List α} {x : α} (hx : x ∈ xs) :
    (x, false) ∈ avoid key xs ↔ key x ≠ pref (key x) ∧ ∃ y, (y, true) ∈ avoid key xs ∧ key y = pref (key x) := by
  rw [mem_avoid]
  constructor
  · rintro ⟨-, h⟩
    simp only [Bool.false_eq_true, false_iff, not_or] at h
    refine ⟨h.1, ?_⟩
    obtain ⟨y, hy⟩ := Classical.not_forall.mp h.2
    simp only [Classical.not_imp, ne_eq, Classical.not_not] at hy
    exact ⟨y, mem_avoid.mpr ⟨hy.1, by simp [← hy.2.1]⟩, hy.2.2⟩
  · rintro ⟨h1, y, h2, h3⟩
    refine ⟨hx, ?_⟩
    simp only [Bool.false_eq_true, false_iff, not_or]
    refine ⟨h1, fun h => h y (mem_avoid.mp h2).1 ?_ h3⟩
    rw [h3, pref_pref]

/-- Types that differ in the width of an integer. -/
inductive Differ (s : Bool) (w w' : IntW) : RTy → RTy → Prop where
  | int : Differ s w w' (.int s w) (.int s w')
  | ref (l m) {t t'} : Differ s w w' t t' → Differ s w w' (.ref l m t) (.ref l m t')
  | raw (m) {t t'} : Differ s w w' t t' → Differ s w w' (.raw m t) (.raw m t')
  | slice {t t'} : Differ s w w' t t' → Differ s w w' (.slice t) (.slice t')
  | array (n) {t t'} : Differ s w w' t t' → Differ s w w' (.array t n) (.array t' n)

/-- The three integer types of a group. -/
def wide : IntW → Bool
  | .w32 | .w64 | .size => true
  | _ => false

theorem chain_differ : ∀ t t' : RTy, chain t = true → pref t = pref t' → t ≠ t' →
    ∃ s w w', wide w = true ∧ wide w' = true ∧ w ≠ w' ∧ Differ s w w' t t'
  | .int s w, t', _, h, hn => by
      have ht : ∃ w', t' = .int s w' := by
        cases t'
        case int s' w' =>
          cases w <;> cases w' <;> simp [pref] at h <;> (try subst h) <;> exact ⟨_, rfl⟩
        all_goals cases w <;> simp [pref] at h
      obtain ⟨w', rfl⟩ := ht
      have hw : w ≠ w' := by rintro rfl; exact hn rfl
      refine ⟨s, w, w', ?_, ?_, hw, .int⟩
      · cases w <;> first | rfl | (cases w' <;> simp [pref] at h <;> exact absurd rfl hw)
      · cases w' <;> first | rfl | (cases w <;> simp [pref] at h <;> exact absurd rfl hw)
  | .ref l m t, t', hc, h, hn => by
      cases t'
      case ref l' m' u =>
        simp only [pref, RTy.ref.injEq] at h
        obtain ⟨rfl, rfl, h⟩ := h
        obtain ⟨s, w, w', h1, h2, h3, h4⟩ := chain_differ t u (by rwa [chain] at hc) h (by rintro rfl; exact hn rfl)
        exact ⟨s, w, w', h1, h2, h3, .ref _ _ h4⟩
      case int s w => cases w <;> simp [pref] at h
      all_goals simp [pref] at h
  | .raw m t, t', hc, h, hn => by
      cases t'
      case raw m' u =>
        simp only [pref, RTy.raw.injEq] at h
        obtain ⟨rfl, h⟩ := h
        obtain ⟨s, w, w', h1, h2, h3, h4⟩ := chain_differ t u (by rwa [chain] at hc) h (by rintro rfl; exact hn rfl)
        exact ⟨s, w, w', h1, h2, h3, .raw _ h4⟩
      case int s w => cases w <;> simp [pref] at h
      all_goals simp [pref] at h
  | .slice t, t', hc, h, hn => by
      cases t'
      case slice u =>
        simp only [pref, RTy.slice.injEq] at h
        obtain ⟨s, w, w', h1, h2, h3, h4⟩ := chain_differ t u (by rwa [chain] at hc) h (by rintro rfl; exact hn rfl)
        exact ⟨s, w, w', h1, h2, h3, .slice h4⟩
      case int s w => cases w <;> simp [pref] at h
      all_goals simp [pref] at h
  | .array t n, t', hc, h, hn => by
      cases t'
      case array u n' =>
        simp only [pref, RTy.array.injEq] at h
        obtain ⟨h, rfl⟩ := h
        obtain ⟨s, w, w', h1, h2, h3, h4⟩ := chain_differ t u (by rwa [chain] at hc) h (by rintro rfl; exact hn rfl)
        exact ⟨s, w, w', h1, h2, h3, .array _ h4⟩
      case int s w => cases w <;> simp [pref] at h
      all_goals simp [pref] at h

/-- With `usize` or `isize` the type is the preferred one. -/
theorem Differ.left_pref {s : Bool} {w' : IntW} {t t' : RTy} (h : Differ s .size w' t t') : pref t = t := by
  generalize hw : IntW.size = w at h
  induction h with
  | int => subst hw; simp [pref]
  | ref _ _ _ ih => rw [pref, ih]
  | raw _ _ ih => rw [pref, ih]
  | slice _ ih => rw [pref, ih]
  | array _ _ ih => rw [pref, ih]

theorem Differ.symm {s : Bool} {w w' : IntW} {t t' : RTy} (h : Differ s w w' t t') : Differ s w' w t' t := by
  induction h with
  | int => exact .int
  | ref _ _ _ ih => exact .ref _ _ ih
  | raw _ _ ih => exact .raw _ ih
  | slice _ ih => exact .slice ih
  | array _ _ ih => exact .array _ ih

theorem Differ.not_special {s : Bool} {w w' : IntW} {t t' : RTy} (h : Differ s w w' t t') :
    t ≠ .cvoid ∧ (∀ e, t ≠ .maybeUninit e) ∧ t ≠ .str := by
  cases h <;> exact ⟨nofun, nofun, nofun⟩

variable {E : Env} {f : String → String}

theorem Differ.pointee {s : Bool} {w w' : IntW} {t t' : RTy} {c : CTy} (h : Differ s w w' t t')
    (hc : Pointee E t c) : Corr E t c := by
  cases hc with
  | same _ _ h => exact h
  | void => exact absurd rfl h.not_special.1
  | uninit e _ _ => exact absurd rfl (h.not_special.2.1 e)
  | uninitVoid => exact absurd rfl (h.not_special.2.1 _)

theorem corr_slice {t : RTy} {c : CTy} : ¬ Corr E (.slice t) c := nofun

/-- The slices' arguments. -/
theorem Differ.corr_ne {s : Bool} {t t' : RTy} (hf : Target f) (h : Differ s .w32 .w64 t t') :
    (∀ c c', Corr E t c → Corr E t' c' → c.resolve f ≠ c'.resolve f) ∧
    (∀ e e', t = .slice e → t' = .slice e' → ∀ c c', Corr E e c → Corr E e' c' → c.resolve f ≠ c'.resolve f) := by
  induction h with
  | int =>
    refine ⟨?_, nofun⟩
    intro c c' h1 h2
    cases h1 with
    | int _ _ n h1 => cases h2 with
      | int _ _ n' h2 =>
        simp only [IntCorr] at h1 h2
        subst h1 h2
        cases s <;> simp [CTy.resolve]
        · exact hf.uint
        · exact hf.int
  | @ref l m t t' h ih =>
    refine ⟨?_, nofun⟩
    intro c c' h1 h2
    cases h1 with
    | ref _ _ _ d h1 => cases h2 with
      | ref _ _ _ d' h2 =>
        simp only [CTy.resolve, ne_eq, CTy.ptr.injEq, true_and]
        exact ih.1 _ _ (h.pointee h1) (h.symm.pointee h2)
      | refSlice _ _ u d' h2 => cases h with | slice h => exact absurd ((Differ.slice h).pointee h1) corr_slice
      | str => cases h
    | refSlice _ _ u d h1 => cases h2 with
      | ref _ _ _ d' h2 => cases h with | slice h => exact absurd ((Differ.slice h).symm.pointee h2) corr_slice
      | refSlice _ _ u' d' h2 =>
        have := ih.2 _ _ rfl rfl _ _ h1 h2
        simpa [CTy.resolve, CArgs.resolve] using this
      | str => cases h
    | str => cases h
  | @raw m t t' h ih =>
    refine ⟨?_, nofun⟩
    intro c c' h1 h2
    cases h1 with
    | raw _ _ d h1 => cases h2 with
      | raw _ _ d' h2 =>
        simp only [CTy.resolve, ne_eq, CTy.ptr.injEq, true_and]
        exact ih.1 _ _ (h.pointee h1) (h.symm.pointee h2)
      | rawSlice _ u d' h2 => cases h with | slice h => exact absurd ((Differ.slice h).pointee h1) corr_slice
    | rawSlice _ u d h1 => cases h2 with
      | raw _ _ d' h2 => cases h with | slice h => exact absurd ((Differ.slice h).symm.pointee h2) corr_slice
      | rawSlice _ u' d' h2 =>
        have := ih.2 _ _ rfl rfl _ _ h1 h2
        simpa [CTy.resolve, CArgs.resolve] using this
  | slice h ih =>
    refine ⟨fun c c' h1 _ => absurd h1 corr_slice, ?_⟩
    rintro e e' ⟨⟩ ⟨⟩
    exact ih.1
  | array n h ih =>
    refine ⟨?_, nofun⟩
    intro c c' h1 h2
    cases h1 with
    | array _ _ d h1 => cases h2 with
      | array _ _ d' h2 =>
        have := ih.1 _ _ h1 h2
        simpa [CTy.resolve, CArgs.resolve] using this

/-- As parameters. -/
theorem Differ.top_ne {s : Bool} {t t' : RTy} (hf : Target f) (h : Differ s .w32 .w64 t t') (c c' : CTy)
    (h1 : CorrTop E t c) (h2 : CorrTop E t' c') : c.resolve f ≠ c'.resolve f := by
  have hp : ∀ {t t' : RTy} {k k' : Ref} {b b' : Bool} {d d' : CTy}, Differ s .w32 .w64 t t' → Pointee E t d →
      Pointee E t' d' → (CTy.ptr k b d).resolve f ≠ (CTy.ptr k' b' d').resolve f := by
    intro t t' k k' b b' d d' h h1 h2 he
    simp only [CTy.resolve, CTy.ptr.injEq] at he
    exact (h.corr_ne hf).1 _ _ (h.pointee h1) (h.symm.pointee h2) he.2.2
  have inv : ∀ {t : RTy} {c : CTy} {l : Life} {m : Bool}, CorrTop E (.ref l m t) c →
      (∃ k b d, c = .ptr k b d ∧ Pointee E t d) ∨ Corr E (.ref l m t) c := by
    intro t c l m h
    cases h with
    | same _ _ h => exact .inr h
    | lref _ _ _ d h => exact .inl ⟨_, _, _, rfl, h⟩
    | shared _ _ _ d _ _ h => exact .inl ⟨_, _, _, rfl, h⟩
  have invc : ∀ {t u : RTy} {c : CTy} {l : Life} {m : Bool} {w w' : IntW}, Differ s w w' t u →
      Corr E (.ref l m t) c → (∃ k b d, c = .ptr k b d ∧ Pointee E t d) ∨ (∃ e, t = .slice e) := by
    intro t u c l m w w' hd h
    cases h with
    | ref _ _ _ d h => exact .inl ⟨_, _, _, rfl, h⟩
    | refSlice _ _ e d h => exact .inr ⟨_, rfl⟩
    | str => cases hd
  cases h with
  | @ref l m t t' h =>
    rcases inv h1 with ⟨k, b, d, rfl, h1'⟩ | h1'
    · rcases inv h2 with ⟨k', b', d', rfl, h2'⟩ | h2'
      · exact hp h h1' h2'
      · rcases invc h.symm h2' with ⟨k', b', d', rfl, h2''⟩ | ⟨e, rfl⟩
        · exact hp h h1' h2''
        · cases h with | slice h => exact absurd ((Differ.slice h).pointee h1') corr_slice
    · rcases inv h2 with ⟨k', b', d', rfl, h2'⟩ | h2'
      · rcases invc h h1' with ⟨k, b, d, rfl, h1''⟩ | ⟨e, rfl⟩
        · exact hp h h1'' h2'
        · cases h with | slice h => exact absurd ((Differ.slice h).symm.pointee h2') corr_slice
      · exact ((Differ.ref l m h).corr_ne hf).1 _ _ h1' h2'
  | int => cases h1 with | same _ _ h1 => cases h2 with | same _ _ h2 => exact (Differ.corr_ne hf .int).1 _ _ h1 h2
  | raw m h => cases h1 with | same _ _ h1 => cases h2 with
    | same _ _ h2 => exact (Differ.corr_ne hf (.raw m h)).1 _ _ h1 h2
  | slice h => cases h1 with | same _ _ h1 => exact absurd h1 corr_slice
  | array n h => cases h1 with | same _ _ h1 => cases h2 with
    | same _ _ h2 => exact (Differ.corr_ne hf (.array n h)).1 _ _ h1 h2

/-- C166: kept items of the same group have different types as parameters in C++, on every target. -/
theorem kept_types_differ {xs : List α} {x y : α} (hf : Target f) (hx : (x, true) ∈ avoid key xs)
    (hy : (y, true) ∈ avoid key xs) (hc : chain (key x) = true) (hg : pref (key x) = pref (key y))
    (hn : key x ≠ key y) (c c' : CTy) (h1 : CorrTop E (key x) c) (h2 : CorrTop E (key y) c') :
    c.resolve f ≠ c'.resolve f := by
  obtain ⟨s, w, w', hw, hw', hne, hd⟩ := chain_differ _ _ hc hg hn
  obtain ⟨hx1, hx2⟩ := mem_avoid.mp hx
  obtain ⟨hy1, hy2⟩ := mem_avoid.mp hy
  have hx3 := hx2.mp rfl
  have hy3 := hy2.mp rfl
  have k1 : w ≠ .size := by
    rintro rfl
    have hp := hd.left_pref
    rcases hy3 with hy3 | hy3
    · rw [← hg, hp] at hy3; exact hn hy3.symm
    · exact hy3 x hx1 hp.symm (by rw [← hg, hp])
  have k2 : w' ≠ .size := by
    rintro rfl
    have hp := hd.symm.left_pref
    rcases hx3 with hx3 | hx3
    · rw [hg, hp] at hx3; exact hn hx3
    · exact hx3 y hy1 hp.symm (by rw [hg, hp])
  cases w <;> cases hw <;> cases w' <;> cases hw' <;> try contradiction
  · exact hd.top_ne hf c c' h1 h2
  · exact (hd.symm.top_ne hf c' c h2 h1).symm

/-- The usual targets. -/
theorem usual_target (b : Bool) : Target (usual b) := by
  cases b <;> exact ⟨by decide, by decide⟩

/-- C166: what is rejected for the sake of another item would be the same type in C++ on a usual target. -/
theorem chain_collides : ∀ t : RTy, chain t = true → t ≠ pref t →
    ∃ b, (∀ c, Corr E t c → ∃ c', Corr E (pref t) c' ∧ c.resolve (usual b) = c'.resolve (usual b)) ∧
      ∀ e, t = .slice e → ∀ c, Corr E e c → ∃ c', Corr E (pref e) c' ∧ c.resolve (usual b) = c'.resolve (usual b)
  | .int s w, _, hn => by
      cases w <;> simp only [pref, ne_eq, not_true_eq_false] at hn
      · refine ⟨false, fun c h => ?_, nofun⟩
        cases h with
        | int _ _ n h =>
          simp only [IntCorr] at h
          subst h
          refine ⟨.prim (if s then "intptr_t" else "uintptr_t"), .int _ _ _ (.inl rfl), ?_⟩
          cases s <;> simp [CTy.resolve, usual]
      · refine ⟨true, fun c h => ?_, nofun⟩
        cases h with
        | int _ _ n h =>
          simp only [IntCorr] at h
          subst h
          refine ⟨.prim (if s then "intptr_t" else "uintptr_t"), .int _ _ _ (.inl rfl), ?_⟩
          cases s <;> simp [CTy.resolve, usual]
  | .ref l m t, hc, hn => by
      rw [chain] at hc
      obtain ⟨b, h1, h2⟩ := chain_collides t hc (by intro h; rw [pref, ← h] at hn; exact hn rfl)
      refine ⟨b, fun c h => ?_, nofun⟩
      rw [pref]
      cases h with
      | ref _ _ _ d h =>
        have : Corr E t d := by
          cases h with
          | same _ _ h => exact h
          | _ => simp [chain] at hc
        obtain ⟨c', h3, h4⟩ := h1 d this
        exact ⟨_, .ref _ _ _ _ (.same _ _ h3), by simp [CTy.resolve, h4]⟩
      | refSlice _ _ e d h =>
        obtain ⟨c', h3, h4⟩ := h2 e rfl d h
        rw [pref]
        exact ⟨_, .refSlice _ _ _ _ h3, by simp [CTy.resolve, CArgs.resolve, h4]⟩
      | str => simp [chain] at hc
  | .raw m t, hc, hn => by
      rw [chain] at hc
      obtain ⟨b, h1, h2⟩ := chain_collides t hc (by intro h; rw [pref, ← h] at hn; exact hn rfl)
      refine ⟨b, fun c h => ?_, nofun⟩
      rw [pref]
      cases h with
      | raw _ _ d h =>
        have : Corr E t d := by
          cases h with
          | same _ _ h => exact h
          | _ => simp [chain] at hc
        obtain ⟨c', h3, h4⟩ := h1 d this
        exact ⟨_, .raw _ _ _ (.same _ _ h3), by simp [CTy.resolve, h4]⟩
      | rawSlice _ e d h =>
        obtain ⟨c', h3, h4⟩ := h2 e rfl d h
        rw [pref]
        exact ⟨_, .rawSlice _ _ _ h3, by simp [CTy.resolve, CArgs.resolve, h4]⟩
  | .slice t, hc, hn => by
      rw [chain] at hc
      obtain ⟨b, h1, h2⟩ := chain_collides t hc (by intro h; rw [pref, ← h] at hn; exact hn rfl)
      refine ⟨b, fun c h => absurd h corr_slice, ?_⟩
      rintro e ⟨⟩
      exact h1
  | .array t n, hc, hn => by
      rw [chain] at hc
      obtain ⟨b, h1, h2⟩ := chain_collides t hc (by intro h; rw [pref, ← h] at hn; exact hn rfl)
      refine ⟨b, fun c h => ?_, nofun⟩
      rw [pref]
      cases h with
      | array _ _ d h =>
        obtain ⟨c', h3, h4⟩ := h1 d h
        exact ⟨_, .array _ _ _ h3, by simp [CTy.resolve, CArgs.resolve, h4]⟩

/-- C166: a rejected item would have the same type in C++ as a kept one, on a usual target. -/
theorem rejected_collides {xs : List α} {x : α} (hx : (x, false) ∈ avoid key xs) (hc : chain (key x) = true) :
    ∃ y b, (y, true) ∈ avoid key xs ∧ ∀ c, Corr E (key x) c →
      ∃ c', Corr E (key y) c' ∧ c.resolve (usual b) = c'.resolve (usual b) := by
  obtain ⟨hn, y, hy, he⟩ := (rejected_iff (mem_avoid.mp hx).1).mp hx
  obtain ⟨b, h1, -⟩ := chain_collides (E := E) (key x) hc hn
  exact ⟨y, b, hy, fun c h => by rw [he]; exact h1 c h⟩

end Verif.RsTypes

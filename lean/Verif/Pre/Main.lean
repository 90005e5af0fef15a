import Verif.Pre.Spec

/-!
# Theorems: pragmas and location filters
-/

namespace Verif.Pre
open Spec

/-! ## File defaults -/

theorem asks_iff {d : Directive} {f : File} {k : Kind} :
    Asks d f k ↔ d.file = some f ∧ parseKind d.tok = some k := by
  have e1 : "nullable".toList = ['n', 'u', 'l', 'l', 'a', 'b', 'l', 'e'] := by decide +kernel
  have e2 : "nonnull".toList = ['n', 'o', 'n', 'n', 'u', 'l', 'l'] := by decide +kernel
  unfold Asks
  rw [e1, e2]
  cases h : d.tok with
  | none => simp [parseKind]
  | some t =>
    simp only [parseKind, Option.some.injEq]
    constructor
    · rintro ⟨h1, h2 | h2⟩
      · obtain ⟨rfl, rfl⟩ := h2; exact ⟨h1, by decide⟩
      · obtain ⟨rfl, rfl⟩ := h2; exact ⟨h1, by decide⟩
    · rintro ⟨h1, h2⟩
      refine ⟨h1, ?_⟩
      split at h2
      · left; simp_all
      · split at h2
        · right; simp_all
        · exact absurd h2 (by simp)

theorem run_snoc (ds : List Directive) (d : Directive) :
    runPragmas (ds ++ [d]) = handle (runPragmas ds) d := by
  simp [runPragmas, List.foldl_append]

theorem snoc_induction {α : Type} {P : List α → Prop} (h0 : P [])
    (h1 : ∀ l a, P l → P (l ++ [a])) : ∀ l, P l := by
  intro l
  have : ∀ r : List α, P r.reverse := by
    intro r
    induction r with
    | nil => exact h0
    | cons a r ih => rw [List.reverse_cons]; exact h1 _ _ ih
  simpa using this l.reverse

theorem seen_eq (ds : List Directive) : (runPragmas ds).seen = ds.length := by
  induction ds using snoc_induction with
  | h0 => rfl
  | h1 l d ih =>
    rw [run_snoc, List.length_append, ← ih]
    unfold handle
    split
    · rfl
    · split
      · rfl
      · split <;> rfl

/-- A file is in the map exactly if a directive asked for it. -/
theorem lookup_none {ds : List Directive} {f : File} :
    (runPragmas ds).map.lookup f = none ↔ ∀ e ∈ ds, ∀ k, ¬ Asks e f k := by
  induction ds using snoc_induction with
  | h0 => simp [runPragmas]
  | h1 l d ih =>
    have key : (∀ e ∈ l ++ [d], ∀ k, ¬ Asks e f k) ↔
        (runPragmas l).map.lookup f = none ∧ ∀ k, ¬ Asks d f k := by
      rw [ih]; simp [or_imp, forall_and]
    rw [key, run_snoc]
    unfold handle
    simp only [asks_iff]
    split
    · rename_i h; simp [h]
    · rename_i g h
      split
      · rename_i h2; simp [h2]
      · rename_i k h2
        split
        · rename_i k' h3
          by_cases hg : f = g
          · subst hg; simp [h3]
          · simp [h, Ne.symm hg]
        · rename_i h3
          by_cases hg : f = g
          · subst hg; simp [h, h2]
          · have : (f == g) = false := by simpa using hg
            simp [List.lookup_cons, this, h, Ne.symm hg]

theorem lookup_first {ds : List Directive} {f : File} {k : Kind} :
    FirstAsks ds f k → (runPragmas ds).map.lookup f = some k := by
  rintro ⟨pre, d, post, rfl, ha, hp⟩
  have hstart : (runPragmas (pre ++ [d])).map.lookup f = some k := by
    rw [run_snoc]
    obtain ⟨h1, h2⟩ := asks_iff.1 ha
    have h3 := lookup_none.2 hp
    unfold handle
    simp [h1, h2, h3]
  have hmono : ∀ (l : List Directive) (p : Pragmas), p.map.lookup f = some k →
      (l.foldl handle p).map.lookup f = some k := by
    intro l
    induction l with
    | nil => intro p h; exact h
    | cons e l ih =>
      intro p h
      refine ih _ ?_
      unfold handle
      split
      · exact h
      · rename_i g _
        split
        · exact h
        · split
          · exact h
          · rename_i h3
            have : (f == g) = false := by
              simp only [beq_eq_false_iff_ne]; rintro rfl; simp [h] at h3
            simp [List.lookup_cons, this, h]
  have := hmono post _ hstart
  rw [show pre ++ d :: post = (pre ++ [d]) ++ post by simp]
  simpa [runPragmas, List.foldl_append] using this

/-- The default of a file is what the first directive in it that asks for
anything asks for; other files, the place of the directive and later directives do
not matter. -/
theorem default_is_first {ds : List Directive} {f : File} {k : Kind} (h : FirstAsks ds f k) :
    defaultOf (runPragmas ds) (some f) = k := by
  simp [defaultOf, lookup_first h]

/-- Without one, and outside of any file, it is unspecified. -/
theorem default_unspecified {ds : List Directive} :
    (∀ f, (∀ e ∈ ds, ∀ k, ¬ Asks e f k) →
      defaultOf (runPragmas ds) (some f) = .unspecified) ∧
    defaultOf (runPragmas ds) none = .unspecified := by
  refine ⟨fun f h => ?_, rfl⟩
  simp [defaultOf, lookup_none.2 h]

theorem warnings_lt {ds : List Directive} :
    ∀ x ∈ (runPragmas ds).warnings, x.1 < ds.length := by
  induction ds using snoc_induction with
  | h0 => simp [runPragmas]
  | h1 l d ih =>
    rw [run_snoc]
    have hs := seen_eq l
    have old : ∀ x ∈ (runPragmas l).warnings, x.1 < (l ++ [d]).length := fun x hx => by
      have := ih x hx; simp; omega
    unfold handle
    split
    · exact old
    · split
      · intro x hx
        rcases List.mem_append.1 hx with hx | hx
        · exact old x hx
        · simp at hx; subst hx; simp [hs]
      · split
        · intro x hx
          rcases List.mem_append.1 hx with hx | hx
          · exact old x hx
          · simp at hx; subst hx; simp [hs]
        · exact old

theorem owed_old {l : List Directive} {d : Directive} {i : Nat} {w : Warning}
    (h : i < l.length) : Owed (l ++ [d]) i w ↔ Owed l i w := by
  unfold Owed
  rw [List.getElem?_append_left h, List.take_append_of_le_length (by omega)]

theorem owed_lt {l : List Directive} {i : Nat} {w : Warning} (h : Owed l i w) :
    i < l.length := by
  obtain ⟨d, _, h, _⟩ := h
  exact (List.getElem?_eq_some_iff.1 h).1

theorem owed_new {l : List Directive} {d : Directive} {w : Warning} :
    Owed (l ++ [d]) l.length w ↔ ∃ f, d.file = some f ∧
      match w with
      | .invalid => ∀ k, ¬ Asks d f k
      | .repeated => (∃ k, Asks d f k) ∧ ∃ e ∈ l, ∃ k, Asks e f k := by
  unfold Owed
  simp only [List.getElem?_concat_length, List.take_left']
  constructor
  · rintro ⟨e, f, he, hf, h⟩
    cases he
    exact ⟨f, hf, h⟩
  · rintro ⟨f, hf, h⟩
    exact ⟨d, f, rfl, hf, h⟩

theorem warnings_snoc {l : List Directive} {d : Directive} {i : Nat} {w : Warning} :
    (i, w) ∈ (runPragmas (l ++ [d])).warnings ↔
        (i, w) ∈ (runPragmas l).warnings ∨ i = l.length ∧ ∃ f, d.file = some f ∧
          match w with
          | .invalid => ∀ k, ¬ Asks d f k
          | .repeated => (∃ k, Asks d f k) ∧ ∃ e ∈ l, ∃ k, Asks e f k := by
  have hs := seen_eq l
  rw [run_snoc]
  unfold handle
  simp only [asks_iff]
  split
  · rename_i h; simp [h]
  · rename_i f h
    split
    · rename_i h2
      cases w <;> simp [h2, hs, h]
    · rename_i k h2
      split
      · rename_i k' h3
        have hex : ∃ e ∈ l, ∃ k, e.file = some f ∧ parseKind e.tok = some k := by
          refine Classical.byContradiction fun hc => ?_
          have : (runPragmas l).map.lookup f = none := by
            rw [lookup_none]
            intro e he k hk
            exact hc ⟨e, he, k, asks_iff.1 hk⟩
          simp [this] at h3
        cases w
        · simp [h2, hs, h]
        · have := hex
          simp only [h, h2, Option.some.injEq, List.mem_append, List.mem_singleton,
            Prod.mk.injEq, and_true, hs]
          constructor
          · rintro (h | h)
            · exact .inl h
            · exact .inr ⟨h, f, rfl, ⟨k, rfl, rfl⟩, hex⟩
          · rintro (h | ⟨h, _⟩)
            · exact .inl h
            · exact .inr h
      · rename_i h3
        have hno := lookup_none.1 h3
        cases w
        · simp [h2, h]
        · constructor
          · exact .inl
          · rintro (h' | ⟨_, g, hg, _, e, he, k', hk⟩)
            · exact h'
            · rw [h] at hg; cases hg
              exact absurd (asks_iff.2 hk) (hno e he k')

/-- Exactly the warnings owed are given. -/
theorem warnings_exact {ds : List Directive} {i : Nat} {w : Warning} :
    (i, w) ∈ (runPragmas ds).warnings ↔ Owed ds i w := by
  induction ds using snoc_induction with
  | h0 => simp [runPragmas, Owed]
  | h1 l d ih =>
    rw [warnings_snoc, ih]
    by_cases hi : i = l.length
    · subst hi
      rw [owed_new]
      constructor
      · rintro (h | h)
        · exact absurd (owed_lt h) (by omega)
        · exact h.2
      · exact fun h => .inr ⟨rfl, h⟩
    · constructor
      · rintro (h | h)
        · exact (owed_old (owed_lt h)).2 h
        · exact absurd h.1 hi
      · intro h
        have := owed_lt h
        simp at this
        exact .inl ((owed_old (by omega)).1 h)

/-- In order, and at most one for a directive. -/
theorem warnings_ordered {ds : List Directive} :
    (runPragmas ds).warnings.Pairwise (fun x y => x.1 < y.1) := by
  induction ds using snoc_induction with
  | h0 => simp [runPragmas]
  | h1 l d ih =>
    have hs := seen_eq l
    have hlt := warnings_lt (ds := l)
    rw [run_snoc]
    unfold handle
    split
    · exact ih
    · split
      · refine List.pairwise_append.2 ⟨ih, by simp, ?_⟩
        intro x hx y hy
        simp at hy; subst hy
        simpa [hs] using hlt x hx
      · split
        · refine List.pairwise_append.2 ⟨ih, by simp, ?_⟩
          intro x hx y hy
          simp at hy; subst hy
          simpa [hs] using hlt x hx
        · exact ih

/-! ## Stems -/

theorem mem_takeWhile_imp {α : Type} {q : α → Bool} {a : α} :
    ∀ {l : List α}, a ∈ l.takeWhile q → q a = true
  | [], h => by simp at h
  | b :: l, h => by
    rw [List.takeWhile_cons] at h
    split at h
    · rename_i hb
      rcases List.mem_cons.1 h with rfl | h
      · exact hb
      · exact mem_takeWhile_imp h
    · simp at h

theorem dropWhile_nil {α : Type} {q : α → Bool} :
    ∀ {l : List α}, (∀ a ∈ l, q a = true) → l.dropWhile q = []
  | [], _ => rfl
  | b :: l, h => by
    rw [List.dropWhile_cons, if_pos (h b (by simp))]
    exact dropWhile_nil fun a ha => h a (by simp [ha])


theorem fileName_spec (p : Str) : ∃ dir, p = dir ++ fileName p ∧
    (dir = [] ∨ ∃ d, dir = d ++ ['/']) ∧ '/' ∉ fileName p := by
  refine ⟨(p.reverse.dropWhile (· ≠ '/')).reverse, ?_, ?_, ?_⟩
  · unfold fileName
    rw [← List.reverse_append, List.takeWhile_append_dropWhile, List.reverse_reverse]
  · cases h : p.reverse.dropWhile (· ≠ '/') with
    | nil => exact .inl rfl
    | cons a r =>
      right
      have := List.head?_dropWhile_not (· ≠ '/') p.reverse
      rw [h] at this
      simp at this
      exact ⟨r.reverse, by simp [this]⟩
  · unfold fileName
    rw [List.mem_reverse]
    intro h
    have := mem_takeWhile_imp h
    simp at this

theorem fileName_unique {d f : Str} (h1 : d = [] ∨ ∃ e, d = e ++ ['/']) (h2 : '/' ∉ f) :
    fileName (d ++ f) = f := by
  unfold fileName
  rw [List.reverse_append, List.takeWhile_append_of_pos]
  · have : d.reverse.takeWhile (· ≠ '/') = [] := by
      rcases h1 with rfl | ⟨e, rfl⟩ <;> simp
    rw [this]; simp
  · intro a ha
    simp only [List.mem_reverse] at ha
    simpa using fun h : a = '/' => h2 (h ▸ ha)

theorem stem_name (p : Str) : stem p = stem (fileName p) := by
  obtain ⟨dir, h1, h2, h3⟩ := fileName_spec p
  have : fileName (fileName p) = fileName p := by
    have := fileName_unique (d := []) (.inl rfl) h3
    simpa using this
  unfold stem
  rw [this]

theorem isStem_iff {p s : Str} : IsStem p s ↔ s = stem p := by
  constructor
  · rintro ⟨dir, f, rfl, h1, h2, h3⟩
    have hf := fileName_unique h1 h2
    unfold stem
    simp only [hf]
    rcases h3 with ⟨h3, rfl⟩ | ⟨h3, h4, h5⟩
    · simp [h3]
    · rw [if_neg (by simp [h3, h4])]
      rcases h5 with ⟨h5, rfl⟩ | ⟨ext, rfl, h5⟩
      · have : s.reverse.dropWhile (· ≠ '.') = [] := by
          apply dropWhile_nil
          intro a ha
          simp only [List.mem_reverse] at ha
          simpa using fun h : a = '.' => h5 (h ▸ ha)
        rw [this]
      · have : (s ++ '.' :: ext).reverse.dropWhile (· ≠ '.') = '.' :: s.reverse := by
          rw [show (s ++ '.' :: ext).reverse = ext.reverse ++ '.' :: s.reverse by simp]
          rw [List.dropWhile_append_of_pos]
          · simp
          · intro a ha
            simp only [List.mem_reverse] at ha
            simpa using fun h : a = '.' => h5 (h ▸ ha)
        rw [this]; simp
  · rintro rfl
    obtain ⟨dir, h1, h2, h3⟩ := fileName_spec p
    refine ⟨dir, fileName p, h1, h2, h3, ?_⟩
    unfold stem
    by_cases hd : fileName p = ['.'] ∨ fileName p = ['.', '.']
    · simp [hd]
    · right
      refine ⟨fun h => hd (.inl h), fun h => hd (.inr h), ?_⟩
      simp only [if_neg hd]
      have hsplit := List.takeWhile_append_dropWhile (p := (· ≠ '.')) (l := (fileName p).reverse)
      have htake : '.' ∉ ((fileName p).reverse.takeWhile (· ≠ '.')) := by
        intro h
        have := mem_takeWhile_imp h
        simp at this
      cases h : (fileName p).reverse.dropWhile (· ≠ '.') with
      | nil =>
        left
        rw [h, List.append_nil] at hsplit
        rw [hsplit] at htake
        exact ⟨by simpa using htake, rfl⟩
      | cons a r =>
        right
        have ha := List.head?_dropWhile_not (· ≠ '.') (fileName p).reverse
        rw [h] at ha
        simp at ha
        subst ha
        refine ⟨((fileName p).reverse.takeWhile (· ≠ '.')).reverse, ?_, by simpa using htake⟩
        rw [h] at hsplit
        have := congrArg List.reverse hsplit
        simpa using this.symm

theorem endings_eq : testEndings = suffixes := by decide +kernel

/-- The alternatives exclude each other, so the first that matches is the only
one. -/
theorem withoutTest_iff {s t : Str} (ht : t ≠ []) :
    t = withoutTest s ↔ ∃ x ∈ suffixes, s = t ++ x := by
  have excl : ∀ x ∈ suffixes, ∀ y ∈ suffixes, x <:+ s → y <:+ s → x = y := by
    have key : ∀ x ∈ suffixes, ∀ y ∈ suffixes, x <:+ y → x = y := by decide +kernel
    intro x hx y hy h1 h2
    rcases List.suffix_or_suffix_of_suffix h1 h2 with h | h
    · exact key x hx y hy h
    · exact (key y hy x hx h).symm
  unfold withoutTest
  cases h : suffixes.find? (fun x => x.isSuffixOf s) with
  | none =>
    simp only [ht, false_iff]
    rintro ⟨x, hx, rfl⟩
    have := List.find?_eq_none.1 h x hx
    simp at this
  | some x =>
    have hx := List.mem_of_find?_eq_some h
    have hs : x <:+ s := by simpa using List.find?_some h
    obtain ⟨r, rfl⟩ := hs
    have hr : (r ++ x).take ((r ++ x).length - x.length) = r := by simp
    simp only [hr]
    constructor
    · rintro rfl; exact ⟨x, hx, rfl⟩
    · rintro ⟨y, hy, he⟩
      have : x = y := excl x hx y hy ⟨r, rfl⟩ ⟨t, he.symm⟩
      subst this
      exact (List.append_cancel_right he).symm

/-! ## Location filters -/

/-- The filter is for these sources: its stems are those of the main file and its
cache holds what it would compute. -/
structure Filter.Good (F : Filter) (sm : Sources) : Prop where
  entry : sm.entry sm.main = some F.main
  stem : F.stem = Pre.stem F.main.name
  short : F.short = withoutTest F.stem
  cache : ∀ f b, F.cache.lookup f = some b → b = F.associated sm f

theorem associated_iff {F : Filter} {sm : Sources} (h : F.Good sm) (f : File) :
    F.associated sm f = true ↔ ∃ e, sm.entry f = some e ∧ Associated F.main e := by
  unfold Filter.associated
  cases he : sm.entry f with
  | none => simp
  | some e =>
    simp only [Option.some.injEq, exists_eq_left', Associated, isStem_iff, h.stem, h.short]
    by_cases hd : e.dir = F.main.dir
    · simp only [hd, ne_eq, not_true, if_false, true_and, Bool.or_eq_true, decide_eq_true_eq,
        Bool.and_eq_true, exists_and_left, exists_eq_left]
      rw [endings_eq]
      constructor
      · rintro (h1 | ⟨h1, h2⟩)
        · exact .inl h1
        · right
          have hne : Pre.stem e.name ≠ [] := h2 ▸ h1
          exact ⟨hne, (withoutTest_iff hne).1 h2⟩
      · rintro (h1 | ⟨h1, h2⟩)
        · exact .inl h1
        · right
          have := (withoutTest_iff h1).2 h2
          exact ⟨this ▸ h1, this⟩
    · simp [hd]

theorem good_new {sm : Sources} {b : Bool} {F : Filter} (h : Filter.new sm b = some F) :
    F.Good sm ∧ F.allowMain = b := by
  unfold Filter.new at h
  split at h
  · exact absurd h (by simp)
  · rename_i e he
    split at h
    · exact absurd h (by simp)
    · cases h
      refine ⟨⟨he, rfl, rfl, ?_⟩, rfl⟩
      intro f c hc
      by_cases hf : f = sm.main
      · subst hf
        simp at hc
        subst hc
        simp [Filter.associated, he]
      · have : (f == sm.main) = false := by simpa using hf
        simp [List.lookup_cons, this] at hc

theorem good_check {F : Filter} {sm : Sources} (h : F.Good sm) (l : Loc) :
    (F.check sm l).2.Good sm ∧ (F.check sm l).2.main = F.main ∧
      (F.check sm l).2.allowMain = F.allowMain ∧
      ((F.check sm l).1 = true ↔ l.valid = true ∧ (l.inMain = true ∧ F.allowMain = true ∨
        l.inMain = false ∧ ∃ f e, l.file = some f ∧ sm.entry f = some e ∧
          Associated F.main e)) := by
  unfold Filter.check
  cases hv : l.valid with
  | false => simp [h]
  | true =>
    cases hm : l.inMain with
    | true => simp [h]
    | false =>
      cases hf : l.file with
      | none => simp [h]
      | some f =>
        have hiff := associated_iff h f
        simp only [Bool.not_true, Bool.false_eq_true, if_false]
        split
        · rename_i b hb
          rw [h.cache f b hb]
          refine ⟨h, rfl, rfl, ?_⟩
          rw [hiff]
          simp
        · refine ⟨⟨h.entry, h.stem, h.short, ?_⟩, rfl, rfl, ?_⟩
          · intro g c hc
            simp only [List.lookup_cons] at hc
            split at hc
            · rename_i hg
              simp only [beq_iff_eq] at hg
              subst hg
              cases hc
              rfl
            · exact h.cache g c hc
          · rw [hiff]
            simp

/-- What a filter answers for a location depends on the location only: on no
question asked before, in no order. -/
theorem filter_answers {sm : Sources} {k : FilterKind} {F : AnyFilter}
    (h : getLocFilter sm k = some F) (ls : List Loc) :
    (AnyFilter.answers sm F ls).length = ls.length ∧
      ∀ main, sm.entry sm.main = some main → ∀ (i : Nat) (l : Loc) (b : Bool), ls[i]? = some l →
        (AnyFilter.answers sm F ls)[i]? = some b → (b = true ↔ Allowed sm main l k) := by
  have inner : ∀ (c : Bool) (k : FilterKind),
      (∀ main l, Allowed sm main l k ↔ l.valid = true ∧ (l.inMain = true ∧ c = true ∨
        l.inMain = false ∧ ∃ f e, l.file = some f ∧ sm.entry f = some e ∧ Associated main e) ∨
        (c = true ∧ l.valid = true ∧ l.inMain = true)) →
      ∀ (ls : List Loc) (F : Filter), F.Good sm → F.allowMain = c →
        (AnyFilter.answers sm (.inMainOrHeader F) ls).length = ls.length ∧
        ∀ main, sm.entry sm.main = some main → ∀ (i : Nat) (l : Loc) (b : Bool), ls[i]? = some l →
          (AnyFilter.answers sm (.inMainOrHeader F) ls)[i]? = some b →
          (b = true ↔ Allowed sm main l k) := by
    intro c k hk ls
    induction ls with
    | nil => intro F _ _; simp [AnyFilter.answers]
    | cons l ls ih =>
      intro F hg hc
      obtain ⟨g1, g2, g3, g4⟩ := good_check hg l
      have := ih (F.check sm l).2 g1 (g3.trans hc)
      refine ⟨by simp [AnyFilter.answers, AnyFilter.check, this.1], ?_⟩
      intro main hmain i l' b hi hb
      cases i with
      | zero =>
        simp only [List.getElem?_cons_zero, Option.some.injEq] at hi
        subst hi
        simp only [AnyFilter.answers, AnyFilter.check, List.getElem?_cons_zero,
          Option.some.injEq] at hb
        subst hb
        have : main = F.main := by
          have := hg.entry; rw [hmain] at this; exact Option.some.inj this
        subst this
        rw [g4, hk, hc]
        constructor
        · exact .inl
        · rintro (h | ⟨h1, h2, h3⟩)
          · exact h
          · exact ⟨h2, .inl ⟨h3, h1⟩⟩
      | succ i =>
        exact this.2 main hmain i l' b (by simpa using hi)
          (by simpa [AnyFilter.answers, AnyFilter.check] using hb)
  cases k with
  | all =>
    cases h
    have : ∀ ls : List Loc, AnyFilter.answers sm .noOp ls = ls.map fun _ => true := by
      intro ls
      induction ls with
      | nil => rfl
      | cons l ls ih => simp [AnyFilter.answers, AnyFilter.check, ih]
    rw [this]
    refine ⟨by simp, ?_⟩
    intro main _ i l b hi hb
    simp [hi] at hb
    simp [← hb, Allowed]
  | notMain =>
    cases h
    have : ∀ ls : List Loc, AnyFilter.answers sm .allButMain ls =
        ls.map fun l => (AnyFilter.check .allButMain sm l).1 := by
      intro ls
      induction ls with
      | nil => rfl
      | cons l ls ih => simp only [AnyFilter.answers, List.map_cons, ← ih]; rfl
    rw [this]
    refine ⟨by simp, ?_⟩
    intro main _ i l b hi hb
    simp only [List.getElem?_map, hi, Option.map_some, Option.some.injEq] at hb
    subst hb
    simp only [AnyFilter.check, Allowed]
    cases l.valid <;> cases l.inMain <;> simp
  | mainOrHeader =>
    simp only [getLocFilter, Option.map_eq_some_iff] at h
    obtain ⟨F', hF, rfl⟩ := h
    obtain ⟨g1, g2⟩ := good_new hF
    refine inner true .mainOrHeader ?_ ls F' g1 g2
    intro main l
    cases hm : l.inMain <;> simp [Allowed, hm]
  | headerNotMain =>
    simp only [getLocFilter, Option.map_eq_some_iff] at h
    obtain ⟨F', hF, rfl⟩ := h
    obtain ⟨g1, g2⟩ := good_new hF
    refine inner false .headerNotMain ?_ ls F' g1 g2
    intro main l
    cases hm : l.inMain <;> simp [Allowed, hm]

/-! ## The declaration filter -/

theorem flagMatch_iff {m : Str → Str → Bool} {fl text : Str} :
    flagMatch m fl text = true ↔ Passes m (some fl) text := by
  unfold flagMatch Passes
  split
  · rename_i r
    constructor
    · intro h
      exact .inl ⟨r, rfl, by simpa using h⟩
    · rintro (⟨r', h, h2⟩ | ⟨h, _⟩)
      · cases h; simp [h2]
      · exact absurd rfl (h r)
  · rename_i hne
    constructor
    · intro h
      exact .inr ⟨fun r hr => hne r hr, h⟩
    · rintro (⟨r', h, _⟩ | ⟨_, h⟩)
      · exact absurd h (hne r')
      · exact h

/-- The declarations analyzed are exactly those that pass both flags, in order;
the cache of files changes nothing. -/
theorem selected_exact {m : Str → Str → Bool} {sm : Sources} {fl : Flags} (ds : List Decl) :
    ∃ p : Decl → Bool, (∀ d, p d = true ↔ Wanted m sm fl d) ∧
      selected m sm fl [] ds = ds.filter p := by
  let q : File → Bool := fun f =>
    match fl.file with
    | none => true
    | some flag => match sm.entry f with
      | none => true
      | some e => flagMatch m flag e.name
  let p : Decl → Bool := fun d =>
    q d.file && match d.name with
      | some n => checkName m fl n
      | none => true
  have hq : ∀ f, q f = true ↔ ∀ e, sm.entry f = some e → Passes m fl.file e.name := by
    intro f
    simp only [q]
    cases fl.file with
    | none => simp [Passes]
    | some flag =>
      cases sm.entry f with
      | none => simp
      | some e => simp [flagMatch_iff]
  have hn : ∀ n, checkName m fl n = true ↔ Passes m fl.name n := by
    intro n
    unfold checkName
    cases fl.name with
    | none => simp [Passes]
    | some flag => simp [flagMatch_iff]
  refine ⟨p, ?_, ?_⟩
  · intro d
    simp only [p, Bool.and_eq_true, hq, Wanted]
    refine and_congr_right fun _ => ?_
    cases d.name with
    | none => simp
    | some n => simp [hn]
  · have hloc : ∀ c : List (File × Bool), (∀ f b, c.lookup f = some b → b = q f) → ∀ f,
        (checkLocation m sm fl c f).1 = q f ∧
          ∀ g b, (checkLocation m sm fl c f).2.lookup g = some b → b = q g := by
      intro c hc f
      unfold checkLocation
      simp only [q]
      cases hfl : fl.file with
      | none => exact ⟨rfl, fun g b h => by simpa [q, hfl] using hc g b h⟩
      | some flag =>
        simp only
        split
        · rename_i b hb
          refine ⟨by simpa [q, hfl] using hc f b hb, fun g b h => by simpa [q, hfl] using hc g b h⟩
        · refine ⟨rfl, ?_⟩
          intro g b h
          simp only [List.lookup_cons] at h
          split at h
          · rename_i hg
            simp only [beq_iff_eq] at hg
            subst hg
            exact (Option.some.inj h).symm
          · simpa [q, hfl] using hc g b h
    have main : ∀ (ds : List Decl) (c : List (File × Bool)),
        (∀ f b, c.lookup f = some b → b = q f) → selected m sm fl c ds = ds.filter p := by
      intro ds
      induction ds with
      | nil => intro c _; rfl
      | cons d ds ih =>
        intro c hc
        obtain ⟨h1, h2⟩ := hloc c hc d.file
        have hd : (declFilter m sm fl c d).1 = p d ∧
            (declFilter m sm fl c d).2 = (checkLocation m sm fl c d.file).2 := by
          unfold declFilter
          simp only [h1, p]
          cases hqd : q d.file
          · simp
          · cases hnm : d.name with
            | none => simp
            | some n => cases hcn : checkName m fl n <;> simp [hcn]
        unfold selected
        simp only [hd.1, hd.2, List.filter_cons]
        split
        · rw [ih _ h2]
        · rw [ih _ h2]
    exact main ds [] (by simp)

end Verif.Pre

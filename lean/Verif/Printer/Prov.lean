import Verif.Printer.Cpp
import Mathlib.Data.List.Forall2

/-!
# Printing generated code: where captured identifiers are
-/

namespace Verif.Printer

/-! ## Matches of a word -/

theorem border_of_noHead {a b : Text} (h : NoHead isWord b) : Border a b := by
  intro c d _ hd _ hw
  cases b with
  | nil => simp at hd
  | cons x b =>
      simp only [List.head?_cons, Option.some.injEq] at hd
      subst hd
      rw [h x b rfl] at hw
      cases hw

theorem border_tail {c : Char} {a b : Text} (h : Border (c :: a) b) : Border a b := by
  intro x d hx hd
  refine h x d ?_ hd
  cases a with
  | nil => simp at hx
  | cons y a => simpa using hx

/-- A word that is a prefix ends before the border. -/
theorem prefix_border {w : Text} (hw : w.all isWord = true) : ∀ {a b : Text}, a ≠ [] → Border a b →
    (w.isPrefixOf (a ++ b) = w.isPrefixOf a) := by
  induction w with
  | nil => intro a b _ _; simp
  | cons x w ih =>
      intro a b ha hb
      simp only [List.all_cons, Bool.and_eq_true] at hw
      cases a with
      | nil => exact absurd rfl ha
      | cons c a =>
          simp only [List.cons_append, List.isPrefixOf]
          by_cases hx : (x == c) = true
          · have hx' := eq_of_beq hx
            subst hx'
            simp only [beq_self_eq_true, Bool.true_and]
            cases a with
            | nil =>
                cases w with
                | nil => simp
                | cons y w =>
                    cases b with
                    | nil => simp
                    | cons d b =>
                        simp only [List.all_cons, Bool.and_eq_true] at hw
                        have : y ≠ d := by
                          rintro rfl
                          exact hb x y rfl rfl hw.1 hw.2.1
                        simp [List.isPrefixOf, this]
            | cons e a => exact ih hw.2 (by simp) (border_tail hb)
          · have : (x == c) = false := by simpa using hx
            rw [this]
            rfl

theorem prefix_length {w a : Text} (h : w.isPrefixOf a = true) : w.length ≤ a.length :=
  (List.isPrefixOf_iff_prefix.1 h).length_le

theorem matches_append {w : Text} (hw : w.all isWord = true) : ∀ (a b : Text) (i skip : Nat), skip ≤ a.length → Border a b →
    matches_ w i skip (a ++ b) = matches_ w i skip a ++ matches_ w (i + a.length) 0 b
  | [], b, i, skip, hs, _ => by
      have : skip = 0 := by simpa using hs
      subst this
      simp [matches_]
  | c :: a, b, i, skip + 1, hs, hb => by
      have := matches_append hw a b (i + 1) skip (by simpa using hs) (border_tail hb)
      simp only [List.cons_append, matches_, this, List.length_cons]
      congr 2
      omega
  | c :: a, b, i, 0, hs, hb => by
      have hp := prefix_border hw (a := c :: a) (b := b) (by simp) hb
      simp only [List.cons_append, matches_]
      rw [List.cons_append] at hp
      rw [hp]
      split
      · rename_i h
        have hl := prefix_length h
        rw [matches_append hw a b (i + 1) (w.length - 1) (by simp only [List.length_cons] at hl; omega) (border_tail hb)]
        simp only [List.cons_append, List.length_cons]
        congr 3
        omega
      · rw [matches_append hw a b (i + 1) 0 (by omega) (border_tail hb)]
        simp only [List.length_cons]
        congr 2
        omega

theorem matches_shift (w : Text) : ∀ (a : Text) (i skip j : Nat), matches_ w (i + j) skip a = (matches_ w i skip a).map (· + j)
  | [], _, _, _ => by simp [matches_]
  | c :: a, i, skip + 1, j => by
      simp only [matches_]
      rw [show i + j + 1 = i + 1 + j by omega, matches_shift w a (i + 1) skip j]
  | c :: a, i, 0, j => by
      simp only [matches_]
      rw [show i + j + 1 = i + 1 + j by omega]
      split
      · rw [matches_shift w a (i + 1) _ j, List.map_cons]
      · rw [matches_shift w a (i + 1) _ j]

/-- Matches are where the text is. -/
theorem matches_bounds (w : Text) : ∀ (a : Text) (i skip j : Nat), j ∈ matches_ w i skip a → i ≤ j ∧ j < i + a.length
  | [], _, _, _, h => by simp [matches_] at h
  | c :: a, i, skip + 1, j, h => by
      have := matches_bounds w a (i + 1) skip j (by simpa [matches_] using h)
      simp only [List.length_cons]
      omega
  | c :: a, i, 0, j, h => by
      simp only [matches_] at h
      simp only [List.length_cons]
      split at h
      · rcases List.mem_cons.1 h with rfl | h
        · omega
        · have := matches_bounds w a (i + 1) _ j h
          omega
      · have := matches_bounds w a (i + 1) _ j h
        omega

/-- The number of matches. -/
def count (w a : Text) : Nat := (matchIndices w a).length

theorem count_matches (w a : Text) (i : Nat) : (matches_ w i 0 a).length = count w a := by
  have := matches_shift w a 0 0 i
  rw [Nat.zero_add] at this
  rw [this, List.length_map]
  rfl

theorem count_append {w : Text} (hw : w.all isWord = true) {a b : Text} (h : Border a b) : count w (a ++ b) = count w a + count w b := by
  unfold count matchIndices
  rw [matches_append hw a b 0 0 (by omega) h, List.length_append, count_matches, count_matches, count_matches]

/-- A word between borders is a match, and matches before it are those of the text before. -/
theorem matches_split {w a b : Text} (hw : w.all isWord = true) (hne : w ≠ []) (h1 : Border a (w ++ b)) (h2 : Border w b) :
    matchIndices w (a ++ (w ++ b)) = matchIndices w a ++ a.length :: matches_ w (a.length + w.length) 0 b := by
  unfold matchIndices
  rw [matches_append hw a _ 0 0 (by omega) h1, Nat.zero_add, matches_append hw w b _ 0 (by omega) h2]
  congr 1
  have : matches_ w a.length 0 w = [a.length] := by
    cases w with
    | nil => exact absurd rfl hne
    | cons c w =>
        simp only [matches_]
        have hp : (c :: w).isPrefixOf (c :: w) = true := List.isPrefixOf_iff_prefix.2 (List.prefix_refl _)
        rw [if_pos hp]
        have : ∀ (u : Text) (i : Nat), matches_ (c :: w) i u.length u = [] := by
          intro u
          induction u with
          | nil => intro i; simp [matches_]
          | cons x u ih => intro i; simp [matches_, ih]
        simp [this w]
  rw [this]
  rfl

/-! ## Words -/

theorem wordsOf_word_cons {c : Char} {cs : Text} (hc : isWord c = true) : ∃ w ws, wordsOf (c :: cs) = w :: ws := by
  simp only [wordsOf, hc, if_true]
  split
  · split
    · exact ⟨_, _, rfl⟩
    · exact ⟨_, _, rfl⟩
  · exact ⟨_, _, rfl⟩

theorem wordsOf_append : ∀ {a b : Text}, Border a b → wordsOf (a ++ b) = wordsOf a ++ wordsOf b
  | [], b, _ => by simp [wordsOf]
  | [c], b, h => by
      simp only [List.cons_append, List.nil_append, wordsOf]
      by_cases hc : isWord c = true
      · have : b.head?.any isWord = false := by
          cases b with
          | nil => rfl
          | cons d b =>
              simp only [List.head?_cons, Option.any_some]
              cases hd : isWord d with
              | false => rfl
              | true => exact absurd (h c d rfl rfl hc hd) id
        simp [hc, this]
      · simp [hc]
  | c :: d :: a, b, h => by
      have ih := wordsOf_append (a := d :: a) (border_tail h)
      rw [List.cons_append]
      rw [wordsOf.eq_2, wordsOf.eq_2 c (d :: a), ih]
      by_cases hc : isWord c = true
      · simp only [hc, if_true, List.cons_append, List.head?_cons, Option.any_some]
        by_cases hd : isWord d = true
        · obtain ⟨w, ws, e⟩ := wordsOf_word_cons (c := d) (cs := a) hd
          simp [hd, e]
        · simp [hd]
      · simp [hc]

theorem wordsOf_word {w : Text} (hw : w.all isWord = true) (hne : w ≠ []) : wordsOf w = [w] := by
  induction w with
  | nil => exact absurd rfl hne
  | cons c w ih =>
      simp only [List.all_cons, Bool.and_eq_true] at hw
      cases w with
      | nil => simp [wordsOf, hw.1]
      | cons d w =>
          rw [wordsOf.eq_2, ih hw.2 (by simp)]
          simp only [List.all_cons, Bool.and_eq_true] at hw
          simp [hw.1, hw.2.1]

theorem takeWhile_all (p : Char → Bool) (l : Text) : (l.takeWhile p).all p = true := by
  induction l with
  | nil => rfl
  | cons c l ih =>
      rw [List.takeWhile_cons]
      split
      · rename_i h; simp only [List.all_cons, Bool.and_eq_true]; exact ⟨h, ih⟩
      · rfl

theorem noHead_dropWhile (p : Char → Bool) (l : Text) : NoHead p (l.dropWhile p) := by
  induction l with
  | nil => intro c r h; cases h
  | cons c l ih =>
      rw [List.dropWhile_cons]
      split
      · exact ih
      · rename_i h; exact noHead_cons (by simpa using h)

/-- The first word of a text. -/
theorem word_split {c : Char} {cs : Text} (hc : isWord c = true) : ∃ u r, c :: cs = u ++ r ∧ u.all isWord = true ∧ u ≠ [] ∧
    Border u r ∧ r.length < (c :: cs).length := by
  refine ⟨(c :: cs).takeWhile isWord, (c :: cs).dropWhile isWord, (List.takeWhile_append_dropWhile ..).symm, takeWhile_all _ _, ?_,
    border_of_noHead (noHead_dropWhile _ _), ?_⟩
  · rw [List.takeWhile_cons, if_pos hc]; simp
  · rw [List.dropWhile_cons, if_pos hc]
    have := dropWhile_length isWord cs
    simp only [List.length_cons]
    omega

theorem border_cons_of_not {c : Char} {b : Text} (h : isWord c = false) : Border [c] b := by
  intro x d hx _ hw
  simp only [List.getLast?_singleton, Option.some.injEq] at hx
  subst hx
  rw [h] at hw
  cases hw

theorem count_not_word {w : Text} (hw : w.all isWord = true) (hne : w ≠ []) {c : Char} (hc : isWord c = false) : count w [c] = 0 := by
  unfold count matchIndices
  have : w.isPrefixOf [c] = false := by
    cases w with
    | nil => exact absurd rfl hne
    | cons x w =>
        simp only [List.all_cons, Bool.and_eq_true] at hw
        have : x ≠ c := by rintro rfl; rw [hc] at hw; exact absurd hw.1 (by simp)
        simp [List.isPrefixOf, this]
  simp [matches_, this]

/-- The number of matches depends on the words. -/
theorem count_words {w : Text} (hw : w.all isWord = true) (hne : w ≠ []) : ∀ (n : Nat) (a : Text), a.length ≤ n →
    count w a = ((wordsOf a).map (count w)).sum
  | _, [], _ => by simp [wordsOf, count, matchIndices, matches_]
  | 0, _ :: _, h => by simp at h
  | n + 1, c :: a, h => by
      by_cases hc : isWord c = true
      · obtain ⟨u, r, e, hu, hun, hb, hl⟩ := word_split (cs := a) hc
        rw [e, count_append hw hb, wordsOf_append hb, wordsOf_word hu hun, count_words hw hne n r (by omega)]
        simp
      · have hc' : isWord c = false := by simpa using hc
        have : c :: a = [c] ++ a := rfl
        rw [this, count_append hw (border_cons_of_not hc'), wordsOf_append (border_cons_of_not hc'), count_not_word hw hne hc',
          count_words hw hne n a (by simpa using h)]
        simp [wordsOf, hc']

theorem border_append {a b c : Text} (h1 : Border a c) (h2 : Border b c) : Border (a ++ b) c := by
  intro x d hx
  rw [List.getLast?_append] at hx
  cases hb : b.getLast? with
  | none => rw [hb] at hx; exact h1 x d (by simpa using hx)
  | some y =>
      rw [hb] at hx
      simp only [Option.some_or, Option.some.injEq] at hx
      subst hx
      exact h2 y d hb

/-- Where a word of a text is. -/
theorem words_split : ∀ (n : Nat) (B : Text), B.length ≤ n → ∀ {xs ys : List Text} {w : Text}, wordsOf B = xs ++ w :: ys →
    ∃ b1 b2, B = b1 ++ (w ++ b2) ∧ wordsOf b1 = xs ∧ wordsOf b2 = ys ∧ Border b1 (w ++ b2) ∧ Border w b2
  | _, [], _, xs, ys, w, h => by simp [wordsOf] at h
  | 0, _ :: _, h, _, _, _, _ => by simp at h
  | n + 1, c :: B, hn, xs, ys, w, h => by
      by_cases hc : isWord c = true
      · obtain ⟨u, r, e, hu, hun, hb, hl⟩ := word_split (cs := B) hc
        rw [e, wordsOf_append hb, wordsOf_word hu hun] at h
        cases xs with
        | nil =>
            simp only [List.nil_append, List.cons_append, List.cons.injEq] at h
            obtain ⟨rfl, rfl⟩ := h
            exact ⟨[], r, by rw [e]; rfl, rfl, rfl, (by intro _ _ h; cases h), hb⟩
        | cons x xs =>
            simp only [List.nil_append, List.cons_append, List.cons.injEq] at h
            obtain ⟨rfl, h⟩ := h
            obtain ⟨b1, b2, rfl, h1, h2, h3, h4⟩ := words_split n r (by omega) h
            have hub : Border u b1 := by
              intro p q hp hq
              exact hb p q hp (by rw [List.head?_append, hq]; rfl)
            refine ⟨u ++ b1, b2, by rw [e]; simp, ?_, h2, ?_, h4⟩
            · rw [wordsOf_append hub, wordsOf_word hu hun, h1]; rfl
            · cases b1 with
              | nil => simpa using hb
              | cons y b1 =>
                  intro p q hp
                  rw [List.getLast?_append] at hp
                  refine h3 p q ?_
                  cases hl : (y :: b1).getLast? with
                  | none => simp at hl
                  | some z => rw [hl] at hp; simpa using hp
      · have hc' : isWord c = false := by simpa using hc
        have hw : wordsOf (c :: B) = wordsOf B := by simp [wordsOf, hc']
        rw [hw] at h
        obtain ⟨b1, b2, rfl, h1, h2, h3, h4⟩ := words_split n B (by simpa using hn) h
        refine ⟨c :: b1, b2, rfl, by simp [wordsOf, hc', h1], h2, ?_, h4⟩
        cases b1 with
        | nil => exact border_cons_of_not hc'
        | cons y b1 =>
            intro p q hp
            exact h3 p q (by simpa using hp)

/-- A captured word is found again in any text with the same words, and it is the same word. -/
theorem found_again {w a b B : Text} (hw : w.all isWord = true) (hne : w ≠ []) (h1 : Border a (w ++ b)) (h2 : Border w b)
    (hB : wordsOf B = wordsOf (a ++ (w ++ b))) :
    ∃ b1 b2, B = b1 ++ (w ++ b2) ∧ wordsOf b1 = wordsOf a ∧ wordsOf b2 = wordsOf b ∧ Border b1 (w ++ b2) ∧ Border w b2 ∧
      (matchIndices w B)[count w a]? = some b1.length := by
  rw [wordsOf_append h1, wordsOf_append h2, wordsOf_word hw hne] at hB
  obtain ⟨b1, b2, rfl, e1, e2, e3, e4⟩ := words_split _ B (Nat.le_refl _) hB
  refine ⟨b1, b2, rfl, e1, e2, e3, e4, ?_⟩
  rw [matches_split hw hne e3 e4]
  have : count w a = (matchIndices w b1).length := by
    rw [count_words hw hne _ a (Nat.le_refl _), ← e1, ← count_words hw hne _ b1 (Nat.le_refl _)]
    rfl
  rw [this, List.getElem?_append_right (Nat.le_refl _)]
  simp

/-! ## Records -/

theorem trim_word {w : Text} (hw : w.all isWord = true) (hne : w ≠ []) : trim (w ++ [' ']) = w := by
  have hb : ∀ c, isWord c = true → isBlank c = false := fun c h => (word_facts h).2.2.1
  unfold trim
  rw [dropWhile_noHead (l := w ++ [' '])]
  · rcases List.eq_nil_or_concat w with rfl | ⟨u, c, rfl⟩
    · exact absurd rfl hne
    · rw [List.concat_eq_append] at hw ⊢
      simp only [List.all_append, List.all_cons, List.all_nil, Bool.and_true, Bool.and_eq_true] at hw
      have : (u ++ [c] ++ [' ']).reverse = [' '] ++ (c :: u.reverse) := by simp
      rw [this, dropWhile_append_of (by decide) (noHead_cons (hb c hw.2))]
      simp
  · cases w with
    | nil => exact absurd rfl hne
    | cons c w =>
        simp only [List.all_cons, Bool.and_eq_true] at hw
        exact noHead_cons (hb c hw.1)

/-- The record of a captured identifier that follows no letter: `unwrap` does not fail, and the index is the number of matches
between the tag and the identifier. -/
theorem record_eq {A w B : Text} {e : Entry} (hw : w.all isWord = true) (hne : w ≠ [])
    (hA : A.getLast?.any isWord = false) (h1 : e.start = A.length) (h2 : e.stop = A.length + w.length + 1)
    (h3 : e.searchStart ≤ e.start) :
    record (A ++ (w ++ ' ' :: B)) e = some (some ⟨w, count w (A.drop e.searchStart), e.path, e.origStart, e.origStop⟩) := by
  have hlen : 0 < w.length := by cases w <;> simp_all
  unfold record
  rw [if_neg (by omega)]
  have hslice : trim (((A ++ (w ++ ' ' :: B)).drop e.start).take (e.stop - e.start)) = w := by
    rw [h1, h2, List.drop_left]
    have : A.length + w.length + 1 - A.length = (w ++ [' ']).length := by simp; omega
    rw [this]
    have : w ++ ' ' :: B = (w ++ [' ']) ++ B := by simp
    rw [this, List.take_left]
    exact trim_word hw hne
  have hdrop : (A ++ (w ++ ' ' :: B)).drop e.searchStart = A.drop e.searchStart ++ (w ++ ' ' :: B) := by
    rw [List.drop_append_of_le_length (by omega)]
  have hb1 : Border (A.drop e.searchStart) (w ++ ' ' :: B) := by
    intro c d hc _ hcw
    have : A.getLast? = some c := by
      by_cases hl : e.searchStart < A.length
      · rw [List.getLast?_drop] at hc
        rw [if_neg (by omega)] at hc
        exact hc
      · rw [List.drop_eq_nil_of_le (by omega)] at hc
        simp at hc
    rw [this] at hA
    simp only [Option.any_some] at hA
    rw [hA] at hcw
    cases hcw
  have hb2 : Border w (' ' :: B) := border_of_noHead (noHead_cons (by decide))
  simp only
  rw [hslice, hdrop, matches_split hw hne hb1 hb2]
  have hlA : (A.drop e.searchStart).length = e.start - e.searchStart := by rw [List.length_drop, h1]
  rw [List.findIdx?_append]
  have hnone : (matchIndices w (A.drop e.searchStart)).findIdx?
      (fun i => decide (e.start - e.searchStart ≤ i ∧ i < e.stop - e.searchStart)) = none := by
    rw [List.findIdx?_eq_none_iff]
    intro i hi
    have := (matches_bounds w _ 0 0 i hi).2
    simp only [decide_eq_false_iff_not, not_and]
    omega
  rw [hnone]
  have hhere : decide (e.start - e.searchStart ≤ (A.drop e.searchStart).length ∧
      (A.drop e.searchStart).length < e.stop - e.searchStart) = true := by
    simp only [decide_eq_true_eq]
    omega
  rw [List.findIdx?_cons, if_pos hhere]
  simp [count]

/-! ## All captures of a stream -/

/-- The tags and captures of a stream with the length of the text before them. -/
def evAt (prev : Option Kind) (off : Nat) : TS → List (Ev × Nat)
  | .nil => []
  | .captureTag p a b r => (.tag p a b, off) :: evAt (some .word) off r
  | .captureBegin (.ident w (.captureEnd r)) => (.cap w, off) :: evAt (some .word) (off + w.length + 1) r
  | .captureBegin r | .captureEnd r => evAt (some .word) off r
  | .newline r | .space r => evAt (some .other) (off + 1) r
  | .hash r => evAt (some .word) (off + 1) r
  | .comment v r => evAt (some .word) (off + (commentText v).length) r
  | .group d i r => evAt none (off + d.texts.1.length) i ++
      evAt (some .other) (off + d.texts.1.length + (pr commentText none i).length + d.texts.2.length) r
  | .ident w r => evAt (some .word) (off + w.length + (blank prev .word r).length) r
  | .lit l r => evAt (some .word) (off + l.text.length + (blank prev .word r).length) r
  | .punct _ _ r => evAt (some .other) (off + ((blank prev .other r).length + 1)) r
  | .colon j r => evAt (some (.colon j)) (off + ((blank prev (.colon j) r).length + 1)) r

/-- The state of `attach` after some events. -/
def lastTag (n : Nat) (p a b : Text) (t : Nat) : List (Ev × Nat) → Nat × Text × Text × Text × Nat
  | [] => (n, p, a, b, t)
  | (.tag p' a' b', k) :: es => lastTag (n + 1) p' a' b' k es
  | (.cap _, _) :: es => lastTag n p a b t es

theorem attach_append : ∀ (es fs : List (Ev × Nat)) (n : Nat) (p a b : Text) (t : Nat), attach n p a b t (es ++ fs) =
    attach n p a b t es ++ (match lastTag n p a b t es with | (n', p', a', b', t') => attach n' p' a' b' t' fs)
  | [], fs, n, p, a, b, t => by simp [attach, lastTag]
  | (.tag p' a' b', k) :: es, fs, n, p, a, b, t => by simp [attach, lastTag, attach_append es fs]
  | (.cap w, k) :: es, fs, n, p, a, b, t => by simp [attach, lastTag, attach_append es fs]

theorem lastTag_append : ∀ (es fs : List (Ev × Nat)) (n : Nat) (p a b : Text) (t : Nat), lastTag n p a b t (es ++ fs) =
    (match lastTag n p a b t es with | (n', p', a', b', t') => lastTag n' p' a' b' t' fs)
  | [], fs, n, p, a, b, t => by simp [lastTag]
  | (.tag p' a' b', k) :: es, fs, n, p, a, b, t => by simp [lastTag, lastTag_append es fs]
  | (.cap w, k) :: es, fs, n, p, a, b, t => by simp [lastTag, lastTag_append es fs]

/-- What is known of the state: the last tag. -/
structure TagIs (s : St) (x : Nat × Text × Text × Text × Nat) : Prop where
  index : s.index = x.1
  path : s.entry.path = cleanLiteral x.2.1
  start : s.entry.origStart = cleanLiteral x.2.2.1
  stop : s.entry.origStop = cleanLiteral x.2.2.2.1
  search : s.entry.searchStart = x.2.2.2.2
  le : s.entry.searchStart ≤ s.result.length

/-- An entry is that of a capture. -/
def EntryIs (result : Text) (c : Cap) (ne : Nat × Entry) : Prop :=
  ne.1 = c.index ∧ ne.2.path = cleanLiteral c.path ∧ ne.2.origStart = cleanLiteral c.start ∧ ne.2.origStop = cleanLiteral c.stop ∧
  ne.2.searchStart = c.tagPos ∧ c.tagPos ≤ c.pos ∧ c.word.all isWord = true ∧ c.word ≠ [] ∧
  ∃ A B, result = A ++ (c.word ++ ' ' :: B) ∧ A.length = c.pos ∧ ne.2.start = c.pos ∧ ne.2.stop = c.pos + c.word.length + 1 ∧
    A.getLast?.any isWord = false

theorem EntryIs.mono {result : Text} {c : Cap} {ne : Nat × Entry} (h : EntryIs result c ne) (X : Text) : EntryIs (result ++ X) c ne := by
  obtain ⟨h1, h2, h3, h4, h5, h6, h7, h8, A, B, e, e1, e2, e3, e4⟩ := h
  exact ⟨h1, h2, h3, h4, h5, h6, h7, h8, A, B ++ X, by rw [e]; simp, e1, e2, e3, e4⟩

/-- Before a word or marker, the text does not end in a letter. -/
def Sep (result : Text) (ts : TS) : Prop := ts.kind = some .word → result.getLast?.any isWord = false

theorem sep_of {result : Text} {ts : TS} (h : result.getLast?.any isWord = false) : Sep result ts := fun _ => h

theorem last_append {a b : Text} (hb : b ≠ []) (h : b.getLast?.any isWord = false) : (a ++ b).getLast?.any isWord = false := by
  rw [List.getLast?_append]
  cases hl : b.getLast? with
  | none => rw [List.getLast?_eq_none_iff] at hl; exact absurd hl hb
  | some x => rw [hl] at h; simpa using h

theorem sep_word {a : Text} {prev : Option Kind} {r : TS} : Sep (a ++ blank prev .word r) r := by
  intro hk
  rw [blank_word hk]
  exact last_append (by simp) (by decide)

theorem write_caps : ∀ (ts : TS) (prev : Option Kind) (s : St) (n : Nat) (p a b : Text) (t : Nat), ts.Clean → ts.CapOk →
    Sep s.result ts → TagIs s (n, p, a, b, t) →
    TagIs (write prev ts s) (lastTag n p a b t (evAt prev s.result.length ts)) ∧
    ∃ new, (write prev ts s).map = new ++ s.map ∧
      List.Forall₂ (EntryIs (write prev ts s).result) (attach n p a b t (evAt prev s.result.length ts)) new.reverse
  | .nil, _, s, n, p, a, b, t, _, _, _, ht => ⟨ht, [], rfl, .nil⟩
  | .newline r, prev, s, n, p, a, b, t, hc, hk, hs, ht => by
      have := write_caps r (some .other) { s with result := s.result ++ ['\n'] } n p a b t hc hk
        (sep_of (last_append (by simp) (by decide))) ⟨ht.1, ht.2, ht.3, ht.4, ht.5, by simp; have := ht.6; omega⟩
      simpa [write, evAt] using this
  | .space r, prev, s, n, p, a, b, t, hc, hk, hs, ht => by
      have := write_caps r (some .other) { s with result := s.result ++ [' '] } n p a b t hc hk
        (sep_of (last_append (by simp) (by decide))) ⟨ht.1, ht.2, ht.3, ht.4, ht.5, by simp; have := ht.6; omega⟩
      simpa [write, evAt] using this
  | .hash r, prev, s, n, p, a, b, t, hc, hk, hs, ht => by
      have := write_caps r (some .word) { s with result := s.result ++ ['#'] } n p a b t hc hk
        (sep_of (last_append (by simp) (by decide))) ⟨ht.1, ht.2, ht.3, ht.4, ht.5, by simp; have := ht.6; omega⟩
      simpa [write, evAt] using this
  | .comment v r, prev, s, n, p, a, b, t, hc, hk, hs, ht => by
      have := write_caps r (some .word) { s with result := s.result ++ commentText v } n p a b t hc hk
        (sep_of (last_append (by simp [commentText]) (by unfold commentText; rw [List.getLast?_append]; simp; decide)))
        ⟨ht.1, ht.2, ht.3, ht.4, ht.5, by simp; have := ht.6; omega⟩
      simpa [write, evAt] using this
  | .captureTag p' a' b' r, prev, s, n, p, a, b, t, hc, hk, hs, ht => by
      let e : Entry := { s.entry with path := cleanLiteral p', origStart := cleanLiteral a', origStop := cleanLiteral b',
                                      searchStart := s.result.length }
      have := write_caps r (some .word) { s with index := s.index + 1, entry := e } (n + 1) p' a' b' s.result.length hc hk
        (sep_of (hs rfl)) ⟨by simp [ht.1], rfl, rfl, rfl, rfl, Nat.le_refl _⟩
      simpa [write, evAt, attach, lastTag] using this
  | .captureBegin (.ident w (.captureEnd r)), prev, s, n, p, a, b, t, hc, hk, hs, ht => by
      have hw : wordOk w := hc.1
      have hb : blank (some .word) .word (.captureEnd r) = [' '] := blank_word rfl
      obtain ⟨E, hE⟩ : ∃ E : Entry, E = { s.entry with start := s.result.length, stop := (s.result ++ w ++ [' ']).length } :=
        ⟨_, rfl⟩
      have hstep : write prev (.captureBegin (.ident w (.captureEnd r))) s = write (some .word) r
          { s with result := s.result ++ w ++ [' '], lastBegin := some s.result.length, map := (s.index, E) :: s.map } := by
        subst hE
        simp [write, hb]
      obtain ⟨h1, new, h2, h3⟩ := write_caps r (some .word)
        { s with result := s.result ++ w ++ [' '], lastBegin := some s.result.length, map := (s.index, E) :: s.map }
        n p a b t hc.2.2 hk (sep_of (last_append (by simp) (by decide)))
        ⟨ht.1, ht.2, ht.3, ht.4, ht.5, by simp; have := ht.6; omega⟩
      rw [hstep]
      have hl : (s.result ++ w ++ [' ']).length = s.result.length + w.length + 1 := by simp; omega
      simp only [evAt, attach, lastTag]
      simp only [hl] at h1 h3
      refine ⟨h1, new ++ [(s.index, E)], ?_, ?_⟩
      · rw [h2]; simp
      · rw [List.reverse_append]
        refine .cons ?_ h3
        have base : EntryIs (s.result ++ w ++ [' ']) ⟨n, p, a, b, w, t, s.result.length⟩ (s.index, E) := by
          subst hE
          exact ⟨ht.1, ht.2, ht.3, ht.4, ht.5, by have := ht.6; have := ht.5; simp only at this ⊢; omega, hw.2.1, hw.1, s.result, [],
            by simp, rfl, rfl, hl, hs rfl⟩
        rw [write_result]
        exact base.mono _
  | .group d i r, prev, s, n, p, a, b, t, hc, hk, hs, ht => by
      have hd1 : (s.result ++ d.texts.1).getLast?.any isWord = false :=
        last_append (by cases d <;> simp_all [Delim.texts, TS.Clean]) (by cases d <;> decide)
      obtain ⟨h1, new1, h2, h3⟩ := write_caps i none { s with result := s.result ++ d.texts.1 } n p a b t hc.2.1 hk.1 (sep_of hd1)
        ⟨ht.1, ht.2, ht.3, ht.4, ht.5, by simp; have := ht.6; omega⟩
      generalize hs1 : write none i { s with result := s.result ++ d.texts.1 } = s1 at h1 h2 h3
      have hr1 : s1.result = s.result ++ d.texts.1 ++ pr commentText none i := by rw [← hs1, write_result]
      have hd2 : (s1.result ++ d.texts.2).getLast?.any isWord = false :=
        last_append (by cases d <;> simp_all [Delim.texts, TS.Clean]) (by cases d <;> decide)
      generalize he : evAt none (s.result ++ d.texts.1).length i = es at h1 h3
      generalize hl : lastTag n p a b t es = x at h1
      obtain ⟨n', p', a', b', t'⟩ := x
      obtain ⟨k1, new2, k2, k3⟩ := write_caps r (some .other) { s1 with result := s1.result ++ d.texts.2 } n' p' a' b' t' hc.2.2 hk.2
        (sep_of hd2) ⟨h1.1, h1.2, h1.3, h1.4, h1.5, by simp; have := h1.6; omega⟩
      have hw : write prev (.group d i r) s = write (some .other) r { s1 with result := s1.result ++ d.texts.2 } := by
        simp only [write, hs1]
      have hoff : (s1.result ++ d.texts.2).length =
          s.result.length + d.texts.1.length + (pr commentText none i).length + d.texts.2.length := by
        rw [hr1]; simp; omega
      have hev : evAt prev s.result.length (.group d i r) = es ++ evAt (some .other) (s1.result ++ d.texts.2).length r := by
        rw [hoff, ← he]
        simp [evAt]
      rw [hw, hev, attach_append, lastTag_append, hl]
      refine ⟨k1, new2 ++ new1, ?_, ?_⟩
      · rw [k2, h2]; simp
      · rw [List.reverse_append]
        refine List.rel_append ?_ k3
        refine List.Forall₂.imp ?_ h3
        intro c ne h
        rw [write_result]
        have := (h.mono d.texts.2).mono (pr commentText (some .other) r)
        exact this
  | .ident w r, prev, s, n, p, a, b, t, hc, hk, hs, ht => by
      have := write_caps r (some .word) { s with result := s.result ++ w ++ blank prev .word r } n p a b t hc.2.2 hk
        sep_word ⟨ht.1, ht.2, ht.3, ht.4, ht.5, by simp; have := ht.6; omega⟩
      simpa [write, evAt, Nat.add_assoc] using this
  | .lit l r, prev, s, n, p, a, b, t, hc, hk, hs, ht => by
      have := write_caps r (some .word) { s with result := s.result ++ l.text ++ blank prev .word r } n p a b t hc.2.2.2 hk
        sep_word ⟨ht.1, ht.2, ht.3, ht.4, ht.5, by simp; have := ht.6; omega⟩
      simpa [write, evAt, Nat.add_assoc] using this
  | .punct c j r, prev, s, n, p, a, b, t, hc, hk, hs, ht => by
      have hp := (punct_facts hc.1).1
      have := write_caps r (some .other) { s with result := s.result ++ [c] ++ blank prev .other r } n p a b t hc.2.2.2.2 hk
        (sep_of (by rw [blank_other, List.append_nil]; exact last_append (by simp) (by simpa using hp)))
        ⟨ht.1, ht.2, ht.3, ht.4, ht.5, by simp; have := ht.6; omega⟩
      simpa [write, evAt, Nat.add_assoc] using this
  | .colon j r, prev, s, n, p, a, b, t, hc, hk, hs, ht => by
      have hlast : (s.result ++ [':'] ++ blank prev (.colon j) r).getLast?.any isWord = false := by
        unfold blank
        split
        · rw [List.append_nil]; exact last_append (by simp) (by decide)
        · split
          · exact last_append (by simp) (by decide)
          · rw [List.append_nil]; exact last_append (by simp) (by decide)
      have := write_caps r (some (.colon j)) { s with result := s.result ++ [':'] ++ blank prev (.colon j) r } n p a b t hc.2 hk
        (sep_of hlast) ⟨ht.1, ht.2, ht.3, ht.4, ht.5, by simp; have := ht.6; omega⟩
      simpa [write, evAt, Nat.add_assoc] using this

/-- The entries of the printer are the captures of the stream, and their records are made. -/
theorem captures_recorded (ts : TS) (hc : ts.Clean) (hk : ts.CapOk) :
    List.Forall₂ (fun c ne => ne.1 = c.index ∧
        ∃ A B, print ts = A ++ (c.word ++ ' ' :: B) ∧ A.length = c.pos ∧ c.tagPos ≤ c.pos ∧
          (∀ x, A.getLast? = some x → isWord x = false) ∧ c.word.all isWord = true ∧ c.word ≠ [] ∧
          record (print ts) ne.2 = some (some ⟨c.word, count c.word (A.drop c.tagPos), cleanLiteral c.path, cleanLiteral c.start,
            cleanLiteral c.stop⟩))
      (attach 0 [] [] [] 0 (evAt none 0 ts)) (write none ts { result := [] }).map.reverse := by
  obtain ⟨_, new, h2, h3⟩ := write_caps ts none { result := [] } 0 [] [] [] 0 hc hk (by intro _; rfl)
    ⟨rfl, by decide, by decide, by decide, rfl, by simp⟩
  rw [h2, List.append_nil]
  refine List.Forall₂.imp ?_ h3
  rintro c ⟨m, e⟩ ⟨e1, e2, e3, e4, e5, e6, e7, e8, A, B, f1, f2, f3, f4, f5⟩
  refine ⟨e1, A, B, f1, f2, e6, ?_, e7, e8, ?_⟩
  · intro x hx
    rw [hx] at f5
    simpa using f5
  · have hp : print ts = A ++ (c.word ++ ' ' :: B) := f1
    simp only at e2 e3 e4 e5 f3 f4
    show record (print ts) e = _
    rw [hp, record_eq e7 e8 f5 (by omega) (by omega) (by omega), e2, e3, e4, e5]

/-- In a formatted text, from the place where the tag is now, with the words of the text that was printed from the tag on, the
captured identifier is found. -/
theorem fixUp_finds {content pattern w a b p x y : Text} {m : Nat → Option Sub} {t off : Nat}
    (hoff : (matchIndices pattern content)[t]? = some off) (hm : m (t + 1) = some ⟨w, count w a, p, x, y⟩)
    (hw : w.all isWord = true) (hne : w ≠ []) (h1 : Border a (w ++ b)) (h2 : Border w b)
    (hB : wordsOf (content.drop off) = wordsOf (a ++ (w ++ b))) :
    ∃ b1 b2, content.drop off = b1 ++ (w ++ b2) ∧ wordsOf b1 = wordsOf a ∧ Border b1 (w ++ b2) ∧ Border w b2 ∧
      (t + 1, b1.length + off, b1.length + off + w.length, ⟨w, count w a, p, x, y⟩) ∈ fixUp content pattern m := by
  obtain ⟨b1, b2, e1, e2, _, e4, e5, e6⟩ := found_again hw hne h1 h2 hB
  refine ⟨b1, b2, e1, e2, e4, e5, ?_⟩
  unfold fixUp
  rw [List.mem_filterMap]
  refine ⟨(off, t), ?_, ?_⟩
  · rw [List.mem_zipIdx_iff_getElem?]
    exact hoff
  · simp only [hm]
    rw [if_neg hne, e6]
    rfl

/-- The literals of a tag without backslashes and control characters, and without a quote at the end, are kept. -/
theorem cleanLiteral_eq (v : Text) (h : v.any isControl = false) (hb : '\\' ∉ v) (hq : v.getLast? ≠ some '"') : cleanLiteral v = v := by
  have h1 := unquote_flat [] (by simp) v
  simp only [List.append_nil, unquote] at h1
  rw [cleanLiteral, trimQuotes_other v hq, h1]
  clear h1 hq
  induction v with
  | nil => rfl
  | cons c v ih =>
      simp only [List.any_cons, Bool.or_eq_false_iff] at h
      simp only [List.mem_cons, not_or] at hb
      rw [List.flatMap_cons, ih h.2 hb.2]
      simp only [isControl, Bool.or_eq_false_iff, beq_eq_false_iff_ne] at h
      have : escU c = [c] := by
        unfold escU
        split
        · rename_i e; rw [e]
        · rename_i e
          exact escape_other ⟨e, fun e' => hb.1 e'.symm, h.1.1.1.1, h.1.1.1.2, h.1.1.2, h.1.2⟩
      rw [this]; rfl

end Verif.Printer

import Verif.Doc.Spec

/-!
# Theorems: documentation comments and source locations
-/

namespace Verif.Doc
open Spec

/-! ## Lines -/

theorem lines_iff {t : Str} {ls : List Str} : Lines t ls ↔ splitLines t = ls := by
  have hne : ∀ t, splitLines t ≠ [] := by
    intro t
    cases t with
    | nil => simp [splitLines]
    | cons c s =>
      unfold splitLines
      split
      · simp
      · split <;> simp
  constructor
  · rintro ⟨h1, h2, h3⟩
    have key : ∀ (ls : List Str) (l : Str), '\n' ∉ l → (∀ l ∈ ls, '\n' ∉ l) →
        splitLines (l ++ (ls.map fun l => '\n' :: l).flatten) = l :: ls := by
      intro ls
      induction ls with
      | nil =>
        intro l hl _
        induction l with
        | nil => simp [splitLines]
        | cons c l ih =>
          simp only [List.mem_cons, not_or] at hl
          have := ih hl.2
          simp only [List.map_nil, List.flatten_nil, List.append_nil] at this ⊢
          unfold splitLines
          rw [if_neg (Ne.symm hl.1), this]
      | cons m ls ih =>
        intro l hl hls
        have hm := ih m (hls m (by simp)) fun l h => hls l (by simp [h])
        induction l with
        | nil =>
          simp only [List.map_cons, List.flatten_cons, List.nil_append, List.cons_append]
          unfold splitLines
          rw [if_pos rfl, hm]
        | cons c l ih' =>
          simp only [List.mem_cons, not_or] at hl
          have := ih' hl.2
          rw [List.cons_append]
          unfold splitLines
          rw [if_neg (Ne.symm hl.1), this]
    cases ls with
    | nil => exact absurd rfl h1
    | cons l ls =>
      subst h3
      simp only [List.map_cons, List.flatten_cons, List.cons_append, List.drop_succ_cons,
        List.drop_zero]
      exact key ls l (h2 l (by simp)) fun l h => h2 l (by simp [h])
  · rintro rfl
    induction t with
    | nil => exact ⟨by simp [splitLines], by simp [splitLines], by simp [splitLines]⟩
    | cons c s ih =>
      obtain ⟨i1, i2, i3⟩ := ih
      by_cases hc : c = '\n'
      · subst hc
        have : splitLines ('\n' :: s) = [] :: splitLines s := by simp [splitLines]
        rw [this]
        refine ⟨by simp, ?_, ?_⟩
        · intro l hl
          rcases List.mem_cons.1 hl with rfl | hl
          · simp
          · exact i2 l hl
        · cases h : splitLines s with
          | nil => exact absurd h (hne s)
          | cons l ls => rw [h] at i3; simp at i3; simp [← i3]
      · cases h : splitLines s with
        | nil => exact absurd h (hne s)
        | cons l ls =>
          have : splitLines (c :: s) = (c :: l) :: ls := by
            rw [splitLines, if_neg hc, h]
          rw [this]
          rw [h] at i2 i3
          refine ⟨by simp, ?_, by simp at i3; simp [← i3]⟩
          intro k hk
          rcases List.mem_cons.1 hk with rfl | hk
          · simp only [List.mem_cons, not_or]
            exact ⟨Ne.symm hc, i2 l (by simp)⟩
          · exact i2 k (by simp [hk])

theorem lines_exist (t : Str) : ∃ ls, Lines t ls := ⟨_, lines_iff.2 rfl⟩

theorem join_nl (ls : List Str) : join ['\n'] ls = (ls.map fun l => '\n' :: l).flatten.drop 1 := by
  induction ls with
  | nil => rfl
  | cons a r ih =>
    cases r with
    | nil => simp [join]
    | cons b r =>
      rw [join, ih]
      simp

/-! ## Comments of C++ -/

theorem blank_iff {c : Char} : isSpace c = true ↔ Blank c := by
  unfold isSpace Blank
  simp only [Bool.or_eq_true, decide_eq_true_eq, List.mem_cons, List.not_mem_nil, or_false]
  have e1 : Char.ofNat 11 = '\x0b' := by decide
  have e2 : Char.ofNat 12 = '\x0c' := by decide
  rw [e1, e2]
  simp only [or_assoc]

theorem after_iff {p s r : Str} : after p s = some r ↔ s = p ++ r := by
  induction p generalizing s with
  | nil => simp [after, eq_comm]
  | cons a p ih =>
    cases s with
    | nil => simp [after]
    | cons c s =>
      unfold after
      split
      · rename_i h; subst h; simp [ih]
      · rename_i h; simp [Ne.symm h]

theorem mem_takeWhile_imp {α : Type} {q : α → Bool} {a : α} :
    ∀ {l : List α}, a ∈ l.takeWhile q → q a = true
  | [], h => by simp at h
  | b :: l, h => by
    rw [List.takeWhile_cons] at h
    split at h
    · rename_i hb
      rcases List.mem_cons.1 h with rfl | h
      · exact hb
      · exact mem_takeWhile_imp h
    · simp at h

theorem dropWhile_append' {α : Type} {q : α → Bool} {a b : List α} (ha : ∀ x ∈ a, q x = true)
    (hb : ∀ x, b.head? = some x → q x = false) : (a ++ b).dropWhile q = b := by
  induction a with
  | nil =>
    cases b with
    | nil => rfl
    | cons x b => rw [List.nil_append, List.dropWhile_cons, if_neg (by simp [hb x rfl])]
  | cons x a ih =>
    rw [List.cons_append, List.dropWhile_cons, if_pos (ha x (by simp))]
    exact ih fun y hy => ha y (by simp [hy])

theorem takeWhile_append' {α : Type} {q : α → Bool} {a b : List α} (ha : ∀ x ∈ a, q x = true)
    (hb : ∀ x, b.head? = some x → q x = false) : (a ++ b).takeWhile q = a := by
  induction a with
  | nil =>
    cases b with
    | nil => rfl
    | cons x b => rw [List.nil_append, List.takeWhile_cons, if_neg (by simp [hb x rfl])]
  | cons x a ih =>
    rw [List.cons_append, List.takeWhile_cons, if_pos (ha x (by simp)),
      ih fun y hy => ha y (by simp [hy])]

theorem tailOk_iff {s : Str} : tailOk s = true ↔ ∃ arg trail, s = arg ++ trail ∧
    (arg = [] ∨ ∃ q, (∀ c ∈ q, c ≠ ')' ∧ ¬ Blank c) ∧
      (arg = '(' :: q ∨ arg = '(' :: q ++ [')'])) ∧ ∀ c ∈ trail, Blank c := by
  have hall : ∀ s : Str, s.all isSpace = true ↔ ∀ c ∈ s, Blank c := fun s => by
    simp only [List.all_eq_true, blank_iff]
  have hnb : ∀ {c : Char}, isSpace c = false ↔ ¬ Blank c := fun {c} => by
    rw [← blank_iff, Bool.not_eq_true]
  have hpar : isSpace ')' = false := by decide
  constructor
  · intro h
    unfold tailOk at h
    rw [Bool.or_eq_true] at h
    rcases h with h | h
    · exact ⟨[], s, rfl, .inl rfl, (hall s).1 h⟩
    · split at h
      · rename_i r
        have hsplit := List.takeWhile_append_dropWhile
          (p := fun c => c ≠ ')' && !isSpace c) (l := r)
        have hq : ∀ c ∈ r.takeWhile (fun c => c ≠ ')' && !isSpace c), c ≠ ')' ∧ ¬ Blank c := by
          intro c hc
          have := mem_takeWhile_imp hc
          simp only [Bool.and_eq_true, decide_eq_true_eq, Bool.not_eq_true', ne_eq] at this
          exact ⟨by simpa using this.1, hnb.1 this.2⟩
        split at h
        · rename_i r' hr'
          refine ⟨'(' :: r.takeWhile (fun c => c ≠ ')' && !isSpace c) ++ [')'], r', ?_,
            .inr ⟨_, hq, .inr rfl⟩, (hall _).1 h⟩
          rw [hr'] at hsplit
          rw [List.append_assoc]
          exact congrArg ('(' :: ·) (hsplit.symm.trans (by simp))
        · exact ⟨'(' :: r.takeWhile (fun c => c ≠ ')' && !isSpace c), _,
            congrArg ('(' :: ·) hsplit.symm,
            .inr ⟨_, hq, .inl rfl⟩, (hall _).1 h⟩
      · exact absurd h (by simp)
  · rintro ⟨arg, trail, rfl, harg, htr⟩
    have ht := (hall trail).2 htr
    unfold tailOk
    rcases harg with rfl | ⟨q, hq, harg⟩
    · simp [ht]
    · have hq' : ∀ c ∈ q, (c ≠ ')' && !isSpace c) = true := by
        intro c hc
        have := hq c hc
        simp [this.1, hnb.2 this.2]
      rcases harg with rfl | rfl
      · rw [Bool.or_eq_true]
        right
        simp only [List.cons_append]
        rw [dropWhile_append' hq']
        · split
          · have := htr ')' (by simp)
            exact absurd (blank_iff.2 this) (by decide)
          · exact ht
        · intro x hx
          have : Blank x := htr x (List.mem_of_mem_head? hx)
          simp [blank_iff.2 this]
      · rw [Bool.or_eq_true]
        right
        simp only [List.cons_append, List.append_assoc, List.singleton_append, List.nil_append]
        rw [dropWhile_append' hq']
        · exact ht
        · intro x hx
          simp at hx
          subst hx
          simp

theorem noLint_eq : ["NOLINT", "NOLINTNEXTLINE", "NOLINTBEGIN", "NOLINTEND"].map String.toList =
    noLint := by decide +kernel

/-- The lines left out are the suppressions. -/
theorem keepLine_iff {l : Str} : keepLine l = true ↔ ¬ Marker l := by
  have hslash : isSpace '/' = false := by decide
  have main : keepLine l = false ↔ Marker l := by
    unfold keepLine Marker
    rw [noLint_eq]
    simp only [Bool.not_eq_false', List.any_eq_true]
    constructor
    · rintro ⟨w, hw, h⟩
      split at h
      · rename_i r hr
        rw [after_iff] at hr
        obtain ⟨arg, trail, rfl, ha, ht⟩ := tailOk_iff.1 h
        refine ⟨l.takeWhile (fun c => isSpace c || c = '/'), w, arg, trail, ?_, ?_, hw, ha, ht⟩
        · have := List.takeWhile_append_dropWhile (p := fun c => isSpace c || c = '/') (l := l)
          rw [hr] at this
          simpa using this.symm
        · intro c hc
          have := mem_takeWhile_imp hc
          simp only [Bool.or_eq_true, decide_eq_true_eq] at this
          exact this.imp blank_iff.1 id
      · exact absurd h (by simp)
    · rintro ⟨lead, w, arg, trail, rfl, hlead, hw, ha, ht⟩
      refine ⟨w, hw, ?_⟩
      have hd : (lead ++ w ++ arg ++ trail).dropWhile (fun c => isSpace c || c = '/') =
          w ++ arg ++ trail := by
        rw [List.append_assoc, List.append_assoc, List.append_assoc]
        apply dropWhile_append'
        · intro c hc
          simp only [Bool.or_eq_true, decide_eq_true_eq]
          exact (hlead c hc).imp blank_iff.2 id
        · intro c hc
          have : c = 'N' := by
            simp only [noLint, List.mem_cons, List.not_mem_nil, or_false] at hw
            rcases hw with rfl | rfl | rfl | rfl <;> simpa using hc.symm
          subst this
          decide
      rw [hd]
      have : after w (w ++ arg ++ trail) = some (arg ++ trail) := by
        rw [after_iff, List.append_assoc]
      rw [this]
      exact tailOk_iff.2 ⟨arg, trail, rfl, ha, ht⟩
  rw [← main, Bool.not_eq_false]

/-- The comment carried over consists of the lines of the comment that are not
suppressions, in order; there is none if that is no text. -/
theorem comment_exact {t : Str} {ls : List Str} (h : Lines t ls) :
    ∃ p : Str → Bool, (∀ l, p l = true ↔ ¬ Marker l) ∧
      (∀ c, getComment (some t) = some c → Lines c (ls.filter p)) ∧
      (getComment (some t) = none ↔ ls.filter p = [] ∨ ls.filter p = [[]]) := by
  refine ⟨keepLine, fun l => keepLine_iff, ?_, ?_⟩
  · intro c hc
    simp only [getComment, lines_iff.1 h] at hc
    split at hc
    · exact absurd hc (by simp)
    · rename_i hne
      cases hc
      refine ⟨?_, fun l hl => h.2.1 l ((List.mem_filter.1 hl).1), join_nl _⟩
      intro he
      rw [he] at hne
      simp [join] at hne
  · simp only [getComment, lines_iff.1 h]
    generalize ls.filter keepLine = ks
    cases ks with
    | nil => simp [join]
    | cons a r =>
      cases r with
      | nil => cases a <;> simp [join]
      | cons b r => simp [join]

/-! ## Documentation in Rust -/

theorem trim_spec (ws : Char → Bool) (s : Str) : ∃ a b, s = a ++ trim ws s ++ b ∧
    (∀ c ∈ a, ws c = true) ∧ (∀ c ∈ b, ws c = true) ∧
    (∀ c, (trim ws s).head? = some c → ws c = false) ∧
    ∀ c, (trim ws s).getLast? = some c → ws c = false := by
  have e1 := List.takeWhile_append_dropWhile (p := ws) (l := s)
  have e2 := List.takeWhile_append_dropWhile (p := ws) (l := (s.dropWhile ws).reverse)
  have e3 := congrArg List.reverse e2
  simp only [List.reverse_append, List.reverse_reverse] at e3
  refine ⟨s.takeWhile ws, ((s.dropWhile ws).reverse.takeWhile ws).reverse, ?_, ?_, ?_, ?_, ?_⟩
  · unfold trim
    rw [List.append_assoc, e3, e1]
  · exact fun c hc => mem_takeWhile_imp hc
  · intro c hc
    rw [List.mem_reverse] at hc
    exact mem_takeWhile_imp hc
  · intro c hc
    cases h : trim ws s with
    | nil => rw [h] at hc; simp at hc
    | cons x r =>
      rw [h] at hc
      simp only [List.head?_cons, Option.some.injEq] at hc
      subst hc
      have hd : (s.dropWhile ws).head? = some x := by
        rw [← e3]
        unfold trim at h
        rw [h]
        rfl
      have := List.head?_dropWhile_not ws s
      rw [hd] at this
      simpa using this
  · intro c hc
    unfold trim at hc
    rw [List.getLast?_reverse] at hc
    have := List.head?_dropWhile_not ws (s.dropWhile ws).reverse
    rw [hc] at this
    simpa using this

theorem splitLines_ne (t : Str) : splitLines t ≠ [] := by
  cases t with
  | nil => simp [splitLines]
  | cons c s =>
    unfold splitLines
    split
    · simp
    · split <;> simp

theorem splitLines_nl (s : Str) : splitLines ('\n' :: s) = [] :: splitLines s := by
  simp [splitLines]

theorem splitLines_cons {c : Char} {s l : Str} {ls : List Str} (hc : c ≠ '\n')
    (h : splitLines s = l :: ls) : splitLines (c :: s) = (c :: l) :: ls := by
  rw [splitLines, if_neg hc, h]

theorem indent_lines {t : Str} {ls : List Str} (h : Lines t ls) :
    Lines (indent (' ' :: t)) (ls.map (' ' :: ·)) := by
  have key : ∀ t : Str, splitLines (' ' :: indent t) = (splitLines t).map (' ' :: ·) := by
    intro t
    induction t with
    | nil => rfl
    | cons c s ih =>
      by_cases hc : c = '\n'
      · subst hc
        have h1 : indent ('\n' :: s) = '\n' :: ' ' :: indent s := by simp [indent]
        have h2 : splitLines ('\n' :: ' ' :: indent s) = [] :: splitLines (' ' :: indent s) :=
          splitLines_nl _
        rw [h1, splitLines_cons (by decide) h2, ih, splitLines_nl]
        rfl
      · have h1 : indent (c :: s) = c :: indent s := by simp [indent, hc]
        cases hi : splitLines (indent s) with
        | nil => exact absurd hi (splitLines_ne _)
        | cons k ks =>
          cases hj : splitLines s with
          | nil => exact absurd hj (splitLines_ne _)
          | cons l ls =>
            rw [splitLines_cons (by decide) hi, hj] at ih
            simp only [List.map_cons, List.cons.injEq, true_and] at ih
            rw [h1, splitLines_cons (by decide) (splitLines_cons hc hi), splitLines_cons hc hj]
            simp [ih.1, ih.2]
  rw [lines_iff] at h ⊢
  have : indent (' ' :: t) = ' ' :: indent t := by simp [indent]
  rw [this, key, h]

/-- What is shown of the location. -/
def shown {α : Type} (loc : Option α) (golden kythe : Bool) : Option α :=
  if golden = true ∧ kythe = false then none else loc

/-- The text of the attribute has a blank before every line, which rustdoc takes
away, and says: the comment, the section on safety, the source location, as
paragraphs. There is an attribute unless there is none of the three. -/
theorem rust_doc (ws : Char → Bool) (comment safety loc : Option Str) (golden kythe : Bool) :
    let pieces := comment.toList ++
      (safety.map fun s => "# Safety\n\n".toList ++ trim ws s).toList ++
      (shown loc golden kythe).toList
    (rustDoc ws comment safety loc golden kythe = none ↔ pieces = []) ∧
    ∀ t, rustDoc ws comment safety loc golden kythe = some t →
      ∃ ls, Lines (Paragraphs pieces) ls ∧ Lines t (ls.map (' ' :: ·)) := by
  have e : "# Safety\n\n".toList = safetyHead := by decide +kernel
  rw [e]
  have hloc : (if (!golden) = true then loc else if kythe = true then loc else none) =
      shown loc golden kythe := by
    cases golden <;> cases kythe <;> simp [shown]
  intro pieces
  unfold rustDoc
  simp only [hloc]
  simp only [pieces]
  cases comment <;> cases safety <;> cases shown loc golden kythe <;>
    refine ⟨by simp, ?_⟩ <;> intro t ht <;> simp only [Option.some.injEq, reduceCtorEq] at ht
  all_goals
    obtain ⟨ls, hls⟩ := lines_exist (t := Paragraphs _)
    refine ⟨ls, hls, ?_⟩
    rw [← ht]
    have hi := indent_lines hls
    simpa [Paragraphs] using hi

/-! ## Documentation in C++ -/

/-- The comment in C++: the documentation's lines, and the source location as a
paragraph; none exactly if there is neither. -/
theorem cpp_doc (docs : List Str) (loc : Option Place) (golden kythe : Bool) :
    let text := (docs.map fun d => '\n' :: d).flatten.drop 1
    let pieces := (if text = [] then [] else [text]) ++
      (shown (some ("Generated from: ".toList ++ rustLoc loc)) golden kythe).toList
    cppDoc docs loc golden kythe = if pieces = [] then none else some (Paragraphs pieces) := by
  have e : "Generated from: ".toList = generatedFrom ++ [':', ' '] := by decide +kernel
  rw [e]
  intro text pieces
  have hj : join ['\n'] docs = text := join_nl docs
  simp only [cppDoc, hj, pieces]
  clear hj pieces
  clear_value text
  cases text <;> cases golden <;> cases kythe <;> simp [shown, Paragraphs, generatedFrom]

/-! ## Source locations -/

theorem after_mem {p s r : Str} (h : after p s = some r) : ∀ c ∈ p, c ∈ s := by
  rw [after_iff] at h
  subst h
  intro c hc
  simp [hc]

theorem digits_mem {s d r : Str} (h : digits s = some (d, r)) : s = d ++ r := by
  unfold digits at h
  simp only at h
  split at h
  · exact absurd h (by simp)
  · cases h
    exact (List.takeWhile_append_dropWhile).symm

theorem locRe_bracket {s : Str} {x} (h : locRe s = some x) : '[' ∈ s := by
  unfold locRe at h
  simp only [Option.bind_eq_bind] at h
  split at h
  · simp at h
  · simp only [Option.bind_eq_some_iff] at h
    obtain ⟨s1, h1, ⟨n, s2⟩, h2, s3, h3, _⟩ := h
    have m3 := after_mem h3 '[' (by simp)
    have e2 := digits_mem h2
    have m2 : '[' ∈ s1 := by rw [e2]; simp [m3]
    rw [after_iff] at h1
    have m1 : '[' ∈ s.dropWhile (· ≠ ';') := by rw [h1]; simp [m2]
    exact (List.dropWhile_suffix _).mem m1

theorem lastMatch_none {s : Str} (h : '[' ∉ s) : lastMatch 0 none s = none := by
  induction s with
  | nil => rfl
  | cons c s ih =>
    unfold lastMatch
    cases hl : locRe (c :: s) with
    | some x => exact absurd (locRe_bracket hl) h
    | none => exact ih fun hc => h (by simp [hc])

/-- The offsets in a file are never found in a location that the importer writes
(unless the path itself has a bracket): captures always get the stub. -/
theorem no_offsets (spelling : Place) (expansion : Option Place)
    (h : ∀ p, p = spelling ∨ expansion = some p → '[' ∉ p.file ∧ '[' ∉ p.line) :
    parseLoc (convertLoc spelling expansion) = none := by
  have hd : ∀ s : Str, '[' ∉ s → '[' ∉ stripDot s := by
    intro s hs
    unfold stripDot
    split
    · intro hc; exact hs (by simp [hc])
    · exact hs
  have hp : ∀ o p, '[' ∉ o → '[' ∉ p.file ∧ '[' ∉ p.line → '[' ∉ placeText o p := by
    intro o p ho hp
    unfold placeText
    split
    · decide
    · have := hd p.file hp.1
      simp [ho, this, hp.2]
  have hall : '[' ∉ convertLoc spelling expansion := by
    unfold convertLoc
    split
    · exact hp _ _ (by decide) (h _ (.inl rfl))
    · rename_i e
      have h1 := hp generatedFrom spelling (by decide) (h _ (.inl rfl))
      have h2 := hp expandedAt e (by decide) (h _ (.inr rfl))
      simp [h1, h2]
  unfold parseLoc
  split
  · exact lastMatch_none hall
  · rfl

theorem digits_append {d s : Str} (h1 : d ≠ []) (h2 : ∀ c ∈ d, c.isDigit = true)
    (h3 : ∀ c, s.head? = some c → c.isDigit = false) : digits (d ++ s) = some (d, s) := by
  unfold digits
  rw [takeWhile_append' h2 h3, dropWhile_append' h2 h3]
  simp [h1]

/-- Were the offsets there, the name found would still have the words before it. -/
theorem name_with_prefix {f n a b : Str} (hf : ';' ∉ f)
    (hn : n ≠ [] ∧ ∀ c ∈ n, c.isDigit = true) (ha : a ≠ [] ∧ ∀ c ∈ a, c.isDigit = true)
    (hb : b ≠ [] ∧ ∀ c ∈ b, c.isDigit = true) :
    parseLoc ("Generated from: ".toList ++ f ++ ";l=".toList ++ n ++ "[".toList ++ a ++
      ",".toList ++ b ++ "]".toList) = some ("Generated from: ".toList ++ f, a, b) := by
  have e : "Generated from: ".toList = generatedFrom ++ [':', ' '] := by decide +kernel
  have e1 : ";l=".toList = [';', 'l', '='] := by decide +kernel
  have e2 : "[".toList = ['['] := by decide +kernel
  have e3 : ",".toList = [','] := by decide +kernel
  have e4 : "]".toList = [']'] := by decide +kernel
  rw [e, e1, e2, e3, e4]
  have hg : ∀ c ∈ generatedFrom ++ [':', ' '] ++ f, (c ≠ ';' : Bool) = true := by
    intro c hc
    have : c ≠ ';' := by
      rintro rfl
      rcases List.mem_append.1 hc with h | h
      · exact absurd h (by decide)
      · exact hf h
    simpa using this
  have hre : locRe (generatedFrom ++ [':', ' '] ++ f ++ [';', 'l', '='] ++ n ++ ['['] ++ a ++ [','] ++
      b ++ [']']) = some ((generatedFrom ++ [':', ' '] ++ f, a, b), []) := by
    have hT : ∀ r : Str, ((generatedFrom ++ [':', ' '] ++ f) ++ ';' :: r).takeWhile (· ≠ ';') =
        generatedFrom ++ [':', ' '] ++ f := fun r =>
      takeWhile_append' hg (by intro c hc; simp at hc; subst hc; simp)
    have hD : ∀ r : Str, ((generatedFrom ++ [':', ' '] ++ f) ++ ';' :: r).dropWhile (· ≠ ';') =
        ';' :: r := fun r =>
      dropWhile_append' hg (by intro c hc; simp at hc; subst hc; simp)
    have hs : generatedFrom ++ [':', ' '] ++ f ++ [';', 'l', '='] ++ n ++ ['['] ++ a ++ [','] ++
        b ++ [']'] = (generatedFrom ++ [':', ' '] ++ f) ++
          ';' :: ('l' :: '=' :: (n ++ '[' :: (a ++ ',' :: (b ++ [']'])))) := by simp
    rw [hs]
    unfold locRe
    simp only [hT, hD]
    have hne : (generatedFrom ++ [':', ' '] ++ f).isEmpty = false := by simp [generatedFrom]
    have d1 := digits_append hn.1 hn.2 (s := '[' :: (a ++ ',' :: (b ++ [']'])))
      (by intro c hc; simp at hc; subst hc; decide)
    have d2 := digits_append ha.1 ha.2 (s := ',' :: (b ++ [']']))
      (by intro c hc; simp at hc; subst hc; decide)
    have d3 := digits_append hb.1 hb.2 (s := [']'])
      (by intro c hc; simp at hc; subst hc; decide)
    simp [after, d1, d2, d3, hne]
  unfold parseLoc
  rw [if_pos (by
    rw [List.isPrefixOf_iff_prefix]
    exact ⟨f ++ ([';', 'l', '='] ++ (n ++ (['['] ++ (a ++ ([','] ++ (b ++ [']'])))))), by simp⟩)]
  have hcons : ∃ c s, generatedFrom ++ [':', ' '] ++ f ++ [';', 'l', '='] ++ n ++ ['['] ++ a ++ [','] ++
      b ++ [']'] = c :: s := ⟨'G', _, rfl⟩
  obtain ⟨c, s, hcs⟩ := hcons
  rw [hcs] at hre ⊢
  unfold lastMatch
  rw [hre]
  have skip : ∀ (s : Str) g, lastMatch s.length g s = g := by
    intro s
    induction s with
    | nil => intro g; rfl
    | cons x s ih => intro g; rw [List.length_cons, lastMatch]; exact ih g
  simpa using skip s _

/-- Different places have different texts (up to a leading `./`). -/
theorem place_injective {o : Str} {p q : Place} (hp : p.file ≠ []) (hq : q.file ≠ [])
    (hpl : ∀ c ∈ p.line, c.isDigit = true) (hql : ∀ c ∈ q.line, c.isDigit = true)
    (h : placeText o p = placeText o q) : stripDot p.file = stripDot q.file ∧ p.line = q.line := by
  have e1 : p.file.isEmpty = false := by simpa using hp
  have e2 : q.file.isEmpty = false := by simpa using hq
  simp only [placeText, e1, e2, Bool.false_eq_true, if_false, List.append_assoc,
    List.append_cancel_left_eq] at h
  have rev := congrArg List.reverse h
  simp only [List.reverse_append, List.reverse_cons, List.reverse_nil, List.nil_append,
    List.singleton_append, List.append_assoc, List.cons_append] at rev
  have tp : ∀ (l r : Str), (∀ c ∈ l, c.isDigit = true) →
      (l.reverse ++ '=' :: r).takeWhile Char.isDigit = l.reverse := fun l r hl =>
    takeWhile_append' (fun c hc => hl c (by simpa using hc))
      (by intro c hc; simp at hc; subst hc; decide)
  have t := congrArg (List.takeWhile Char.isDigit) rev
  rw [tp _ _ hpl, tp _ _ hql] at t
  have hl : p.line = q.line := List.reverse_inj.1 t
  rw [hl] at rev
  have := List.append_cancel_left rev
  simp only [List.cons.injEq, true_and, List.reverse_inj] at this
  exact ⟨this, hl⟩

theorem placeText_iff {o : Str} {w : String} (hw : w.toList = o ++ [':', ' ']) (p : Place) (t : Str) :
    PlaceText w p t ↔ t = placeText o p := by
  have e1 : "<unknown location>".toList = unknown := by decide +kernel
  have e2 : "./".toList = ['.', '/'] := by decide +kernel
  have e3 : ";l=".toList = [';', 'l', '='] := by decide +kernel
  unfold PlaceText placeText
  rw [hw, e1, e2, e3]
  have hd : ∀ f, (p.file = ['.', '/'] ++ f ∨ (¬ ['.', '/'] <+: p.file ∧ f = p.file)) ↔
      f = stripDot p.file := by
    intro f
    unfold stripDot
    split
    · rename_i s hs
      rw [hs]
      constructor
      · rintro (h | ⟨h, -⟩)
        · simpa using h.symm
        · exact absurd ⟨s, rfl⟩ h
      · rintro rfl
        exact .inl rfl
    · rename_i hs
      constructor
      · rintro (h | ⟨-, h⟩)
        · exact absurd h (hs f)
        · exact h
      · rintro rfl
        refine .inr ⟨?_, rfl⟩
        rintro ⟨s, h⟩
        exact hs s h.symm
  by_cases hf : p.file = []
  · simp [hf]
  · simp only [hf, hd, false_and, false_or, exists_eq_left, ne_eq, not_false_eq_true, true_and]
    simp [hf]

/-- The text of a location: where it is spelled and, in a macro, where that is
expanded. -/
theorem location_text (spelling : Place) (expansion : Option Place) (t : Str) :
    t = convertLoc spelling expansion ↔
      ∃ a, PlaceText "Generated from: " spelling a ∧
        match expansion with
        | none => t = a
        | some e => ∃ b, PlaceText "Expanded at: " e b ∧ t = a ++ '\n' :: b := by
  have e1 := fun a => placeText_iff (o := generatedFrom) (w := "Generated from: ") (by decide +kernel) spelling a
  have e2 := fun p a => placeText_iff (o := expandedAt) (w := "Expanded at: ") (by decide +kernel) p a
  simp only [e1, exists_eq_left]
  cases expansion with
  | none => rfl
  | some e => simp [convertLoc, e2]

end Verif.Doc

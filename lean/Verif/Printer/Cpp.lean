import Verif.Printer.Print

/-!
# Printing generated code: comments, and C++
-/

namespace Verif.Printer

/-! ## Every step of the tokenizer takes a character -/

theorem scan_length {q : Char} : ∀ {l b r : Text}, scan q l = some (b, r) → r.length < l.length := by
  intro l
  induction l using scan.induct q with
  | case1 => intro b r h; simp [scan] at h
  | case2 => intro b r h; simp [scan] at h
  | case3 d ds ih =>
      intro b r h
      simp only [scan, if_true, Option.map_eq_some_iff] at h
      obtain ⟨⟨b', r'⟩, h1, h2⟩ := h
      simp only [Prod.mk.injEq] at h2
      obtain ⟨rfl, rfl⟩ := h2
      have := ih h1
      simp only [List.length_cons]
      omega
  | case4 cs h1 =>
      intro b r h
      simp only [scan_cons, if_neg h1, if_true, Option.some.injEq, Prod.mk.injEq] at h
      obtain ⟨rfl, rfl⟩ := h
      simp
  | case5 c cs h1 h2 ih =>
      intro b r h
      simp only [scan_cons, if_neg h1, if_neg h2, Option.map_eq_some_iff] at h
      obtain ⟨⟨b', r'⟩, h3, h4⟩ := h
      simp only [Prod.mk.injEq] at h4
      obtain ⟨rfl, rfl⟩ := h4
      have := ih h3
      simp only [List.length_cons]
      omega

theorem dropWhile_length (p : Char → Bool) (l : Text) : (l.dropWhile p).length ≤ l.length :=
  (List.dropWhile_sublist p).length_le

theorem next_length {cs r : Text} {t : Option Tok} (h : next cs = some (t, r)) : r.length < cs.length := by
  cases cs with
  | nil => simp [next] at h
  | cons c cs =>
      by_cases hw : isWord c = true
      · rw [next_word_start hw] at h
        have hd : ((c :: cs).dropWhile isWord).length ≤ cs.length := by
          rw [List.dropWhile_cons, if_pos hw]
          exact dropWhile_length _ _
        generalize (c :: cs).dropWhile isWord = d at h hd
        simp only [List.length_cons]
        dsimp only at h
        split at h
        · simp only [Option.map_eq_some_iff, Option.bind_eq_some_iff] at h
          obtain ⟨⟨b, r'⟩, ⟨q, hq, hs⟩, h2⟩ := h
          simp only [Prod.mk.injEq] at h2
          rw [← h2.2]
          have h3 := scan_length hs
          have h4 := dropWhile_length isWord r'
          have : d.tail.length ≤ d.length := by simp
          omega
        · split at h
          · simp only [Option.some.injEq, Prod.mk.injEq] at h
            rw [← h.2]
            have h4 := dropWhile_length isWord d.tail
            have : d.tail.length ≤ d.length := by simp
            omega
          · simp only [Option.some.injEq, Prod.mk.injEq] at h
            rw [← h.2]; omega
      · simp only [next, hw, if_false] at h
        simp only [List.length_cons]
        split at h
        · simp only [Option.some.injEq, Prod.mk.injEq] at h
          rw [← h.2]
          have := dropWhile_length (· != '\n') cs
          omega
        · split at h
          · simp at h
          · split at h
            · simp only [Option.some.injEq, Prod.mk.injEq] at h
              rw [← h.2]; simp; omega
            · split at h
              · simp only [Option.some.injEq, Prod.mk.injEq] at h
                rw [← h.2]; omega
              · split at h
                · simp only [Option.some.injEq, Prod.mk.injEq] at h
                  rw [← h.2]; omega
                · simp only [Bool.false_eq_true, if_false] at h
                  split at h
                  · simp only [Option.map_eq_some_iff] at h
                    obtain ⟨⟨b, r'⟩, hs, h2⟩ := h
                    simp only [Prod.mk.injEq] at h2
                    rw [← h2.2]
                    have h3 := scan_length hs
                    have h4 := dropWhile_length isWord r'
                    omega
                  · simp only [Option.some.injEq, Prod.mk.injEq] at h
                    rw [← h.2]; omega

/-- So the number of steps in `lex` is enough. -/
theorem lexN_enough : ∀ (n m : Nat) (cs : Text), cs.length ≤ n → cs.length ≤ m → lexN n cs = lexN m cs
  | _, _, [], _, _ => by simp [lexN]
  | 0, _, _ :: _, h, _ => by simp at h
  | _, 0, _ :: _, _, h => by simp at h
  | n + 1, m + 1, c :: cs, h1, h2 => by
      simp only [lexN]
      cases hn : next (c :: cs) with
      | none => rfl
      | some p =>
          obtain ⟨t, r⟩ := p
          have hl := next_length hn
          simp only [List.length_cons] at hl h1 h2
          simp only
          rw [lexN_enough n m r (by omega) (by omega)]

theorem lexes_iff {cs : Text} {ts : List Tok} : Lexes cs ts ↔ lex cs = some ts :=
  ⟨Lexes.lex, fun h n hn => by rw [lexN_enough n cs.length cs hn (Nat.le_refl _)]; exact h⟩

/-! ## Joining lines -/

theorem splice_cons {c : Char} {cs : Text} (h : c = '\\' → cs.head? ≠ some '\n') : splice (c :: cs) = c :: splice cs := by
  rw [splice.eq_2]
  rintro cs' rfl rfl
  exact h rfl rfl

theorem splice_append {a : Text} (b : Text) (h : a.getLast? ≠ some '\\') : splice (a ++ b) = splice a ++ splice b := by
  induction a using splice.induct with
  | case1 cs ih =>
      simp only [List.cons_append, splice]
      apply ih
      intro e
      apply h
      cases cs with
      | nil => simp at e
      | cons d cs => simpa using e
  | case2 c cs hx ih =>
      rw [splice.eq_2 _ _ hx, List.cons_append, List.cons_append, ← ih, splice_cons]
      · rintro rfl
        cases cs with
        | nil => simp at h
        | cons d cs =>
            intro e
            simp only [List.cons_append, List.head?_cons, Option.some.injEq] at e
            subst e
            exact hx cs rfl rfl
      · intro e
        apply h
        cases cs with
        | nil => simp at e
        | cons d cs => simpa using e
  | case3 => simp [splice]

theorem splice_eq_self : ∀ {a : Text}, '\n' ∉ a → splice a = a
  | [], _ => by simp [splice]
  | c :: a, h => by
      simp only [List.mem_cons, not_or] at h
      rw [splice_cons, splice_eq_self h.2]
      rintro _ e
      cases a with
      | nil => simp at e
      | cons d a =>
          simp only [List.head?_cons, Option.some.injEq] at e
          subst e
          exact h.2 (List.mem_cons_self ..)

/-! ## The text of comments -/

/-- What is left of an escape after `unquote`. -/
def escU (c : Char) : Text := if c = '"' then ['"'] else escape c

theorem escape_other {c : Char} (h : c ≠ '"' ∧ c ≠ '\\' ∧ c ≠ '\n' ∧ c ≠ '\r' ∧ c ≠ '\t' ∧ c ≠ Char.ofNat 0) : escape c = [c] := by
  unfold escape
  split <;> simp_all

theorem escape_cases (c : Char) : (c = '"' ∧ escape c = ['\\', '"']) ∨ (c = '\\' ∧ escape c = ['\\', '\\']) ∨
    (c ≠ '"' ∧ c ≠ '\\' ∧ ∃ d, d ≠ '"' ∧ d ≠ '\\' ∧ escape c = ['\\', d]) ∨ (c ≠ '"' ∧ c ≠ '\\' ∧ escape c = [c]) := by
  unfold escape
  split
  · exact Or.inl ⟨rfl, rfl⟩
  · exact Or.inr (Or.inl ⟨rfl, rfl⟩)
  · exact Or.inr (Or.inr (Or.inl ⟨by decide, by decide, 'n', by decide, by decide, rfl⟩))
  · exact Or.inr (Or.inr (Or.inl ⟨by decide, by decide, 'r', by decide, by decide, rfl⟩))
  · exact Or.inr (Or.inr (Or.inl ⟨by decide, by decide, 't', by decide, by decide, rfl⟩))
  · rename_i h1 h2 _ _ _
    split
    · exact Or.inr (Or.inr (Or.inl ⟨h1, h2, '0', by decide, by decide, rfl⟩))
    · exact Or.inr (Or.inr (Or.inr ⟨h1, h2, rfl⟩))

theorem flat_head (v : Text) : NoHead (· == '"') (v.flatMap escape) := by
  cases v with
  | nil => intro c r h; cases h
  | cons c v =>
      rw [List.flatMap_cons]
      rcases escape_cases c with ⟨_, e⟩ | ⟨_, e⟩ | ⟨_, _, d, _, _, e⟩ | ⟨h, _, e⟩ <;> rw [e]
      · exact noHead_cons (by decide)
      · exact noHead_cons (by decide)
      · exact noHead_cons (by decide)
      · exact noHead_cons (by simpa using h)

theorem dropWhile_noHead {p : Char → Bool} {l : Text} (h : NoHead p l) : l.dropWhile p = l := by
  cases l with
  | nil => rfl
  | cons c l => rw [List.dropWhile_cons, if_neg]; simp [h c l rfl]

theorem noHead_append {p : Char → Bool} {a b : Text} (ha : NoHead p a) (hb : NoHead p b) : NoHead p (a ++ b) := by
  cases a with
  | nil => exact hb
  | cons c a => exact noHead_cons (ha c a rfl)

/-- The last character of an escape. -/
theorem escape_last (c : Char) (h : c ≠ '"') : ∃ a d, escape c = a ++ [d] ∧ d ≠ '"' := by
  rcases escape_cases c with ⟨e, _⟩ | ⟨_, e⟩ | ⟨_, _, d, hd, _, e⟩ | ⟨h, _, e⟩
  · exact absurd e h
  · exact ⟨['\\'], '\\', e, by decide⟩
  · exact ⟨['\\'], d, e, hd⟩
  · exact ⟨[], c, e, h⟩

theorem trimQuotes_nil : trimQuotes (display []) = [] := by decide

/-- A trailing quote of the value loses its quote and keeps the backslash of its escape. -/
theorem trimQuotes_quote (u : Text) : trimQuotes (display (u ++ ['"'])) = u.flatMap escape ++ ['\\'] := by
  unfold trimQuotes display
  have e : '"' :: (u ++ ['"']).flatMap escape ++ ['"'] = ['"'] ++ (u.flatMap escape ++ ['\\', '"', '"']) := by
    simp [List.flatMap_append, escape]
  rw [e, dropWhile_append_of (by decide) (noHead_append (flat_head u) (noHead_cons (by decide)))]
  have : (u.flatMap escape ++ ['\\', '"', '"']).reverse = ['"', '"'] ++ ('\\' :: (u.flatMap escape).reverse) := by simp
  rw [this, dropWhile_append_of (by decide) (noHead_cons (by decide))]
  simp

theorem trimQuotes_other (v : Text) (h : v.getLast? ≠ some '"') : trimQuotes (display v) = v.flatMap escape := by
  rcases List.eq_nil_or_concat v with rfl | ⟨u, c, rfl⟩
  · rfl
  · have hc : c ≠ '"' := by simpa using h
    obtain ⟨a, d, he, hd⟩ := escape_last c hc
    unfold trimQuotes display
    have e1 : (u ++ [c]).flatMap escape = u.flatMap escape ++ (a ++ [d]) := by simp [List.flatMap_append, he]
    have e : '"' :: (u ++ [c]).flatMap escape ++ ['"'] = ['"'] ++ ((u ++ [c]).flatMap escape ++ ['"']) := by simp
    rw [List.concat_eq_append, e, dropWhile_append_of (by decide)]
    · have : ((u ++ [c]).flatMap escape ++ ['"']).reverse = ['"'] ++ (d :: (u.flatMap escape ++ a).reverse) := by
        rw [e1]; simp
      rw [this, dropWhile_append_of (by decide) (noHead_cons (by simpa using hd)), e1]
      simp
    · have hh := flat_head (u ++ [c])
      rw [e1] at hh ⊢
      cases h0 : u.flatMap escape ++ (a ++ [d]) with
      | nil => simp at h0
      | cons x y => rw [h0] at hh; exact noHead_cons (hh x y rfl)

theorem unquote_cons {c : Char} {cs : Text} (h : c = '\\' → cs.head? ≠ some '"') : unquote (c :: cs) = c :: unquote cs := by
  rw [unquote.eq_2]
  rintro cs' rfl rfl
  exact h rfl rfl

theorem unquote_flat (s : Text) (hs : s.head? ≠ some '"') : ∀ v : Text, unquote (v.flatMap escape ++ s) = v.flatMap escU ++ unquote s
  | [] => by simp
  | c :: v => by
      have ih := unquote_flat s hs v
      have hh : (v.flatMap escape ++ s).head? ≠ some '"' := by
        cases h : v.flatMap escape with
        | nil => simpa using hs
        | cons x y =>
            have := flat_head v x y h
            simpa using this
      rw [List.flatMap_cons, List.flatMap_cons, List.append_assoc, List.append_assoc, ← ih]
      unfold escU
      rcases escape_cases c with ⟨rfl, e⟩ | ⟨rfl, e⟩ | ⟨h1, _, d, hd, hd2, e⟩ | ⟨h, h2, e⟩ <;> rw [e]
      · simp [unquote]
      · rw [if_neg (by decide)]
        simp only [List.cons_append, List.nil_append]
        rw [unquote_cons (by simp), unquote_cons (fun _ => hh)]
      · rw [if_neg h1]
        simp only [List.cons_append, List.nil_append]
        rw [unquote_cons (by simpa using hd), unquote_cons (fun e => absurd e hd2)]
      · rw [if_neg h]
        simp only [List.cons_append, List.nil_append]
        rw [unquote_cons (fun e => absurd e h2)]

theorem breakLines_cons {c : Char} {cs : Text} (h : c = '\\' → cs.head? ≠ some 'n') :
    breakLines (c :: cs) = c :: breakLines cs := by
  rw [breakLines.eq_2]
  rintro cs' rfl rfl
  exact h rfl rfl

theorem breakLines_append (s : Text) (hs : s.head? ≠ some 'n') (y : Text) : breakLines (y ++ s) = breakLines y ++ breakLines s := by
  induction y using breakLines.induct with
  | case1 cs ih => simp [breakLines, ih]
  | case2 c cs hx ih =>
      rw [breakLines.eq_2 _ _ hx, List.cons_append, breakLines_cons, ih, List.cons_append]
      rintro rfl
      cases cs with
      | nil => simpa using hs
      | cons d cs =>
          intro e
          simp only [List.cons_append, List.head?_cons, Option.some.injEq] at e
          subst e
          exact hx cs rfl rfl
  | case3 => simp [breakLines]

theorem newline_not_escU (v : Text) : '\n' ∉ v.flatMap escU := by
  simp only [List.mem_flatMap, not_exists, not_and]
  intro c _
  unfold escU
  split
  · decide
  · exact newline_not_escape c

theorem newline_not_flat (v : Text) : '\n' ∉ v.flatMap escape := by
  simp only [List.mem_flatMap, not_exists, not_and]
  exact fun c _ => newline_not_escape c

/-- The rest of the line. -/
def restOfLine (X : Text) : Text := X.dropWhile (· != '\n')

/-- Lines joined or not, every line of a comment is one. -/
theorem lines_cpp (Z X : Text) {ts : List Tok} (hZ : Lexes (restOfLine (splice Z ++ X)) ts) : ∀ (n : Nat) (y : Text), y.length ≤ n →
    '\n' ∉ y → (y.getLast? = some '\\' → Z.head? ≠ some '\n') → Lexes (restOfLine (splice (breakLines y ++ Z) ++ X)) ts := by
  have line : ∀ {W : Text}, Lexes (restOfLine W) ts → Lexes ('\n' :: '/' :: '/' :: ' ' :: W) ts := by
    intro W h
    refine lexes_blank rfl (lexes_step (t := none) (r := restOfLine W) ?_ ?_ h)
    · simp [next, restOfLine]
    · have := dropWhile_length (· != '\n') W
      simp only [restOfLine, List.length_cons]
      omega
  intro n
  induction n with
  | zero =>
      intro y hy _ _
      cases y with
      | nil => simpa [breakLines] using hZ
      | cons => simp at hy
  | succ n ih =>
      intro y hy hn hl
      cases y with
      | nil => simpa [breakLines] using hZ
      | cons c cs =>
          simp only [List.length_cons] at hy
          simp only [List.mem_cons, not_or] at hn
          by_cases h1 : c = '\\' ∧ cs.head? = some 'n'
          · obtain ⟨rfl, h1⟩ := h1
            cases cs with
            | nil => simp at h1
            | cons d cs =>
                simp only [List.head?_cons, Option.some.injEq] at h1
                subst h1
                simp only [List.mem_cons, not_or] at hn
                have := ih cs (by simp only [List.length_cons] at hy; omega) hn.2.2 (by
                  intro e; apply hl; cases cs with
                  | nil => simp at e
                  | cons d cs => simpa using e)
                have e : splice (breakLines ('\\' :: 'n' :: cs) ++ Z) = '\n' :: '/' :: '/' :: ' ' :: splice (breakLines cs ++ Z) := by
                  simp only [breakLines, List.cons_append]
                  rw [splice_cons (by simp), splice_cons (by simp), splice_cons (by simp), splice_cons (by simp)]
                rw [e]
                exact line this
          · have hb : breakLines (c :: cs) = c :: breakLines cs := breakLines_cons (fun e e' => h1 ⟨e, e'⟩)
            have hl' : cs.getLast? = some '\\' → Z.head? ≠ some '\n' := by
              intro e; apply hl
              cases cs with
              | nil => simp at e
              | cons d cs => simpa using e
            by_cases h2 : c = '\\' ∧ (breakLines cs ++ Z).head? = some '\n'
            · obtain ⟨rfl, h2⟩ := h2
              cases cs with
              | nil =>
                  simp only [breakLines, List.nil_append] at h2
                  exact absurd h2 (hl rfl)
              | cons d cs =>
                  by_cases h3 : d = '\\' ∧ cs.head? = some 'n'
                  · obtain ⟨rfl, h3⟩ := h3
                    cases cs with
                    | nil => simp at h3
                    | cons f cs =>
                        simp only [List.head?_cons, Option.some.injEq] at h3
                        subst h3
                        simp only [List.mem_cons, not_or] at hn
                        have := ih cs (by simp only [List.length_cons] at hy; omega) hn.2.2.2 (by
                          intro e; apply hl; cases cs with
                          | nil => simp at e
                          | cons d cs => simpa using e)
                        have e : splice (breakLines ('\\' :: '\\' :: 'n' :: cs) ++ Z) =
                            '/' :: '/' :: ' ' :: splice (breakLines cs ++ Z) := by
                          rw [hb]
                          simp only [breakLines, List.cons_append, splice]
                          rw [splice_cons (by simp), splice_cons (by simp), splice_cons (by simp)]
                        rw [e]
                        simpa [restOfLine] using this
                  · rw [breakLines_cons (fun e e' => h3 ⟨e, e'⟩)] at h2
                    simp only [List.cons_append, List.head?_cons, Option.some.injEq] at h2
                    subst h2
                    exact absurd (List.mem_cons_self ..) hn.2
            · have := ih cs (by omega) hn.2 hl'
              rw [hb, List.cons_append, splice_cons (fun e e' => h2 ⟨e, e'⟩), List.cons_append]
              have hc : (c != '\n') = true := by simpa using fun e => hn.1 (Eq.symm e)
              simpa [restOfLine, List.dropWhile_cons, hc] using this

/-- The value ends in neither a backslash nor a quote. -/
def lastOk (v : Text) : Bool := v.getLast? != some '\\' && v.getLast? != some '"'

theorem commentText_ok {v : Text} (h : lastOk v = true) :
    commentText v = '/' :: '/' :: ' ' :: (breakLines (v.flatMap escU) ++ ['\n']) ∧ (v.flatMap escU).getLast? ≠ some '\\' := by
  simp only [lastOk, Bool.and_eq_true, bne_iff_ne] at h
  constructor
  · have := unquote_flat [] (by simp) v
    simp only [List.append_nil, unquote] at this
    simp [commentText, trimQuotes_other v h.2, this]
  · rcases List.eq_nil_or_concat v with rfl | ⟨u, c, rfl⟩
    · simp
    · rw [List.concat_eq_append] at h ⊢
      simp only [List.getLast?_append, List.getLast?_singleton, Option.some_or, ne_eq, Option.some.injEq] at h
      rw [List.flatMap_append]
      have : ∃ a d, escU c = a ++ [d] ∧ d ≠ '\\' := by
        unfold escU
        rw [if_neg h.2]
        rcases escape_cases c with ⟨e, _⟩ | ⟨e, _⟩ | ⟨_, _, d, _, hd, e⟩ | ⟨_, h2, e⟩
        · exact absurd e h.2
        · exact absurd e h.1
        · exact ⟨['\\'], d, e, hd⟩
        · exact ⟨[], c, e, h2⟩
      obtain ⟨a, d, e, hd⟩ := this
      simp [List.flatMap_cons, e, hd]

theorem commentText_bad {v : Text} (h : lastOk v = false) :
    ∃ y, '\n' ∉ y ∧ commentText v = '/' :: '/' :: ' ' :: (breakLines y ++ ['\\', '\n']) := by
  rcases List.eq_nil_or_concat v with rfl | ⟨u, c, rfl⟩
  · simp [lastOk] at h
  · rw [List.concat_eq_append] at h ⊢
    have : c = '\\' ∨ c = '"' := by
      simp only [lastOk, Bool.and_eq_false_iff, bne_eq_false_iff_eq] at h
      simpa using h
    rcases this with rfl | rfl
    · refine ⟨u.flatMap escU ++ ['\\'], by rw [List.mem_append, not_or]; exact ⟨newline_not_escU u, by decide⟩, ?_⟩
      have h1 := unquote_flat [] (by simp) (u ++ ['\\'])
      simp only [List.append_nil, unquote] at h1
      have e : (u ++ ['\\']).flatMap escU = u.flatMap escU ++ ['\\'] ++ ['\\'] := by
        simp [List.flatMap_append, escU, escape]
      simp only [commentText]
      rw [trimQuotes_other _ (by simp), h1, e, breakLines_append _ (by decide)]
      simp [breakLines]
    · refine ⟨u.flatMap escU, newline_not_escU u, ?_⟩
      have h1 := unquote_flat ['\\'] (by decide) u
      simp only [commentText]
      rw [trimQuotes_quote, h1, breakLines_append _ (by decide)]
      simp [breakLines, unquote]

theorem splice_commentText (v X : Text) : splice (commentText v ++ X) = splice (commentText v) ++ splice X := by
  apply splice_append
  unfold commentText
  rw [List.getLast?_append]
  simp

theorem splice_slashes (W : Text) : splice ('/' :: '/' :: ' ' :: W) = '/' :: '/' :: ' ' :: splice W := by
  rw [splice_cons (by simp), splice_cons (by simp), splice_cons (by simp)]

theorem lexes_slashes {W : Text} {ts : List Tok} (h : Lexes (restOfLine W) ts) : Lexes ('/' :: '/' :: ' ' :: W) ts := by
  refine lexes_step (t := none) (r := restOfLine W) ?_ ?_ h
  · simp [next, restOfLine]
  · have := dropWhile_length (· != '\n') W
    simp only [restOfLine, List.length_cons]
    omega

/-- C++ skips comments whose value ends in neither a backslash nor a quote. -/
theorem comment_cpp {v X : Text} {ts : List Tok} (h : lastOk v = true) (hX : Lexes X ts) :
    Lexes (splice (commentText v) ++ X) ts := by
  obtain ⟨e, hl⟩ := commentText_ok h
  rw [e, splice_slashes]
  refine lexes_slashes (lines_cpp ['\n'] X ?_ _ _ (Nat.le_refl _) (newline_not_escU v) (fun e' => absurd e' hl))
  have : restOfLine (splice ['\n'] ++ X) = '\n' :: X := by simp [splice, restOfLine]
  rw [this]
  exact lexes_blank rfl hX

/-- After other values it also skips the rest of the next line. -/
theorem comment_swallows {v X : Text} {ts : List Tok} (h : lastOk v = false) (hX : Lexes (restOfLine X) ts) :
    Lexes (splice (commentText v) ++ X) ts := by
  obtain ⟨y, hy, e⟩ := commentText_bad h
  rw [e, splice_slashes]
  refine lexes_slashes (lines_cpp ['\\', '\n'] X ?_ _ _ (Nat.le_refl _) hy (fun _ => by decide))
  simpa [splice] using hX

/-! ## All of a stream -/

/-- What C++ makes of comments that it skips. -/
def cppComment (v : Text) : Text := if lastOk v then splice (commentText v) else commentText v

theorem skips_cppComment : Skips cppComment where
  starts v := by
    unfold cppComment
    split
    · rename_i h
      rw [(commentText_ok h).1, splice_slashes]
      exact ⟨_, rfl⟩
    · exact ⟨_, rfl⟩
  skip v X ts h := by
    unfold cppComment
    split
    · rename_i hv
      exact comment_cpp hv h
    · exact lexes_comment v h

theorem word_plain {w : Text} (h : w.all isWord = true) : '\n' ∉ w ∧ '\\' ∉ w := by
  rw [List.all_eq_true] at h
  exact ⟨fun e => absurd (h _ e) (by decide), fun e => absurd (h _ e) (by decide)⟩

/-- A text without newlines that does not end in a backslash. -/
theorem splice_plain {a : Text} (X : Text) (h1 : '\n' ∉ a) (h2 : a.getLast? ≠ some '\\') : splice (a ++ X) = a ++ splice X := by
  rw [splice_append X h2, splice_eq_self h1]

theorem splice_word {a : Text} (X : Text) (h : '\n' ∉ a ∧ '\\' ∉ a) : splice (a ++ X) = a ++ splice X := by
  refine splice_plain X h.1 ?_
  intro e
  exact h.2 (List.mem_of_getLast? e)

theorem splice_lit {l : Lit} (h : l.ok) (X : Text) : splice (l.text ++ X) = l.text ++ splice X := by
  cases l with
  | num neg w f =>
      obtain ⟨⟨h1, _⟩, h2⟩ := h
      have hw := word_plain h1
      apply splice_word
      cases f with
      | none => cases neg <;> simp [Lit.text, fracText, hw.1, hw.2]
      | some f =>
          have hf := word_plain (h2 f rfl).1
          cases neg <;> simp [Lit.text, fracText, hw.1, hw.2, hf.1, hf.2]
  | quoted pre q body suf =>
      obtain ⟨hq, hp, hs, hb, _⟩ := h
      have hp' : '\n' ∉ pre ∧ '\\' ∉ pre := by
        rcases hp with rfl | hp
        · simp
        · exact word_plain hp.2.1
      have hs' := word_plain hs
      have hq' : q ≠ '\n' ∧ q ≠ '\\' := by
        have : q = '"' ∨ q = '\'' := by simpa [isQuote] using hq
        rcases this with rfl | rfl <;> decide
      apply splice_plain
      · simp [Lit.text, hp'.1, hs'.1, hb, hq'.1.symm]
      · simp only [Lit.text]
        rw [List.getLast?_append]
        intro e
        have : (q :: suf).getLast? = some '\\' := by
          cases h : (q :: suf).getLast? with
          | none => simp at h
          | some x => rw [h] at e; simpa using e
        have := List.mem_of_getLast? this
        simp only [List.mem_cons] at this
        rcases this with e | e
        · exact hq'.2 e.symm
        · exact hs'.2 e

theorem splice_blank (prev : Option Kind) (k : Kind) (r : TS) (X : Text) : splice (blank prev k r ++ X) = blank prev k r ++ splice X := by
  apply splice_word
  unfold blank
  split
  · decide
  · split <;> decide

theorem splice_pr : ∀ (ts : TS) (prev : Option Kind) (X : Text), ts.Clean → ts.CommentsOk →
    splice (pr commentText prev ts ++ X) = pr cppComment prev ts ++ splice X
  | .nil, _, X, _, _ => by simp [pr]
  | .newline r, _, X, hc, hk => by
      simp only [pr, List.cons_append]
      rw [splice_cons (by simp), splice_pr r _ X hc hk]
  | .space r, _, X, hc, hk => by
      simp only [pr, List.cons_append]
      rw [splice_cons (by simp), splice_pr r _ X hc hk]
  | .hash r, _, X, hc, hk => by
      simp only [pr, List.cons_append]
      rw [splice_cons (by simp), splice_pr r _ X hc hk]
  | .captureTag _ _ _ r, _, X, hc, hk => splice_pr r _ X hc hk
  | .captureBegin r, _, X, hc, hk => splice_pr r _ X hc hk
  | .captureEnd r, _, X, hc, hk => splice_pr r _ X hc hk
  | .comment v r, _, X, hc, hk => by
      obtain ⟨h1, h2, hk⟩ := hk
      have : lastOk v = true := by simp [lastOk, h1, h2]
      simp only [pr, List.append_assoc]
      rw [splice_commentText, splice_pr r _ X hc hk]
      simp [cppComment, this]
  | .group d i r, _, X, hc, hk => by
      have h1 : ∀ Y, splice (d.texts.1 ++ Y) = d.texts.1 ++ splice Y := fun Y => splice_word Y (by cases d <;> decide)
      have h2 : ∀ Y, splice (d.texts.2 ++ Y) = d.texts.2 ++ splice Y := fun Y => splice_word Y (by cases d <;> decide)
      simp only [pr, List.append_assoc]
      rw [h1, splice_pr i none _ hc.2.1 hk.1, h2, splice_pr r _ X hc.2.2 hk.2]
  | .ident w r, _, X, hc, hk => by
      simp only [pr, List.append_assoc]
      rw [splice_word _ (word_plain hc.1.2.1), splice_blank, splice_pr r _ X hc.2.2 hk]
  | .lit l r, _, X, hc, hk => by
      simp only [pr, List.append_assoc]
      rw [splice_lit hc.1, splice_blank, splice_pr r _ X hc.2.2.2 hk]
  | .punct c _ r, _, X, hc, hk => by
      have : c ≠ '\\' := by
        have := hc.1
        simp only [isPunct, Bool.and_eq_true, bne_iff_ne] at this
        exact this.2
      simp only [pr, List.cons_append, List.append_assoc]
      rw [splice_cons (fun e => absurd e this), splice_blank, splice_pr r _ X hc.2.2.2.2 hk]
  | .colon j r, _, X, hc, hk => by
      simp only [pr, List.cons_append, List.append_assoc]
      rw [splice_cons (by simp), splice_blank, splice_pr r _ X hc.2 hk]

/-- C++ reads in the text what the stream stands for. -/
theorem print_lexes_cpp (ts : TS) (hc : ts.Clean) (hk : ts.CommentsOk) : lex (splice (print ts)) = some ts.toks := by
  have h := splice_pr ts none [] hc hk
  simp only [List.append_nil, splice] at h
  rw [print_eq, h]
  have := pr_lexes skips_cppComment ts none [] [] hc (by intro c r h; cases h) lexes_nil
  simpa using this.lex

/-! ## Statements with `lex` -/

/-- Compilers skip every comment. -/
theorem comment_skipped (v X : Text) (ts : List Tok) (h : lex X = some ts) : lex (commentText v ++ X) = some ts :=
  (lexes_comment v (lexes_iff.2 h)).lex

/-- C++ skips a comment, and nothing else, if its value ends in neither a backslash nor a quote. -/
theorem comment_skipped_cpp (v X : Text) (ts : List Tok) (h1 : v.getLast? ≠ some '\\') (h2 : v.getLast? ≠ some '"')
    (h : lex (splice X) = some ts) : lex (splice (commentText v ++ X)) = some ts := by
  rw [splice_commentText]
  exact (comment_cpp (by simp [lastOk, h1, h2]) (lexes_iff.2 h)).lex

/-- If it does, what follows is skipped up to the end of the next line. -/
theorem comment_swallows_cpp (v X : Text) (ts : List Tok) (h1 : v.getLast? = some '\\' ∨ v.getLast? = some '"')
    (h : lex ((splice X).dropWhile (· != '\n')) = some ts) : lex (splice (commentText v ++ X)) = some ts := by
  rw [splice_commentText]
  refine (comment_swallows ?_ (lexes_iff.2 h)).lex
  rcases h1 with h1 | h1 <;> simp [lastOk, h1]

/-! ## `__LITERALLY__` -/

theorem unslash_cons {c : Char} {cs : Text} (h : c = '\\' → cs.head? ≠ some '\\') : unslash (c :: cs) = c :: unslash cs := by
  rw [unslash.eq_2]
  rintro cs' rfl rfl
  exact h rfl rfl

/-- Characters whose escape is not undone. -/
def isControl (c : Char) : Bool := c == '\n' || c == '\r' || c == '\t' || c == Char.ofNat 0

theorem unslash_flat (s : Text) : ∀ v : Text, v.any isControl = false → unslash (v.flatMap escU ++ s) = v ++ unslash s
  | [], _ => by simp
  | c :: v, h => by
      simp only [List.any_cons, Bool.or_eq_false_iff] at h
      have ih := unslash_flat s v h.2
      rw [List.flatMap_cons, List.append_assoc]
      simp only [isControl, Bool.or_eq_false_iff, beq_eq_false_iff_ne] at h
      by_cases e : c = '"'
      · have : escU c = ['"'] := by simp [escU, e]
        rw [this, List.singleton_append, unslash_cons (by simp), ih, e]
        rfl
      · have : escU c = escape c := by simp [escU, e]
        rw [this]
        by_cases hb : c = '\\'
        · subst hb
          simp [escape, unslash, ih]
        · rw [escape_other ⟨e, hb, h.1.1.1.1, h.1.1.1.2, h.1.1.2, h.1.2⟩, List.singleton_append,
            unslash_cons (fun e' => absurd e' hb), ih]
          rfl

/-- Literal text is written as it is, and a newline, if it has no control characters and does not end in a quote. -/
theorem literally_eq (v : Text) (h : v.any isControl = false) (hq : v.getLast? ≠ some '"') : literally v = v ++ ['\n'] := by
  have h1 := unquote_flat [] (by simp) v
  simp only [List.append_nil, unquote] at h1
  have h2 := unslash_flat [] v h
  simp only [List.append_nil, unslash] at h2
  simp [literally, trimQuotes_other v hq, h1, h2]

/-- A quote at the end becomes a backslash. -/
theorem literally_quote (u : Text) (h : u.any isControl = false) : literally (u ++ ['"']) = u ++ ['\\', '\n'] := by
  have h1 := unquote_flat ['\\'] (by decide) u
  have h2 := unslash_flat ['\\'] u h
  simp only [literally, trimQuotes_quote, h1]
  simp [unquote, h2, unslash]

end Verif.Printer

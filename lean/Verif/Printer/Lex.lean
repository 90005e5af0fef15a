import Verif.Printer.Model

/-!
# Printing generated code: what compilers read
-/

namespace Verif.Printer

/-- What `write` appends, where `f` writes comments. -/
def pr (f : Text → Text) (prev : Option Kind) : TS → Text
  | .nil => []
  | .newline r => '\n' :: pr f (some .other) r
  | .space r => ' ' :: pr f (some .other) r
  | .hash r => '#' :: pr f (some .word) r
  | .captureTag _ _ _ r | .captureBegin r | .captureEnd r => pr f (some .word) r
  | .comment v r => f v ++ pr f (some .word) r
  | .group d i r => d.texts.1 ++ (pr f none i ++ (d.texts.2 ++ pr f (some .other) r))
  | .ident w r => w ++ (blank prev .word r ++ pr f (some .word) r)
  | .lit l r => l.text ++ (blank prev .word r ++ pr f (some .word) r)
  | .punct c _ r => c :: (blank prev .other r ++ pr f (some .other) r)
  | .colon j r => ':' :: (blank prev (.colon j) r ++ pr f (some (.colon j)) r)

theorem write_result : ∀ (ts : TS) (prev : Option Kind) (s : St), (write prev ts s).result = s.result ++ pr commentText prev ts
  | .nil, _, s => by simp [write, pr]
  | .newline r, _, s => by rw [write, write_result r]; simp [pr]
  | .space r, _, s => by rw [write, write_result r]; simp [pr]
  | .hash r, _, s => by rw [write, write_result r]; simp [pr]
  | .captureTag _ _ _ r, _, s => by rw [write, write_result r]; simp [pr]
  | .captureBegin r, _, s => by rw [write, write_result r]; simp [pr]
  | .captureEnd r, _, s => by
      rw [write, write_result r]
      cases s.lastBegin <;> simp [pr]
  | .comment v r, _, s => by rw [write, write_result r]; simp [pr]
  | .group d i r, _, s => by
      rw [write, write_result r]
      simp [write_result i, pr]
  | .ident w r, _, s => by rw [write, write_result r]; simp [pr]
  | .lit l r, _, s => by rw [write, write_result r]; simp [pr]
  | .punct c _ r, _, s => by rw [write, write_result r]; simp [pr]
  | .colon _ r, _, s => by rw [write, write_result r]; simp [pr]

theorem print_eq (ts : TS) : print ts = pr commentText none ts := by
  unfold print
  rw [write_result]
  rfl

/-- The tokens of a text, whatever the number of steps. -/
def Lexes (cs : Text) (ts : List Tok) : Prop := ∀ n, cs.length ≤ n → lexN n cs = some ts

theorem Lexes.lex {cs : Text} {ts : List Tok} (h : Lexes cs ts) : lex cs = some ts := h _ (Nat.le_refl _)

theorem lexes_nil : Lexes [] [] := by
  intro n _
  cases n <;> rfl

theorem lexes_step {cs r : Text} {t : Option Tok} {ts : List Tok} (hn : next cs = some (t, r)) (hl : r.length < cs.length)
    (h : Lexes r ts) : Lexes cs (t.toList ++ ts) := by
  intro n hn'
  cases cs with
  | nil => simp at hl
  | cons c cs =>
      cases n with
      | zero => simp at hn'
      | succ n =>
          simp only [lexN, hn]
          rw [h n (by simp only [List.length_cons] at *; omega)]
          rfl

/-- The first character has no property `p`. -/
def NoHead (p : Char → Bool) (cs : Text) : Prop := ∀ c r, cs = c :: r → p c = false

theorem noHead_cons {p : Char → Bool} {c : Char} {cs : Text} (h : p c = false) : NoHead p (c :: cs) := by
  rintro d r h'
  simp only [List.cons.injEq] at h'
  rw [← h'.1]; exact h

theorem takeWhile_append_of {p : Char → Bool} : ∀ {w r : Text}, w.all p = true → NoHead p r → (w ++ r).takeWhile p = w
  | [], r, _, h => by
      cases r with
      | nil => rfl
      | cons c r => simp [List.takeWhile_cons, h c r rfl]
  | a :: w, r, h1, h2 => by
      simp only [List.all_cons, Bool.and_eq_true] at h1
      simp [List.takeWhile_cons, h1.1, takeWhile_append_of h1.2 h2]

theorem dropWhile_append_of {p : Char → Bool} : ∀ {w r : Text}, w.all p = true → NoHead p r → (w ++ r).dropWhile p = r
  | [], r, _, h => by
      cases r with
      | nil => rfl
      | cons c r => simp [List.dropWhile_cons, h c r rfl]
  | a :: w, r, h1, h2 => by
      simp only [List.all_cons, Bool.and_eq_true] at h1
      simp [List.dropWhile_cons, h1.1, dropWhile_append_of h1.2 h2]

theorem scan_cons (q c : Char) (cs : Text) : scan q (c :: cs) =
    if c = '\\' then (match cs with
        | [] => none
        | d :: ds => (scan q ds).map fun r => (c :: d :: r.1, r.2))
      else if c = q then some ([], cs)
      else (scan q cs).map fun r => (c :: r.1, r.2) := by
  cases cs <;> rfl

theorem scan_append {q : Char} : ∀ {l : Text} {b r : Text} (x : Text), scan q l = some (b, r) →
    scan q (l ++ x) = some (b, r ++ x) := by
  intro l
  induction l using scan.induct q with
  | case1 => intro b r x h; simp [scan] at h
  | case2 => intro b r x h; simp [scan] at h
  | case3 d ds ih =>
      intro b r x h
      simp only [scan, if_true, Option.map_eq_some_iff] at h
      obtain ⟨⟨b', r'⟩, h1, h2⟩ := h
      simp only [Prod.mk.injEq] at h2
      obtain ⟨rfl, rfl⟩ := h2
      simp [scan, ih x h1]
  | case4 cs h1 =>
      intro b r x h
      simp only [scan_cons, if_neg h1, if_true, Option.some.injEq, Prod.mk.injEq] at h
      obtain ⟨rfl, rfl⟩ := h
      simp only [List.cons_append, scan_cons, if_neg h1, if_true]
  | case5 c cs h1 h2 ih =>
      intro b r x h
      simp only [scan_cons, if_neg h1, if_neg h2, Option.map_eq_some_iff] at h
      obtain ⟨⟨b', r'⟩, h3, h4⟩ := h
      simp only [Prod.mk.injEq] at h4
      obtain ⟨rfl, rfl⟩ := h4
      simp only [List.cons_append, scan_cons, if_neg h1, if_neg h2, ih x h3]
      rfl

theorem startsChar_append {l : Text} (x : Text) (h : startsChar l = true) : startsChar (l ++ x) = true := by
  unfold startsChar at h
  split at h
  · rfl
  · simp only [List.cons_append]
    unfold startsChar
    split <;> simp_all
  · simp at h

/-! ## One token -/

/-- A character that is not the start of a comment, of `::` or of something longer. -/
theorem next_blank {c : Char} (h : isBlank c = true) (cs : Text) : next (c :: cs) = some (none, cs) := by
  have : c = ' ' ∨ c = '\n' := by simpa [isBlank] using h
  rcases this with rfl | rfl <;> rfl

theorem next_delim {c : Char} (h : isDelim c = true) (cs : Text) : next (c :: cs) = some (some (.delim c), cs) := by
  have : c = '(' ∨ c = ')' ∨ c = '[' ∨ c = ']' ∨ c = '{' ∨ c = '}' := by simpa [isDelim, or_assoc] using h
  rcases this with rfl | rfl | rfl | rfl | rfl | rfl <;> rfl

theorem lexes_blank {c : Char} (h : isBlank c = true) {cs : Text} {ts : List Tok} (hr : Lexes cs ts) : Lexes (c :: cs) ts :=
  lexes_step (t := none) (next_blank h cs) (by simp) hr

theorem lexes_delim {c : Char} (h : isDelim c = true) {cs : Text} {ts : List Tok} (hr : Lexes cs ts) :
    Lexes (c :: cs) (.delim c :: ts) :=
  lexes_step (t := some (.delim c)) (next_delim h cs) (by simp) hr

theorem lexes_blanks (prev : Option Kind) (k : Kind) (r : TS) {cs : Text} {ts : List Tok} (hr : Lexes cs ts) :
    Lexes (blank prev k r ++ cs) ts := by
  unfold blank
  split
  · exact hr
  · split
    · exact lexes_blank (c := ' ') rfl hr
    · exact hr

theorem word_facts {c : Char} (h : isWord c = true) :
    c ≠ '/' ∧ c ≠ ':' ∧ isBlank c = false ∧ isDelim c = false ∧ c ≠ '"' ∧ c ≠ '\'' ∧ c ≠ '*' ∧ c ≠ '.' := by
  refine ⟨?_, ?_, ?_, ?_, ?_, ?_, ?_, ?_⟩ <;> first
    | (rintro rfl; exact absurd h (by decide))
    | (cases hb : isBlank c with
       | false => rfl
       | true =>
          have : c = ' ' ∨ c = '\n' := by simpa [isBlank] using hb
          rcases this with rfl | rfl <;> exact absurd h (by decide))
    | (cases hb : isDelim c with
       | false => rfl
       | true =>
          have : c = '(' ∨ c = ')' ∨ c = '[' ∨ c = ']' ∨ c = '{' ∨ c = '}' := by simpa [isDelim, or_assoc] using hb
          rcases this with rfl | rfl | rfl | rfl | rfl | rfl <;> exact absurd h (by decide))

theorem next_word_start {c : Char} (h : isWord c = true) (cs : Text) : next (c :: cs) =
    (let w := (c :: cs).takeWhile isWord
     let r := (c :: cs).dropWhile isWord
     if r.head?.any isQuote && !c.isDigit then
       (r.head?.bind fun q => scan q r.tail).map fun br =>
            (some (.quoted (w ++ r.take 1 ++ br.1 ++ r.take 1 ++ br.2.takeWhile isWord)), br.2.dropWhile isWord)
     else if c.isDigit && r.head? == some '.' && r.tail.head?.any Char.isDigit then
       some (some (.word (w ++ '.' :: r.tail.takeWhile isWord)), r.tail.dropWhile isWord)
     else some (some (.word w), r)) := by
  obtain ⟨h1, h2, h3, h4, _, _, _, _⟩ := word_facts h
  simp only [next, h1, h2, h3, h4, h, false_and, if_false, if_true, Bool.false_eq_true]

theorem head?_any_noHead {p : Char → Bool} {cs : Text} (h : NoHead p cs) : cs.head?.any p = false := by
  cases cs with
  | nil => rfl
  | cons c cs => simpa using h c cs rfl

/-- Identifiers. -/
theorem lexes_word {w X : Text} {ts : List Tok} (hw : wordOk w) (h1 : NoHead isWord X) (h2 : NoHead isQuote X) (hr : Lexes X ts) :
    Lexes (w ++ X) (.word w :: ts) := by
  obtain ⟨hne, hall, hd⟩ := hw
  cases w with
  | nil => exact absurd rfl hne
  | cons c w =>
      have hc : isWord c = true := by
        simp only [List.all_cons, Bool.and_eq_true] at hall
        exact hall.1
      have hcd : c.isDigit = false := by simpa using hd
      refine lexes_step (t := some (.word (c :: w))) ?_ (by simp; omega) hr
      rw [List.cons_append, next_word_start hc]
      rw [← List.cons_append, takeWhile_append_of hall h1, dropWhile_append_of hall h1]
      simp [head?_any_noHead h2, hcd]

theorem isDigit_isWord {c : Char} (h : c.isDigit = true) : isWord c = true := by
  simp [isWord, Char.isAlphanum, h]

/-- Numbers. -/
theorem lexes_num {w X : Text} {f : Option Text} {ts : List Tok} (hw : numOk w) (hf : ∀ x, f = some x → numOk x)
    (h1 : NoHead isWord X) (h3 : f = none → ∀ c r, X = '.' :: c :: r → c.isDigit = false) (hr : Lexes X ts) :
    Lexes (w ++ (fracText f ++ X))
      (.word (w ++ fracText f) :: ts) := by
  obtain ⟨hall, hd⟩ := hw
  cases w with
  | nil => simp at hd
  | cons c w =>
      have hcd : c.isDigit = true := by simpa using hd
      have hc := isDigit_isWord hcd
      cases f with
      | none =>
          simp only [fracText, List.nil_append, List.append_nil]
          refine lexes_step (t := some (.word (c :: w))) ?_ (by simp; omega) hr
          rw [List.cons_append, next_word_start hc]
          rw [← List.cons_append, takeWhile_append_of hall h1, dropWhile_append_of hall h1]
          simp only [hcd, Bool.not_true, Bool.and_false, Bool.false_eq_true, if_false, Bool.true_and]
          rw [if_neg]
          cases X with
          | nil => simp
          | cons d X =>
              cases X with
              | nil => simp
              | cons e X =>
                  simp only [List.head?_cons, List.tail_cons, Option.any_some, Bool.and_eq_true, not_and, beq_iff_eq,
                    Option.some.injEq]
                  rintro rfl
                  simp [h3 rfl e X rfl]
      | some f =>
          obtain ⟨hfa, hfd⟩ := hf f rfl
          simp only [fracText]
          refine lexes_step (t := some (.word (c :: w ++ '.' :: f))) ?_ (by simp; omega) hr
          have hdot : NoHead isWord ('.' :: f ++ X) := noHead_cons rfl
          rw [List.cons_append, next_word_start hc]
          rw [← List.cons_append, takeWhile_append_of hall hdot, dropWhile_append_of hall hdot]
          have : (f ++ X).head?.any Char.isDigit = true := by
            cases f with
            | nil => simp at hfd
            | cons e f => simpa using hfd
          rw [List.head?_append] at this
          simp [hcd, this, takeWhile_append_of hfa h1, dropWhile_append_of hfa h1]

/-- Quoted literals. -/
theorem lexes_quoted {pre body suf X : Text} {q : Char} {ts : List Tok} (hl : (Lit.quoted pre q body suf).ok)
    (h1 : NoHead isWord X) (hr : Lexes X ts) :
    Lexes (pre ++ q :: body ++ q :: suf ++ X) (.quoted (pre ++ q :: body ++ q :: suf) :: ts) := by
  obtain ⟨hq, hp, hs, _, hb, hch⟩ := hl
  have hsc : scan q (body ++ q :: suf ++ X) = some (body, suf ++ X) := by
    have := scan_append (suf ++ X) hb
    simpa using this
  rcases hp with rfl | ⟨hne, hall, hd⟩
  · simp only [List.nil_append]
    refine lexes_step (t := some (.quoted (q :: body ++ q :: suf))) ?_ (by simp; omega) hr
    have hstart : (q == '"' || (q == '\'' && startsChar (body ++ q :: suf ++ X))) = true := by
      have : q = '"' ∨ q = '\'' := by simpa [isQuote] using hq
      rcases this with rfl | rfl
      · rfl
      · have := startsChar_append (suf ++ X) (hch rfl)
        simp only [List.append_assoc, List.cons_append, List.nil_append] at this
        simp [this]
    have hq' : q ≠ '/' ∧ q ≠ ':' ∧ isBlank q = false ∧ isDelim q = false ∧ isWord q = false := by
      have : q = '"' ∨ q = '\'' := by simpa [isQuote] using hq
      rcases this with rfl | rfl <;> decide
    obtain ⟨e1, e2, e3, e4, e5⟩ := hq'
    have : q :: body ++ q :: suf ++ X = q :: (body ++ q :: suf ++ X) := by simp
    rw [this]
    simp only [next, e1, e2, e3, e4, e5, false_and, if_false, Bool.false_eq_true, hstart, if_true, hsc, Option.map_some,
      takeWhile_append_of hs h1, dropWhile_append_of hs h1]
  · cases pre with
    | nil => exact absurd rfl hne
    | cons c w =>
        have hc : isWord c = true := by
          simp only [List.all_cons, Bool.and_eq_true] at hall
          exact hall.1
        have hcd : c.isDigit = false := by simpa using hd
        have hqw : NoHead isWord (q :: (body ++ q :: suf ++ X)) := by
          refine noHead_cons ?_
          have : q = '"' ∨ q = '\'' := by simpa [isQuote] using hq
          rcases this with rfl | rfl <;> decide
        refine lexes_step (t := some (.quoted (c :: w ++ q :: body ++ q :: suf))) ?_ (by simp; omega) hr
        have e : c :: w ++ q :: body ++ q :: suf ++ X = (c :: w) ++ (q :: (body ++ q :: suf ++ X)) := by simp
        rw [e, List.cons_append, next_word_start hc]
        rw [← List.cons_append, takeWhile_append_of hall hqw, dropWhile_append_of hall hqw]
        simp only [List.head?_cons, Option.any_some, hq, hcd, Bool.not_false, Bool.and_self, if_true, Option.bind_some,
          List.tail_cons, hsc, Option.map_some, takeWhile_append_of hs h1, dropWhile_append_of hs h1]
        simp

/-- Punctuation. -/
theorem lexes_punct {c : Char} {X : Text} {ts : List Tok} (hc : isPunct c = true)
    (h1 : c = '/' → NoHead (fun d => d == '/' || d == '*') X) (h2 : c = ':' → NoHead (· == ':') X)
    (h3 : c = '\'' → startsChar X = false) (hr : Lexes X ts) : Lexes (c :: X) (.punct c :: ts) := by
  refine lexes_step (t := some (.punct c)) ?_ (by simp) hr
  simp only [isPunct, Bool.and_eq_true, Bool.not_eq_true', bne_iff_ne] at hc
  obtain ⟨⟨⟨⟨w, d⟩, b⟩, q⟩, _⟩ := hc
  have a1 : ¬(c = '/' ∧ X.head? = some '/') := by
    rintro ⟨h, h'⟩
    have := head?_any_noHead (h1 h)
    rw [h'] at this
    exact absurd this (by decide)
  have a2 : ¬(c = '/' ∧ X.head? = some '*') := by
    rintro ⟨h, h'⟩
    have := head?_any_noHead (h1 h)
    rw [h'] at this
    exact absurd this (by decide)
  have a3 : ¬(c = ':' ∧ X.head? = some ':') := by
    rintro ⟨h, h'⟩
    have := head?_any_noHead (h2 h)
    rw [h'] at this
    exact absurd this (by decide)
  have a4 : (c == '"' || (c == '\'' && startsChar X)) = false := by
    by_cases h : c = '\''
    · simp [h3 h, q]
    · simp [h, q]
  simp only [next, a1, a2, a3, b, d, w, a4, if_false, Bool.false_eq_true]

/-! ## Comments -/

theorem trimQuotes_subset {s : Text} {c : Char} (h : c ∈ trimQuotes s) : c ∈ s := by
  unfold trimQuotes at h
  rw [List.mem_reverse] at h
  have := (List.dropWhile_sublist _).subset h
  rw [List.mem_reverse] at this
  exact (List.dropWhile_sublist _).subset this

theorem unquote_subset {s : Text} {c : Char} (h : c ∈ unquote s) : c ∈ s := by
  induction s using unquote.induct with
  | case1 cs ih =>
      rw [unquote] at h
      simp only [List.mem_cons] at h ⊢
      rcases h with h | h
      · simp [h]
      · simp [ih h]
  | case2 d cs hx ih =>
      rw [unquote.eq_2 _ _ hx] at h
      simp only [List.mem_cons] at h ⊢
      rcases h with h | h
      · simp [h]
      · simp [ih h]
  | case3 => simp [unquote] at h

theorem newline_not_escape (c : Char) : '\n' ∉ escape c := by
  unfold escape
  split <;> try decide
  split
  · decide
  · rename_i h _ _ _ _
    simp only [List.mem_singleton]
    intro e
    subst e
    simp_all

theorem newline_not_display (v : Text) : '\n' ∉ display v := by
  unfold display
  simp only [List.cons_append, List.mem_cons, List.mem_append, List.mem_flatMap, List.not_mem_nil, or_false, not_or, not_exists,
    not_and]
  exact ⟨by decide, fun c _ => newline_not_escape c, by decide⟩

theorem dropWhile_line {p X : Text} (hp : '\n' ∉ p) : (p ++ '\n' :: X).dropWhile (· != '\n') = '\n' :: X :=
  dropWhile_append_of (by simpa using fun c hc => fun (e : c = '\n') => hp (e ▸ hc)) (noHead_cons (by decide))

theorem lexes_line {p X : Text} {ts : List Tok} (hp : '\n' ∉ p) (hr : Lexes X ts) : Lexes ('/' :: '/' :: p ++ '\n' :: X) ts := by
  refine lexes_step (t := none) (r := '\n' :: X) ?_ (by simp; omega) (lexes_blank rfl hr)
  have : next ('/' :: '/' :: p ++ '\n' :: X) = some (none, (('/' :: p) ++ '\n' :: X).dropWhile (· != '\n')) := by
    simp [next]
  rw [this, dropWhile_line (by simpa using hp)]

theorem lexes_lines (s : Text) (hs : '\n' ∉ s) : ∀ {p X : Text} {ts : List Tok}, '\n' ∉ p → Lexes X ts →
    Lexes ('/' :: '/' :: p ++ (breakLines s ++ '\n' :: X)) ts := by
  induction s using breakLines.induct with
  | case1 cs ih =>
      intro p X ts hp hr
      simp only [List.mem_cons, not_or] at hs
      rw [breakLines]
      exact lexes_line hp (ih hs.2.2 (p := [' ']) (by decide) hr)
  | case2 c cs hx ih =>
      intro p X ts hp hr
      simp only [List.mem_cons, not_or] at hs
      rw [breakLines.eq_2 _ _ hx]
      have := ih hs.2 (p := p ++ [c]) (by simp [hp, hs.1]) hr
      simpa using this
  | case3 =>
      intro p X ts hp hr
      rw [breakLines]
      exact lexes_line hp hr

theorem lexes_comment (v : Text) {X : Text} {ts : List Tok} (hr : Lexes X ts) : Lexes (commentText v ++ X) ts := by
  have := lexes_lines (unquote (trimQuotes (display v))) (fun h => newline_not_display v (trimQuotes_subset (unquote_subset h)))
    (p := [' ']) (by decide) hr
  unfold commentText
  simpa using this

/-- A way to write comments that compilers skip. -/
structure Skips (f : Text → Text) : Prop where
  starts : ∀ v, ∃ r, f v = '/' :: '/' :: r
  skip : ∀ v (X : Text) (ts : List Tok), Lexes X ts → Lexes (f v ++ X) ts

theorem skips_commentText : Skips commentText where
  starts v := ⟨_, rfl⟩
  skip v _ _ h := lexes_comment v h

end Verif.Printer

import Verif.Printer.Lex

/-!
# Printing generated code: compilers read the tokens of the stream
-/

namespace Verif.Printer

/-- What follows a stream: nothing, or the end of a group. -/
def TailOk (X : Text) : Prop := ∀ c r, X = c :: r → c = ')' ∨ c = ']' ∨ c = ' '

theorem blank_word {prev : Option Kind} {r : TS} (h : r.kind = some .word) : blank prev .word r = [' '] := by
  simp [blank, h, needsSpace]

theorem blank_other (prev : Option Kind) (r : TS) : blank prev .other r = [] := by
  unfold blank
  split
  · rfl
  · rw [if_neg]
    simp [needsSpace]

theorem blank_word_other {prev : Option Kind} {r : TS} (h : r.kind ≠ some .word) : blank prev .word r = [] := by
  unfold blank
  split
  · rfl
  · rename_i k hk
    rw [if_neg]
    have : k ≠ .word := fun e => h (by rw [hk, e])
    simp [needsSpace, this]

theorem noHead_tail {p : Char → Bool} {X : Text} (hX : TailOk X) (h1 : p ')' = false) (h2 : p ']' = false) (h3 : p ' ' = false) :
    NoHead p X := by
  intro c r h
  rcases hX c r h with rfl | rfl | rfl <;> assumption

theorem tail_head {X : Text} (hX : TailOk X) : X = [] ∨ ∃ c r, X = c :: r ∧ (c = ')' ∨ c = ']' ∨ c = ' ') := by
  cases X with
  | nil => exact Or.inl rfl
  | cons c r => exact Or.inr ⟨c, r, rfl, hX c r rfl⟩

theorem punct_facts {c : Char} (h : isPunct c = true) : isWord c = false ∧ c ≠ '"' := by
  simp only [isPunct, Bool.and_eq_true, Bool.not_eq_true', bne_iff_ne] at h
  exact ⟨h.1.1.1.1, h.1.2⟩

/-- After a word comes neither a character of a word nor a quote. -/
theorem after_word {f : Text → Text} {prev pv : Option Kind} {r : TS} {X : Text} (hr : r.Clean) (hq : r.startsWith '\'' = false) (hX : TailOk X) :
    NoHead isWord (blank prev .word r ++ (pr f pv r ++ X)) ∧ NoHead isQuote (blank prev .word r ++ (pr f pv r ++ X)) := by
  by_cases hk : r.kind = some .word
  · rw [blank_word hk]
    exact ⟨noHead_cons (by decide), noHead_cons (by decide)⟩
  · rw [blank_word_other hk]
    cases r with
    | nil => exact ⟨noHead_tail hX rfl rfl rfl, noHead_tail hX rfl rfl rfl⟩
    | punct c j r =>
        have hp := punct_facts hr.1
        have hc : c ≠ '\'' := by
          simp only [TS.startsWith, beq_eq_false_iff_ne] at hq
          exact fun e => hq e.symm
        exact ⟨noHead_cons hp.1, noHead_cons (by simp [isQuote, hp.2, hc])⟩
    | colon j r => exact ⟨noHead_cons (by decide), noHead_cons (by decide)⟩
    | newline r => exact ⟨noHead_cons (by decide), noHead_cons (by decide)⟩
    | space r => exact ⟨noHead_cons (by decide), noHead_cons (by decide)⟩
    | group d i r =>
        cases d with
        | none => exact absurd rfl hr.1
        | paren => exact ⟨noHead_cons (by decide), noHead_cons (by decide)⟩
        | bracket => exact ⟨noHead_cons (by decide), noHead_cons (by decide)⟩
        | brace => exact ⟨noHead_cons (by decide), noHead_cons (by decide)⟩
    | _ => exact absurd rfl hk

/-- The first character printed of a stream. -/
theorem first_char {f : Text → Text} (hf : Skips f) (p : Char → Bool) : ∀ (ts : TS) (prev : Option Kind) (X : Text), ts.Clean → TailOk X →
    (∀ c, ts.first = .punct c → p c = false) → (ts.first = .digit → ∀ c, c.isDigit = true → p c = false) →
    (ts.first = .comment → p '/' = false) →
    (∀ c, (isWord c = true ∧ c.isDigit = false) ∨ isQuote c = true ∨ isDelim c = true ∨ isBlank c = true ∨ c = '-' → p c = false) →
    NoHead p (pr f prev ts ++ X)
  | .nil, prev, X, hc, hX, h1, h2, h3, h4 =>
      noHead_tail hX (h4 _ (Or.inr (Or.inr (Or.inl rfl)))) (h4 _ (Or.inr (Or.inr (Or.inl rfl))))
        (h4 _ (Or.inr (Or.inr (Or.inr (Or.inl rfl)))))
  | .newline r, prev, X, hc, hX, h1, h2, h3, h4 => noHead_cons (h4 _ (Or.inr (Or.inr (Or.inr (Or.inl rfl)))))
  | .space r, prev, X, hc, hX, h1, h2, h3, h4 => noHead_cons (h4 _ (Or.inr (Or.inr (Or.inr (Or.inl rfl)))))
  | .hash r, prev, X, hc, hX, h1, h2, h3, h4 => noHead_cons (h1 _ rfl)
  | .captureTag _ _ _ r, prev, X, hc, hX, h1, h2, h3, h4 => first_char hf p r _ X hc hX h1 h2 h3 h4
  | .captureBegin r, prev, X, hc, hX, h1, h2, h3, h4 => first_char hf p r _ X hc hX h1 h2 h3 h4
  | .captureEnd r, prev, X, hc, hX, h1, h2, h3, h4 => first_char hf p r _ X hc hX h1 h2 h3 h4
  | .comment v r, prev, X, hc, hX, h1, h2, h3, h4 => by
      obtain ⟨x, hx⟩ := hf.starts v
      rw [pr, hx]
      exact noHead_cons (h3 rfl)
  | .group d i r, prev, X, hc, hX, h1, h2, h3, h4 => by
      cases d with
      | none => exact absurd rfl hc.1
      | _ => exact noHead_cons (h4 _ (Or.inr (Or.inr (Or.inl rfl))))
  | .ident w r, prev, X, hc, hX, h1, h2, h3, h4 => by
      obtain ⟨hne, hall, hd⟩ := hc.1
      cases w with
      | nil => exact absurd rfl hne
      | cons c w =>
          simp only [List.all_cons, Bool.and_eq_true] at hall
          exact noHead_cons (h4 _ (Or.inl ⟨hall.1, by simpa using hd⟩))
  | .punct c _ r, prev, X, hc, hX, h1, h2, h3, h4 => noHead_cons (h1 _ rfl)
  | .colon j r, prev, X, hc, hX, h1, h2, h3, h4 => noHead_cons (h1 _ rfl)
  | .lit (.num true w _) r, prev, X, hc, hX, h1, h2, h3, h4 => noHead_cons (h4 _ (Or.inr (Or.inr (Or.inr (Or.inr rfl)))))
  | .lit (.num false w _) r, prev, X, hc, hX, h1, h2, h3, h4 => by
      obtain ⟨⟨hall, hd⟩, _⟩ := hc.1
      cases w with
      | nil => simp at hd
      | cons c w => exact noHead_cons (h2 rfl c (by simpa using hd))
  | .lit (.quoted pre q body suf) r, prev, X, hc, hX, h1, h2, h3, h4 => by
      obtain ⟨hq, hp, _⟩ := hc.1
      cases pre with
      | nil => exact noHead_cons (h4 _ (Or.inr (Or.inl hq)))
      | cons c w =>
          rcases hp with hp | ⟨_, hall, hd⟩
          · cases hp
          · simp only [List.all_cons, Bool.and_eq_true] at hall
            exact noHead_cons (h4 _ (Or.inl ⟨hall.1, by simpa using hd⟩))

/-- What else the first character can be is no `/`, `*`, `:` and no digit. -/
theorem not_special {c : Char}
    (h : (isWord c = true ∧ c.isDigit = false) ∨ isQuote c = true ∨ isDelim c = true ∨ isBlank c = true ∨ c = '-') :
    c ≠ '/' ∧ c ≠ '*' ∧ c ≠ ':' ∧ c.isDigit = false := by
  rcases h with ⟨h, hd⟩ | h | h | h | rfl
  · obtain ⟨h1, h2, _, _, _, _, h3, _⟩ := word_facts h
    exact ⟨h1, h3, h2, hd⟩
  · have : c = '"' ∨ c = '\'' := by simpa [isQuote] using h
    rcases this with rfl | rfl <;> decide
  · have : c = '(' ∨ c = ')' ∨ c = '[' ∨ c = ']' ∨ c = '{' ∨ c = '}' := by simpa [isDelim, or_assoc] using h
    rcases this with rfl | rfl | rfl | rfl | rfl | rfl <;> decide
  · have : c = ' ' ∨ c = '\n' := by simpa [isBlank] using h
    rcases this with rfl | rfl <;> decide
  · decide

/-- A lifetime is not a character literal. -/
theorem lifetime_start {f : Text → Text} {r : TS} {prev : Option Kind} {X : Text} (hr : r.Clean) (hi : r.isIdent = true) (hX : TailOk X) :
    startsChar (pr f prev r ++ X) = false := by
  cases r with
  | ident w r =>
      obtain ⟨hw, hq, hr⟩ := hr
      obtain ⟨h1, h2⟩ := after_word (f := f) (prev := prev) (pv := some .word) hr hq hX
      obtain ⟨hne, hall, hd⟩ := hw
      cases w with
      | nil => exact absurd rfl hne
      | cons c w =>
          simp only [List.all_cons, Bool.and_eq_true] at hall
          have hc : c ≠ '\\' := by rintro rfl; exact absurd hall.1 (by decide)
          cases w with
          | nil =>
              simp only [pr, List.cons_append, List.nil_append, List.append_assoc]
              generalize blank prev .word r ++ (pr f (some .word) r ++ X) = Y at h2
              cases Y with
              | nil =>
                  unfold startsChar
                  split <;> simp_all
              | cons d Y =>
                  have : d ≠ '\'' := by
                    rintro rfl
                    exact absurd (h2 _ _ rfl) (by decide)
                  unfold startsChar
                  split <;> simp_all
          | cons d w =>
              simp only [List.all_cons, Bool.and_eq_true] at hall
              have hd' : d ≠ '\'' := by rintro rfl; exact absurd hall.2.1 (by decide)
              simp only [pr, List.cons_append]
              unfold startsChar
              split <;> simp_all
  | _ => simp [TS.isIdent] at hi

theorem toks_colon {j : Bool} {r : TS} (h : j = true → ∀ j' r', r ≠ .colon j' r') :
    (TS.colon j r).toks = .punct ':' :: r.toks := by
  rw [TS.toks]
  intro j' r' e e'
  exact h e j' r' e'

/-- After a lone colon there is no colon. -/
theorem after_colon {f : Text → Text} (hf : Skips f) {prev : Option Kind} {j : Bool} {r : TS} {X : Text} (hr : (TS.colon j r).Clean)
    (h : j = true → ∀ j' r', r ≠ .colon j' r') (hX : TailOk X) :
    NoHead (· == ':') (blank prev (.colon j) r ++ (pr f (some (.colon j)) r ++ X)) := by
  obtain ⟨hm, hr⟩ := hr
  by_cases hc : ∃ j' r', r = .colon j' r'
  · obtain ⟨j', r', rfl⟩ := hc
    have hj : j = false := by
      cases j with
      | false => rfl
      | true => exact absurd rfl (h rfl j' r')
    subst hj
    have : blank prev (.colon false) (.colon j' r') = [' '] := by
      unfold blank
      simp only [TS.kind]
      rw [if_pos]
      simp only [needsSpace]
      cases prev with
      | none => rfl
      | some k => cases k with
          | colon b => cases b <;> rfl
          | _ => rfl
    rw [this]
    exact noHead_cons (by decide)
  · have hf : NoHead (· == ':') (pr f (some (.colon j)) r ++ X) := by
      refine first_char hf _ r _ X hr hX ?_ ?_ (fun _ => by decide) ?_
      · intro c hcf
        simp only [beq_eq_false_iff_ne]
        rintro rfl
        cases r with
        | colon j' r' => exact hc ⟨j', r', rfl⟩
        | captureTag _ _ _ r => exact hm rfl hcf
        | captureBegin r => exact hm rfl hcf
        | captureEnd r => exact hm rfl hcf
        | punct c j r =>
            simp only [TS.first, First.punct.injEq] at hcf
            exact hr.2.1 hcf
        | lit l r =>
            cases l with
            | num b _ _ => cases b <;> simp [TS.first] at hcf
            | quoted => simp [TS.first] at hcf
        | hash r => 
            simp only [TS.first, First.punct.injEq] at hcf
            exact absurd hcf (by decide)
        | _ => simp [TS.first] at hcf
      · intro _ c hc
        simp only [beq_eq_false_iff_ne]
        rintro rfl
        exact absurd hc (by decide)
      · intro c hc
        simp [(not_special hc).2.2.1]
    unfold blank
    split
    · exact hf
    · split
      · exact noHead_cons (by decide)
      · exact hf

/-- After a whole number there is no fraction. -/
theorem after_num {f : Text → Text} (hs : Skips f) {prev : Option Kind} {r : TS} {X : Text} (hr : r.Clean) (hf : r.fraction = false) (hX : TailOk X) :
    ∀ c Y, blank prev .word r ++ (pr f (some .word) r ++ X) = '.' :: c :: Y → c.isDigit = false := by
  intro c Y h
  by_cases hk : r.kind = some .word
  · rw [blank_word hk] at h
    simp at h
  · rw [blank_word_other hk] at h
    cases r with
    | nil =>
        rcases hX _ _ h with e | e | e <;> exact absurd e (by decide)
    | punct d j r =>
        simp only [pr, List.nil_append, List.cons_append, List.cons.injEq, blank_other] at h
        obtain ⟨rfl, h⟩ := h
        have := first_char hs Char.isDigit r (some .other) X hr.2.2.2.2 hX ?_ ?_ (fun _ => by decide) (fun c hc => (not_special hc).2.2.2)
        · exact this c Y h
        · intro e he
          cases hd : e.isDigit with
          | false => rfl
          | true =>
              exfalso
              have : ∀ (t : TS), t.Clean → t.first = .punct e → False := by
                intro t
                induction t with
                | punct d j r =>
                    intro hc he
                    simp only [TS.first, First.punct.injEq] at he
                    subst he
                    have := (punct_facts hc.1).1
                    rw [isDigit_isWord hd] at this
                    cases this
                | colon =>
                    intro _ he
                    simp only [TS.first, First.punct.injEq] at he
                    subst he
                    exact absurd hd (by decide)
                | hash =>
                    intro _ he
                    simp only [TS.first, First.punct.injEq] at he
                    subst he
                    exact absurd hd (by decide)
                | captureTag _ _ _ r ih => exact ih
                | captureBegin r ih => exact ih
                | captureEnd r ih => exact ih
                | lit l r _ =>
                    intro _ he
                    cases l with
                    | num b _ _ => cases b <;> simp [TS.first] at he
                    | quoted => simp [TS.first] at he
                | _ => intro _ he; simp [TS.first] at he
              exact this r hr.2.2.2.2 he
        · intro hd
          simp [TS.fraction, hd] at hf
    | colon j r => simp [pr] at h
    | newline r => simp [pr] at h
    | space r => simp [pr] at h
    | group d i r =>
        cases d with
        | none => exact absurd rfl hr.1
        | _ => simp [pr, Delim.texts] at h
    | _ => exact absurd rfl hk

theorem pr_lexes {f : Text → Text} (hk : Skips f) : ∀ (ts : TS) (prev : Option Kind) (X : Text) (tt : List Tok), ts.Clean → TailOk X → Lexes X tt →
    Lexes (pr f prev ts ++ X) (ts.toks ++ tt)
  | .nil, prev, X, tt, hc, hX, hl => hl
  | .newline r, prev, X, tt, hc, hX, hl => lexes_blank (c := '\n') rfl (pr_lexes hk r _ X tt hc hX hl)
  | .space r, prev, X, tt, hc, hX, hl => lexes_blank (c := ' ') rfl (pr_lexes hk r _ X tt hc hX hl)
  | .hash r, prev, X, tt, hc, hX, hl =>
      lexes_punct (c := '#') (by decide) (fun e => absurd e (by decide)) (fun e => absurd e (by decide))
        (fun e => absurd e (by decide)) (pr_lexes hk r _ X tt hc hX hl)
  | .captureTag _ _ _ r, prev, X, tt, hc, hX, hl => pr_lexes hk r _ X tt hc hX hl
  | .captureBegin r, prev, X, tt, hc, hX, hl => pr_lexes hk r _ X tt hc hX hl
  | .captureEnd r, prev, X, tt, hc, hX, hl => pr_lexes hk r _ X tt hc hX hl
  | .comment v r, prev, X, tt, hc, hX, hl => by
      have := hk.skip v _ _ (pr_lexes hk r (some .word) X tt hc hX hl)
      simpa [pr, TS.toks] using this
  | .group d i r, prev, X, tt, hc, hX, hl => by
      obtain ⟨hd, hi, hr⟩ := hc
      have h1 := pr_lexes hk r (some .other) X tt hr hX hl
      cases d with
      | none => exact absurd rfl hd
      | paren =>
          have h2 := pr_lexes hk i none (')' :: (pr f (some .other) r ++ X)) _ hi (by simp [TailOk])
            (lexes_delim (c := ')') rfl h1)
          have h3 := lexes_delim (c := '(') rfl h2
          simpa [pr, TS.toks, Delim.texts, Delim.open, Delim.close] using h3
      | bracket =>
          have h2 := pr_lexes hk i none (']' :: (pr f (some .other) r ++ X)) _ hi (by simp [TailOk])
            (lexes_delim (c := ']') rfl h1)
          have h3 := lexes_delim (c := '[') rfl h2
          simpa [pr, TS.toks, Delim.texts, Delim.open, Delim.close] using h3
      | brace =>
          have h2 := pr_lexes hk i none (' ' :: '}' :: (pr f (some .other) r ++ X)) _ hi (by simp [TailOk])
            (lexes_blank (c := ' ') rfl (lexes_delim (c := '}') rfl h1))
          have h3 := lexes_delim (c := '{') rfl (lexes_blank (c := ' ') rfl h2)
          simpa [pr, TS.toks, Delim.texts, Delim.open, Delim.close] using h3
  | .ident w r, prev, X, tt, hc, hX, hl => by
      obtain ⟨hw, hq, hr⟩ := hc
      obtain ⟨h1, h2⟩ := after_word (f := f) (prev := prev) (pv := some .word) hr hq hX
      have := lexes_word hw h1 h2 (lexes_blanks prev .word r (pr_lexes hk r (some .word) X tt hr hX hl))
      simpa [pr, TS.toks] using this
  | .lit (.num neg w fr) r, prev, X, tt, hc, hX, hl => by
      obtain ⟨hl', hq, hf, hr⟩ := hc
      obtain ⟨h1, h2⟩ := after_word (f := f) (prev := prev) (pv := some .word) hr hq hX
      have h3 := lexes_num hl'.1 hl'.2 h1 (fun e => after_num hk hr (hf (by rw [e]; rfl)) hX)
        (lexes_blanks prev .word r (pr_lexes hk r (some .word) X tt hr hX hl))
      cases neg with
      | false => simpa [pr, TS.toks, Lit.text, Lit.toks] using h3
      | true =>
          have h4 := lexes_punct (c := '-') (by decide) (fun e => absurd e (by decide)) (fun e => absurd e (by decide))
            (fun e => absurd e (by decide)) h3
          simpa [pr, TS.toks, Lit.text, Lit.toks] using h4
  | .lit (.quoted pre q body suf) r, prev, X, tt, hc, hX, hl => by
      obtain ⟨hl', hq, hf, hr⟩ := hc
      obtain ⟨h1, h2⟩ := after_word (f := f) (prev := prev) (pv := some .word) hr hq hX
      have h3 := lexes_quoted hl' h1 (lexes_blanks prev .word r (pr_lexes hk r (some .word) X tt hr hX hl))
      simpa [pr, TS.toks, Lit.text, Lit.toks] using h3
  | .punct c j r, prev, X, tt, hc, hX, hl => by
      obtain ⟨hp, hcol, hs, hq, hr⟩ := hc
      have h1 := pr_lexes hk r (some .other) X tt hr hX hl
      have h2 := lexes_punct (c := c) hp (X := pr f (some .other) r ++ X) ?_ (fun e => absurd e hcol)
        (fun e => lifetime_start hr (hq e) hX) h1
      · simpa [pr, TS.toks, blank_other] using h2
      · intro e
        obtain ⟨s1, s2, s3⟩ := hs e
        refine first_char hk _ r _ X hr hX ?_ ?_ (fun h => absurd h s3) ?_
        · intro d hd
          simp only [Bool.or_eq_false_iff, beq_eq_false_iff_ne]
          exact ⟨fun e => s1 (by rw [hd, e]), fun e => s2 (by rw [hd, e])⟩
        · intro _ d hd
          simp only [Bool.or_eq_false_iff, beq_eq_false_iff_ne]
          constructor <;> (rintro rfl; exact absurd hd (by decide))
        · intro d hd
          simp [(not_special hd).1, (not_special hd).2.1]
  | .colon true (.colon j r), prev, X, tt, hc, hX, hl => by
      have hr := hc.2.2
      have h1 := lexes_blanks (some (.colon true)) (.colon j) r (pr_lexes hk r (some (.colon j)) X tt hr hX hl)
      have h2 := lexes_step (cs := ':' :: ':' :: (blank (some (.colon true)) (.colon j) r ++ (pr f (some (.colon j)) r ++ X)))
        (t := some .colon2) rfl (by simp; omega) h1
      have hb : blank prev (.colon true) (.colon j r) = [] := by simp [blank, TS.kind, needsSpace]
      simpa [pr, TS.toks, hb] using h2
  | .colon j r, prev, X, tt, hc, hX, hl => by
      by_cases hp : j = true ∧ ∃ j' r', r = .colon j' r'
      · obtain ⟨rfl, j', r', rfl⟩ := hp
        have hr := hc.2.2
        have h1 := lexes_blanks (some (.colon true)) (.colon j') r' (pr_lexes hk r' (some (.colon j')) X tt hr hX hl)
        have h2 := lexes_step (cs := ':' :: ':' :: (blank (some (.colon true)) (.colon j') r' ++ (pr f (some (.colon j')) r' ++ X)))
          (t := some .colon2) rfl (by simp; omega) h1
        have hb : blank prev (.colon true) (.colon j' r') = [] := by simp [blank, TS.kind, needsSpace]
        simpa [pr, TS.toks, hb] using h2
      · have hp' : j = true → ∀ j' r', r ≠ .colon j' r' := fun e j' r' e' => hp ⟨e, j', r', e'⟩
        have h1 := lexes_blanks prev (.colon j) r (pr_lexes hk r (some (.colon j)) X tt hc.2 hX hl)
        have h2 := lexes_punct (c := ':') (by decide) (fun e => absurd e (by decide)) (fun _ => after_colon hk hc hp' hX)
          (fun e => absurd e (by decide)) h1
        rw [toks_colon hp']
        simpa [pr] using h2

/-- Compilers read in the text what the stream stands for. -/
theorem print_lexes (ts : TS) (hc : ts.Clean) : lex (print ts) = some ts.toks := by
  have := pr_lexes skips_commentText ts none [] [] hc (by intro c r h; cases h) lexes_nil
  rw [print_eq]
  simpa using this.lex

end Verif.Printer

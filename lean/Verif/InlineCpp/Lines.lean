import Verif.InlineCpp.Blocks

/-
C156: the C++ compiler's diagnostics point at the Rust file.
-/

namespace Verif.InlineCpp

/-! ### Lines of a text -/

theorem linesOf_line (x : List Char) (hx : '\n' ∉ x) (r : List Char) :
    linesOf (x ++ '\n' :: r) = x :: linesOf r := by
  induction x with
  | nil => simp [linesOf]
  | cons c x ih =>
    have hc : c ≠ '\n' := fun h => hx (by simp [h])
    rw [List.cons_append, linesOf, if_neg hc, ih (fun h => hx (by simp [h]))]

theorem linesOf_noNl (x : List Char) (hx : '\n' ∉ x) : linesOf x = [] := by
  induction x with
  | nil => rfl
  | cons c x ih =>
    have hc : c ≠ '\n' := fun h => hx (by simp [h])
    rw [linesOf, if_neg hc, ih (fun h => hx (by simp [h]))]

/-- Split a text at its first newline. -/
theorem split_nl (l : List Char) : '\n' ∉ l ∨ ∃ x r, l = x ++ '\n' :: r ∧ '\n' ∉ x := by
  induction l with
  | nil => left; simp
  | cons c l ih =>
    by_cases hc : c = '\n'
    · exact .inr ⟨[], l, by simp [hc], by simp⟩
    · rcases ih with h | ⟨x, r, rfl, hx⟩
      · left; simp [h, Ne.symm hc]
      · exact .inr ⟨c :: x, r, by simp, by simp [hx, Ne.symm hc]⟩

/-- Text that is empty or ends with a newline. -/
def EndsNl (l : List Char) : Prop := l = [] ∨ ∃ q, l = q ++ ['\n']

theorem linesOf_append_nl (q : List Char) (r : List Char) :
    linesOf (q ++ '\n' :: r) = linesOf (q ++ ['\n']) ++ linesOf r := by
  induction hn : q.length using Nat.strongRecOn generalizing q with
  | ind n ih =>
    rcases split_nl q with h | ⟨x, s, rfl, hx⟩
    · rw [linesOf_line q h, linesOf_line q h []]; simp [linesOf]
    · have := ih s.length (by subst hn; simp; omega) s rfl
      simp only [List.append_assoc, List.cons_append]
      rw [linesOf_line x hx, linesOf_line x hx, this]
      simp

theorem linesOf_append {l : List Char} (h : EndsNl l) (r : List Char) :
    linesOf (l ++ r) = linesOf l ++ linesOf r := by
  rcases h with rfl | ⟨q, rfl⟩
  · simp [linesOf]
  · rw [List.append_assoc, List.singleton_append, linesOf_append_nl]

theorem linesOf_prefix (a b : List Char) : ∃ r, linesOf (a ++ b) = linesOf a ++ r := by
  induction hn : a.length using Nat.strongRecOn generalizing a with
  | ind n ih =>
    rcases split_nl a with h | ⟨x, s, rfl, hx⟩
    · exact ⟨linesOf (a ++ b), by rw [linesOf_noNl a h]; simp⟩
    · obtain ⟨r, hr⟩ := ih s.length (by subst hn; simp; omega) s rfl
      refine ⟨r, ?_⟩
      rw [List.append_assoc, List.cons_append, linesOf_line x hx, linesOf_line x hx, hr]; simp

theorem linesOf_length (l : List Char) : (linesOf l).length = l.count '\n' := by
  induction hn : l.length using Nat.strongRecOn generalizing l with
  | ind n ih =>
    rcases split_nl l with h | ⟨x, s, rfl, hx⟩
    · rw [linesOf_noNl l h, List.count_eq_zero.2 h]; rfl
    · rw [linesOf_line x hx, List.length_cons, ih s.length (by subst hn; simp; omega) s rfl,
        List.count_append, List.count_eq_zero.2 hx, List.count_cons]
      simp

/-! ### Directives -/

theorem dropWhile_digits (n : Nat) (r : List Char) (hr : ∀ c q, r = c :: q → c.isDigit = false) :
    (Nat.toDigits 10 n ++ r).takeWhile Char.isDigit = Nat.toDigits 10 n ∧
    (Nat.toDigits 10 n ++ r).dropWhile Char.isDigit = r := by
  have hd : ∀ c ∈ Nat.toDigits 10 n, c.isDigit = true := fun c hc =>
    Nat.isDigit_of_mem_toDigits (by decide) (by decide) hc
  generalize Nat.toDigits 10 n = ds at hd
  constructor
  · rw [List.takeWhile_append_of_pos hd]
    cases r with
    | nil => simp
    | cons c r => simp [hr c r rfl]
  · rw [List.dropWhile_append_of_pos hd]
    cases r with
    | nil => simp
    | cons c r => simp [hr c r rfl]

theorem toDigits_head (n : Nat) : ∃ c q, Nat.toDigits 10 n = c :: q ∧ c.isDigit = true := by
  cases h : Nat.toDigits 10 n with
  | nil => exact absurd h (by
      have := @Nat.toDigits_ne_nil n 10
      simpa using this)
  | cons c q => exact ⟨c, q, rfl, Nat.isDigit_of_mem_toDigits (b := 10) (n := n) (by decide) (by decide) (by simp [h])⟩

theorem isBlank_digit {c : Char} (h : c.isDigit = true) : isBlank c = false := by
  unfold isBlank
  by_cases h1 : c = ' '
  · subst h1; cases h
  · by_cases h2 : c = '\t'
    · subst h2; cases h
    · simp [h1, h2]

theorem readDirective_line (n : Nat) (file : List Char) (hf : '"' ∉ file) :
    readDirective ("#line ".toList ++ Nat.toDigits 10 n ++ " \"".toList ++ file ++ ['"']) =
      some (n, some file) := by
  obtain ⟨c, q, hcq, hc⟩ := toDigits_head n
  have hdig := dropWhile_digits n (' ' :: '"' :: file ++ ['"']) (by
    rintro c q h; simp only [List.cons_append, List.cons.injEq] at h; rw [← h.1]; rfl)
  have e : "#line ".toList ++ Nat.toDigits 10 n ++ " \"".toList ++ file ++ ['"'] =
      '#' :: 'l' :: 'i' :: 'n' :: 'e' :: ' ' :: (Nat.toDigits 10 n ++ (' ' :: '"' :: file ++ ['"'])) := by
    simp
  rw [e]
  unfold readDirective
  have h1 : ('#' :: 'l' :: 'i' :: 'n' :: 'e' :: ' ' :: (Nat.toDigits 10 n ++ (' ' :: '"' :: file ++ ['"']))).dropWhile isBlank
      = '#' :: 'l' :: 'i' :: 'n' :: 'e' :: ' ' :: (Nat.toDigits 10 n ++ (' ' :: '"' :: file ++ ['"'])) := by
    simp [isBlank]
  rw [h1]
  simp only
  have h2 : ('l' :: 'i' :: 'n' :: 'e' :: ' ' :: (Nat.toDigits 10 n ++ (' ' :: '"' :: file ++ ['"']))).dropWhile isBlank
      = 'l' :: 'i' :: 'n' :: 'e' :: ' ' :: (Nat.toDigits 10 n ++ (' ' :: '"' :: file ++ ['"'])) := by
    simp [isBlank]
  rw [h2]
  simp only [dropLineWord]
  have h3 : (' ' :: (Nat.toDigits 10 n ++ (' ' :: '"' :: file ++ ['"']))).dropWhile isBlank
      = Nat.toDigits 10 n ++ (' ' :: '"' :: file ++ ['"']) := by
    rw [List.dropWhile_cons_of_pos (by rfl), hcq, List.cons_append,
      List.dropWhile_cons_of_neg (by rw [isBlank_digit hc]; simp)]
  rw [h3, hdig.1, hdig.2, if_neg (by rw [hcq]; simp)]
  have h4 : (' ' :: '"' :: file ++ ['"']).dropWhile isBlank = '"' :: (file ++ ['"']) := by
    simp [isBlank]
  rw [h4]
  simp only [readFile]
  rw [List.takeWhile_append_of_pos (by
    intro c hc; simp only [bne_iff_ne, ne_eq]; rintro rfl; exact hf hc)]
  have h5 : List.takeWhile (fun c => c != '"') ['"'] = [] := rfl
  rw [h5, List.append_nil, Nat.ofDigitChars_toDigits (by decide) (by decide)]

theorem readDirective_pad (n : Nat) (l : List Char) :
    readDirective (List.replicate n ' ' ++ l) = readDirective l := by
  have : (List.replicate n ' ' ++ l).dropWhile isBlank = l.dropWhile isBlank := by
    rw [List.dropWhile_append_of_pos]
    intro c hc
    rw [(List.mem_replicate.1 hc).2]; rfl
  unfold readDirective
  rw [this]

theorem linesOf_pad (n : Nat) (l : List Char) : linesOf (List.replicate n ' ' ++ l) =
    match linesOf l with
    | [] => []
    | x :: xs => (List.replicate n ' ' ++ x) :: xs := by
  induction n with
  | zero => cases h : linesOf l <;> simp [h]
  | succ n ih =>
    rw [List.replicate_succ, List.cons_append, linesOf, if_neg (by decide), ih]
    cases linesOf l <;> simp

theorem noDirective_pad {n : Nat} {l : List Char} (h : NoDirective l) :
    NoDirective (List.replicate n ' ' ++ l) := by
  intro x hx
  rw [linesOf_pad] at hx
  cases hl : linesOf l with
  | nil => rw [hl] at hx; simp at hx
  | cons y ys =>
    rw [hl] at hx
    simp only at hx
    rcases List.mem_cons.1 hx with rfl | hx
    · rw [readDirective_pad]; exact h y (by rw [hl]; simp)
    · exact h x (by rw [hl]; simp [hx])

theorem noDirective_prefix {a b : List Char} (h : NoDirective (a ++ b)) : NoDirective a := by
  obtain ⟨r, hr⟩ := linesOf_prefix a b
  intro l hl
  exact h l (by rw [hr]; simp [hl])

theorem foldl_noDirective (ls : List (List Char)) (h : ∀ l ∈ ls, readDirective l = none) :
    ∀ st, ls.foldl afterLine st = (st.1, st.2 + ls.length) := by
  induction ls with
  | nil => simp
  | cons l ls ih =>
    intro st
    rw [List.foldl_cons, ih (fun x hx => h x (by simp [hx]))]
    simp only [afterLine, h l (by simp)]
    simp; omega

/-- The compiler's position inside the text after a line directive. -/
theorem presumed_after {pre : List Char} (hpre : EndsNl pre) (n : Nat) {file : List Char}
    (hq : '"' ∉ file) (hnl : '\n' ∉ file) {rest : List Char} (hr : NoDirective rest) :
    presumed (pre ++ ("#line ".toList ++ Nat.toDigits 10 n ++ " \"".toList ++ file ++ "\"\n".toList) ++
      rest) = (some file, n + rest.count '\n') := by
  unfold presumed
  have e : pre ++ ("#line ".toList ++ Nat.toDigits 10 n ++ " \"".toList ++ file ++ "\"\n".toList) ++ rest
      = pre ++ (("#line ".toList ++ Nat.toDigits 10 n ++ " \"".toList ++ file ++ ['"']) ++ '\n' :: rest) := by
    simp
  have hd : '\n' ∉ Nat.toDigits 10 n := by
    intro h
    have := Nat.isDigit_of_mem_toDigits (b := 10) (n := n) (by decide) (by decide) h
    cases this
  rw [e, linesOf_append hpre, linesOf_line _ (by
    simp only [List.mem_append, not_or]
    exact ⟨⟨⟨⟨by decide, hd⟩, by decide⟩, hnl⟩, by decide⟩), List.foldl_append, List.foldl_cons]
  rw [foldl_noDirective _ hr]
  simp only [afterLine, readDirective_line n file hq]
  rw [linesOf_length]

/-! ### Columns -/

theorem colOf_append_noNl (a b : List Char) (h : '\n' ∉ b) : colOf (a ++ b) = colOf a + b.length := by
  unfold colOf
  rw [List.reverse_append, List.takeWhile_append_of_pos]
  · simp; omega
  · intro c hc
    simp only [bne_iff_ne, ne_eq]
    rintro rfl
    exact h (List.mem_reverse.1 hc)

theorem colOf_after_nl (a b : List Char) (h : '\n' ∉ b) : colOf (a ++ '\n' :: b) = b.length + 1 := by
  have : a ++ '\n' :: b = (a ++ ['\n']) ++ b := by simp
  rw [this, colOf_append_noNl _ _ h]
  have : colOf (a ++ ['\n']) = 1 := by simp [colOf]
  omega

/-- Split a text at its last newline. -/
theorem split_last_nl (l : List Char) : '\n' ∉ l ∨ ∃ x r, l = x ++ '\n' :: r ∧ '\n' ∉ r := by
  induction l with
  | nil => left; simp
  | cons c l ih =>
    rcases ih with h | ⟨x, r, rfl, hx⟩
    · by_cases hc : c = '\n'
      · exact .inr ⟨[], l, by simp [hc], h⟩
      · left; simp [h, Ne.symm hc]
    · exact .inr ⟨c :: x, r, by simp, hx⟩

theorem colOf_congr {a b : List Char} (h : colOf a = colOf b) (t : List Char) :
    colOf (a ++ t) = colOf (b ++ t) := by
  rcases split_last_nl t with ht | ⟨x, r, rfl, hr⟩
  · rw [colOf_append_noNl _ _ ht, colOf_append_noNl _ _ ht, h]
  · rw [← List.append_assoc, ← List.append_assoc, colOf_after_nl _ _ hr, colOf_after_nl _ _ hr]

/-! ### Pieces of the header -/

theorem endsNl_append {a b : List Char} (ha : EndsNl a) (hb : EndsNl b) : EndsNl (a ++ b) := by
  rcases hb with rfl | ⟨q, rfl⟩
  · simpa using ha
  · exact .inr ⟨a ++ q, by simp⟩

theorem endsNl_snoc (a : List Char) : EndsNl (a ++ "\n".toList) := .inr ⟨a, rfl⟩

/-- `x` occurs in `out` at the beginning of a line. -/
def OnLine (x out : List Char) : Prop := ∃ pre post, out = pre ++ x ++ post ∧ EndsNl pre

theorem onLine_left {x a : List Char} (h : OnLine x a) (b : List Char) : OnLine x (a ++ b) := by
  obtain ⟨p, q, rfl, hp⟩ := h
  exact ⟨p, q ++ b, by simp, hp⟩

theorem onLine_right {x b : List Char} (h : OnLine x b) {a : List Char} (ha : EndsNl a) :
    OnLine x (a ++ b) := by
  obtain ⟨p, q, rfl, hp⟩ := h
  exact ⟨a ++ p, q, by simp, endsNl_append ha hp⟩

theorem linePiece_endsNl (file : List Char) (m : Macro) : EndsNl (linePiece file m) := endsNl_snoc _

theorem extractGlobal_endsNl (file : List Char) (ms : List Macro) : EndsNl (extractGlobal file ms) := by
  induction ms with
  | nil => exact .inl rfl
  | cons m ms ih =>
    rw [extractGlobal]
    split
    · exact ih
    · exact endsNl_append (linePiece_endsNl _ _) ih

theorem extractGlobal_mem {file : List Char} {ms : List Macro} {m : Macro} (hm : m ∈ ms)
    (hk : m.kind ≠ .inlineCpp) : OnLine (linePiece file m) (extractGlobal file ms) := by
  induction ms with
  | nil => cases hm
  | cons m' ms ih =>
    rw [extractGlobal]
    rcases List.mem_cons.1 hm with rfl | hm
    · have : ¬ (m.kind ≠ .globalCpp ∧ m.kind ≠ .doNotSubmit) := by
        cases h : m.kind <;> simp_all
      rw [if_neg this]
      exact ⟨[], extractGlobal file ms, by simp, .inl rfl⟩
    · split
      · exact ih hm
      · exact onLine_right (ih hm) (linePiece_endsNl _ _)

theorem assoc5 (a b c d e f : List Char) : a ++ b ++ c ++ d ++ e ++ f = (a ++ b ++ c ++ d ++ e) ++ f := rfl

theorem assoc_piece (p a b c d q : List Char) :
    p ++ (a ++ b ++ c ++ d) ++ q = p ++ (a ++ b ++ c) ++ d ++ q := by simp

theorem assoc_line (p a n s f q r b z e : List Char) :
    p ++ (a ++ n ++ s ++ f ++ q ++ r ++ b ++ z) ++ e = p ++ (a ++ n ++ s ++ f ++ q) ++ r ++ b ++ (z ++ e) := by
  simp

/-- The definition of a thunk, as written to the header. -/
def thunkPiece (target file : List Char) (m : Macro) : List Char :=
  "inline auto ".toList ++ thunkName target file m.line m.col ++ "\n".toList ++ linePiece file m

theorem extractInline_spec {lex : List Char → List Tok} {target file : List Char} {ms : List Macro}
    {r : List Char} (h : extractInline lex target file ms = .ok r) :
    EndsNl r ∧ ∀ m ∈ ms, m.kind = .inlineCpp → OnLine (thunkPiece target file m) r := by
  induction ms generalizing r with
  | nil =>
    simp only [extractInline, Except.ok.injEq] at h
    subst h
    exact ⟨.inl rfl, by simp⟩
  | cons m ms ih =>
    rw [extractInline] at h
    split at h
    · rename_i hk
      obtain ⟨h1, h2⟩ := ih h
      refine ⟨h1, fun m' hm' hk' => ?_⟩
      rcases List.mem_cons.1 hm' with rfl | hm'
      · exact absurd hk' hk
      · exact h2 m' hm' hk'
    · split at h
      · cases h
      · split at h
        · cases h
        · rename_i r' hr'
          simp only [Except.ok.injEq] at h
          subst h
          obtain ⟨h1, h2⟩ := ih hr'
          have he : EndsNl (thunkPiece target file m ++ "\n".toList) := endsNl_snoc (thunkPiece target file m)
          have e : "inline auto ".toList ++ thunkName target file m.line m.col ++ "\n".toList ++
              linePiece file m ++ "\n".toList ++ r' = (thunkPiece target file m ++ "\n".toList) ++ r' := by
            exact assoc5 _ _ _ _ _ _
          rw [e]
          refine ⟨endsNl_append he h1, fun m' hm' hk' => ?_⟩
          rcases List.mem_cons.1 hm' with rfl | hm'
          · exact ⟨[], "\n".toList ++ r', by simp only [List.nil_append, List.append_assoc], .inl rfl⟩
          · exact onLine_right (h2 m' hm' hk') he

theorem snippets_spec {lex : List Char → List Tok} {target : List Char}
    {files : List (List Char × List Tok)} {out : List Char} (h : snippets lex target files = some out) :
    EndsNl out ∧ ∀ f ∈ files, ∃ ms, parse f.2 = .ok ms ∧
      (∀ m ∈ ms, m.kind ≠ .inlineCpp → OnLine (linePiece f.1 m) out) ∧
      (∀ m ∈ ms, m.kind = .inlineCpp → OnLine (thunkPiece target f.1 m) out) := by
  induction files generalizing out with
  | nil =>
    simp only [snippets, Option.some.injEq] at h
    subst h
    exact ⟨.inl rfl, by simp⟩
  | cons f files ih =>
    obtain ⟨file, ts⟩ := f
    rw [snippets] at h
    split at h
    · cases h
    · rename_i ms hp
      split at h
      · rename_i inl rest hi hs
        simp only [Option.some.injEq] at h
        subst h
        obtain ⟨h1, h2⟩ := ih hs
        obtain ⟨h3, h4⟩ := extractInline_spec hi
        have hg := extractGlobal_endsNl file ms
        refine ⟨endsNl_append (endsNl_append hg h3) h1, fun f hf => ?_⟩
        rcases List.mem_cons.1 hf with rfl | hf
        · exact ⟨ms, hp, fun m hm hk => onLine_left (onLine_left (extractGlobal_mem hm hk) _) _,
            fun m hm hk => onLine_left (onLine_right (h4 m hm hk) hg) _⟩
        · obtain ⟨ms', hp', ha, hb⟩ := h2 f hf
          exact ⟨ms', hp', fun m hm hk => onLine_right (ha m hm hk) (endsNl_append hg h3),
            fun m hm hk => onLine_right (hb m hm hk) (endsNl_append hg h3)⟩
      · cases h

theorem header_spec {lex : List Char → List Tok} {target : List Char}
    {files : List (List Char × List Tok)} {out : List Char} (h : header lex target files = some out) :
    ∀ f ∈ files, ∃ ms, parse f.2 = .ok ms ∧
      (∀ m ∈ ms, OnLine (linePiece f.1 m) out) ∧
      (∀ m ∈ ms, m.kind = .inlineCpp → OnLine (thunkPiece target f.1 m) out) := by
  intro f hf
  unfold header at h
  cases hs : snippets lex target files with
  | none => rw [hs] at h; cases h
  | some c =>
    rw [hs] at h
    simp only [Option.map_some, Option.some.injEq] at h
    subst h
    obtain ⟨-, h2⟩ := snippets_spec hs
    obtain ⟨ms, hp, ha, hb⟩ := h2 f hf
    have he : EndsNl
      "#ifndef CRUBIT_EXTRACTED_GLOBAL_CPP_H_\n#define CRUBIT_EXTRACTED_GLOBAL_CPP_H_\n\n".toList :=
      .inr ⟨"#ifndef CRUBIT_EXTRACTED_GLOBAL_CPP_H_\n#define CRUBIT_EXTRACTED_GLOBAL_CPP_H_\n".toList,
        by decide +kernel⟩
    have hb' : ∀ m ∈ ms, m.kind = .inlineCpp → OnLine (thunkPiece target f.1 m)
        ("#ifndef CRUBIT_EXTRACTED_GLOBAL_CPP_H_\n#define CRUBIT_EXTRACTED_GLOBAL_CPP_H_\n\n".toList ++
          c ++ "\n#endif  // CRUBIT_EXTRACTED_GLOBAL_CPP_H_\n".toList) :=
      fun m hm hk => onLine_left (onLine_right (hb m hm hk) he) _
    refine ⟨ms, hp, fun m hm => ?_, hb'⟩
    by_cases hk : m.kind = .inlineCpp
    · obtain ⟨p, q, e, hpn⟩ := hb' m hm hk
      refine ⟨p ++ ("inline auto ".toList ++ thunkName target f.1 m.line m.col ++ "\n".toList), q, ?_,
        endsNl_append hpn (endsNl_snoc _)⟩
      rw [e]; exact assoc_piece _ _ _ _ _ _
    · exact onLine_left (onLine_right (ha m hm hk) he) _

/-- Every block found is a block of the file. -/
theorem blocks_mem {pre ts : List Tok} {ms : List Macro} (h : Blocks pre ts ms) :
    ∀ m ∈ ms, ∃ a k hd body rest, pre ++ ts = a ++ hd ++ body ++ rest ∧ Header k hd ∧
      m = report a k hd body := by
  induction h with
  | done => simp
  | block pre gap hd body rest k close ms hg hh hb hc hr ih =>
    intro m hm
    rcases List.mem_cons.1 hm with rfl | hm
    · exact ⟨pre ++ gap, k, hd, body, close :: rest, by simp, hh, rfl⟩
    · obtain ⟨a, k', hd', body', rest', e, hh', rfl⟩ := ih m hm
      exact ⟨a, k', hd', body', rest', by rw [← e]; simp, hh', rfl⟩

/-- C156: every block of every file is in the header, and the file, line and column the C++
compiler reports for a character of it are those of that character in the Rust file. -/
theorem diagnostics_map_back {lex : List Char → List Tok} {target : List Char}
    {files : List (List Char × List Tok)} {out : List Char} (h : header lex target files = some out)
    {file : List Char} {ts : List Tok} (hf : (file, ts) ∈ files) (hq : '"' ∉ file) (hnl : '\n' ∉ file) :
    ∃ ms, Blocks [] ts ms ∧ ∀ m ∈ ms, ∃ before after P Q,
      out = before ++ m.bodyText ++ after ∧
      src ts = P ++ m.bodyText ++ Q ∧ byteLen P = m.bodyStart ∧
      ∀ x y, m.bodyText = x ++ y → NoDirective x →
        presumed (before ++ x) = (some file, lineOf (P ++ x)) ∧
        colOf (before ++ x) = colOf (P ++ x) := by
  obtain ⟨ms, hp, hm, -⟩ := header_spec h _ hf
  have hb := (parse_ok_iff ts ms).1 hp
  refine ⟨ms, hb, fun m hmm => ?_⟩
  obtain ⟨pre, post, e, hpre⟩ := hm m hmm
  obtain ⟨a, k, hd, body, rest, e1, hh, rfl⟩ := blocks_mem hb m hmm
  rw [List.nil_append] at e1
  refine ⟨pre ++ ("#line ".toList ++ Nat.toDigits 10 (lineOf (src (a ++ hd))) ++ " \"".toList ++ file ++
      "\"\n".toList) ++ List.replicate (colOf (src (a ++ hd)) - 1) ' ', "\n".toList ++ post,
    src (a ++ hd), src rest, ?_, ?_, by simp only [report], ?_⟩
  · rw [e]; exact assoc_line _ _ _ _ _ _ _ _ _ _
  · rw [e1]; simp only [src_append, report, List.append_assoc]
  · intro x y hxy hnd
    constructor
    · rw [List.append_assoc _ _ x, presumed_after hpre _ hq hnl (noDirective_pad hnd)]
      rw [List.count_append]
      have : (List.replicate (colOf (src (a ++ hd)) - 1) ' ').count '\n' = 0 :=
        List.count_eq_zero.2 (by
          intro hm; have := (List.mem_replicate.1 hm).2; cases this)
      rw [this]
      simp only [lineOf, List.count_append]
      congr 1
      omega
    · apply colOf_congr
      have e2 : pre ++ ("#line ".toList ++ Nat.toDigits 10 (lineOf (src (a ++ hd))) ++ " \"".toList ++
          file ++ "\"\n".toList) ++ List.replicate (colOf (src (a ++ hd)) - 1) ' ' =
          (pre ++ ("#line ".toList ++ Nat.toDigits 10 (lineOf (src (a ++ hd))) ++ " \"".toList ++
          file ++ ['"'])) ++ '\n' :: List.replicate (colOf (src (a ++ hd)) - 1) ' ' := by simp
      rw [e2, colOf_after_nl _ _ (by
          intro hm; have := (List.mem_replicate.1 hm).2; cases this)]
      simp [colOf]

end Verif.InlineCpp

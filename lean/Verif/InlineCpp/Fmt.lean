import Verif.InlineCpp.Lines

/-
C159: formatting only touches the bodies of blocks, and in them only white space if `clang-format`
does.
-/

namespace Verif.InlineCpp

/-- Braces are what they look like: the lexer gives `{` and `}` tokens these texts. -/
def BracesOk (ts : List Tok) : Prop :=
  ∀ t ∈ ts, (t.kind = .openB → t.text = ['{']) ∧ (t.kind = .closeB → t.text = ['}'])

/-! ### White space -/

theorem solid_append (a b : List Char) : solid (a ++ b) = solid a ++ solid b := by simp [solid]

theorem solid_cons (c : Char) (l : List Char) : solid (c :: l) = (if isSpace c then [] else [c]) ++ solid l := by
  unfold solid
  by_cases h : isSpace c <;> simp [h]

theorem solid_of_space {l : List Char} (h : ∀ c ∈ l, isSpace c = true) : solid l = [] := by
  unfold solid
  rw [List.filter_eq_nil_iff]
  intro c hc; simp [h c hc]

theorem solid_replicate (n : Nat) : solid (List.replicate n ' ') = [] :=
  solid_of_space (fun c hc => by rw [(List.mem_replicate.1 hc).2]; rfl)

theorem solid_dropWhile {p : Char → Bool} (hp : ∀ c, p c = true → isSpace c = true) (l : List Char) :
    solid (l.dropWhile p) = solid l := by
  induction l with
  | nil => rfl
  | cons c l ih =>
    rw [List.dropWhile_cons]
    split
    · rename_i h
      rw [ih, solid_cons, hp c h]; simp
    · rfl

theorem solid_reverse (l : List Char) : solid l.reverse = (solid l).reverse := by
  simp [solid, List.filter_reverse]

theorem solid_trim (l : List Char) : solid (trim l) = solid l := by
  unfold trim
  rw [solid_reverse, solid_dropWhile (fun _ h => h), solid_reverse, List.reverse_reverse,
    solid_dropWhile (fun _ h => h)]

theorem solid_trimNl (l : List Char) : solid (trimNl l) = solid l := by
  have hp : ∀ c : Char, (c == '\n') = true → isSpace c = true := by
    intro c h; rw [beq_iff_eq.1 h]; rfl
  unfold trimNl
  rw [solid_reverse, solid_dropWhile hp, solid_reverse, List.reverse_reverse, solid_dropWhile hp]

theorem trim_nil {l : List Char} (h : trim l = []) : solid l = [] := by
  rw [← solid_trim, h]; rfl

theorem solid_stripCr (cur : List Char) : solid (stripCr cur) = solid cur.reverse := by
  unfold stripCr
  split
  · rename_i q
    rw [List.reverse_cons, solid_append]
    have : solid ['\r'] = [] := rfl
    rw [this, List.append_nil]
  · rfl

theorem stripCr_sub (cur : List Char) : ∀ c ∈ stripCr cur, c ∈ cur := by
  unfold stripCr
  split
  · intro c hc; simp at hc ⊢; exact .inr hc
  · intro c hc; simpa using hc

theorem solid_rustLinesGo (l : List Char) : ∀ cur,
    solid ((rustLinesGo cur l).flatMap id) = solid (cur.reverse ++ l) := by
  induction l with
  | nil =>
    intro cur
    rw [rustLinesGo]
    split
    · rename_i h; rw [h]; rfl
    · simp
  | cons c l ih =>
    intro cur
    rw [rustLinesGo]
    split
    · rename_i h
      subst h
      rw [List.flatMap_cons, solid_append, ih]
      show solid (stripCr cur) ++ solid l = _
      rw [solid_append cur.reverse, solid_cons, solid_stripCr]
      have : isSpace '\n' = true := rfl
      simp [this]
    · rw [ih]; simp

theorem solid_rustLines (l : List Char) : solid ((rustLines l).flatMap id) = solid l := by
  rw [rustLines, solid_rustLinesGo]; rfl

theorem solid_indentBody (n : Nat) (l : List Char) : solid (indentBody n l) = solid l := by
  rw [← solid_rustLines l, indentBody]
  induction rustLines l with
  | nil => rfl
  | cons x xs ih =>
    rw [List.flatMap_cons, List.flatMap_cons, solid_append, solid_append, ih]
    congr 1
    split
    · rename_i h
      show solid ['\n'] = solid x
      rw [trim_nil h]; rfl
    · rw [solid_append, solid_append, solid_replicate]
      show [] ++ solid x ++ solid ['\n'] = solid x
      have : solid ['\n'] = [] := rfl
      simp [this]

/-! ### The new body -/

/-- The body the formatter writes for a block. -/
def newBody (clang : Nat → List Char → Option (List Char)) (source : List Char) (m : Macro) : List Char :=
  let n := baseIndent source m
  let b := indentBody n (formattedCpp clang source m)
  if b = [] then [] else '\n' :: (b ++ List.replicate n ' ')

theorem replacement_eq (clang : Nat → List Char → Option (List Char)) (source : List Char) (m : Macro) :
    replacement clang source m = '{' :: (newBody clang source m ++ ['}']) := by
  unfold replacement newBody
  simp only
  split <;> simp

theorem solid_newBody (clang : Nat → List Char → Option (List Char)) (source : List Char) (m : Macro) :
    solid (newBody clang source m) = solid (formattedCpp clang source m) := by
  have e := solid_indentBody (baseIndent source m) (formattedCpp clang source m)
  unfold newBody
  simp only
  split
  · rename_i h; rw [h] at e; exact e
  · rw [solid_cons, solid_append, solid_replicate, e]
    have : isSpace '\n' = true := rfl
    simp [this]

theorem rustLinesGo_noNl (l : List Char) : ∀ cur, '\n' ∉ cur → ∀ x ∈ rustLinesGo cur l, '\n' ∉ x := by
  induction l with
  | nil =>
    intro cur h x hx
    rw [rustLinesGo] at hx
    split at hx
    · cases hx
    · rw [List.mem_singleton.1 hx]; simpa using h
  | cons c l ih =>
    intro cur h x hx
    rw [rustLinesGo] at hx
    split at hx
    · rcases List.mem_cons.1 hx with rfl | hx
      · exact fun hm => h (stripCr_sub cur _ hm)
      · exact ih [] (by simp) x hx
    · rename_i hc
      exact ih (c :: cur) (by simp [h, Ne.symm hc]) x hx

/-- C159: the layout of a reformatted body. -/
theorem newBody_indented (clang : Nat → List Char → Option (List Char)) (source : List Char) (m : Macro) :
    Indented (baseIndent source m) (newBody clang source m) := by
  unfold newBody
  simp only
  generalize baseIndent source m = n
  generalize formattedCpp clang source m = cpp
  split
  · exact .empty
  · rename_i h
    have hall : ∀ x ∈ rustLines cpp, '\n' ∉ x := rustLinesGo_noNl cpp [] (by simp)
    have e : indentBody n cpp = ((rustLines cpp).map fun line =>
        if trim line = [] then [] else List.replicate (n + 4) ' ' ++ line).flatMap (· ++ ['\n']) := by
      unfold indentBody
      rw [List.flatMap_map]
      congr 1
      funext line
      split <;> simp
    rw [e] at h ⊢
    refine .lines _ (by intro h0; rw [h0] at h; exact h rfl) ?_
    intro l hl
    obtain ⟨x, hx, rfl⟩ := List.mem_map.1 hl
    split
    · exact ⟨by simp, .inl rfl⟩
    · refine ⟨?_, .inr ⟨x, rfl⟩⟩
      intro hm
      rcases List.mem_append.1 hm with hm | hm
      · have := (List.mem_replicate.1 hm).2; cases this
      · exact hall x hx hm

/-! ### Replacing the bodies -/

theorem replaceRange_mid (a b c x : List Char) :
    replaceRange (a ++ b ++ c) (byteLen a) (byteLen (a ++ b)) x = a ++ x ++ c := by
  unfold replaceRange
  rw [dropBytes_append, List.append_assoc a b c, takeBytes_append]

theorem rfindBrace_snoc (l : List Char) : rfindBrace (l ++ ['{']) = some (byteLen l) := by
  unfold rfindBrace
  rw [List.reverse_append]
  simp [byteLen]

theorem header_snoc {k : Kind} {h : List Tok} (hh : Header k h) (hb : BracesOk h) :
    ∃ q, src h = q ++ ['{'] := by
  obtain ⟨p, w₁, bang, w₂, brace, rfl, -, -, -, -, hbr⟩ := hh.shape
  refine ⟨src (p ++ w₁ ++ bang :: w₂), ?_⟩
  rw [src_append]
  have := (hb brace (by simp)).1 hbr
  simp [src, this]

theorem format_blocks (clang : Nat → List Char → Option (List Char)) (source : List Char)
    {pre ts : List Tok} {ms : List Macro} (h : Blocks pre ts ms) :
    source = src pre ++ src ts → BracesOk (pre ++ ts) →
    ∃ rs out, replacements clang source ms = some rs ∧
      Spliced (newBody clang source) pre ts ms out ∧
      rs.reverse.foldl (fun acc r => replaceRange acc r.1 r.2.1 r.2.2) source = src pre ++ out := by
  induction h with
  | done pre ts hn =>
    intro hs _
    exact ⟨[], src ts, rfl, .done _ _, hs⟩
  | block pre gap hd body rest k close ms hg hh hb hc hr ih =>
    intro hs hbr
    obtain ⟨rs, out, hrs, hsp, hfold⟩ := ih (by rw [hs]; simp [src_append, src_cons, show src [] = [] from rfl])
      (by intro t ht; exact hbr t (by simp at ht ⊢; exact ht))
    obtain ⟨q, hq⟩ := header_snoc hh (fun t ht => hbr t (by simp [ht]))
    have hcl : close.text = ['}'] := (hbr close (by simp)).2 hc
    have hsrc : source = (src (pre ++ gap) ++ q ++ ['{']) ++ (src body ++ '}' :: src rest) := by
      rw [hs]; simp [src_append, src_cons, hq, hcl]
    have hstart : byteLen (src (pre ++ gap ++ hd)) = byteLen (src (pre ++ gap) ++ q ++ ['{']) := by
      rw [src_append (pre ++ gap), hq]; simp
    have htk : takeBytes (report (pre ++ gap) k hd body).bodyStart source = src (pre ++ gap) ++ q ++ ['{'] := by
      show takeBytes (byteLen (src (pre ++ gap ++ hd))) source = _
      rw [hstart, hsrc, takeBytes_append]
    refine ⟨(byteLen (src (pre ++ gap) ++ q), (report (pre ++ gap) k hd body).bodyEnd + 1,
      replacement clang source (report (pre ++ gap) k hd body)) :: rs, _, ?_, .block _ _ _ _ _ k _ _ _ hsp, ?_⟩
    · rw [replacements, htk, rfindBrace_snoc, hrs]
    · rw [List.reverse_cons, List.foldl_append, hfold]
      simp only [List.foldl_cons, List.foldl_nil]
      have e1 : src (pre ++ gap ++ hd ++ body ++ [close]) ++ out =
          (src (pre ++ gap) ++ q) ++ ('{' :: (src body ++ ['}'])) ++ out := by
        have e0 : src [close] = ['}'] := by simp [src, hcl]
        simp [src_append, hq, e0]
      have e2 : (report (pre ++ gap) k hd body).bodyEnd + 1 =
          byteLen ((src (pre ++ gap) ++ q) ++ ('{' :: (src body ++ ['}']))) := by
        show byteLen (src (pre ++ gap ++ hd ++ body)) + 1 = _
        have : (src (pre ++ gap) ++ q) ++ ('{' :: (src body ++ ['}'])) =
            src (pre ++ gap ++ hd ++ body) ++ ['}'] := by
          simp [src_append, hq]
        rw [this, byteLen_append _ ['}']]
        rfl
      rw [e1, e2, replaceRange_mid, replacement_eq, hcl, hq]
      simp [src_append]

/-- C159: formatting fails only if a block is not closed; otherwise the result is the file with the
bodies of its blocks replaced and nothing else changed. -/
theorem format_outside_unchanged (clang : Nat → List Char → Option (List Char)) (ts : List Tok)
    (hb : BracesOk ts) :
    (formatSource clang ts = none ↔ ∃ l, Unclosed [] ts l) ∧
    (∀ out, formatSource clang ts = some out →
      ∃ ms, Blocks [] ts ms ∧ Spliced (newBody clang (src ts)) [] ts ms out) := by
  cases hp : parse ts with
  | error l =>
    have : formatSource clang ts = none := by unfold formatSource; rw [hp]
    rw [this]
    exact ⟨⟨fun _ => ⟨l, (parse_error_iff ts l).1 hp⟩, fun _ => rfl⟩, nofun⟩
  | ok ms =>
    have hbl := (parse_ok_iff ts ms).1 hp
    obtain ⟨rs, out, h1, h2, h3⟩ := format_blocks clang (src ts) hbl rfl (by simpa using hb)
    have : formatSource clang ts = some out := by
      unfold formatSource
      rw [hp]
      simp only
      rw [h1]
      simp only
      rw [h3]
      rfl
    rw [this]
    refine ⟨⟨nofun, fun ⟨l, hl⟩ => absurd hl (blocks_not_unclosed hbl l)⟩, ?_⟩
    intro out' h
    cases h
    exact ⟨ms, hbl, h2⟩

theorem spliced_solid {f : Macro → List Char} {pre ts : List Tok} {ms : List Macro} {out : List Char}
    (h : Spliced f pre ts ms out) (hf : ∀ m ∈ ms, solid (f m) = solid m.bodyText) :
    solid out = solid (src ts) := by
  induction h with
  | done => rfl
  | block pre gap h body rest k close ms out hs ih =>
    have ih := ih (fun m hm => hf m (by simp [hm]))
    have h0 := hf _ (List.mem_cons_self ..)
    have e : src (gap ++ h ++ body ++ close :: rest) = src gap ++ src h ++ src body ++ close.text ++ src rest := by
      simp [src_append, src_cons]
    rw [e]
    simp only [solid_append, ih, h0]
    rfl

/-- What is assumed of `clang-format`: it only changes white space, and it does not break or move
the function name in front of a body. -/
structure ClangOk (clang : Nat → List Char → Option (List Char)) : Prop where
  content : ∀ n inp out, clang n inp = some out → solid out = solid inp
  keepsInline : ∀ n r out, clang n (wrapInline ++ r) = some out → ∃ s, out = wrapInline ++ s
  keepsVoid : ∀ n r out, clang n (wrapVoid ++ r) = some out → ∃ s, out = wrapVoid ++ s

theorem afterPrefix_append (p r : List Char) (hp : p ≠ []) : afterPrefix p (p ++ r) = some r := by
  cases p with
  | nil => exact absurd rfl hp
  | cons c p =>
    rw [List.cons_append, afterPrefix, if_pos]
    · congr 1
      rw [← List.cons_append, List.drop_left]
    · rw [← List.cons_append]
      exact List.isPrefixOf_iff_prefix.2 (List.prefix_append _ _)

theorem runClang_content {clang : Nat → List Char → Option (List Char)} (hc : ClangOk clang)
    {body out : List Char} {k : Kind} {n : Nat} (h : runClang clang body k n = some out) :
    solid out = solid body := by
  have wrap : ∀ (w : List Char), w ≠ [] → (∀ n r out, clang n (w ++ r) = some out → ∃ s, out = w ++ s) →
      clangInput k (trim body) = (w ++ ' ' :: trim body, some w) → solid out = solid body := by
    intro w hw hk hin
    unfold runClang at h
    rw [hin] at h
    simp only at h
    cases hcl : clang n (w ++ ' ' :: trim body) with
    | none => rw [hcl] at h; cases h
    | some o =>
      rw [hcl] at h
      obtain ⟨s, rfl⟩ := hk _ _ _ hcl
      simp only [afterPrefix_append w s hw, Option.some.injEq] at h
      subst h
      have := hc.content _ _ _ hcl
      rw [solid_append, solid_append, solid_cons, solid_trim] at this
      have h2 : isSpace ' ' = true := rfl
      rw [solid_trimNl, solid_dropWhile (fun _ h => h)]
      have := List.append_cancel_left this
      simpa [h2] using this
  have plain : clangInput k (trim body) = (trim body, none) → solid out = solid body := by
    intro hin
    unfold runClang at h
    rw [hin] at h
    simp only at h
    cases hcl : clang n (trim body) with
    | none => rw [hcl] at h; cases h
    | some o =>
      rw [hcl] at h
      simp only [Option.some.injEq] at h
      subst h
      rw [solid_trimNl, hc.content _ _ _ hcl, solid_trim]
  cases k with
  | inlineCpp =>
    by_cases hp : ∃ r, trim body = '(' :: r
    · obtain ⟨r, hr⟩ := hp
      exact wrap wrapInline (by decide) hc.keepsInline (by rw [hr]; rfl)
    · refine wrap wrapVoid (by decide) hc.keepsVoid ?_
      unfold clangInput
      simp only
      split
      · rename_i r heq; exact absurd ⟨r, heq⟩ hp
      · rfl
  | globalCpp => exact plain rfl
  | doNotSubmit => exact plain rfl

/-- C159: no character other than white space is added, lost or moved, if `clang-format` behaves. -/
theorem format_content {clang : Nat → List Char → Option (List Char)} (hc : ClangOk clang)
    {ts : List Tok} (hb : BracesOk ts) {out : List Char} (h : formatSource clang ts = some out) :
    solid out = solid (src ts) := by
  obtain ⟨ms, -, hs⟩ := (format_outside_unchanged clang ts hb).2 out h
  refine spliced_solid hs fun m _ => ?_
  rw [solid_newBody, formattedCpp]
  cases hr : runClang clang m.bodyText m.kind (Nat.max (80 - (baseIndent (src ts) m + 4)) 20) with
  | none => simp [solid_trim]
  | some o => simpa using runClang_content hc hr

end Verif.InlineCpp

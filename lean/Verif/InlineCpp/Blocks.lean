import Verif.InlineCpp.Parse

/-
C155: what `parse` returns is exactly what the specification of blocks describes.
-/

namespace Verif.InlineCpp

/-- What `next_macro` should do at a place of the file. -/
inductive NextSpec (pre ts : List Tok) : Next → Prop where
  | none : (∀ a b, ts = a ++ b → ¬ Starts b) → NextSpec pre ts .none
  | err (gap h rest : List Tok) (k : Kind) : ts = gap ++ h ++ rest →
      (∀ a b, gap = a ++ b → b ≠ [] → ¬ Starts (b ++ h ++ rest)) → Header k h → NeverClosed rest →
      NextSpec pre ts (.err (lineOf (src (pre ++ gap))))
  | found (gap h body rest : List Tok) (k : Kind) (close : Tok) :
      ts = gap ++ h ++ body ++ close :: rest →
      (∀ a b, gap = a ++ b → b ≠ [] → ¬ Starts (b ++ h ++ body ++ close :: rest)) →
      Header k h → Balanced body → close.kind = .closeB →
      NextSpec pre ts (.found (report (pre ++ gap) k h body)
        (posOf (src (pre ++ gap ++ h ++ body ++ [close]))) rest)

theorem not_starts_nil : ¬ Starts [] := by
  rw [starts_iff]
  rintro ⟨k, n, b, r, w, hc, hd, -⟩
  simp [List.drop_nil] at hd

/-- Tokens at which no block begins may be skipped. -/
theorem nextSpec_skip {pre skip ts : List Tok} {x : Next}
    (hs : ∀ a b, skip = a ++ b → b ≠ [] → ¬ Starts (b ++ ts))
    (h : NextSpec (pre ++ skip) ts x) : NextSpec pre (skip ++ ts) x := by
  cases h with
  | none hn =>
    refine .none fun a b hab => ?_
    rcases List.append_eq_append_iff.1 hab with ⟨c, rfl, rfl⟩ | ⟨c, rfl, rfl⟩
    · exact hn c b rfl
    · by_cases hc : c = []
      · subst hc; exact hn [] ts rfl
      · exact hs a c rfl hc
  | err gap h rest k e hg hh hr =>
    subst e
    have := NextSpec.err (pre := pre) (ts := skip ++ gap ++ h ++ rest) (skip ++ gap) h rest k rfl
      (by
        intro a b hab hb
        rcases List.append_eq_append_iff.1 hab with ⟨c, rfl, rfl⟩ | ⟨c, rfl, rfl⟩
        · exact hg c b rfl hb
        · by_cases hc : c = []
          · subst hc; exact hg [] _ rfl hb
          · have := hs a c rfl hc
            simpa using this) hh hr
    simpa using this
  | found gap h body rest k close e hg hh hb hc =>
    subst e
    have := NextSpec.found (pre := pre) (ts := skip ++ gap ++ h ++ body ++ close :: rest)
      (skip ++ gap) h body rest k close rfl
      (by
        intro a b hab hb
        rcases List.append_eq_append_iff.1 hab with ⟨c, rfl, rfl⟩ | ⟨c, rfl, rfl⟩
        · exact hg c b rfl hb
        · by_cases hc : c = []
          · subst hc; exact hg [] _ rfl hb
          · have := hs a c rfl hc
            simpa using this) hh hb hc
    simpa using this

theorem nextMacro_spec (all : List Tok) : ∀ (fuel : Nat) (pre ts : List Tok), all = pre ++ ts →
    ts.length < fuel → NextSpec pre ts (nextMacro (src all) fuel (posOf (src pre)) ts)
  | 0, _, _, _, h => by omega
  | fuel + 1, pre, [], _, _ => by
    rw [nextMacro]
    refine .none fun a b hab => ?_
    rw [(List.append_eq_nil_iff.1 hab.symm).2]
    exact not_starts_nil
  | fuel + 1, pre, t :: r, hall, hf => by
    rw [nextMacro]
    split
    · rename_i hc
      rw [advTok_posOf]
      have ih := nextMacro_spec all fuel (pre ++ [t]) r (by simp [hall]) (by simp at hf; omega)
      rw [src_append] at ih
      have e : src [t] = t.text := by simp [src]
      rw [e] at ih
      refine nextSpec_skip (skip := [t]) ?_ ih
      intro a b hab hb
      cases a with
      | nil =>
        rw [List.nil_append] at hab; subst hab
        exact not_starts_of_check hc
      | cons x a =>
        simp only [List.cons_append, List.cons.injEq] at hab
        exact absurd (List.append_eq_nil_iff.1 hab.2.symm).2 hb
    · rename_i k count hc
      obtain ⟨p, w, bang, r₁, hts, rfl, hp, hw, hb⟩ := check_some hc
      obtain ⟨w₂, q, rfl, hw₂, -, hq⟩ := blank_split r₁
      rw [hts]
      have e1 : p ++ w ++ bang :: (w₂ ++ q) = (p ++ w ++ [bang]) ++ (w₂ ++ q) := by simp
      have hlen : (p ++ w ++ [bang]).length = p.length + w.length + 1 := by simp; omega
      rw [e1, List.take_left' hlen, List.drop_left' hlen, advToks_posOf, eatWs_append hw₂ _ _ hq]
      simp only
      have hplen : 0 < p.length := by
        cases hp with
        | rel _ hs => obtain ⟨t, q, rfl, -⟩ := segs_head hs; simp
        | abs => simp
      have hskip : ∀ (hq' : ∀ t s, q = t :: s → t.kind ≠ .openB),
          NextSpec pre (p ++ w ++ [bang] ++ (w₂ ++ q)) (nextMacro (src all) fuel
            (posOf (src pre ++ src (p ++ w ++ [bang]) ++ src w₂)) q) := by
        intro hq'
        have ih := nextMacro_spec all fuel (pre ++ (p ++ w ++ bang :: w₂)) q
          (by rw [hall, hts]; simp) (by
            have := congrArg List.length hts
            simp at this hf; omega)
        have e2 : src (pre ++ (p ++ w ++ bang :: w₂)) =
            src pre ++ src (p ++ w ++ [bang]) ++ src w₂ := by
          simp [src_append, src_cons, src]
        rw [e2] at ih
        have := nextSpec_skip (skip := p ++ w ++ bang :: w₂)
          (skipped_not_starts hp hw hb hw₂ (fun t s h => ⟨hq t s h, hq' t s h⟩)) ih
        simpa using this
      split
      · exact hskip (by simp)
      · rename_i br r' 
        split
        · rename_i hbr
          have hh : Header k (p ++ w ++ bang :: w₂ ++ [br]) :=
            ⟨⟨p, w, bang, w₂, br, rfl, hp, hw, hb, hw₂, hbr⟩⟩
          have e3 : src pre ++ src (p ++ w ++ [bang]) ++ src w₂ ++ br.text =
              src (pre ++ (p ++ w ++ bang :: w₂ ++ [br])) := by
            simp [src_append, src_cons, src]
          rw [advTok_posOf, e3]
          cases he : eatBody 1 (posOf (src (pre ++ (p ++ w ++ bang :: w₂ ++ [br])))) r' with
          | none =>
            simp only
            have hn := (eatBody_none r' 1 _ (by omega)).1 he
            have := NextSpec.err (pre := pre) (ts := [] ++ (p ++ w ++ bang :: w₂ ++ [br]) ++ r') []
              (p ++ w ++ bang :: w₂ ++ [br]) r' k rfl
              (by
                intro a b hab hb
                exact absurd (List.append_eq_nil_iff.1 hab.symm).2 hb) hh
              (fun a b h => by have := hn a b h; omega)
            simpa [posOf] using this
          | some x =>
            obtain ⟨e, p', rest⟩ := x
            simp only
            obtain ⟨body, close, rfl, hcl, hbody, rfl, rfl⟩ := eatBody_some r' 1 _ (by omega) he
            have := NextSpec.found (pre := pre)
              (ts := [] ++ (p ++ w ++ bang :: w₂ ++ [br]) ++ body ++ close :: rest) []
              (p ++ w ++ bang :: w₂ ++ [br]) body rest k close rfl
              (by
                intro a b hab hb
                exact absurd (List.append_eq_nil_iff.1 hab.symm).2 hb) hh
              ((bodyAt_one body).1 hbody) hcl
            have hsl : slice (src all) (byteLen (src (pre ++ (p ++ w ++ bang :: w₂ ++ [br]))))
                (byteLen (src (pre ++ (p ++ w ++ bang :: w₂ ++ [br])) ++ src body)) = src body := by
              have : src all = src (pre ++ (p ++ w ++ bang :: w₂ ++ [br])) ++ src body ++
                  src (close :: rest) := by
                rw [hall, hts]; simp [src_append, src_cons, show src [] = [] from rfl]
              rw [this, slice_mid]
            have hpos : posOf (src (pre ++ (p ++ w ++ bang :: w₂ ++ [br])) ++ src body ++ close.text)
                = posOf (src (pre ++ [] ++ (p ++ w ++ bang :: w₂ ++ [br]) ++ body ++ [close])) := by
              congr 1
              simp [src_append, src_cons, show src [] = [] from rfl]
            rw [hpos]
            have hm : ({ kind := k, start := (posOf (src pre)).off, line := (posOf (src pre)).line,
                         col := (posOf (src pre)).col,
                         bodyStart := (posOf (src (pre ++ (p ++ w ++ bang :: w₂ ++ [br])))).off,
                         bodyEnd := (posOf (src (pre ++ (p ++ w ++ bang :: w₂ ++ [br])) ++ src body)).off,
                         bodyLine := (posOf (src (pre ++ (p ++ w ++ bang :: w₂ ++ [br])))).line,
                         bodyCol := (posOf (src (pre ++ (p ++ w ++ bang :: w₂ ++ [br])))).col,
                         bodyText := slice (src all)
                           (posOf (src (pre ++ (p ++ w ++ bang :: w₂ ++ [br])))).off
                           (posOf (src (pre ++ (p ++ w ++ bang :: w₂ ++ [br])) ++ src body)).off } : Macro)
                = report (pre ++ []) k (p ++ w ++ bang :: w₂ ++ [br]) body := by
              simp only [posOf, hsl]
              simp [report, src_append, src_cons, show src [] = [] from rfl]
            rw [hm]
            simpa using this
        · rename_i hbr
          exact hskip (by
            rintro t s h
            simp only [List.cons.injEq] at h
            rw [← h.1]; exact hbr)

theorem header_length {k : Kind} {h : List Tok} (hh : Header k h) : 0 < h.length := by
  obtain ⟨path, w₁, bang, w₂, brace, rfl, -⟩ := hh.shape
  simp; omega

theorem parseLoop_spec (all : List Tok) : ∀ (fuel : Nat) (pre ts : List Tok), all = pre ++ ts →
    ts.length < fuel →
    match parseLoop (src all) fuel (posOf (src pre)) ts with
    | .ok ms => Blocks pre ts ms
    | .error l => Unclosed pre ts l
  | 0, _, _, _, h => by omega
  | fuel + 1, pre, ts, hall, hf => by
    have hn := nextMacro_spec all (ts.length + 1) pre ts hall (by omega)
    rw [parseLoop]
    generalize nextMacro (src all) (ts.length + 1) (posOf (src pre)) ts = x at hn
    cases hn with
    | none h => exact .done _ _ h
    | err gap h rest k e hg hh hr =>
      subst e
      exact .here _ _ _ _ k hg hh hr
    | found gap h body rest k close e hg hh hb hc =>
      subst e
      have ih := parseLoop_spec all fuel (pre ++ gap ++ h ++ body ++ [close]) rest
        (by rw [hall]; simp) (by simp at hf; omega)
      simp only
      generalize parseLoop (src all) fuel (posOf (src (pre ++ gap ++ h ++ body ++ [close]))) rest = y at ih
      cases y with
      | ok ms => exact .block _ _ _ _ _ k _ _ hg hh hb hc ih
      | error l => exact .later _ _ _ _ _ k _ _ hg hh hb hc ih

/-! ### The specification determines the result -/

/-- The first place where a block begins is determined. -/
theorem first_start_unique {gap gap' a a' : List Tok}
    (h : gap ++ a = gap' ++ a') (ha : Starts a) (ha' : Starts a')
    (hg : ∀ x y, gap = x ++ y → y ≠ [] → ¬ Starts (y ++ a))
    (hg' : ∀ x y, gap' = x ++ y → y ≠ [] → ¬ Starts (y ++ a')) : gap = gap' ∧ a = a' := by
  rcases List.append_eq_append_iff.1 h with ⟨c, rfl, rfl⟩ | ⟨c, rfl, rfl⟩
  · by_cases hc : c = []
    · subst hc; simp
    · exact absurd ha (by simpa using hg' gap c rfl hc)
  · by_cases hc : c = []
    · subst hc; simp
    · exact absurd ha' (by simpa using hg gap' c rfl hc)

theorem header_unique {k k' : Kind} {h h' r r' : List Tok} (hh : Header k h) (hh' : Header k' h')
    (e : h ++ r = h' ++ r') : k = k' ∧ h = h' ∧ r = r' := by
  obtain ⟨p, w₁, bang, w₂, brace, rfl, hp, h₁, hb, h₂, hbr⟩ := hh.shape
  obtain ⟨p', w₁', bang', w₂', brace', rfl, hp', h₁', hb', h₂', hbr'⟩ := hh'.shape
  have c := check_of hp h₁ hb (w₂ ++ brace :: r)
  have c' := check_of hp' h₁' hb' (w₂' ++ brace' :: r')
  have e' : p ++ w₁ ++ bang :: (w₂ ++ brace :: r) = p' ++ w₁' ++ bang' :: (w₂' ++ brace' :: r') := by
    simpa using e
  rw [e', c'] at c
  simp only [Option.some.injEq, Prod.mk.injEq] at c
  obtain ⟨rfl, hl⟩ := c
  have e2 : (p ++ w₁ ++ [bang]) ++ (w₂ ++ brace :: r) = (p' ++ w₁' ++ [bang']) ++ (w₂' ++ brace' :: r') := by
    simpa using e
  obtain ⟨e3, e4⟩ := List.append_inj e2 (by simp; omega)
  have hw : ∀ {w w' : List Tok} {b b' : Tok} {r r' : List Tok}, Blank w → Blank w' → b.kind = .openB →
      b'.kind = .openB → w ++ b :: r = w' ++ b' :: r' → w = w' ∧ b = b' ∧ r = r' := by
    intro w
    induction w with
    | nil =>
      intro w' b b' r r' _ hw' hb hb' e
      cases w' with
      | nil => simpa using e
      | cons x w' =>
        simp only [List.nil_append, List.cons_append, List.cons.injEq] at e
        have := hw' x (by simp)
        rw [← e.1, hb] at this; cases this
    | cons x w ih =>
      intro w' b b' r r' hw hw' hb hb' e
      cases w' with
      | nil =>
        simp only [List.nil_append, List.cons_append, List.cons.injEq] at e
        have := hw x (by simp)
        rw [e.1, hb'] at this; cases this
      | cons y w' =>
        simp only [List.cons_append, List.cons.injEq] at e
        obtain ⟨h1, h2, h3⟩ := ih (fun z hz => hw z (by simp [hz])) (fun z hz => hw' z (by simp [hz])) hb hb' e.2
        exact ⟨by rw [e.1, h1], h2, h3⟩
  obtain ⟨rfl, rfl, rfl⟩ := hw h₂ h₂' hbr hbr' e4
  refine ⟨rfl, ?_, rfl⟩
  have := congrArg (· ++ (w₂ ++ [brace])) e3
  simpa using this

theorem body_unique {b b' r r' : List Tok} {c c' : Tok} (hb : Balanced b) (hb' : Balanced b')
    (hc : c.kind = .closeB) (hc' : c'.kind = .closeB) (e : b ++ c :: r = b' ++ c' :: r') :
    b = b' ∧ c = c' ∧ r = r' := by
  have key : ∀ {b b' r r' : List Tok} {c c' : Tok} (x : List Tok), Balanced b → Balanced b' →
      c.kind = .closeB → b' = b ++ x → b ++ c :: r = b' ++ c' :: r' → x = [] := by
    intro b b' r r' c c' x hb hb' hc hx e
    cases x with
    | nil => rfl
    | cons y x =>
      exfalso
      subst hx
      have e' : c :: r = y :: x ++ c' :: r' := by
        rw [List.append_assoc] at e
        exact List.append_cancel_left e
      simp only [List.cons_append, List.cons.injEq] at e'
      obtain ⟨rfl, -⟩ := e'
      have := hb'.1 (b ++ [c]) x (by simp)
      have h1 : closes (b ++ [c]) = closes b + 1 := by simp [closes, hc]
      have h2 : opens (b ++ [c]) = opens b := by simp [opens, hc]
      have := hb.2
      omega
  rcases List.append_eq_append_iff.1 e with ⟨x, rfl, e'⟩ | ⟨x, rfl, e'⟩
  · have := key x hb hb' hc rfl e
    subst this
    simp only [List.nil_append, List.cons.injEq] at e'
    exact ⟨by simp, e'.1, e'.2⟩
  · have := key x hb' hb hc' rfl e.symm
    subst this
    simp only [List.nil_append, List.cons.injEq] at e'
    exact ⟨by simp, e'.1.symm, e'.2.symm⟩

theorem not_neverClosed {b r : List Tok} {c : Tok} (hb : Balanced b) (hc : c.kind = .closeB)
    (h : NeverClosed (b ++ c :: r)) : False := by
  have := h (b ++ [c]) r (by simp)
  have h1 : closes (b ++ [c]) = closes b + 1 := by simp [closes, hc]
  have h2 : opens (b ++ [c]) = opens b := by simp [opens, hc]
  have := hb.2
  omega

theorem starts_header {k : Kind} {h : List Tok} (hh : Header k h) (r : List Tok) : Starts (h ++ r) :=
  ⟨k, h, r, hh, rfl⟩

/-- A file has only one list of blocks. -/
theorem blocks_unique {pre ts : List Tok} {ms ms' : List Macro} (h : Blocks pre ts ms) :
    Blocks pre ts ms' → ms = ms' := by
  induction h generalizing ms' with
  | done pre ts hn =>
    intro h'
    cases h' with
    | done => rfl
    | block _ gap h body rest k close ms hg hh hb hc hr =>
      exact absurd (starts_header hh (body ++ close :: rest)) (hn gap _ (by simp))
  | block pre gap h body rest k close ms hg hh hb hc hr ih =>
    intro h'
    generalize hts : gap ++ h ++ body ++ close :: rest = ts at h'
    cases h' with
    | done _ _ hn =>
      exact absurd (starts_header hh (body ++ close :: rest)) (hn gap _ (by rw [← hts]; simp))
    | block _ gap' h' body' rest' k' close' ms' hg' hh' hb' hc' hr' =>
      obtain ⟨rfl, e1⟩ := first_start_unique (a := h ++ body ++ close :: rest)
        (a' := h' ++ body' ++ close' :: rest') (by simpa using hts)
        (by rw [List.append_assoc]; exact starts_header hh _)
        (by rw [List.append_assoc]; exact starts_header hh' _)
        (fun x y hx hy => by have := hg x y hx hy; simpa using this)
        (fun x y hx hy => by have := hg' x y hx hy; simpa using this)
      rw [List.append_assoc, List.append_assoc] at e1
      obtain ⟨rfl, rfl, e2⟩ := header_unique hh hh' e1
      obtain ⟨rfl, rfl, rfl⟩ := body_unique hb hb' hc hc' e2
      rw [ih hr']

theorem blocks_not_unclosed {pre ts : List Tok} {ms : List Macro} (h : Blocks pre ts ms) :
    ∀ l, ¬ Unclosed pre ts l := by
  induction h with
  | done pre ts hn =>
    intro l h'
    cases h' with
    | here _ gap h rest k hg hh hr => exact hn gap _ (by simp) (starts_header hh rest)
    | later _ gap h body rest k close l hg hh hb hc hr =>
      exact hn gap _ (by simp) (starts_header hh (body ++ close :: rest))
  | block pre gap h body rest k close ms hg hh hb hc hr ih =>
    intro l h'
    generalize hts : gap ++ h ++ body ++ close :: rest = ts at h'
    cases h' with
    | here _ gap' h' rest' k' hg' hh' hr' =>
      obtain ⟨rfl, e1⟩ := first_start_unique (a := h ++ body ++ close :: rest)
        (a' := h' ++ rest') (by simpa using hts)
        (by rw [List.append_assoc]; exact starts_header hh _) (starts_header hh' _)
        (fun x y hx hy => by have := hg x y hx hy; simpa using this)
        (fun x y hx hy => by have := hg' x y hx hy; simpa using this)
      rw [List.append_assoc] at e1
      obtain ⟨rfl, rfl, rfl⟩ := header_unique hh hh' e1
      exact not_neverClosed hb hc hr'
    | later _ gap' h' body' rest' k' close' l hg' hh' hb' hc' hr' =>
      obtain ⟨rfl, e1⟩ := first_start_unique (a := h ++ body ++ close :: rest)
        (a' := h' ++ body' ++ close' :: rest') (by simpa using hts)
        (by rw [List.append_assoc]; exact starts_header hh _)
        (by rw [List.append_assoc]; exact starts_header hh' _)
        (fun x y hx hy => by have := hg x y hx hy; simpa using this)
        (fun x y hx hy => by have := hg' x y hx hy; simpa using this)
      rw [List.append_assoc, List.append_assoc] at e1
      obtain ⟨rfl, rfl, e2⟩ := header_unique hh hh' e1
      obtain ⟨rfl, rfl, rfl⟩ := body_unique hb hb' hc hc' e2
      exact ih l hr'

theorem unclosed_unique {pre ts : List Tok} {l l' : Nat} (h : Unclosed pre ts l') :
    Unclosed pre ts l → l' = l := by
  induction h generalizing l with
  | here pre gap h rest k hg hh hr =>
    intro hu
    generalize hts : gap ++ h ++ rest = ts at hu
    cases hu with
    | here _ gap' h' rest' k' hg' hh' hr' =>
      obtain ⟨rfl, -⟩ := first_start_unique (a := h ++ rest) (a' := h' ++ rest')
        (by simpa using hts) (starts_header hh _) (starts_header hh' _)
        (fun x y hx hy => by have := hg x y hx hy; simpa using this)
        (fun x y hx hy => by have := hg' x y hx hy; simpa using this)
      rfl
    | later _ gap' h' body' rest' k' close' _ hg' hh' hb' hc' hr' =>
      obtain ⟨rfl, e1⟩ := first_start_unique (a := h ++ rest)
        (a' := h' ++ body' ++ close' :: rest') (by simpa using hts)
        (starts_header hh _) (by rw [List.append_assoc]; exact starts_header hh' _)
        (fun x y hx hy => by have := hg x y hx hy; simpa using this)
        (fun x y hx hy => by have := hg' x y hx hy; simpa using this)
      rw [List.append_assoc] at e1
      obtain ⟨rfl, rfl, rfl⟩ := header_unique hh hh' e1
      exact (not_neverClosed hb' hc' hr).elim
  | later pre gap h body rest k close l' hg hh hb hc hr ih =>
    intro hu
    generalize hts : gap ++ h ++ body ++ close :: rest = ts at hu
    cases hu with
    | here _ gap' h' rest' k' hg' hh' hr' =>
      obtain ⟨rfl, e1⟩ := first_start_unique (a := h ++ body ++ close :: rest)
        (a' := h' ++ rest') (by simpa using hts)
        (by rw [List.append_assoc]; exact starts_header hh _) (starts_header hh' _)
        (fun x y hx hy => by have := hg x y hx hy; simpa using this)
        (fun x y hx hy => by have := hg' x y hx hy; simpa using this)
      rw [List.append_assoc] at e1
      obtain ⟨rfl, rfl, rfl⟩ := header_unique hh hh' e1
      exact (not_neverClosed hb hc hr').elim
    | later _ gap' h' body' rest' k' close' l hg' hh' hb' hc' hr' =>
      obtain ⟨rfl, e1⟩ := first_start_unique (a := h ++ body ++ close :: rest)
        (a' := h' ++ body' ++ close' :: rest') (by simpa using hts)
        (by rw [List.append_assoc]; exact starts_header hh _)
        (by rw [List.append_assoc]; exact starts_header hh' _)
        (fun x y hx hy => by have := hg x y hx hy; simpa using this)
        (fun x y hx hy => by have := hg' x y hx hy; simpa using this)
      rw [List.append_assoc, List.append_assoc] at e1
      obtain ⟨rfl, rfl, e2⟩ := header_unique hh hh' e1
      obtain ⟨rfl, rfl, rfl⟩ := body_unique hb hb' hc hc' e2
      exact ih hr'

theorem parse_spec (ts : List Tok) :
    match parse ts with
    | .ok ms => Blocks [] ts ms
    | .error l => Unclosed [] ts l := by
  have := parseLoop_spec ts (ts.length + 1) [] ts rfl (by omega)
  rw [show posOf (src []) = startPos by rw [startPos_eq]; rfl] at this
  exact this

/-- C155: parsing a file succeeds with exactly the blocks of the file, with their places and texts. -/
theorem parse_ok_iff (ts : List Tok) (ms : List Macro) : parse ts = .ok ms ↔ Blocks [] ts ms := by
  have h := parse_spec ts
  constructor
  · intro e; rw [e] at h; exact h
  · intro hb
    cases e : parse ts with
    | ok ms' =>
      rw [e] at h
      rw [blocks_unique h hb]
    | error l =>
      rw [e] at h
      exact absurd h (blocks_not_unclosed hb l)

/-- C155: it fails exactly if a block is never closed, and then names the line it begins at. -/
theorem parse_error_iff (ts : List Tok) (l : Nat) : parse ts = .error l ↔ Unclosed [] ts l := by
  have h := parse_spec ts
  constructor
  · intro e; rw [e] at h; exact h
  · intro hu
    cases e : parse ts with
    | ok ms =>
      rw [e] at h
      exact absurd hu (blocks_not_unclosed h l)
    | error l' =>
      rw [e] at h
      congr 1
      exact unclosed_unique h hu

end Verif.InlineCpp

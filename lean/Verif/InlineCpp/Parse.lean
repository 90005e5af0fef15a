import Verif.InlineCpp.Model

/-
C155: the blocks found are exactly the blocks of the file.
-/

namespace Verif.InlineCpp

/-! ### Positions -/

theorem src_append (a b : List Tok) : src (a ++ b) = src a ++ src b := by
  simp [src]

theorem src_cons (t : Tok) (b : List Tok) : src (t :: b) = t.text ++ src b := by
  simp [src]

theorem byteLen_append (a b : List Char) : byteLen (a ++ b) = byteLen a + byteLen b := by
  simp [byteLen]

/-- The position after a text. -/
def posOf (l : List Char) : Pos := ⟨byteLen l, lineOf l, colOf l⟩

theorem stepChar_posOf (l : List Char) (c : Char) : stepChar (posOf l) c = posOf (l ++ [c]) := by
  unfold stepChar posOf
  by_cases h : c = '\n'
  · subst h
    simp [byteLen_append, byteLen, lineOf, colOf]
  · simp [byteLen_append, byteLen, lineOf, colOf, h, List.count_singleton]

theorem foldl_posOf (x : List Char) : ∀ l, x.foldl stepChar (posOf l) = posOf (l ++ x) := by
  induction x with
  | nil => simp
  | cons c x ih => intro l; rw [List.foldl_cons, stepChar_posOf, ih]; simp

theorem advTok_posOf (l : List Char) (t : Tok) : advTok (posOf l) t = posOf (l ++ t.text) :=
  foldl_posOf _ _

theorem advToks_posOf (ts : List Tok) : ∀ l, advToks (posOf l) ts = posOf (l ++ src ts) := by
  induction ts with
  | nil => simp [advToks, src]
  | cons t ts ih =>
    intro l
    show advToks (advTok (posOf l) t) ts = _
    rw [advTok_posOf, ih, src_cons]; simp

theorem startPos_eq : startPos = posOf [] := by
  simp [startPos, posOf, byteLen, lineOf, colOf]

/-! ### Paths -/

theorem kindOf_some {x : List Char} {k : Kind} : kindOf x = some k ↔ x = nameOf k := by
  constructor
  · intro h
    unfold kindOf at h
    by_cases h₁ : x = "inline_cpp".toList
    · rw [if_pos h₁] at h; cases h; exact h₁
    · rw [if_neg h₁] at h
      by_cases h₂ : x = "global_cpp".toList
      · rw [if_pos h₂] at h; cases h; exact h₂
      · rw [if_neg h₂] at h
        by_cases h₃ : x = "DO_NOT_SUBMIT_CPP_DECL".toList
        · rw [if_pos h₃] at h; cases h; exact h₃
        · rw [if_neg h₃] at h; cases h
  · intro h
    subst h
    cases k <;> decide

theorem kindOf_none {x : List Char} : kindOf x = none ↔ ∀ k, x ≠ nameOf k := by
  constructor
  · intro h k hk
    rw [kindOf_some.2 hk] at h; cases h
  · intro h
    cases e : kindOf x with
    | none => rfl
    | some k => exact absurd (kindOf_some.1 e) (h k)

theorem pathLoop_none {t : Tok} (h : t.kind ≠ .ident) (r : List Tok) : pathLoop (t :: r) = none := by
  rw [pathLoop.eq_def]; simp [h]

theorem pathLoop_segs {k : Kind} {p : List Tok} (h : Segs k p) (r : List Tok) :
    pathLoop (p ++ r) = some (k, p.length) := by
  induction h with
  | last t hi hn => rw [List.singleton_append, pathLoop.eq_def]; simp [hi, kindOf_some.2 hn]
  | seg t c₁ c₂ p hi hn h₁ h₂ _ ih =>
    simp [pathLoop, hi, kindOf_none.2 hn, h₁, h₂, ih]

theorem pathLoop_some : ∀ (ts : List Tok) {k n}, pathLoop ts = some (k, n) →
    ∃ p r, ts = p ++ r ∧ p.length = n ∧ Segs k p
  | [], _, _, h => by simp [pathLoop] at h
  | t :: r, k, n, h => by
    rw [pathLoop.eq_def] at h
    simp only at h
    split at h
    · cases h
    · rename_i hi
      have hi : t.kind = .ident := by simpa using hi
      split at h
      · rename_i k' hk
        simp only [Option.some.injEq, Prod.mk.injEq] at h
        obtain ⟨rfl, rfl⟩ := h
        exact ⟨[t], r, rfl, rfl, .last _ hi (kindOf_some.1 hk)⟩
      · rename_i hk
        split at h
        · rename_i c₁ c₂ r'
          split at h
          · rename_i hc
            cases e : pathLoop r' with
            | none => rw [e] at h; cases h
            | some q =>
              obtain ⟨k', n'⟩ := q
              rw [e] at h
              simp only [Option.map_some, Option.some.injEq, Prod.mk.injEq] at h
              obtain ⟨rfl, rfl⟩ := h
              obtain ⟨p, r, rfl, rfl, hs⟩ := pathLoop_some r' e
              exact ⟨t :: c₁ :: c₂ :: p, r, rfl, by simp, .seg _ _ _ _ hi (kindOf_none.1 hk) hc.1 hc.2 hs⟩
          · cases h
        · cases h

theorem segs_head {k : Kind} {p : List Tok} (h : Segs k p) : ∃ t q, p = t :: q ∧ t.kind = .ident := by
  cases h with
  | last t hi _ => exact ⟨t, [], rfl, hi⟩
  | seg t c₁ c₂ p hi => exact ⟨t, _, rfl, hi⟩

/-- The path at the beginning of the tokens, as the code finds it. -/
def pathAt (ts : List Tok) : Option (Kind × Nat) :=
  match pathLoop (ts.drop (sepCount ts)) with
  | none => none
  | some (k, n) => some (k, sepCount ts + n)

theorem pathAt_path {k : Kind} {p : List Tok} (h : Path k p) (r : List Tok) :
    pathAt (p ++ r) = some (k, p.length) := by
  cases h with
  | rel _ hs =>
    have hh := segs_head hs
    obtain ⟨t, q, rfl, hi⟩ := hh
    have hz : sepCount (t :: q ++ r) = 0 := by
      simp only [List.cons_append]
      unfold sepCount
      split
      · rename_i a b _ heq
        simp only [List.cons.injEq] at heq
        rw [← heq.1]; simp [hi]
      · rfl
    unfold pathAt
    rw [hz, List.drop_zero, pathLoop_segs hs]
    simp
  | abs c₁ c₂ p h₁ h₂ hs =>
    have hz : sepCount (c₁ :: c₂ :: p ++ r) = 2 := by simp [sepCount, h₁, h₂]
    unfold pathAt
    rw [hz]
    show (match pathLoop (p ++ r) with | none => none | some (k, n) => some (k, 2 + n)) = _
    rw [pathLoop_segs hs]
    simp; omega

theorem pathAt_some {ts : List Tok} {k : Kind} {n : Nat} (h : pathAt ts = some (k, n)) :
    ∃ p r, ts = p ++ r ∧ p.length = n ∧ Path k p := by
  unfold pathAt at h
  split at h
  · cases h
  · rename_i k' n' e
    simp only [Option.some.injEq, Prod.mk.injEq] at h
    obtain ⟨rfl, rfl⟩ := h
    obtain ⟨p, r, hpr, hl, hs⟩ := pathLoop_some _ e
    by_cases h2 : ∃ a b rest, ts = a :: b :: rest ∧ a.kind = .colon ∧ b.kind = .colon
    · obtain ⟨a, b, rest, rfl, h₁, h₂⟩ := h2
      have hz : sepCount (a :: b :: rest) = 2 := by simp [sepCount, h₁, h₂]
      rw [hz] at hpr ⊢
      simp only [List.drop_succ_cons, List.drop_zero] at hpr
      subst hpr
      exact ⟨a :: b :: p, r, rfl, by simp [hl]; omega, .abs _ _ _ h₁ h₂ hs⟩
    · have hz : sepCount ts = 0 := by
        unfold sepCount
        split
        · rename_i a b rest
          rw [if_neg (fun hc => h2 ⟨a, b, rest, rfl, hc.1, hc.2⟩)]
        · rfl
      rw [hz] at hpr ⊢
      rw [List.drop_zero] at hpr
      exact ⟨p, r, hpr, by simp [hl], .rel _ hs⟩

/-! ### White space -/

theorem blank_split (ts : List Tok) : ∃ w r, ts = w ++ r ∧ Blank w ∧ w.length = wsCount ts ∧
    (∀ t q, r = t :: q → t.kind ≠ .ws) := by
  induction ts with
  | nil => exact ⟨[], [], rfl, by simp [Blank], by simp [wsCount], by simp⟩
  | cons t r ih =>
    by_cases h : t.kind = .ws
    · obtain ⟨w, r', rfl, hb, hl, hr⟩ := ih
      refine ⟨t :: w, r', rfl, ?_, ?_, hr⟩
      · intro x hx
        rcases List.mem_cons.1 hx with rfl | hx
        · exact h
        · exact hb x hx
      · simp [wsCount, h] at hl ⊢; exact hl
    · exact ⟨[], t :: r, rfl, by simp [Blank], by simp [wsCount, h], by
        rintro t' q h'; simp only [List.cons.injEq] at h'; rw [← h'.1]; exact h⟩

theorem wsCount_append {w : List Tok} (hb : Blank w) {t : Tok} (ht : t.kind ≠ .ws) (r : List Tok) :
    wsCount (w ++ t :: r) = w.length := by
  induction w with
  | nil => simp [wsCount, ht]
  | cons x w ih =>
    have hx := hb x (by simp)
    have := ih (fun y hy => hb y (by simp [hy]))
    simp [wsCount, hx] at this ⊢
    exact this

theorem eatWs_append {w : List Tok} (hb : Blank w) (l : List Char) (r : List Tok)
    (hr : ∀ t q, r = t :: q → t.kind ≠ .ws) :
    eatWs (posOf l) (w ++ r) = (posOf (l ++ src w), r) := by
  induction w generalizing l with
  | nil =>
    cases r with
    | nil => simp [eatWs, src]
    | cons t r => simp [eatWs, src, hr t r rfl]
  | cons x w ih =>
    have hx := hb x (by simp)
    simp only [List.cons_append, eatWs, hx, if_true, advTok_posOf, src_cons]
    rw [ih (fun y hy => hb y (by simp [hy]))]
    simp

/-! ### The whole path with `!` -/

theorem checkMacroPath_eq (ts : List Tok) : checkMacroPath ts =
    match pathAt ts with
    | none => none
    | some (k, idx) =>
      match ts[idx + wsCount (ts.drop idx)]? with
      | some t => if t.kind = .bang then some (k, idx + wsCount (ts.drop idx) + 1) else none
      | none => none := by
  unfold checkMacroPath pathAt
  simp only
  cases pathLoop (ts.drop (sepCount ts)) with
  | none => rfl
  | some q => rfl

theorem check_of {k : Kind} {p w : List Tok} {b : Tok} (hp : Path k p) (hw : Blank w)
    (hb : b.kind = .bang) (r : List Tok) :
    checkMacroPath (p ++ w ++ b :: r) = some (k, p.length + w.length + 1) := by
  rw [checkMacroPath_eq, List.append_assoc, pathAt_path hp]
  simp only
  rw [List.drop_left, wsCount_append hw (by simp [hb])]
  have : (p ++ (w ++ b :: r))[p.length + w.length]? = some b := by
    rw [List.getElem?_append_right (by omega), List.getElem?_append_right (by omega)]
    simp
  rw [this]
  simp [hb]

theorem check_some {ts : List Tok} {k : Kind} {n : Nat} (h : checkMacroPath ts = some (k, n)) :
    ∃ p w b r, ts = p ++ w ++ b :: r ∧ n = p.length + w.length + 1 ∧ Path k p ∧ Blank w ∧
      b.kind = .bang := by
  rw [checkMacroPath_eq] at h
  split at h
  · cases h
  · rename_i k' idx e
    obtain ⟨p, r, rfl, rfl, hp⟩ := pathAt_some e
    rw [List.drop_left] at h
    obtain ⟨w, r', rfl, hw, hl, hr⟩ := blank_split r
    rw [← hl] at h
    rw [List.getElem?_append_right (by omega), List.getElem?_append_right (by omega)] at h
    simp only [Nat.add_sub_cancel_left, Nat.sub_self] at h
    cases r' with
    | nil => simp at h
    | cons b r =>
      simp only [List.getElem?_cons_zero] at h
      split at h
      · rename_i hb
        simp only [Option.some.injEq, Prod.mk.injEq] at h
        obtain ⟨rfl, rfl⟩ := h
        exact ⟨p, w, b, r, by simp, rfl, hp, hw, hb⟩
      · cases h

/-- A block begins here exactly if the code finds a path with `!`, and `{` follows. -/
theorem starts_iff (ts : List Tok) : Starts ts ↔ ∃ k n b r w, checkMacroPath ts = some (k, n) ∧
    ts.drop n = w ++ b :: r ∧ Blank w ∧ b.kind = .openB := by
  constructor
  · rintro ⟨k, h, r, ⟨p, w₁, bang, w₂, brace, rfl, hp, h₁, hb, h₂, hbr⟩, rfl⟩
    refine ⟨k, p.length + w₁.length + 1, brace, r, w₂, ?_, ?_, h₂, hbr⟩
    · have := check_of hp h₁ hb (w₂ ++ brace :: r)
      simpa using this
    · have : p ++ w₁ ++ bang :: w₂ ++ [brace] ++ r = (p ++ w₁ ++ [bang]) ++ (w₂ ++ brace :: r) := by
        simp
      rw [this, List.drop_left' (by simp; omega)]
  · rintro ⟨k, n, b, r, w, hc, hd, hw, hb⟩
    obtain ⟨p, w', bang, r', rfl, rfl, hp, hw', hbang⟩ := check_some hc
    have hd' : r' = w ++ b :: r := by
      have : p ++ w' ++ bang :: r' = (p ++ w' ++ [bang]) ++ r' := by simp
      rw [this, List.drop_left' (by simp; omega)] at hd
      exact hd
    subst hd'
    exact ⟨k, p ++ w' ++ bang :: w ++ [b], r, ⟨p, w', bang, w, b, rfl, hp, hw', hbang, hw, hb⟩,
      by simp⟩

theorem check_none_of_head {t : Tok} (h₁ : t.kind ≠ .ident) (h₂ : t.kind ≠ .colon) (r : List Tok) :
    checkMacroPath (t :: r) = none := by
  have hz : sepCount (t :: r) = 0 := by
    unfold sepCount
    split
    · rename_i heq
      simp only [List.cons.injEq] at heq
      rw [← heq.1]; simp [h₂]
    · rfl
  rw [checkMacroPath_eq]
  unfold pathAt
  rw [hz]
  simp [pathLoop_none h₁]

theorem not_starts_of_check {ts : List Tok} (h : checkMacroPath ts = none) : ¬ Starts ts := by
  rw [starts_iff]
  rintro ⟨k, n, b, r, w, hc, -⟩
  rw [h] at hc; cases hc

/-- A path found at a later token of a path is the rest of that path. -/
theorem pathAt_inner {k : Kind} {p : List Tok} (h : Segs k p) (r : List Tok) :
    ∀ a b, p = a ++ b → b ≠ [] → pathAt (b ++ r) = none ∨ pathAt (b ++ r) = some (k, b.length) := by
  induction h with
  | last t hi hn =>
    intro a b hab hb
    cases a with
    | nil =>
      right
      rw [List.nil_append] at hab; subst hab
      exact pathAt_path (.rel _ (.last _ hi hn)) r
    | cons x a =>
      simp only [List.cons_append, List.cons.injEq] at hab
      have := List.append_eq_nil_iff.1 hab.2.symm
      exact absurd this.2 hb
  | seg t c₁ c₂ p hi hn h₁ h₂ hs ih =>
    intro a b hab hb
    match a with
    | [] =>
      right
      rw [List.nil_append] at hab; subst hab
      exact pathAt_path (.rel _ (.seg _ _ _ _ hi hn h₁ h₂ hs)) r
    | [x] =>
      right
      simp only [List.singleton_append, List.cons.injEq] at hab
      rw [← hab.2]
      exact pathAt_path (.abs _ _ _ h₁ h₂ hs) r
    | [x, y] =>
      left
      simp only [List.cons_append, List.nil_append, List.cons.injEq] at hab
      obtain ⟨-, -, rfl⟩ := hab
      obtain ⟨t', q, rfl, hi'⟩ := segs_head hs
      unfold pathAt
      simp [sepCount, hi', pathLoop_none (t := c₂) (by simp [h₂])]
    | x :: y :: z :: a =>
      simp only [List.cons_append, List.cons.injEq] at hab
      exact ih a b hab.2.2.2 hb

theorem pathAt_inner' {k : Kind} {p : List Tok} (h : Path k p) (r : List Tok) :
    ∀ a b, p = a ++ b → b ≠ [] → pathAt (b ++ r) = none ∨ pathAt (b ++ r) = some (k, b.length) := by
  intro a b hab hb
  cases h with
  | rel _ hs => exact pathAt_inner hs r a b hab hb
  | abs c₁ c₂ p h₁ h₂ hs =>
    match a with
    | [] =>
      right
      rw [List.nil_append] at hab; subst hab
      exact pathAt_path (.abs _ _ _ h₁ h₂ hs) r
    | [x] =>
      left
      simp only [List.singleton_append, List.cons.injEq] at hab
      rw [← hab.2]
      obtain ⟨t', q, rfl, hi'⟩ := segs_head hs
      unfold pathAt
      simp [sepCount, hi', pathLoop_none (t := c₂) (by simp [h₂])]
    | x :: y :: a =>
      simp only [List.cons_append, List.cons.injEq] at hab
      exact pathAt_inner hs r a b hab.2.2 hb

theorem head_eq_of_blank {w w' : List Tok} {b : Tok} {r q : List Tok} (hw : Blank w) (hw' : Blank w')
    (hb : b.kind ≠ .ws) (hq : ∀ t s, q = t :: s → t.kind ≠ .ws) (h : w ++ b :: r = w' ++ q) :
    ∃ s, q = b :: s := by
  induction w generalizing w' with
  | nil =>
    cases w' with
    | nil => exact ⟨r, h.symm⟩
    | cons x w' =>
      simp only [List.nil_append, List.cons_append, List.cons.injEq] at h
      exact absurd (h.1 ▸ hw' x (by simp)) hb
  | cons x w ih =>
    cases w' with
    | nil =>
      simp only [List.cons_append, List.nil_append] at h
      exact absurd (hw x (by simp)) (hq x _ h.symm)
    | cons y w' =>
      simp only [List.cons_append, List.cons.injEq] at h
      exact ih (fun z hz => hw z (by simp [hz])) (fun z hz => hw' z (by simp [hz])) h.2

/-- If `{` does not follow a path with `!`, no block begins anywhere in what was skipped. -/
theorem skipped_not_starts {k : Kind} {p w : List Tok} {bang : Tok} {w₂ q : List Tok}
    (hp : Path k p) (hw : Blank w) (hb : bang.kind = .bang) (hw₂ : Blank w₂)
    (hq : ∀ t s, q = t :: s → t.kind ≠ .ws ∧ t.kind ≠ .openB) :
    ∀ a b, p ++ w ++ bang :: w₂ = a ++ b → b ≠ [] → ¬ Starts (b ++ q) := by
  intro a b hab hb0
  rw [List.append_assoc] at hab
  rcases List.append_eq_append_iff.1 hab with ⟨a', rfl, hb'⟩ | ⟨c, rfl, hb'⟩
  · -- in the blanks or the bang
    cases b with
    | nil => exact absurd rfl hb0
    | cons t b =>
      apply not_starts_of_check
      have ht : t ∈ w ++ bang :: w₂ := by rw [hb']; simp
      have hk : t.kind = .ws ∨ t.kind = .bang := by
        rcases List.mem_append.1 ht with h | h
        · exact .inl (hw t h)
        · rcases List.mem_cons.1 h with rfl | h
          · exact .inr hb
          · exact .inl (hw₂ t h)
      exact check_none_of_head (by rcases hk with h | h <;> simp [h]) (by rcases hk with h | h <;> simp [h]) _
  · -- in the path
    by_cases hc : c = []
    · subst hc
      rw [List.nil_append] at hb'
      cases b with
      | nil => exact absurd rfl hb0
      | cons t b =>
        apply not_starts_of_check
        have ht : t ∈ w ++ bang :: w₂ := by rw [← hb']; simp
        have hk : t.kind = .ws ∨ t.kind = .bang := by
          rcases List.mem_append.1 ht with h | h
          · exact .inl (hw t h)
          · rcases List.mem_cons.1 h with rfl | h
            · exact .inr hb
            · exact .inl (hw₂ t h)
        exact check_none_of_head (by rcases hk with h | h <;> simp [h]) (by rcases hk with h | h <;> simp [h]) _
    · subst hb'
      rw [starts_iff]
      rintro ⟨k', n, br, r, w', hch, hd, hw', hbr⟩
      have hpa := pathAt_inner' hp (w ++ bang :: w₂ ++ q) a c rfl hc
      rw [checkMacroPath_eq] at hch
      have e0 : c ++ (w ++ bang :: w₂) ++ q = c ++ (w ++ bang :: w₂ ++ q) := by simp
      rw [e0] at hch hd
      rcases hpa with h | h
      · rw [h] at hch; cases hch
      · rw [h] at hch
        simp only at hch
        have e1 : w ++ bang :: w₂ ++ q = w ++ bang :: (w₂ ++ q) := by simp
        rw [List.drop_left, e1, wsCount_append hw (by simp [hb]),
          List.getElem?_append_right (by omega), List.getElem?_append_right (by omega)] at hch
        simp only [Nat.add_sub_cancel_left, Nat.sub_self, List.getElem?_cons_zero, hb,
          if_true, Option.some.injEq, Prod.mk.injEq] at hch
        obtain ⟨-, rfl⟩ := hch
        have e2 : c ++ (w ++ bang :: w₂ ++ q) = (c ++ w ++ [bang]) ++ (w₂ ++ q) := by simp
        rw [e2, List.drop_left' (by simp; omega)] at hd
        obtain ⟨s, rfl⟩ := head_eq_of_blank hw' hw₂ (by simp [hbr])
          (fun t s h => (hq t s h).1) hd.symm
        exact (hq br s rfl).2 hbr

/-! ### The body -/

/-- Depth bookkeeping: with `d` braces open, `ts` is a body up to the matching brace. -/
def BodyAt (d : Nat) (ts : List Tok) : Prop :=
  (∀ a b, ts = a ++ b → closes a + 1 ≤ opens a + d) ∧ closes ts + 1 = opens ts + d

theorem bodyAt_one (ts : List Tok) : BodyAt 1 ts ↔ Balanced ts := by
  unfold BodyAt Balanced
  constructor
  · rintro ⟨h₁, h₂⟩
    exact ⟨fun a b h => by have := h₁ a b h; omega, by omega⟩
  · rintro ⟨h₁, h₂⟩
    exact ⟨fun a b h => by have := h₁ a b h; omega, by omega⟩

theorem opens_cons (t : Tok) (r : List Tok) :
    opens (t :: r) = (if t.kind = .openB then 1 else 0) + opens r := by
  unfold opens
  by_cases h : t.kind = .openB <;> simp [h]; omega

theorem closes_cons (t : Tok) (r : List Tok) :
    closes (t :: r) = (if t.kind = .closeB then 1 else 0) + closes r := by
  unfold closes
  by_cases h : t.kind = .closeB <;> simp [h]; omega

theorem eatBody_some : ∀ (ts : List Tok) (d : Nat) (l : List Char) {e p' rest}, 1 ≤ d →
    eatBody d (posOf l) ts = some (e, p', rest) →
    ∃ body close, ts = body ++ close :: rest ∧ close.kind = .closeB ∧ BodyAt d body ∧
      e = posOf (l ++ src body) ∧ p' = posOf (l ++ src body ++ close.text)
  | [], d, l, _, _, _, _, h => by simp [eatBody] at h
  | t :: r, d, l, e, p', rest, hd, h => by
    rw [eatBody] at h
    split at h
    · rename_i ho
      rw [advTok_posOf] at h
      obtain ⟨body, close, rfl, hc, ⟨hb₁, hb₂⟩, rfl, rfl⟩ := eatBody_some r (d + 1) _ (by omega) h
      refine ⟨t :: body, close, rfl, hc, ⟨?_, ?_⟩, by simp [src_cons], by simp [src_cons]⟩
      · intro a b hab
        cases a with
        | nil => simp [closes, opens]; omega
        | cons x a =>
          simp only [List.cons_append, List.cons.injEq] at hab
          have := hb₁ a b hab.2
          rw [closes_cons, opens_cons, ← hab.1]; simp [ho]; omega
      · rw [closes_cons, opens_cons]; simp [ho]; omega
    · rename_i ho
      split at h
      · rename_i hcl
        split at h
        · rename_i hz
          simp only [Option.some.injEq, Prod.mk.injEq] at h
          obtain ⟨rfl, rfl, rfl⟩ := h
          refine ⟨[], t, rfl, hcl, ⟨?_, ?_⟩, by simp [src], by simp [src, advTok_posOf]⟩
          · intro a b hab
            have := List.append_eq_nil_iff.1 hab.symm
            rw [this.1]; simp [closes, opens]; omega
          · simp [closes, opens]; omega
        · rename_i hz
          rw [advTok_posOf] at h
          obtain ⟨body, close, rfl, hc, ⟨hb₁, hb₂⟩, rfl, rfl⟩ := eatBody_some r (d - 1) _ (by omega) h
          refine ⟨t :: body, close, rfl, hc, ⟨?_, ?_⟩, by simp [src_cons], by simp [src_cons]⟩
          · intro a b hab
            cases a with
            | nil => simp [closes, opens]; omega
            | cons x a =>
              simp only [List.cons_append, List.cons.injEq] at hab
              have := hb₁ a b hab.2
              rw [closes_cons, opens_cons, ← hab.1]; simp [hcl]; omega
          · rw [closes_cons, opens_cons]; simp [hcl]; omega
      · rename_i hcl
        rw [advTok_posOf] at h
        obtain ⟨body, close, rfl, hc, ⟨hb₁, hb₂⟩, rfl, rfl⟩ := eatBody_some r d _ hd h
        refine ⟨t :: body, close, rfl, hc, ⟨?_, ?_⟩, by simp [src_cons], by simp [src_cons]⟩
        · intro a b hab
          cases a with
          | nil => simp [closes, opens]; omega
          | cons x a =>
            simp only [List.cons_append, List.cons.injEq] at hab
            have := hb₁ a b hab.2
            rw [closes_cons, opens_cons, ← hab.1]; simp [hcl, ho]; omega
        · rw [closes_cons, opens_cons]; simp [hcl, ho]; omega

theorem eatBody_of : ∀ (body : List Tok) (d : Nat) (l : List Char) (close : Tok) (rest : List Tok),
    1 ≤ d → BodyAt d body → close.kind = .closeB →
    eatBody d (posOf l) (body ++ close :: rest) =
      some (posOf (l ++ src body), posOf (l ++ src body ++ close.text), rest)
  | [], d, l, close, rest, hd, ⟨_, h₂⟩, hc => by
    have : d = 1 := by simp [closes, opens] at h₂; omega
    subst this
    simp [eatBody, hc, src, advTok_posOf]
  | t :: r, d, l, close, rest, hd, ⟨h₁, h₂⟩, hc => by
    have hp : ∀ a b, r = a ++ b → closes (t :: a) + 1 ≤ opens (t :: a) + d := fun a b h =>
      h₁ (t :: a) b (by rw [h]; rfl)
    rw [closes_cons, opens_cons] at h₂
    rw [List.cons_append, eatBody, advTok_posOf, src_cons]
    split
    · rename_i ho
      rw [eatBody_of r (d + 1) _ close rest (by omega) ⟨?_, ?_⟩ hc]
      · simp
      · intro a b hab
        have := hp a b hab
        rw [closes_cons, opens_cons] at this
        simp [ho] at this; omega
      · simp [ho] at h₂; omega
    · rename_i ho
      split
      · rename_i hcl
        have h0 := hp [] r rfl
        rw [closes_cons, opens_cons] at h0
        simp [hcl, closes, opens] at h0
        rw [if_neg (by omega), eatBody_of r (d - 1) _ close rest (by omega) ⟨?_, ?_⟩ hc]
        · simp
        · intro a b hab
          have := hp a b hab
          rw [closes_cons, opens_cons] at this
          simp [hcl] at this; omega
        · simp [hcl] at h₂; omega
      · rename_i hcl
        rw [eatBody_of r d _ close rest hd ⟨?_, ?_⟩ hc]
        · simp
        · intro a b hab
          have := hp a b hab
          rw [closes_cons, opens_cons] at this
          simp [hcl, ho] at this; omega
        · simp [hcl, ho] at h₂; omega

theorem eatBody_none : ∀ (ts : List Tok) (d : Nat) (p : Pos), 1 ≤ d →
    (eatBody d p ts = none ↔ ∀ a b, ts = a ++ b → closes a + 1 ≤ opens a + d)
  | [], d, p, hd => by
    simp only [eatBody, true_iff]
    intro a b hab
    have := List.append_eq_nil_iff.1 hab.symm
    rw [this.1]; simp [closes, opens]; omega
  | t :: r, d, p, hd => by
    have key : (∀ a b, t :: r = a ++ b → closes a + 1 ≤ opens a + d) ↔
        ∀ a b, r = a ++ b → closes (t :: a) + 1 ≤ opens (t :: a) + d := by
      constructor
      · intro h a b hab; exact h (t :: a) b (by rw [hab]; rfl)
      · intro h a b hab
        cases a with
        | nil => simp [closes, opens]; omega
        | cons x a =>
          simp only [List.cons_append, List.cons.injEq] at hab
          rw [← hab.1]; exact h a b hab.2
    rw [key]
    rw [eatBody]
    simp only [closes_cons, opens_cons]
    split
    · rename_i ho
      rw [eatBody_none r (d + 1) _ (by omega)]
      simp only [ho]
      constructor
      · intro h a b hab; have := h a b hab; simp; omega
      · intro h a b hab; have := h a b hab; simp at this; omega
    · rename_i ho
      split
      · rename_i hcl
        split
        · rename_i hz
          constructor
          · intro h; cases h
          · intro h
            have := h [] r rfl
            simp [hcl, closes, opens] at this; omega
        · rw [eatBody_none r (d - 1) _ (by omega)]
          constructor
          · intro h a b hab; have := h a b hab; simp [hcl]; omega
          · intro h a b hab; have := h a b hab; simp [hcl] at this; omega
      · rename_i hcl
        rw [eatBody_none r d _ hd]
        constructor
        · intro h a b hab; have := h a b hab; simp [hcl, ho]; omega
        · intro h a b hab; have := h a b hab; simp [hcl, ho] at this; omega

/-! ### Slices -/

theorem dropBytes_append (a b : List Char) : dropBytes (byteLen a) (a ++ b) = b := by
  induction a with
  | nil => cases b <;> simp [byteLen, dropBytes]
  | cons c a ih =>
    have hp := Char.utf8Size_pos c
    have : byteLen (c :: a) = c.utf8Size + byteLen a := by simp [byteLen]
    simp only [List.cons_append, dropBytes, this]
    rw [if_neg (by omega), Nat.add_sub_cancel_left, ih]

theorem takeBytes_append (a b : List Char) : takeBytes (byteLen a) (a ++ b) = a := by
  induction a with
  | nil => cases b <;> simp [byteLen, takeBytes]
  | cons c a ih =>
    have hp := Char.utf8Size_pos c
    have : byteLen (c :: a) = c.utf8Size + byteLen a := by simp [byteLen]
    simp only [List.cons_append, takeBytes, this]
    rw [if_neg (by omega), Nat.add_sub_cancel_left, ih]

theorem slice_mid (a b c : List Char) : slice (a ++ b ++ c) (byteLen a) (byteLen (a ++ b)) = b := by
  unfold slice
  rw [byteLen_append, Nat.add_sub_cancel_left, List.append_assoc, dropBytes_append,
    takeBytes_append]

end Verif.InlineCpp

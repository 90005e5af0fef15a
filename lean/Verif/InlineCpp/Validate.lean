import Verif.InlineCpp.Lines

/-
C158: which `inline_cpp!` bodies are accepted.
-/

namespace Verif.InlineCpp

def ParenAt (d : Nat) (ts : List Tok) : Prop :=
  (∀ a b, ts = a ++ b → parenCloses a + 1 ≤ parenOpens a + d) ∧ parenCloses ts + 1 = parenOpens ts + d

theorem parenAt_one (ts : List Tok) : ParenAt 1 ts ↔ ParenBalanced ts := by
  unfold ParenAt ParenBalanced
  constructor
  · rintro ⟨h₁, h₂⟩
    exact ⟨fun a b h => by have := h₁ a b h; omega, by omega⟩
  · rintro ⟨h₁, h₂⟩
    exact ⟨fun a b h => by have := h₁ a b h; omega, by omega⟩

theorem parenOpens_cons (t : Tok) (r : List Tok) :
    parenOpens (t :: r) = (if t.kind = .openP then 1 else 0) + parenOpens r := by
  unfold parenOpens
  by_cases h : t.kind = .openP <;> simp [h]; omega

theorem parenCloses_cons (t : Tok) (r : List Tok) :
    parenCloses (t :: r) = (if t.kind = .closeP then 1 else 0) + parenCloses r := by
  unfold parenCloses
  by_cases h : t.kind = .closeP <;> simp [h]; omega

theorem parenAt_cons (d : Nat) (hd : 1 ≤ d) (t : Tok) (r : List Tok) : ParenAt d (t :: r) ↔
    if t.kind = .openP then ParenAt (d + 1) r
    else if t.kind = .closeP then 2 ≤ d ∧ ParenAt (d - 1) r
    else ParenAt d r := by
  have key : (∀ a b, t :: r = a ++ b → parenCloses a + 1 ≤ parenOpens a + d) ↔
      ∀ a b, r = a ++ b → parenCloses (t :: a) + 1 ≤ parenOpens (t :: a) + d := by
    constructor
    · intro h a b hab; exact h (t :: a) b (by rw [hab]; rfl)
    · intro h a b hab
      cases a with
      | nil => simp [parenCloses, parenOpens]; omega
      | cons x a =>
        simp only [List.cons_append, List.cons.injEq] at hab
        rw [← hab.1]; exact h a b hab.2
  unfold ParenAt
  rw [key]
  simp only [parenCloses_cons, parenOpens_cons]
  by_cases ho : t.kind = .openP
  · simp only [ho, if_true]
    constructor
    · rintro ⟨h₁, h₂⟩
      exact ⟨fun a b h => by have := h₁ a b h; simp at this; omega, by simp at h₂; omega⟩
    · rintro ⟨h₁, h₂⟩
      exact ⟨fun a b h => by have := h₁ a b h; simp; omega, by simp; omega⟩
  · by_cases hc : t.kind = .closeP
    · simp only [hc, if_true]
      constructor
      · rintro ⟨h₁, h₂⟩
        have h0 := h₁ [] r rfl
        simp [parenCloses, parenOpens] at h0
        exact ⟨h0, fun a b h => by have := h₁ a b h; simp at this; omega, by simp at h₂; omega⟩
      · rintro ⟨h0, h₁, h₂⟩
        exact ⟨fun a b h => by have := h₁ a b h; simp; omega, by simp; omega⟩
    · simp only [ho, hc, if_false]
      constructor
      · rintro ⟨h₁, h₂⟩
        exact ⟨fun a b h => by have := h₁ a b h; omega, by omega⟩
      · rintro ⟨h₁, h₂⟩
        exact ⟨fun a b h => by have := h₁ a b h; omega, by omega⟩

theorem parenAt_nil (d : Nat) : ParenAt d [] ↔ d = 1 := by
  unfold ParenAt
  constructor
  · rintro ⟨-, h⟩; simp [parenCloses, parenOpens] at h; omega
  · rintro rfl
    refine ⟨fun a b h => ?_, by simp [parenCloses, parenOpens]⟩
    rw [(List.append_eq_nil_iff.1 h.symm).1]; simp [parenCloses, parenOpens]

theorem closeParen_iff : ∀ (ts : List Tok) (d i : Nat), 1 ≤ d →
    (closeParen (d : Int) ts = some i ↔ ∃ args cp rest, ts = args ++ cp :: rest ∧ args.length = i ∧
      cp.kind = .closeP ∧ ParenAt d args)
  | [], d, i, hd => by
    simp only [closeParen, reduceCtorEq, false_iff]
    rintro ⟨args, cp, rest, h, -⟩
    simp at h
  | t :: r, d, i, hd => by
    have tail : ∀ d', 1 ≤ d' → ((closeParen ((d' : Nat) : Int) r).map (· + 1) = some i ↔
        ∃ args cp rest, t :: r = (t :: args) ++ cp :: rest ∧ (t :: args).length = i ∧
          cp.kind = .closeP ∧ ParenAt d' args) := by
      intro d' hd'
      cases i with
      | zero =>
        constructor
        · intro h
          cases hc : closeParen ((d' : Nat) : Int) r with
          | none => rw [hc] at h; cases h
          | some j => rw [hc] at h; simp at h
        · rintro ⟨args, cp, rest, -, h, -⟩; simp at h
      | succ i =>
        have ih := closeParen_iff r d' i hd'
        constructor
        · intro h
          cases hc : closeParen ((d' : Nat) : Int) r with
          | none => rw [hc] at h; cases h
          | some j =>
            rw [hc] at h
            simp at h; subst h
            obtain ⟨args, cp, rest, rfl, hl, h1, h2⟩ := ih.1 hc
            exact ⟨args, cp, rest, rfl, by simp [hl], h1, h2⟩
        · rintro ⟨args, cp, rest, h, hl, h1, h2⟩
          simp only [List.cons_append, List.cons.injEq, true_and] at h
          rw [ih.2 ⟨args, cp, rest, h, by simpa using hl, h1, h2⟩]; rfl
    have split : (∃ args cp rest, t :: r = args ++ cp :: rest ∧ args.length = i ∧
        cp.kind = .closeP ∧ ParenAt d args) ↔
        (i = 0 ∧ t.kind = .closeP ∧ d = 1) ∨
        (∃ args cp rest, t :: r = (t :: args) ++ cp :: rest ∧ (t :: args).length = i ∧
          cp.kind = .closeP ∧ ParenAt d (t :: args)) := by
      constructor
      · rintro ⟨args, cp, rest, h, hl, h1, h2⟩
        cases args with
        | nil =>
          simp only [List.nil_append, List.cons.injEq] at h
          exact .inl ⟨by simpa using hl.symm, by rw [h.1]; exact h1, (parenAt_nil d).1 h2⟩
        | cons x args =>
          have hx : t = x := by simp only [List.cons_append, List.cons.injEq] at h; exact h.1
          subst hx
          exact .inr ⟨args, cp, rest, h, hl, h1, h2⟩
      · rintro (⟨rfl, h1, rfl⟩ | ⟨args, cp, rest, h, hl, h1, h2⟩)
        · exact ⟨[], t, r, rfl, rfl, h1, (parenAt_nil 1).2 rfl⟩
        · exact ⟨t :: args, cp, rest, h, hl, h1, h2⟩
    rw [split, closeParen]
    simp only [parenAt_cons d hd]
    by_cases ho : t.kind = .openP
    · simp only [ho, if_true]
      have := tail (d + 1) (by omega)
      push_cast at this
      rw [this]
      simp
    · by_cases hc : t.kind = .closeP
      · simp only [hc, if_true]
        by_cases h1 : d = 1
        · subst h1
          simp
          exact eq_comm
        · have e : ((d : Int) - 1) = ((d - 1 : Nat) : Int) := by omega
          rw [if_neg (by decide), e, if_neg (by omega), tail (d - 1) (by omega)]
          have h2 : 2 ≤ d := by omega
          simp [h1, h2]
      · simp only [ho, hc, if_false]
        rw [tail d hd]
        simp

theorem trim_arrow (l : List Char) : (∃ r, trim l = '-' :: '>' :: r) ↔
    ∃ r, l.dropWhile isSpace = '-' :: '>' :: r := by
  unfold trim
  generalize l.dropWhile isSpace = x
  constructor
  · rintro ⟨r, h⟩
    have hs : x.reverse.dropWhile isSpace <:+ x.reverse := List.dropWhile_suffix _
    obtain ⟨p, hp⟩ := hs
    have := congrArg List.reverse hp
    rw [List.reverse_append, List.reverse_reverse, h] at this
    exact ⟨_, this.symm⟩
  · rintro ⟨r, rfl⟩
    have e : ('-' :: '>' :: r).reverse = r.reverse ++ ['>', '-'] := by simp
    rw [e, List.dropWhile_append]
    split
    · exact ⟨[], by decide⟩
    · exact ⟨(r.reverse.dropWhile isSpace).reverse, by simp⟩

theorem trim_match (l : List Char) : (match trim l with | '-' :: '>' :: _ => true | _ => false) = true ↔
    ∃ r, l.dropWhile isSpace = '-' :: '>' :: r := by
  rw [← trim_arrow]
  generalize trim l = x
  constructor
  · intro h
    split at h
    · exact ⟨_, rfl⟩
    · cases h
  · rintro ⟨r, rfl⟩; rfl

theorem dropWhile_ws (ts : List Tok) : ∃ w, ts = w ++ ts.dropWhile (fun t => t.kind = .ws) ∧ Blank w := by
  refine ⟨ts.takeWhile (fun t => t.kind = .ws), by rw [List.takeWhile_append_dropWhile], ?_⟩
  intro t ht
  have : ∀ l : List Tok, t ∈ l.takeWhile (fun t => t.kind = .ws) → t.kind = .ws := by
    intro l
    induction l with
    | nil => simp
    | cons x l ih =>
      by_cases hx : x.kind = .ws
      · simp only [List.takeWhile_cons, hx, decide_true, if_true]
        intro h
        rcases List.mem_cons.1 h with rfl | h
        · exact hx
        · exact ih h
      · simp [hx]
  exact this ts ht

theorem findIdx_split {l : List Tok} {n : Nat} (h : l.findIdx? (fun t => decide (t.kind = .openB)) = some n) :
    ∃ ret ob more, l = ret ++ ob :: more ∧ l.take n = ret ∧ ob.kind = .openB ∧ ∀ t ∈ ret, t.kind ≠ .openB := by
  rw [List.findIdx?_eq_some_iff_getElem] at h
  obtain ⟨hlt, hob, hno⟩ := h
  refine ⟨l.take n, l[n], l.drop (n + 1), by rw [List.getElem_cons_drop, List.take_append_drop], rfl,
    by simpa using hob, ?_⟩
  intro t ht hk
  obtain ⟨i, hi, rfl⟩ := List.mem_iff_getElem.1 ht
  have hi' : i < n := by simp at hi; omega
  have := hno i hi'
  simp at this hk
  exact this hk

theorem dropWhile_blank {w : List Tok} (hw : Blank w) {t : Tok} (ht : t.kind ≠ .ws) (r : List Tok) :
    (w ++ t :: r).dropWhile (fun t => t.kind = .ws) = t :: r := by
  rw [List.dropWhile_append_of_pos (by intro x hx; simp [hw x hx])]
  simp [ht]

/-- C158: a body is accepted exactly if it has the form `(args) -> type { … }`. -/
theorem validate_iff (ts : List Tok) : validate ts = true ↔ Signature ts := by
  constructor
  · intro h
    unfold validate at h
    simp only at h
    obtain ⟨w₁, hw, hb⟩ := dropWhile_ws ts
    generalize hrest : ts.dropWhile (fun t => t.kind = .ws) = rest at h hw
    split at h
    · cases h
    · rename_i op r
      split at h
      · cases h
      · rename_i hop
        have hop : op.kind = .openP := by simpa using hop
        have e0 : closeParen 0 (op :: r) = (closeParen ((1 : Nat) : Int) r).map (· + 1) := by
          rw [closeParen]; simp [hop]
        split at h
        · cases h
        · rename_i i hi
          rw [e0] at hi
          cases hc : closeParen ((1 : Nat) : Int) r with
          | none => rw [hc] at hi; cases hi
          | some j =>
            rw [hc] at hi
            simp at hi
            subst hi
            obtain ⟨args, cp, after, rfl, hl, hcp, hpa⟩ := (closeParen_iff r 1 j (by omega)).1 hc
            have ed : List.drop (j + 1 + 1) (op :: (args ++ cp :: after)) = after := by
              have : op :: (args ++ cp :: after) = (op :: args ++ [cp]) ++ after := by simp
              rw [this, List.drop_left' (by simp [hl])]
            rw [ed] at h
            split at h
            · cases h
            · rename_i n hn
              obtain ⟨ret, ob, more, rfl, htake, hob, hno⟩ := findIdx_split hn
              rw [htake] at h
              split at h
              · cases h
              · rename_i last q hlast
                split at h
                · cases h
                · rename_i hcb
                  have hcb : last.kind = .closeB := by simpa using hcb
                  have hret := (trim_match _).1 h
                  obtain ⟨w₂, hw₂, hb₂⟩ := dropWhile_ws ts.reverse
                  rw [hlast] at hw₂
                  have hts2 : ts = q.reverse ++ last :: w₂.reverse := by
                    have := congrArg List.reverse hw₂
                    simpa using this
                  -- the last brace is after the first one
                  have hmore : ∃ body, more = body ++ last :: w₂.reverse := by
                    have h3 : (w₁ ++ op :: args ++ cp :: ret) ++ ob :: more =
                        q.reverse ++ last :: w₂.reverse := by
                      rw [← hts2, hw]; simp
                    rcases List.append_eq_append_iff.1 h3 with ⟨c, -, hc⟩ | ⟨c, -, hc⟩
                    · cases c with
                      | nil =>
                        simp only [List.nil_append, List.cons.injEq] at hc
                        rw [hc.1, hcb] at hob; cases hob
                      | cons x c =>
                        simp only [List.cons_append, List.cons.injEq] at hc
                        exact ⟨c, hc.2⟩
                    · cases c with
                      | nil =>
                        simp only [List.nil_append, List.cons.injEq] at hc
                        rw [← hc.1, hcb] at hob; cases hob
                      | cons x c =>
                        simp only [List.cons_append, List.cons.injEq] at hc
                        have : ob ∈ w₂ := by
                          rw [← List.mem_reverse, hc.2]; simp
                        rw [hb₂ _ this] at hob; cases hob
                  obtain ⟨body, rfl⟩ := hmore
                  exact ⟨w₁, op, args, cp, ret, ob, body, last, w₂.reverse, by rw [hw]; simp, hb, hop,
                    (parenAt_one _).1 hpa, hcp, hno, hret, hob, hcb,
                    fun t ht => hb₂ t (List.mem_reverse.1 ht)⟩
  · rintro ⟨w₁, op, args, cp, ret, ob, body, cb, w₂, rfl, hb, hop, hpa, hcp, hret, harrow, hob, hcb, hb₂⟩
    unfold validate
    simp only
    have e1 : (w₁ ++ op :: args ++ cp :: ret ++ ob :: body ++ cb :: w₂).dropWhile (fun t => t.kind = .ws) =
        op :: (args ++ cp :: ret ++ ob :: body ++ cb :: w₂) := by
      have : w₁ ++ op :: args ++ cp :: ret ++ ob :: body ++ cb :: w₂ =
          w₁ ++ op :: (args ++ cp :: ret ++ ob :: body ++ cb :: w₂) := by simp
      rw [this, dropWhile_blank hb (by simp [hop])]
    rw [e1]
    simp only [hop, ne_eq, not_true_eq_false, if_false]
    have e2 : closeParen 0 (op :: (args ++ cp :: ret ++ ob :: body ++ cb :: w₂)) = some (args.length + 1) := by
      rw [closeParen]
      simp only [hop, if_true]
      have := (closeParen_iff (args ++ cp :: ret ++ ob :: body ++ cb :: w₂) 1 args.length (by omega)).2
        ⟨args, cp, ret ++ ob :: body ++ cb :: w₂, by simp, rfl, hcp, (parenAt_one _).2 hpa⟩
      have e : ((0 : Int) + 1) = ((1 : Nat) : Int) := rfl
      rw [e, this]; rfl
    rw [e2]
    simp only
    have e3 : List.drop (args.length + 1 + 1) (op :: (args ++ cp :: ret ++ ob :: body ++ cb :: w₂)) =
        ret ++ ob :: (body ++ cb :: w₂) := by
      have : op :: (args ++ cp :: ret ++ ob :: body ++ cb :: w₂) =
          (op :: args ++ [cp]) ++ (ret ++ ob :: (body ++ cb :: w₂)) := by simp
      rw [this, List.drop_left' (by simp)]
    rw [e3]
    have e4 : (ret ++ ob :: (body ++ cb :: w₂)).findIdx? (fun t => decide (t.kind = .openB)) = some ret.length := by
      rw [List.findIdx?_eq_some_iff_getElem]
      refine ⟨by simp, by simp [hob], ?_⟩
      intro j hj
      have : (ret ++ ob :: (body ++ cb :: w₂))[j]'(by simp; omega) = ret[j] := List.getElem_append_left hj
      rw [this]
      simpa using hret ret[j] (List.getElem_mem hj)
    rw [e4]
    simp only
    have e5 : (w₁ ++ op :: args ++ cp :: ret ++ ob :: body ++ cb :: w₂).reverse.dropWhile
        (fun t => t.kind = .ws) = cb :: (w₁ ++ op :: args ++ cp :: ret ++ ob :: body).reverse := by
      have : (w₁ ++ op :: args ++ cp :: ret ++ ob :: body ++ cb :: w₂).reverse =
          w₂.reverse ++ cb :: (w₁ ++ op :: args ++ cp :: ret ++ ob :: body).reverse := by
        generalize w₁ ++ op :: args ++ cp :: ret ++ ob :: body = z
        simp
      rw [this, dropWhile_blank (fun t ht => hb₂ t (List.mem_reverse.1 ht)) (by simp [hcb])]
    rw [e5]
    simp only [hcb, ne_eq, not_true_eq_false, if_false]
    rw [List.take_left, ]
    exact (trim_match _).2 harrow

/-- C158: the header is only written if every `inline_cpp!` body has the form `(args) -> type { … }`;
otherwise the tool fails. -/
theorem extractInline_ok_iff (lex : List Char → List Tok) (target file : List Char) (ms : List Macro) :
    (∃ r, extractInline lex target file ms = .ok r) ↔
      ∀ m ∈ ms, m.kind = .inlineCpp → Signature (lex m.bodyText) := by
  induction ms with
  | nil => simp [extractInline]
  | cons m ms ih =>
    rw [extractInline]
    by_cases hk : m.kind = .inlineCpp
    · simp only [hk, ne_eq, not_true_eq_false, if_false]
      by_cases hv : validate (lex m.bodyText) = false
      · rw [if_pos hv]
        constructor
        · rintro ⟨r, h⟩; cases h
        · intro h
          have := (validate_iff _).2 (h m (by simp) hk)
          rw [hv] at this; cases this
      · rw [if_neg hv]
        have hv' : Signature (lex m.bodyText) := (validate_iff _).1 (by simpa using hv)
        cases hr : extractInline lex target file ms with
        | error l =>
          simp only [reduceCtorEq, exists_false, false_iff]
          intro h
          have := ih.2 (fun m' hm' => h m' (by simp [hm']))
          rw [hr] at this
          obtain ⟨r, hr⟩ := this; cases hr
        | ok r =>
          constructor
          · intro _ m' hm' hk'
            rcases List.mem_cons.1 hm' with rfl | hm'
            · exact hv'
            · exact ih.1 ⟨r, hr⟩ m' hm' hk'
          · intro _; exact ⟨_, rfl⟩
    · rw [if_pos hk, ih]
      constructor
      · intro h m' hm' hk'
        rcases List.mem_cons.1 hm' with rfl | hm'
        · exact absurd hk' hk
        · exact h m' hm' hk'
      · intro h m' hm' hk'; exact h m' (by simp [hm']) hk'

end Verif.InlineCpp

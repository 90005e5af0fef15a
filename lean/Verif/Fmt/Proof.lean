import Verif.Fmt.Model
import Verif.Fmt.Spec
import Mathlib.Data.List.Basic
import Mathlib.Tactic.Tauto

namespace Verif.Fmt

theorem isWs_iff (c : Char) : isWs c = true ↔ White c := by
  simp only [isWs, White, Bool.or_eq_true, Bool.and_eq_true, decide_eq_true_eq, beq_iff_eq,
    List.mem_cons, List.not_mem_nil, or_false]
  omega

theorem takeWhile_ws (s : List Char) : ∀ c ∈ s.takeWhile isWs, White c := by
  intro c hc
  have := List.all_takeWhile (p := isWs) (l := s)
  rw [List.all_eq_true] at this
  exact (isWs_iff c).mp (this c hc)

theorem surrounded_trim (s : List Char) :
    ∃ a b, s = a ++ trim s ++ b ∧ Surrounded a (trim s) b := by
  have h1 : s = s.takeWhile isWs ++ s.dropWhile isWs := (List.takeWhile_append_dropWhile).symm
  generalize hd : s.dropWhile isWs = d at h1
  have h2 : d.reverse = d.reverse.takeWhile isWs ++ d.reverse.dropWhile isWs :=
    (List.takeWhile_append_dropWhile).symm
  have ht : trim s = (d.reverse.dropWhile isWs).reverse := by rw [trim, hd]
  have h3 : d = trim s ++ (d.reverse.takeWhile isWs).reverse := by
    have := congrArg List.reverse h2
    rw [List.reverse_reverse, List.reverse_append] at this
    rw [ht]; exact this
  refine ⟨s.takeWhile isWs, (d.reverse.takeWhile isWs).reverse, ?_, ?_, ?_, ?_, ?_⟩
  · rw [List.append_assoc, ← h3]; exact h1
  · exact takeWhile_ws s
  · intro c hc; exact takeWhile_ws _ c (List.mem_reverse.mp hc)
  · intro c r h hw
    rw [h] at h3
    have := List.head?_dropWhile_not isWs s
    rw [hd, h3] at this
    simp [(isWs_iff c).mpr hw] at this
  · intro c r h hw
    have h4 : d.reverse.dropWhile isWs = c :: r.reverse := by
      rw [ht] at h
      have := congrArg List.reverse h
      simpa using this
    have := List.head?_dropWhile_not isWs d.reverse
    rw [h4] at this
    simp [(isWs_iff c).mpr hw] at this

theorem dropWhile_ws (a t : List Char) (ha : ∀ c ∈ a, White c) (ht : ∀ c r, t = c :: r → ¬ White c) :
    (a ++ t).dropWhile isWs = t := by
  induction a with
  | nil =>
    cases t with
    | nil => rfl
    | cons c r =>
      have : isWs c = false := by
        cases h : isWs c with
        | false => rfl
        | true => exact absurd ((isWs_iff c).mp h) (ht c r rfl)
      simp [this]
  | cons c a ih =>
    have := (isWs_iff c).mpr (ha c (by simp))
    simp only [List.cons_append, List.dropWhile_cons, this, if_true]
    exact ih fun d hd => ha d (by simp [hd])

theorem trim_surrounded (a n b : List Char) (h : Surrounded a n b) : trim (a ++ n ++ b) = n := by
  obtain ⟨ha, hb, h1, h2⟩ := h
  cases n with
  | nil =>
    have hall : ∀ c ∈ a ++ [] ++ b, White c := by
      intro c hc; simp at hc; rcases hc with hc | hc
      · exact ha c hc
      · exact hb c hc
    have := dropWhile_ws (a ++ [] ++ b) [] hall (by simp)
    rw [List.append_nil] at this
    rw [trim, this]; rfl
  | cons c r =>
    rw [trim, List.append_assoc, dropWhile_ws a ((c :: r) ++ b) ha]
    · rw [List.reverse_append, dropWhile_ws]
      · simp
      · intro d hd; exact hb d (List.mem_reverse.mp hd)
      · intro d q hq
        apply h2 d q.reverse
        have := congrArg List.reverse hq
        simpa using this
    · intro d q hq
      simp only [List.cons_append, List.cons.injEq] at hq
      exact hq.1 ▸ h1 c r rfl

theorem pushStr_pushStr (fs : List Frag) (s t : List Char) :
    pushStr (pushStr fs s) t = pushStr fs (s ++ t) := by
  unfold pushStr
  rcases h : fs.getLast? with _ | (u | i) <;> simp

/-- What a piece does to the fragments. -/
def step (names : List (List Char)) (fs : List Frag) : Piece → List Frag
  | .lit c => pushStr fs [c]
  | .openBrace => pushStr fs ['{']
  | .closeBrace => pushStr fs ['}']
  | .var _ n _ => pushStr fs [] ++ [.var ((names.findIdx? fun x => x == n).getD 0)]

theorem loop_lit (names : List (List Char)) (n : Nat) (fs : List Frag) (c : Char) (s : List Char)
    (h1 : c ≠ '{') (h2 : c ≠ '}') :
    loop names n fs (c :: s) = loop names n (pushStr fs [c]) s := by
  cases n with
  | zero => rfl
  | succ n =>
    have hb : brace c = false := by simp [brace, h1, h2]
    simp only [loop, List.takeWhile_cons, List.dropWhile_cons, hb, Bool.not_false, if_true,
      List.isEmpty_cons, Bool.false_eq_true, if_false, pushStr_pushStr, List.cons_append,
      List.nil_append]
    cases s with
    | nil => simp
    | cons d s => simp

theorem takeWhile_inner (t r : List Char) (h : '}' ∉ t) :
    (t ++ '}' :: r).takeWhile (fun c => c != '}') = t ∧
      (t ++ '}' :: r).dropWhile (fun c => c != '}') = '}' :: r := by
  induction t with
  | nil => simp
  | cons c t ih =>
    simp only [List.mem_cons, not_or] at h
    have := ih h.2
    have hc : (c != '}') = true := by simp [Ne.symm h.1]
    simp [hc, this.1, this.2]

theorem mem_findIdx (names : List (List Char)) (n : List Char) (h : n ∈ names) :
    ∃ i, (names.findIdx? fun x => x == n) = some i := by
  cases hf : names.findIdx? fun x => x == n with
  | some i => exact ⟨i, rfl⟩
  | none =>
    rw [List.findIdx?_eq_none_iff] at hf
    have := hf n h
    simp at this

/-- One name in braces. -/
theorem loop_open (names : List (List Char)) (n : Nat) (fs : List Frag) (t r : List Char)
    (h : Inner t) :
    loop names (n + 1) fs ('{' :: (t ++ '}' :: r)) =
      match names.findIdx? fun x => x == trim t with
      | none => .error (.unknown (trim t))
      | some i => loop names n (pushStr fs [] ++ [.var i]) r := by
  have hw := takeWhile_inner t r h.1
  have hb : brace '{' = true := rfl
  cases t with
  | nil =>
    simp only [loop, List.takeWhile_cons, List.dropWhile_cons, hb, Bool.not_true,
      Bool.false_eq_true, if_false, List.nil_append]
    simp
    rfl
  | cons d t =>
    have hd : d ≠ '{' := fun e => h.2 t (by rw [e])
    rw [List.cons_append] at hw
    simp only [loop, List.takeWhile_cons, List.dropWhile_cons, hb, Bool.not_true,
      Bool.false_eq_true, if_false, List.cons_append]
    split
    · next he => simp at he
    · next he => simp at he; exact absurd he.1 hd
    · next he => simp at he
    · next he => simp at he
    · next he =>
      simp only [List.cons.injEq] at he
      obtain ⟨-, rfl⟩ := he
      rw [hw.1, hw.2]
      rfl

theorem loop_piece (names : List (List Char)) (p : Piece) (hp : p.Ok ∧ p.Known names) (n : Nat)
    (fs : List Frag) (t : List Char) (hn : n > (p.write ++ t).length) :
    ∃ m, m > t.length ∧ loop names n fs (p.write ++ t) = loop names m (step names fs p) t := by
  cases p with
  | lit c =>
    refine ⟨n, ?_, loop_lit names n fs c t hp.1.1 hp.1.2⟩
    simp [Piece.write] at hn; omega
  | openBrace =>
    cases n with
    | zero => simp at hn
    | succ n =>
      refine ⟨n, ?_, ?_⟩
      · simp [Piece.write] at hn; omega
      · simp [Piece.write, loop, brace, step]
  | closeBrace =>
    cases n with
    | zero => simp at hn
    | succ n =>
      refine ⟨n, ?_, ?_⟩
      · simp [Piece.write] at hn; omega
      · simp [Piece.write, loop, brace, step]
  | var a x b =>
    cases n with
    | zero => simp at hn
    | succ n =>
      refine ⟨n, ?_, ?_⟩
      · simp [Piece.write] at hn; omega
      · obtain ⟨i, hi⟩ := mem_findIdx names x hp.2
        have := loop_open names n fs (a ++ x ++ b) t hp.1.2
        rw [trim_surrounded a x b hp.1.1, hi] at this
        simp only [step, hi, Option.getD_some]
        simpa [Piece.write] using this

theorem loop_pieces (names : List (List Char)) (ps : List Piece) (hp : Good names ps) :
    ∀ (n : Nat) (fs : List Frag) (t : List Char), n > (text ps ++ t).length →
      ∃ m, m > t.length ∧ loop names n fs (text ps ++ t) = loop names m (ps.foldl (step names) fs) t := by
  induction ps with
  | nil => intro n fs t hn; exact ⟨n, by simpa [text] using hn, by simp [text]⟩
  | cons p ps ih =>
    intro n fs t hn
    have e : text (p :: ps) ++ t = p.write ++ (text ps ++ t) := by simp [text]
    rw [e] at hn ⊢
    obtain ⟨m, hm, h1⟩ := loop_piece names p (hp p (by simp)) n fs (text ps ++ t) hn
    obtain ⟨k, hk, h2⟩ := ih (fun q hq => hp q (by simp [hq])) m (step names fs p) t hm
    exact ⟨k, hk, by rw [h1, h2]; rfl⟩

theorem parse_pieces (names : List (List Char)) (ps : List Piece) (hp : Good names ps) :
    parse names (text ps) = .ok (ps.foldl (step names) []) := by
  obtain ⟨m, hm, h⟩ := loop_pieces names ps hp ((text ps).length + 1) [] [] (by simp)
  rw [List.append_nil] at h
  rw [parse, h]
  cases m with
  | zero => simp at hm
  | succ m => rfl

/-- What comes after the pieces in order, if anything: each ends the parse with its own error. -/
inductive Bad (names : List (List Char)) : List Char → Err → Prop
  | close (r) (h : ∀ q, r ≠ '}' :: q) : Bad names ('}' :: r) .unmatchedClose
  | opened (r) (h : Inner r) : Bad names ('{' :: r) .unmatchedOpen
  | unknown (a n b r) (h1 : Surrounded a n b) (h2 : Inner (a ++ n ++ b)) (h3 : n ∉ names) :
      Bad names ((Piece.var a n b).write ++ r) (.unknown n)

theorem loop_bad (names : List (List Char)) (t : List Char) (e : Err) (h : Bad names t e) (n : Nat)
    (hn : n > t.length) (fs : List Frag) : loop names n fs t = .error e := by
  cases n with
  | zero => simp at hn
  | succ n =>
    cases h with
    | close r h =>
      cases r with
      | nil => simp [loop, brace]
      | cons c r =>
        have hc : c ≠ '}' := fun e => h r (by rw [e])
        simp only [loop, List.takeWhile_cons, List.dropWhile_cons, show brace '}' = true from rfl,
          Bool.not_true, Bool.false_eq_true, if_false]
    | opened r h =>
      have hd : ∀ r : List Char, '}' ∉ r → r.dropWhile (fun c => c != '}') = [] := by
        intro r hr
        induction r with
        | nil => rfl
        | cons c r ih =>
          simp only [List.mem_cons, not_or] at hr
          simp only [List.dropWhile_cons, bne_iff_ne, ne_eq, Ne.symm hr.1, not_false_eq_true, if_true]
          exact ih hr.2
      cases r with
      | nil => simp [loop, brace]
      | cons c r =>
        have hc : c ≠ '{' := fun e => h.2 r (by rw [e])
        simp only [loop, List.takeWhile_cons, List.dropWhile_cons, show brace '{' = true from rfl,
          Bool.not_true, Bool.false_eq_true, if_false]
        split
        · next he => simp at he
        · next he => simp at he; exact absurd he.1 hc
        · next he => simp at he
        · next he => simp at he
        · next he =>
          simp only [List.cons.injEq] at he
          obtain ⟨-, rfl⟩ := he
          rw [hd _ h.1]
    | unknown a x b r h1 h2 h3 =>
      have := loop_open names n fs (a ++ x ++ b) r h2
      rw [trim_surrounded a x b h1] at this
      have hf : (names.findIdx? fun y => y == x) = none := by
        rw [List.findIdx?_eq_none_iff]
        intro y hy
        simp only [beq_eq_false_iff_ne, ne_eq]
        intro e; exact h3 (e ▸ hy)
      rw [hf] at this
      simp only [Piece.write, List.cons_append, List.append_assoc, List.nil_append] at this ⊢
      exact this

theorem split_close (r : List Char) : '}' ∉ r ∨ ∃ t q, r = t ++ '}' :: q ∧ '}' ∉ t := by
  induction r with
  | nil => simp
  | cons c r ih =>
    by_cases hc : c = '}'
    · exact .inr ⟨[], r, by simp [hc], by simp⟩
    · rcases ih with h | ⟨t, q, h1, h2⟩
      · left; simp [h, Ne.symm hc]
      · exact .inr ⟨c :: t, q, by simp [h1], by simp [h2, Ne.symm hc]⟩

theorem good_cons (names : List (List Char)) (p : Piece) (ps : List Piece) (h : p.Ok ∧ p.Known names)
    (hs : Good names ps) : Good names (p :: ps) := by
  intro q hq; rcases List.mem_cons.mp hq with rfl | hq
  · exact h
  · exact hs q hq

/-- Every text is pieces in order up to its end, or up to the first thing out of order. -/
theorem decompose (names : List (List Char)) : ∀ (k : Nat) (s : List Char), s.length < k →
    ∃ ps, Good names ps ∧ (s = text ps ∨ ∃ t e, s = text ps ++ t ∧ Bad names t e) := by
  intro k
  induction k with
  | zero => intro s hs; omega
  | succ k ih =>
    intro s hs
    have next : ∀ (p : Piece) (r : List Char), s = p.write ++ r → r.length < s.length →
        p.Ok ∧ p.Known names →
        ∃ ps, Good names ps ∧ (s = text ps ∨ ∃ t e, s = text ps ++ t ∧ Bad names t e) := by
      intro p r hr hl hp
      obtain ⟨ps, h1, h2⟩ := ih r (by omega)
      refine ⟨p :: ps, good_cons names p ps hp h1, ?_⟩
      rcases h2 with h2 | ⟨t, e, h2, h3⟩
      · left; rw [hr, h2]; simp [text]
      · right; exact ⟨t, e, by rw [hr, h2]; simp [text], h3⟩
    have bad : ∀ e, Bad names s e →
        ∃ ps, Good names ps ∧ (s = text ps ∨ ∃ t e, s = text ps ++ t ∧ Bad names t e) :=
      fun e he => ⟨[], by simp [Good], .inr ⟨s, e, by simp [text], he⟩⟩
    cases s with
    | nil => exact ⟨[], by simp [Good], .inl (by simp [text])⟩
    | cons c r =>
      by_cases hc : c = '}'
      · subst hc
        cases r with
        | nil => exact bad _ (.close [] (by simp))
        | cons d r =>
          by_cases hd : d = '}'
          · subst hd; exact next .closeBrace r rfl (by simp; omega) ⟨trivial, trivial⟩
          · exact bad _ (.close _ (by intro q hq; simp at hq; exact hd hq.1))
      · by_cases ho : c = '{'
        · subst ho
          by_cases h2 : ∃ q, r = '{' :: q
          · obtain ⟨q, rfl⟩ := h2
            exact next .openBrace q rfl (by simp; omega) ⟨trivial, trivial⟩
          · have h2' : ∀ q, r ≠ '{' :: q := fun q hq => h2 ⟨q, hq⟩
            rcases split_close r with h3 | ⟨t, q, rfl, h3⟩
            · exact bad _ (.opened r ⟨h3, h2'⟩)
            · have hi : Inner t := ⟨h3, fun u hu => h2' (u ++ '}' :: q) (by simp [hu])⟩
              obtain ⟨a, b, hab, hsur⟩ := surrounded_trim t
              rw [hab] at hi
              have hw : '{' :: (t ++ '}' :: q) = (Piece.var a (trim t) b).write ++ q := by
                conv_lhs => rw [hab]
                simp [Piece.write]
              by_cases hk : trim t ∈ names
              · exact next (.var a (trim t) b) q hw (by simp; omega) ⟨⟨hsur, hi⟩, hk⟩
              · rw [hw] at bad ⊢
                exact bad _ (.unknown a (trim t) b q hsur hi hk)
        · exact next (.lit c) r rfl (by simp) ⟨⟨ho, hc⟩, trivial⟩

theorem parse_bad (names : List (List Char)) (ps : List Piece) (hp : Good names ps) (t : List Char)
    (e : Err) (h : Bad names t e) : parse names (text ps ++ t) = .error e := by
  obtain ⟨m, hm, h1⟩ := loop_pieces names ps hp ((text ps ++ t).length + 1) [] t (by simp)
  rw [parse, h1, loop_bad names t e h m hm]

/-- A format string is accepted exactly if it consists of pieces in order whose names are known. -/
theorem parses_iff (names : List (List Char)) (s : List Char) :
    (∃ f, parse names s = .ok f) ↔ ∃ ps, Good names ps ∧ s = text ps := by
  constructor
  · rintro ⟨f, hf⟩
    obtain ⟨ps, hp, h | ⟨t, e, h, hb⟩⟩ := decompose names (s.length + 1) s (by omega)
    · exact ⟨ps, hp, h⟩
    · rw [h, parse_bad names ps hp t e hb] at hf; cases hf
  · rintro ⟨ps, hp, rfl⟩
    exact ⟨_, parse_pieces names ps hp⟩

theorem error_iff (names : List (List Char)) (s : List Char) (e : Err) :
    parse names s = .error e ↔ ∃ ps t, Good names ps ∧ s = text ps ++ t ∧ Bad names t e := by
  constructor
  · intro hf
    obtain ⟨ps, hp, h | ⟨t, e', h, hb⟩⟩ := decompose names (s.length + 1) s (by omega)
    · rw [h, parse_pieces names ps hp] at hf; cases hf
    · rw [h, parse_bad names ps hp t e' hb] at hf
      injection hf with hf
      exact ⟨ps, t, hp, h, hf ▸ hb⟩
  · rintro ⟨ps, t, hp, rfl, hb⟩
    exact parse_bad names ps hp t e hb

/-- Parsing ends. -/
theorem parse_ends (names : List (List Char)) (s : List Char) : parse names s ≠ .error .fuel := by
  intro h
  obtain ⟨ps, t, -, -, hb⟩ := (error_iff names s .fuel).mp h
  cases hb

/-- A closing brace without a partner is reported exactly if what comes before it is in order. -/
theorem unmatched_close_iff (names : List (List Char)) (s : List Char) :
    parse names s = .error .unmatchedClose ↔
      ∃ ps r, Good names ps ∧ s = text ps ++ '}' :: r ∧ ∀ q, r ≠ '}' :: q := by
  rw [error_iff]
  constructor
  · rintro ⟨ps, t, hp, h, hb⟩; cases hb with | close r hr => exact ⟨ps, r, hp, h, hr⟩
  · rintro ⟨ps, r, hp, h, hr⟩; exact ⟨ps, _, hp, h, .close r hr⟩

/-- So is an opening brace that nothing closes. -/
theorem unmatched_open_iff (names : List (List Char)) (s : List Char) :
    parse names s = .error .unmatchedOpen ↔
      ∃ ps r, Good names ps ∧ s = text ps ++ '{' :: r ∧ Inner r := by
  rw [error_iff]
  constructor
  · rintro ⟨ps, t, hp, h, hb⟩; cases hb with | opened r hr => exact ⟨ps, r, hp, h, hr⟩
  · rintro ⟨ps, r, hp, h, hr⟩; exact ⟨ps, _, hp, h, .opened r hr⟩

/-- And the first name that is not known. -/
theorem unknown_iff (names : List (List Char)) (s n : List Char) :
    parse names s = .error (.unknown n) ↔
      ∃ ps a b r, Good names ps ∧ s = text ps ++ ((Piece.var a n b).write ++ r) ∧
        (Piece.var a n b).Ok ∧ n ∉ names := by
  rw [error_iff]
  constructor
  · rintro ⟨ps, t, hp, h, hb⟩
    cases hb with | unknown a _ b r h1 h2 h3 => exact ⟨ps, a, b, r, hp, h, ⟨h1, h2⟩, h3⟩
  · rintro ⟨ps, a, b, r, hp, h, ⟨h1, h2⟩, h3⟩; exact ⟨ps, _, hp, h, .unknown a n b r h1 h2 h3⟩

/-! Formatting -/

theorem format_append (args : List (List Char)) (fs gs : List Frag) (x y : List Char)
    (h1 : format args fs = some x) (h2 : format args gs = some y) :
    format args (fs ++ gs) = some (x ++ y) := by
  induction fs generalizing x with
  | nil => simp [format] at h1; subst h1; simpa using h2
  | cons f fs ih =>
    cases f with
    | str s =>
      simp only [format, Option.map_eq_some_iff, List.cons_append] at h1 ⊢
      obtain ⟨r, hr, rfl⟩ := h1
      exact ⟨_, ih r hr, by simp⟩
    | var i =>
      simp only [format, List.cons_append] at h1 ⊢
      cases ha : args[i]? with
      | none => simp [ha] at h1
      | some a =>
        simp only [ha, Option.map_eq_some_iff] at h1 ⊢
        obtain ⟨r, hr, rfl⟩ := h1
        exact ⟨_, ih r hr, by simp⟩

theorem format_pushStr (args : List (List Char)) (fs : List Frag) (s x : List Char)
    (h : format args fs = some x) : format args (pushStr fs s) = some (x ++ s) := by
  unfold pushStr
  split
  · next t ht =>
    obtain ⟨gs, rfl⟩ := List.getLast?_eq_some_iff.mp ht
    rw [List.dropLast_concat]
    clear ht
    induction gs generalizing x with
    | nil => simp [format] at h ⊢; rw [← h]
    | cons f gs ih =>
      cases f with
      | str u =>
        simp only [format, Option.map_eq_some_iff, List.cons_append] at h ⊢
        obtain ⟨r, hr, rfl⟩ := h
        exact ⟨_, ih r hr, by simp⟩
      | var i =>
        simp only [format, List.cons_append] at h ⊢
        cases ha : args[i]? with
        | none => simp [ha] at h
        | some a =>
          simp only [ha, Option.map_eq_some_iff] at h ⊢
          obtain ⟨r, hr, rfl⟩ := h
          exact ⟨_, ih r hr, by simp⟩
  · exact format_append args fs [.str s] x s h (by simp [format])

theorem lookup_zip (n : List Char) (names args : List (List Char)) (hl : args.length = names.length)
    (h : n ∈ names) : ∃ i, (names.findIdx? fun x => x == n) = some i ∧
      args[i]? = some (((names.zip args).lookup n).getD []) := by
  induction names generalizing args with
  | nil => simp at h
  | cons m names ih =>
    cases args with
    | nil => simp at hl
    | cons a args =>
      by_cases e : m = n
      · subst e; exact ⟨0, by simp [List.findIdx?_cons], by simp [List.lookup]⟩
      · have hm : n ∈ names := by
          rcases List.mem_cons.mp h with h | h
          · exact absurd h.symm e
          · exact h
        obtain ⟨i, h1, h2⟩ := ih args (by simpa using hl) hm
        refine ⟨i + 1, by simp [List.findIdx?_cons, e, h1], ?_⟩
        have e' : (n == m) = false := by simp [Ne.symm e]
        simp [List.lookup, e', h2]

theorem format_steps (names args : List (List Char)) (hl : args.length = names.length)
    (ps : List Piece) (hp : Good names ps) (fs : List Frag) (x : List Char)
    (h : format args fs = some x) :
    format args (ps.foldl (step names) fs) = some (x ++ ps.flatMap (Piece.meaning names args)) := by
  induction ps generalizing fs x with
  | nil => simpa using h
  | cons p ps ih =>
    have key : format args (step names fs p) = some (x ++ p.meaning names args) := by
      cases p with
      | lit c => exact format_pushStr args fs _ x h
      | openBrace => exact format_pushStr args fs _ x h
      | closeBrace => exact format_pushStr args fs _ x h
      | var a n b =>
        obtain ⟨i, h1, h2⟩ := lookup_zip n names args hl (hp (.var a n b) (by simp)).2
        simp only [step, h1, Option.getD_some]
        have := format_append args (pushStr fs []) [.var i] (x ++ []) _
          (format_pushStr args fs [] x h) (show format args [.var i] = some _ by
            simp only [format, h2]; rfl)
        simpa [Piece.meaning] using this
    have := ih (fun q hq => hp q (by simp [hq])) _ _ key
    simpa using this

/-- Formatting gives each piece its meaning, and never reads beyond the arguments. Nothing in
the arguments is interpreted. -/
theorem format_eq (names args : List (List Char)) (hl : args.length = names.length)
    (ps : List Piece) (hp : Good names ps) :
    ∃ f, parse names (text ps) = .ok f ∧
      format args f = some (ps.flatMap (Piece.meaning names args)) :=
  ⟨_, parse_pieces names ps hp, by simpa using format_steps names args hl ps hp [] [] rfl⟩

/-- Any text with its braces doubled stands for itself. -/
theorem format_escape (names args : List (List Char)) (hl : args.length = names.length)
    (s : List Char) :
    ∃ f, parse names (escape s) = .ok f ∧ format args f = some s := by
  have : ∃ ps, Good names ps ∧ escape s = text ps ∧ ps.flatMap (Piece.meaning names args) = s := by
    induction s with
    | nil => exact ⟨[], by simp [Good], rfl, rfl⟩
    | cons c s ih =>
      obtain ⟨ps, h1, h2, h3⟩ := ih
      by_cases ho : c = '{'
      · subst ho
        exact ⟨.openBrace :: ps, good_cons _ _ _ ⟨trivial, trivial⟩ h1,
          by simp [escape, h2, text, Piece.write], by simp [Piece.meaning, h3]⟩
      · by_cases hc : c = '}'
        · subst hc
          exact ⟨.closeBrace :: ps, good_cons _ _ _ ⟨trivial, trivial⟩ h1,
            by simp [escape, h2, text, Piece.write], by simp [Piece.meaning, h3]⟩
        · exact ⟨.lit c :: ps, good_cons _ _ _ ⟨⟨ho, hc⟩, trivial⟩ h1,
            by simp [escape, h2, text, Piece.write, ho, hc], by simp [Piece.meaning, h3]⟩
  obtain ⟨ps, h1, h2, h3⟩ := this
  obtain ⟨f, h4, h5⟩ := format_eq names args hl ps h1
  exact ⟨f, by rw [h2, h4], by rw [h5, h3]⟩

/-! Equality of formats -/

/-- Fragments as characters and variables. -/
def flat : List Frag → List (Char ⊕ Nat)
  | [] => []
  | .str s :: fs => s.map .inl ++ flat fs
  | .var i :: fs => .inr i :: flat fs

theorem flat_append (fs gs : List Frag) : flat (fs ++ gs) = flat fs ++ flat gs := by
  induction fs with
  | nil => rfl
  | cons f fs ih => cases f <;> simp [flat, ih]

theorem flat_pushStr (fs : List Frag) (s : List Char) :
    flat (pushStr fs s) = flat fs ++ s.map .inl := by
  unfold pushStr
  split
  · next t ht =>
    obtain ⟨gs, rfl⟩ := List.getLast?_eq_some_iff.mp ht
    rw [List.dropLast_concat]
    simp [flat_append, flat]
  · simp [flat_append, flat]

def Piece.code (names : List (List Char)) : Piece → Char ⊕ Nat
  | .lit c => .inl c
  | .openBrace => .inl '{'
  | .closeBrace => .inl '}'
  | .var _ n _ => .inr ((names.findIdx? fun x => x == n).getD 0)

theorem flat_steps (names : List (List Char)) (ps : List Piece) (fs : List Frag) :
    flat (ps.foldl (step names) fs) = flat fs ++ ps.map (Piece.code names) := by
  induction ps generalizing fs with
  | nil => simp
  | cons p ps ih =>
    have : flat (step names fs p) = flat fs ++ [p.code names] := by
      cases p <;> simp [step, Piece.code, flat_pushStr, flat_append, flat]
    simp [ih, this]

theorem code_eq (names : List (List Char)) (p q : Piece) (hp : p.Ok ∧ p.Known names)
    (hq : q.Ok ∧ q.Known names) : p.code names = q.code names ↔ p.Same q := by
  cases p <;> cases q <;> simp_all [Piece.code, Piece.Same, Piece.Ok, Piece.Known]
  case openBrace.lit => exact fun e => hq.1 e.symm
  case closeBrace.lit => exact fun e => hq.2 e.symm
  case var.var a n b c m d =>
    obtain ⟨i, hi⟩ := mem_findIdx names n hp.2
    obtain ⟨j, hj⟩ := mem_findIdx names m hq.2
    constructor
    · intro e
      rw [hi, hj] at e
      simp only [Option.getD_some] at e
      subst e
      have h1 := List.findIdx?_eq_some_iff_getElem.mp hi
      have h2 := List.findIdx?_eq_some_iff_getElem.mp hj
      obtain ⟨_, h1, _⟩ := h1
      obtain ⟨_, h2, _⟩ := h2
      simp only [beq_iff_eq] at h1 h2
      rw [← h1, h2]
    · rintro rfl; rfl

theorem step_same (names : List (List Char)) (p q : Piece) (h : p.Same q) (fs : List Frag) :
    step names fs p = step names fs q := by
  cases p <;> cases q <;> simp_all [Piece.Same, step]

/-- Two format strings give equal formats exactly if they differ in blanks around names only. -/
theorem formats_eq_iff (names : List (List Char)) (ps qs : List Piece) (hp : Good names ps)
    (hq : Good names qs) :
    parse names (text ps) = parse names (text qs) ↔ List.Forall₂ Piece.Same ps qs := by
  rw [parse_pieces names ps hp, parse_pieces names qs hq]
  constructor
  · intro h
    injection h with h
    have := congrArg flat h
    simp only [flat_steps, flat, List.nil_append] at this
    clear h
    induction ps generalizing qs with
    | nil =>
      cases qs with
      | nil => exact .nil
      | cons q qs => simp at this
    | cons p ps ih =>
      cases qs with
      | nil => simp at this
      | cons q qs =>
        simp only [List.map_cons, List.cons.injEq] at this
        exact .cons ((code_eq names p q (hp p (by simp)) (hq q (by simp))).mp this.1)
          (ih qs (fun r hr => hp r (by simp [hr])) (fun r hr => hq r (by simp [hr])) this.2)
  · intro h
    congr 1
    have : ∀ fs, ps.foldl (step names) fs = qs.foldl (step names) fs := by
      clear hp hq
      induction h with
      | nil => intro fs; rfl
      | cons h1 _ ih => intro fs; simp only [List.foldl_cons, step_same names _ _ h1, ih]
    exact this []

/-- A text is to be read in one way only. -/
theorem unambiguous (names : List (List Char)) (ps qs : List Piece) (hp : Good names ps)
    (hq : Good names qs) (h : text ps = text qs) : List.Forall₂ Piece.Same ps qs :=
  (formats_eq_iff names ps qs hp hq).mp (by rw [h])

/-! Concrete cases -/

def s (t : String) : List Char := t.toList

example : (parse [s "arg1", s "arg2"] (s "/{arg2}/{{{ arg1 }")).toOption.bind
    (format [s "a{", s "b"]) = some (s "/b/{a{") := by decide
example : parse [s "a"] (s "x}y") = .error .unmatchedClose := by decide
example : parse [s "a"] (s "x{ay") = .error .unmatchedOpen := by decide
example : parse [s "a"] (s "{a}{ b }") = .error (.unknown (s "b")) := by decide
example : parse [s "a"] (s "{a}") = .ok [.str [], .var 0] := by decide
/-- The hypotheses of `format_eq` for a text with all kinds of pieces. -/
example : Good [s "a"] [.lit 'x', .openBrace, .closeBrace, .var [' '] (s "a") []] := by
  simp only [Good, List.mem_cons, List.not_mem_nil, or_false, forall_eq_or_imp, forall_eq,
    Piece.Ok, Piece.Known, Surrounded, Inner]
  refine ⟨by decide, by decide, by decide, ⟨⟨?_, by simp, ?_, ?_⟩, by decide, ?_⟩, by decide⟩
  · right; decide
  · intro c r h; simp only [s] at h; rw [← isWs_iff]; cases h; decide
  · intro c r h
    have : c = 'a' := by
      have := congrArg List.getLast? h
      simp [s] at this
      exact this.symm
    subst this; rw [← isWs_iff]; decide
  · intro r h; cases h

end Verif.Fmt

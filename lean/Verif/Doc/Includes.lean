import Verif.Doc.Main

/-!
# Theorems: includes
-/

namespace Verif.Doc
open Spec

/-! ## The order -/

section Lex
variable {α : Type} [DecidableEq α] {lt : α → α → Bool}

theorem lexLt_irrefl (l : List α) : lexLt lt l l = false := by
  induction l with
  | nil => rfl
  | cons a l ih => simp [lexLt, ih]

theorem lexLt_total (h : ∀ a b, a ≠ b → lt a b = true ∨ lt b a = true) :
    ∀ a b : List α, a ≠ b → lexLt lt a b = true ∨ lexLt lt b a = true
  | [], [], hn => absurd rfl hn
  | [], _ :: _, _ => .inl rfl
  | _ :: _, [], _ => .inr rfl
  | a :: as, b :: bs, hn => by
    by_cases hab : a = b
    · subst hab
      have := lexLt_total h as bs fun e => hn (by rw [e])
      simpa [lexLt] using this
    · simpa [lexLt, hab, Ne.symm hab] using h a b hab

theorem lexLt_trans (hi : ∀ a, lt a a = false)
    (h : ∀ a b c, lt a b = true → lt b c = true → lt a c = true) :
    ∀ a b c : List α, lexLt lt a b = true → lexLt lt b c = true → lexLt lt a c = true
  | _, [], _, h1, _ => by simp [lexLt] at h1
  | _, _ :: _, [], _, h2 => by simp [lexLt] at h2
  | [], _ :: _, _ :: _, _, _ => rfl
  | a :: as, b :: bs, c :: cs, h1, h2 => by
    unfold lexLt at h1 h2 ⊢
    by_cases hab : a = b
    · subst hab
      rw [if_pos rfl] at h1
      by_cases hac : a = c
      · subst hac
        rw [if_pos rfl] at h2 ⊢
        exact lexLt_trans hi h _ _ _ h1 h2
      · rw [if_neg hac] at h2 ⊢
        exact h2
    · rw [if_neg hab] at h1
      by_cases hbc : b = c
      · subst hbc
        rw [if_neg hab]
        exact h1
      · rw [if_neg hbc] at h2
        have hac : a ≠ c := by
          rintro rfl
          have := h _ _ _ h1 h2
          rw [hi] at this
          exact absurd this (by simp)
        rw [if_neg hac]
        exact h _ _ _ h1 h2

end Lex

theorem strLt_irrefl (a : Str) : strLt a a = false := lexLt_irrefl a

theorem strLt_total {a b : Str} (h : a ≠ b) : strLt a b = true ∨ strLt b a = true := by
  apply lexLt_total _ a b h
  intro c d hcd
  simp only [decide_eq_true_eq]
  rcases Nat.lt_trichotomy c.val.toNat d.val.toNat with h | h | h
  · exact .inl h
  · exact absurd (Char.ext (UInt32.toNat_inj.1 h)) hcd
  · exact .inr h

theorem strLt_trans {a b c : Str} (h1 : strLt a b = true) (h2 : strLt b c = true) :
    strLt a c = true := by
  refine lexLt_trans ?_ ?_ a b c h1 h2
  · intro c
    simp
  · intro x y z hx hy
    simp only [decide_eq_true_eq] at hx hy ⊢
    exact Nat.lt_trans hx hy

theorem key_inj {i j : Include} (h : i.key = j.key) : i = j := by
  have d : Char.ofNat 0 ≠ Char.ofNat 1 ∧ Char.ofNat 0 ≠ Char.ofNat 2 ∧
      Char.ofNat 0 ≠ Char.ofNat 3 ∧ Char.ofNat 1 ≠ Char.ofNat 2 ∧
      Char.ofNat 1 ≠ Char.ofNat 3 ∧ Char.ofNat 2 ≠ Char.ofNat 3 := by decide
  obtain ⟨d1, d2, d3, d4, d5, d6⟩ := d
  cases i <;> cases j <;>
    simp only [Include.key, List.cons.injEq, and_true, true_and, reduceCtorEq, and_false,
      d1, d2, d3, d4, d5, d6, Ne.symm d1, Ne.symm d2, Ne.symm d3, Ne.symm d4, Ne.symm d5,
      Ne.symm d6, false_and] at h
  · rw [h]
  · rw [h]
  · rw [h.1, h.2.1, h.2.2]
  · rw [h]

theorem lt_irrefl (i : Include) : i.lt i = false := lexLt_irrefl _

theorem lt_total {i j : Include} (h : i ≠ j) : i.lt j = true ∨ j.lt i = true :=
  lexLt_total (fun _ _ => strLt_total) _ _ fun e => h (key_inj e)

theorem lt_trans {i j k : Include} (h1 : i.lt j = true) (h2 : j.lt k = true) : i.lt k = true :=
  lexLt_trans strLt_irrefl (fun _ _ _ => strLt_trans) _ _ _ h1 h2

/-- Earlier groups come first. -/
theorem lt_group {i j : Include} (h : i.lt j = true) : group i ≤ group j := by
  cases i <;> cases j <;> simp [group] <;>
    exact absurd h (by simp [Include.lt, Include.key, lexLt, strLt])

/-! ## The set -/

theorem mem_insert {i j : Include} {s : List Include} : j ∈ insert i s ↔ j = i ∨ j ∈ s := by
  induction s with
  | nil => simp [insert]
  | cons k r ih =>
    unfold insert
    split
    · rename_i h; subst h; simp
    · split
      · simp
      · simp only [List.mem_cons, ih]
        constructor
        · rintro (h | h | h) <;> simp [h]
        · rintro (h | h | h) <;> simp [h]

theorem insert_sorted {i : Include} {s : List Include} (h : s.Pairwise (·.lt · = true)) :
    (insert i s).Pairwise (·.lt · = true) := by
  induction s with
  | nil => simp [insert]
  | cons k r ih =>
    have hk := List.pairwise_cons.1 h
    unfold insert
    split
    · exact h
    · rename_i hne
      split
      · rename_i hlt
        refine List.pairwise_cons.2 ⟨?_, h⟩
        intro j hj
        rcases List.mem_cons.1 hj with rfl | hj
        · exact hlt
        · exact lt_trans hlt (hk.1 j hj)
      · rename_i hlt
        refine List.pairwise_cons.2 ⟨?_, ih hk.2⟩
        intro j hj
        rcases mem_insert.1 hj with rfl | hj
        · exact (lt_total hne).resolve_left hlt
        · exact hk.1 j hj

theorem foldl_set (is : List Include) : ∀ s : List Include, s.Pairwise (·.lt · = true) →
    (is.foldl (fun s i => insert i s) s).Pairwise (·.lt · = true) ∧
    ∀ i, i ∈ is.foldl (fun s i => insert i s) s ↔ i ∈ is ∨ i ∈ s := by
  induction is with
  | nil => intro s h; exact ⟨h, by simp⟩
  | cons a is ih =>
    intro s h
    obtain ⟨h1, h2⟩ := ih (insert a s) (insert_sorted h)
    refine ⟨h1, fun i => ?_⟩
    rw [List.foldl_cons, h2, mem_insert, List.mem_cons]
    constructor
    · rintro (h | h | h) <;> simp [h]
    · rintro ((h | h) | h) <;> simp [h]

theorem setOf_sorted (is : List Include) : (setOf is).Pairwise (·.lt · = true) :=
  (foldl_set is [] List.Pairwise.nil).1

theorem mem_setOf {is : List Include} {i : Include} : i ∈ setOf is ↔ i ∈ is := by
  have := (foldl_set is [] List.Pairwise.nil).2 i
  simpa [setOf] using this

theorem sorted_unique : ∀ {a b : List Include}, a.Pairwise (·.lt · = true) →
    b.Pairwise (·.lt · = true) → (∀ i, i ∈ a ↔ i ∈ b) → a = b
  | [], [], _, _, _ => rfl
  | [], y :: b, _, _, h => absurd ((h y).2 (by simp)) (by simp)
  | x :: a, [], _, _, h => absurd ((h x).1 (by simp)) (by simp)
  | x :: a, y :: b, ha, hb, h => by
    have ha' := List.pairwise_cons.1 ha
    have hb' := List.pairwise_cons.1 hb
    have asym : ∀ {i j : Include}, i.lt j = true → j.lt i = true → False := fun h1 h2 => by
      have := lt_trans h1 h2
      rw [lt_irrefl] at this
      exact absurd this (by simp)
    have hxy : x = y := by
      have h1 := (h x).1 (by simp)
      have h2 := (h y).2 (by simp)
      rcases List.mem_cons.1 h1 with e | h1
      · exact e
      · rcases List.mem_cons.1 h2 with e | h2
        · exact e.symm
        · exact (asym (hb'.1 x h1) (ha'.1 y h2)).elim
    subst hxy
    rw [sorted_unique ha'.2 hb'.2 fun i => ?_]
    constructor
    · intro hi
      rcases List.mem_cons.1 ((h i).1 (by simp [hi])) with rfl | h'
      · exact (asym (ha'.1 i hi) (ha'.1 i hi)).elim
      · exact h'
    · intro hi
      rcases List.mem_cons.1 ((h i).2 (by simp [hi])) with rfl | h'
      · exact (asym (hb'.1 i hi) (hb'.1 i hi)).elim
      · exact h'

/-- The includes do not depend on the order in which, or how often, the bindings ask
for them. -/
theorem includes_order_free (esc : Char → Str) {as bs : List Include}
    (h : ∀ i, i ∈ as ↔ i ∈ bs) : formatIncludes esc (setOf as) = formatIncludes esc (setOf bs) := by
  rw [sorted_unique (setOf_sorted as) (setOf_sorted bs) fun i => by rw [mem_setOf, mem_setOf, h]]

/-! ## The lines -/

theorem text_ne (esc : Char → Str) (i : Include) : i.text esc ≠ [] := by
  cases i <;> simp [Include.text, hashInclude]

theorem format_no_gap (esc : Char → Str) : ∀ {l : List Include}, (∀ i ∈ l, 0 < group i) →
    formatIncludes esc l = l.map (·.text esc)
  | [], _ => rfl
  | [i], _ => rfl
  | i :: j :: r, h => by
    have hi := h i (by simp)
    have := format_no_gap esc (l := j :: r) fun k hk => h k (by simp [hk])
    unfold formatIncludes
    split
    · simp [group] at hi
    · rw [this]; rfl

/-- The empty line before what follows the headers of C++. -/
def gap : List Include → List Str
  | .user _ :: _ => [[]]
  | _ => []

theorem format_system (esc : Char → Str) {r : List Include} (hr : ∀ i ∈ r, 0 < group i) :
    ∀ {l : List Include}, (∀ i ∈ l, group i = 0) → l ≠ [] →
    formatIncludes esc (l ++ r) = l.map (·.text esc) ++
      gap r ++ r.map (·.text esc)
  | [], _, hn => absurd rfl hn
  | [i], h, _ => by
    have hi := h i (by simp)
    cases i with
    | system p =>
      cases r with
      | nil => simp [gap, formatIncludes]
      | cons j r =>
        have := format_no_gap esc hr
        rw [List.singleton_append]
        cases j <;> simp [formatIncludes, this, gap]
    | user p => simp [group] at hi
    | support a b p => simp [group] at hi
    | exported p => simp [group] at hi
  | i :: j :: l, h, _ => by
    have ih := format_system esc hr (l := j :: l) (fun k hk => h k (by simp [hk])) (by simp)
    have hj := h j (by simp)
    rw [List.cons_append] at ih
    rw [List.cons_append, List.cons_append]
    unfold formatIncludes
    split
    · simp [group] at hj
    · rw [ih]; rfl

theorem split_sorted {n : Nat} : ∀ {l : List Include}, l.Pairwise (·.lt · = true) →
    (∀ i ∈ l, n ≤ group i) →
    l = l.filter (group · = n) ++ l.filter (n < group ·)
  | [], _, _ => rfl
  | i :: l, h, hn => by
    have h' := List.pairwise_cons.1 h
    have hi := hn i (by simp)
    rcases Nat.eq_or_lt_of_le hi with e | e
    · have := split_sorted h'.2 fun k hk => hn k (by simp [hk])
      rw [List.filter_cons_of_pos (by simp [← e]), List.filter_cons_of_neg (by simp [← e]),
        List.cons_append, ← this]
    · have all : ∀ k ∈ i :: l, n < group k := by
        intro k hk
        rcases List.mem_cons.1 hk with rfl | hk
        · exact e
        · exact Nat.lt_of_lt_of_le e (lt_group (h'.1 k hk))
      rw [List.filter_eq_nil_iff.2 (fun k hk => by
          have := all k hk
          simp only [decide_eq_true_eq]
          omega),
        List.filter_eq_self.2 (fun k hk => by simpa using all k hk)]
      rfl

/-- The lines: C++ headers; headers of the user, after an empty line if there are both;
support headers; re-exported headers. Each header that was asked for is there once,
sorted within its group. -/
theorem includes_exact (esc : Char → Str) (is : List Include) :
    ∃ g : Nat → List Include,
      (∀ n i, i ∈ g n ↔ i ∈ is ∧ group i = n) ∧ (∀ n, (g n).Pairwise (·.lt · = true)) ∧
      formatIncludes esc (setOf is) =
        (g 0).map (·.text esc) ++ (if g 0 ≠ [] ∧ g 1 ≠ [] then [[]] else []) ++
        (g 1).map (·.text esc) ++ (g 2).map (·.text esc) ++ (g 3).map (·.text esc) := by
  refine ⟨fun n => (setOf is).filter (group · = n), ?_, ?_, ?_⟩
  · intro n i
    simp [mem_setOf]
  · intro n
    exact (setOf_sorted is).filter _
  · have hs := setOf_sorted is
    generalize setOf is = s at hs
    have c0 := split_sorted (n := 0) hs (by simp)
    have hs1 := hs.filter (fun i => decide (0 < group i))
    have c1 := split_sorted (n := 1) hs1 (by
      intro i hi
      have := (List.mem_filter.1 hi).2
      simpa [Nat.succ_le_iff] using this)
    have hs2 := hs1.filter (fun i => decide (1 < group i))
    have c2 := split_sorted (n := 2) hs2 (by
      intro i hi
      have := (List.mem_filter.1 hi).2
      simpa [Nat.succ_le_iff] using this)
    have f1 : (s.filter (fun i => decide (0 < group i))).filter (group · = 1) =
        s.filter (group · = 1) := by
      rw [List.filter_filter]
      apply List.filter_congr
      intro i _
      rw [Bool.eq_iff_iff]
      simp only [Bool.and_eq_true, decide_eq_true_eq]
      omega
    have f2 : ((s.filter (fun i => decide (0 < group i))).filter
        (fun i => decide (1 < group i))).filter (group · = 2) = s.filter (group · = 2) := by
      rw [List.filter_filter, List.filter_filter]
      apply List.filter_congr
      intro i _
      rw [Bool.eq_iff_iff]
      simp only [Bool.and_eq_true, decide_eq_true_eq]
      omega
    have f3 : ((s.filter (fun i => decide (0 < group i))).filter
        (fun i => decide (1 < group i))).filter (fun i => decide (2 < group i)) =
        s.filter (group · = 3) := by
      rw [List.filter_filter, List.filter_filter]
      apply List.filter_congr
      intro i _
      rw [Bool.eq_iff_iff]
      simp only [Bool.and_eq_true, decide_eq_true_eq]
      have : group i ≤ 3 := by cases i <;> simp [group]
      omega
    rw [f1] at c1
    rw [f2, f3] at c2
    rw [c2] at c1
    rw [c1] at c0
    have hr : ∀ i ∈ s.filter (group · = 1) ++ (s.filter (group · = 2) ++ s.filter (group · = 3)),
        0 < group i := by
      intro i hi
      simp only [List.mem_append, List.mem_filter, decide_eq_true_eq] at hi
      omega
    by_cases h0 : s.filter (group · = 0) = []
    · rw [h0, List.nil_append] at c0
      have hf := (congrArg (formatIncludes esc) c0).trans (format_no_gap esc hr)
      simp only [hf, h0]
      simp
    · have hf := (congrArg (formatIncludes esc) c0).trans
        (format_system esc hr (by simp) h0)
      simp only [hf]
      have hgap : gap (s.filter (group · = 1) ++
            (s.filter (group · = 2) ++ s.filter (group · = 3))) =
          if s.filter (group · = 0) ≠ [] ∧ s.filter (group · = 1) ≠ [] then [[]] else [] := by
        cases h1 : s.filter (group · = 1) with
        | cons i r =>
          have hi : group i = 1 := by
            have : i ∈ s.filter (group · = 1) := by rw [h1]; simp
            simpa using (List.mem_filter.1 this).2
          cases i with
          | user p => simp [h0, gap]
          | system p => simp [group] at hi
          | support a b p => simp [group] at hi
          | exported p => simp [group] at hi
        | nil =>
          rw [List.nil_append]
          cases h2 : s.filter (group · = 2) ++ s.filter (group · = 3) with
          | nil => simp [gap]
          | cons i r =>
            have hi : group i = 2 ∨ group i = 3 := by
              have : i ∈ s.filter (group · = 2) ++ s.filter (group · = 3) := by rw [h2]; simp
              simp only [List.mem_append, List.mem_filter, decide_eq_true_eq] at this
              omega
            cases i with
            | user p => simp [group] at hi
            | system p => simp [gap]
            | support a b p => simp [gap]
            | exported p => simp [gap]
      rw [hgap]
      simp

/-! ## What a compiler reads -/

/-- A path between angle brackets is a header of C++; every other one is a header of
the user. -/
theorem fromPath_exact (p : Str) :
    (∃ q, p = "<".toList ++ q ++ ">".toList ∧ fromPath p = .system q) ∨
    ((∀ q, p ≠ "<".toList ++ q ++ ">".toList) ∧ fromPath p = .user p) := by
  have e1 : "<".toList = ['<'] := by decide +kernel
  have e2 : ">".toList = ['>'] := by decide +kernel
  rw [e1, e2]
  unfold fromPath
  split
  · rename_i h
    simp only [Bool.and_eq_true, decide_eq_true_eq] at h
    left
    cases p with
    | nil => simp at h
    | cons c s =>
      simp only [List.head?_cons, Option.some.injEq] at h
      obtain ⟨rfl, h⟩ := h
      rcases List.eq_nil_or_concat s with rfl | ⟨q, x, rfl⟩
      · simp at h
      · have : x = '>' := by
          rw [List.concat_eq_append, ← List.cons_append, List.getLast?_concat] at h
          simpa using h
        subst this
        refine ⟨q, by simp, by simp [List.take_append]⟩
  · rename_i h
    refine .inr ⟨?_, rfl⟩
    rintro q rfl
    apply h
    rw [List.getLast?_concat]
    rfl

theorem stop_unique {c : Char} {a b r s : Str} (ha : c ∉ a) (hb : c ∉ b)
    (h : a ++ c :: r = b ++ c :: s) : a = b ∧ r = s := by
  induction a generalizing b with
  | nil =>
    cases b with
    | nil => simpa using h
    | cons x b =>
      simp only [List.nil_append, List.cons_append, List.cons.injEq] at h
      exact absurd h.1 (fun e => hb (by simp [e]))
  | cons x a ih =>
    cases b with
    | nil =>
      simp only [List.nil_append, List.cons_append, List.cons.injEq] at h
      exact absurd h.1.symm (fun e => ha (by simp [e]))
    | cons y b =>
      simp only [List.cons_append, List.cons.injEq] at h
      obtain ⟨rfl, h⟩ := h
      have := ih (b := b) (fun e => ha (by simp [e])) (fun e => hb (by simp [e])) h
      exact ⟨by rw [this.1], this.2⟩

/-- An include in angle brackets is read as the path that was meant. -/
theorem system_read (esc : Char → Str) {p : Str} (hp : '>' ∉ p) (q : Str) :
    ReadsInclude ((Include.system p).text esc) true q ↔ q = p := by
  have e1 : "#include <".toList = hashInclude ++ ['<'] := by decide +kernel
  have e2 : ">".toList = ['>'] := by decide +kernel
  unfold ReadsInclude
  simp only [if_true, e1, e2, Include.text]
  constructor
  · rintro ⟨rest, _, hq, h⟩
    simp only [List.append_assoc, List.append_cancel_left_eq, List.cons_append, List.cons.injEq,
      true_and, List.nil_append] at h
    exact (stop_unique hp hq h).1.symm
  · rintro rfl
    exact ⟨[], .inl rfl, hp, by simp⟩

/-- An include in quotes is read as the escaped path: the one that was meant exactly
if no character of it is escaped. -/
theorem quoted_read (esc : Char → Str) {p : Str} (hp : '"' ∉ p.flatMap esc) (q : Str) (i : Include)
    (hi : i = .user p ∨ i = .exported p) :
    ReadsInclude (i.text esc) false q ↔ q = p.flatMap esc := by
  have e1 : "#include \"".toList = hashInclude ++ ['"'] := by decide +kernel
  have e2 : "\"".toList = ['"'] := by decide +kernel
  have main : ∀ rest : Str, (rest = [] ∨ ∃ r, rest = ' ' :: '/' :: '/' :: r) →
      (ReadsInclude (hashInclude ++ quote esc p ++ rest) false q ↔ q = p.flatMap esc) := by
    intro rest hrest
    unfold ReadsInclude quote
    simp only [Bool.false_eq_true, if_false, e1, e2]
    constructor
    · rintro ⟨rest', _, hq, h⟩
      simp only [List.append_assoc, List.append_cancel_left_eq, List.cons_append, List.cons.injEq,
        true_and, List.nil_append] at h
      exact (stop_unique hp hq h).1.symm
    · rintro rfl
      exact ⟨rest, hrest, hp, by simp⟩
  rcases hi with rfl | rfl
  · have := main [] (.inl rfl)
    simpa [Include.text] using this
  · exact main _ (.inr ⟨_, rfl⟩)

/-- Paths of characters that a literal does not escape are read as they are. -/
theorem plain_read (esc : Char → Str) {p : Str} (h : ∀ c ∈ p, esc c = [c] ∧ c ≠ '"') (i : Include)
    (hi : i = .user p ∨ i = .exported p) : ReadsInclude (i.text esc) false p := by
  have : p.flatMap esc = p := by
    clear hi
    induction p with
    | nil => rfl
    | cons c p ih =>
      rw [List.flatMap_cons, (h c (by simp)).1, ih fun d hd => h d (by simp [hd])]
      rfl
  rw [quoted_read esc (by
    rw [this]
    exact fun hc => (h _ hc).2 rfl) p i hi, this]

end Verif.Doc

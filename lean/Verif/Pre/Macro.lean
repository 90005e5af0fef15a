import Verif.Pre.Main

/-!
# Theorems: replaced macros
-/

namespace Verif.Pre
open Spec

theorem prefix_eq : "__clang_tidy_nullability_".toList = copyPrefix := by decide +kernel

theorem header_eq : "clang_tidy_nullability_replacement_macros.h".toList = headerName := by
  decide +kernel

theorem reserved_iff {n : Str} : copyPrefix.isPrefixOf n = true ↔ Reserved n := by
  rw [List.isPrefixOf_iff_prefix]
  unfold Reserved copyOf
  rw [prefix_eq]
  constructor
  · rintro ⟨x, hx⟩; exact ⟨x, hx.symm⟩
  · rintro ⟨x, rfl⟩; exact ⟨x, rfl⟩

theorem plain_snoc (es : List Event) (e : Event) (n : Str) :
    Plain (es ++ [e]) n =
      match e with
      | .define m b => if m = n then some b else Plain es n
      | .undef m => if m = n then none else Plain es n
      | _ => Plain es n := by
  simp only [Plain, List.reverse_append, List.reverse_cons, List.reverse_nil, List.nil_append,
    List.singleton_append]
  cases e <;> rfl

theorem run_snoc' (es : List Event) (e : Event) : run (es ++ [e]) = step (run es) e := by
  simp [run, List.foldl_append]

theorem snoc_of_ne {α : Type} {l : List α} (h : l ≠ []) : ∃ p x, l = p ++ [x] := by
  cases hr : l.reverse with
  | nil => exact absurd (by simpa using hr) h
  | cons x p => exact ⟨p.reverse, x, by have := congrArg List.reverse hr; simpa using this⟩

/-! ## The name of the header -/

theorem removeDotSlash_suffix : ∀ s : Str, ∃ r, r ++ removeDotSlash s = s := by
  intro s
  induction s using removeDotSlash.induct with
  | case1 c r ih =>
    obtain ⟨x, hx⟩ := ih
    rw [removeDotSlash]
    have := List.takeWhile_append_dropWhile (p := (· = '/')) (l := c :: r)
    refine ⟨'.' :: '/' :: ((c :: r).takeWhile (· = '/') ++ x), ?_⟩
    simp only [List.cons_append, List.append_assoc, hx, this]
  | case2 s h =>
    rw [removeDotSlash.eq_2 s (fun c r he => h c r he)]
    exact ⟨[], rfl⟩

theorem removeDotSlash_header : removeDotSlash headerName = headerName := by
  rw [removeDotSlash.eq_2]
  intro c r h
  simp [headerName] at h

theorem removeDotSlash_dots (k : Nat) :
    removeDotSlash ((List.replicate k ['.', '/']).flatten ++ headerName) = headerName := by
  induction k with
  | zero => simpa using removeDotSlash_header
  | succ k ih =>
    rw [List.replicate_succ, List.flatten_cons]
    have hc : ∃ c r, (List.replicate k ['.', '/']).flatten ++ headerName = c :: r ∧ c ≠ '/' := by
      cases k with
      | zero => exact ⟨_, _, rfl, by decide⟩
      | succ k => exact ⟨'.', _, by rw [List.replicate_succ, List.flatten_cons]; rfl, by decide⟩
    obtain ⟨c, r, hcr, hne⟩ := hc
    have : ['.', '/'] ++ (List.replicate k ['.', '/']).flatten ++ headerName =
        '.' :: '/' :: c :: r := by
      rw [List.append_assoc, hcr]; rfl
    rw [this, removeDotSlash, List.dropWhile_cons_of_neg (by simpa using hne), ← hcr, ih]

/-! ## The phases -/

theorem before_run {es : List Event}
    (h : ∀ n, .enter n ∈ es → ∀ r, ¬ r ++ headerName = n) :
    (run es).phase = .notSeen ∧ (run es).repl = [] ∧ ∀ n, (run es).table n = Plain es n := by
  induction es using snoc_induction with
  | h0 => exact ⟨rfl, rfl, fun _ => rfl⟩
  | h1 l e ih =>
    obtain ⟨i1, i2, i3⟩ := ih fun n hn => h n (by simp [hn])
    rw [run_snoc']
    cases e with
    | enter m =>
      have hm : removeDotSlash m ≠ headerName := by
        intro he
        obtain ⟨r, hr⟩ := removeDotSlash_suffix m
        rw [he] at hr
        exact h m (by simp) r hr
      simp only [step, fileChanged, i1, if_neg hm]
      exact ⟨by first | exact i1 | trivial, by first | exact i2 | trivial, fun n => by rw [plain_snoc]; exact i3 n⟩
    | exit =>
      simp only [step, fileChanged, i1]
      exact ⟨by first | exact i1 | trivial, by first | exact i2 | trivial, fun n => by rw [plain_snoc]; exact i3 n⟩
    | otherChange m =>
      exact ⟨by first | exact i1 | trivial, by first | exact i2 | trivial, fun n => by rw [plain_snoc]; exact i3 n⟩
    | define m b =>
      simp only [step, macroDefined, i1, i2, List.lookup_nil]
      refine ⟨by first | exact i1 | trivial, by trivial, fun n => ?_⟩
      rw [plain_snoc]
      simp only [Table.set, i3, eq_comm]
    | undef m =>
      refine ⟨i1, i2, fun n => ?_⟩
      rw [plain_snoc]
      simp only [step, Table.set, i3, eq_comm]

/-- In the header. -/
theorem header_run {es hs : List Event} (hd : ∀ e ∈ hs, ∃ n b, e = .define n b)
    (hp : (run es).phase = .inside) (hr : (run es).repl = [])
    (ht : ∀ n, (run es).table n = Plain es n) :
    (run (es ++ hs)).phase = .inside ∧
      (∀ n, (run (es ++ hs)).table n = Plain (es ++ hs) n) ∧
      (∀ n b, ¬ Reserved n → FirstDef hs n b → (run (es ++ hs)).repl.lookup n = some b) ∧
      (∀ n, (Reserved n ∨ ∀ b, .define n b ∉ hs) → (run (es ++ hs)).repl.lookup n = none) := by
  induction hs using snoc_induction with
  | h0 =>
    rw [List.append_nil]
    refine ⟨hp, ht, ?_, ?_⟩
    · rintro n b _ ⟨pre, post, h, _⟩; simp at h
    · simp [hr]
  | h1 l e ih =>
    obtain ⟨i1, i2, i3, i4⟩ := ih fun e he => hd e (by simp [he])
    obtain ⟨m, b, rfl⟩ := hd e (by simp)
    rw [← List.append_assoc, run_snoc']
    have hphase : (step (run (es ++ l)) (.define m b)).phase = .inside := by
      simp only [step, macroDefined, i1]
      split
      · rfl
      · split <;> rfl
    have htable : (step (run (es ++ l)) (.define m b)).table =
        (run (es ++ l)).table.set m (some b) := by
      simp only [step, macroDefined, i1]
      split
      · rfl
      · split <;> rfl
    have hrepl : (step (run (es ++ l)) (.define m b)).repl =
        if copyPrefix.isPrefixOf m then (run (es ++ l)).repl
        else match (run (es ++ l)).repl.lookup m with
          | some _ => (run (es ++ l)).repl
          | none => (m, b) :: (run (es ++ l)).repl := by
      simp only [step, macroDefined, i1]
      split
      · rfl
      · split
        · rename_i h; simp [h]
        · rename_i h; simp [h]
    refine ⟨hphase, ?_, ?_, ?_⟩
    · intro n
      rw [htable, plain_snoc]
      simp only [Table.set, i2, eq_comm]
    · rintro n c hn ⟨pre, post, hsplit, hpre⟩
      rw [hrepl]
      by_cases hpost : post = []
      · subst hpost
        have : l = pre ∧ Event.define m b = .define n c := by
          have := List.append_inj' hsplit rfl
          exact ⟨this.1, by simpa using this.2⟩
        obtain ⟨rfl, hmb⟩ := this
        cases hmb
        have hno : (run (es ++ l)).repl.lookup m = none := i4 m (.inr hpre)
        have : copyPrefix.isPrefixOf m = false := by
          rw [← Bool.not_eq_true, reserved_iff]; exact hn
        simp [this, hno]
      · obtain ⟨post', x, hx⟩ : ∃ p' x, post = p' ++ [x] := snoc_of_ne hpost
        subst hx
        have hl : l = pre ++ .define n c :: post' := by
          have : l ++ [Event.define m b] = (pre ++ .define n c :: post') ++ [x] := by
            simpa using hsplit
          exact (List.append_inj' this rfl).1
        have hlook := i3 n c hn ⟨pre, post', hl, hpre⟩
        split
        · exact hlook
        · split
          · exact hlook
          · rename_i hm
            have : (n == m) = false := by
              simp only [beq_eq_false_iff_ne]; rintro rfl; simp [hlook] at hm
            simp [List.lookup_cons, this, hlook]
    · intro n hn
      have hold : (run (es ++ l)).repl.lookup n = none := by
        refine i4 n (hn.imp_right fun h c hc => h c (by simp [hc]))
      rw [hrepl]
      split
      · exact hold
      · rename_i hm
        split
        · exact hold
        · have : (n == m) = false := by
            simp only [beq_eq_false_iff_ne]
            rintro rfl
            rcases hn with hn | hn
            · exact hm (reserved_iff.2 hn)
            · exact hn b (by simp)
          simp [List.lookup_cons, this, hold]

/-- After the header: what the table holds. -/
theorem rest_run {es rs : List Event} (hp : (run es).phase = .finished)
    (hres : ∀ n b, (run es).repl.lookup n = some b → ¬ Reserved n)
    (ht : ∀ n, (run es).table n = Plain es n)
    (hr : ∀ e ∈ rs, ∀ n, Touches n e → ¬ Reserved n) :
    (run (es ++ rs)).phase = .finished ∧ (run (es ++ rs)).repl = (run es).repl ∧
      (∀ n, ¬ Reserved n →
        ((run es).repl.lookup n = none ∨ ∀ e ∈ rs, ¬ Touches n e) →
        (run (es ++ rs)).table n = Plain (es ++ rs) n) ∧
      (∀ n b, (run es).repl.lookup n = some b → (∃ e ∈ rs, Touches n e) →
        (run (es ++ rs)).table n = (Plain (es ++ rs) n).map fun _ => b) ∧
      (∀ n h b, (run es).repl.lookup n = some h → LastDef rs n b →
        (run (es ++ rs)).table (copyOf n) = some b) ∧
      (∀ n, ((run es).repl.lookup n = none ∨ ∀ b, .define n b ∉ rs) →
        (run (es ++ rs)).table (copyOf n) = Plain es (copyOf n)) := by
  have hcopy : ∀ n, copyPrefix ++ n = copyOf n := fun n => by unfold copyOf; rw [prefix_eq]
  have hinj : ∀ {a b : Str}, copyOf a = copyOf b → a = b := fun h => by
    unfold copyOf at h; exact List.append_cancel_left h
  have hcr : ∀ n, Reserved (copyOf n) := fun n => ⟨n, rfl⟩
  induction rs using snoc_induction with
  | h0 =>
    rw [List.append_nil]
    refine ⟨hp, rfl, fun n _ _ => ht n, by simp, ?_, fun n _ => ht _⟩
    rintro n h b _ ⟨pre, post, hh, _⟩; simp at hh
  | h1 l e ih =>
    obtain ⟨i1, i2, i3, i4, i5, i6⟩ := ih fun e he => hr e (by simp [he])
    rw [← List.append_assoc, run_snoc']
    have hre := hr e (by simp)
    by_cases hq : ∃ m b, e = .define m b
    · obtain ⟨m, b, rfl⟩ := hq
      have hm : ¬ Reserved m := hre m rfl
      cases hlook : (run es).repl.lookup m with
      | none =>
        have hs : step (run (es ++ l)) (.define m b) =
            { run (es ++ l) with table := (run (es ++ l)).table.set m (some b) } := by
          simp only [step, macroDefined, i1, i2, hlook]
        rw [hs]
        refine ⟨i1, i2, ?_, ?_, ?_, ?_⟩
        · intro n hn hcase
          rw [plain_snoc]
          simp only [Table.set]
          by_cases hnm : n = m
          · subst hnm; simp
          · simp only [if_neg hnm, if_neg (Ne.symm hnm)]
            exact i3 n hn (hcase.imp_right fun h e he => h e (by simp [he]))
        · intro n c hc ⟨x, hx, hxt⟩
          have hnm : n ≠ m := by rintro rfl; simp [hlook] at hc
          rw [plain_snoc]
          simp only [Table.set, if_neg hnm, if_neg (Ne.symm hnm)]
          refine i4 n c hc ⟨x, ?_, hxt⟩
          rcases List.mem_append.1 hx with hx | hx
          · exact hx
          · simp only [List.mem_singleton] at hx
            subst hx
            exact absurd hxt.symm hnm
        · rintro n h c hh ⟨pre, post, hsplit, hpost⟩
          have hnm : n ≠ m := by rintro rfl; simp [hlook] at hh
          have hcm : copyOf n ≠ m := by rintro rfl; exact hm (hcr n)
          simp only [Table.set, if_neg hcm]
          have hne : post ≠ [] := by
            rintro rfl
            have := (List.append_inj' hsplit rfl).2
            simp only [List.cons.injEq, Event.define.injEq, and_true] at this
            exact hnm this.1.symm
          obtain ⟨post', x, rfl⟩ : ∃ p' x, post = p' ++ [x] := snoc_of_ne hne
          have hl : l = pre ++ .define n c :: post' := by
            have : l ++ [Event.define m b] = (pre ++ .define n c :: post') ++ [x] := by
              simpa using hsplit
            exact (List.append_inj' this rfl).1
          exact i5 n h c hh ⟨pre, post', hl, fun c hc => hpost c (by simp [hc])⟩
        · intro n hn
          have hcm : copyOf n ≠ m := by rintro rfl; exact hm (hcr n)
          simp only [Table.set, if_neg hcm]
          exact i6 n (hn.imp_right fun h c hc => h c (by simp [hc]))
      | some r =>
        have hs : step (run (es ++ l)) (.define m b) =
            { run (es ++ l) with table :=
                (((run (es ++ l)).table.set m (some b)).set (copyOf m) (some b)).set m (some r) } := by
          simp only [step, macroDefined, i1, i2, hlook, hcopy]
        rw [hs]
        refine ⟨i1, i2, ?_, ?_, ?_, ?_⟩
        · intro n hn hcase
          have hnm : n ≠ m := by
            rintro rfl
            rcases hcase with h | h
            · simp [hlook] at h
            · exact h (.define n b) (by simp) rfl
          have hnc : n ≠ copyOf m := by rintro rfl; exact hn (hcr m)
          rw [plain_snoc]
          simp only [Table.set, if_neg hnm, if_neg hnc, if_neg (Ne.symm hnm)]
          exact i3 n hn (hcase.imp_right fun h e he => h e (by simp [he]))
        · intro n c hc ⟨x, hx, hxt⟩
          have hnr := hres n c hc
          have hnc : n ≠ copyOf m := by rintro rfl; exact hnr (hcr m)
          rw [plain_snoc]
          by_cases hnm : n = m
          · subst hnm
            rw [hlook] at hc
            simp [Table.set, hc]
          · simp only [Table.set, if_neg hnm, if_neg hnc, if_neg (Ne.symm hnm)]
            refine i4 n c hc ⟨x, ?_, hxt⟩
            rcases List.mem_append.1 hx with hx | hx
            · exact hx
            · simp only [List.mem_singleton] at hx
              subst hx
              exact absurd hxt.symm hnm
        · rintro n h c hh ⟨pre, post, hsplit, hpost⟩
          have hcm : copyOf n ≠ m := by rintro rfl; exact hm (hcr n)
          by_cases hnm : n = m
          · subst hnm
            have hbc : b = c := by
              cases hpo : post.reverse with
              | nil =>
                have hpe : post = [] := by simpa using hpo
                subst hpe
                have := (List.append_inj' hsplit rfl).2
                simp only [List.cons.injEq, Event.define.injEq, true_and, and_true] at this
                exact this
              | cons x p =>
                have hpe : post = p.reverse ++ [x] := by
                  have := congrArg List.reverse hpo; simpa using this
                subst hpe
                have : l ++ [Event.define n b] =
                    (pre ++ .define n c :: p.reverse) ++ [x] := by simpa using hsplit
                have := (List.append_inj' this rfl).2
                simp only [List.cons.injEq, and_true] at this
                exact absurd (by simp [← this]) (hpost b)
            simp [Table.set, if_neg hcm, hbc]
          · have hcc : copyOf n ≠ copyOf m := fun h => hnm (hinj h)
            simp only [Table.set, if_neg hcm, if_neg hcc]
            have hne : post ≠ [] := by
              rintro rfl
              have := (List.append_inj' hsplit rfl).2
              simp only [List.cons.injEq, Event.define.injEq, and_true] at this
              exact hnm this.1.symm
            obtain ⟨post', x, rfl⟩ : ∃ p' x, post = p' ++ [x] := snoc_of_ne hne
            have hl : l = pre ++ .define n c :: post' := by
              have : l ++ [Event.define m b] = (pre ++ .define n c :: post') ++ [x] := by
                simpa using hsplit
              exact (List.append_inj' this rfl).1
            exact i5 n h c hh ⟨pre, post', hl, fun c hc => hpost c (by simp [hc])⟩
        · intro n hn
          have hcm : copyOf n ≠ m := by rintro rfl; exact hm (hcr n)
          have hcc : copyOf n ≠ copyOf m := by
            intro h
            have := hinj h
            subst this
            rcases hn with h | h
            · simp [hlook] at h
            · exact h b (by simp)
          simp only [Table.set, if_neg hcm, if_neg hcc]
          exact i6 n (hn.imp_right fun h c hc => h c (by simp [hc]))
    · -- no definition
      have hdef : ∀ n c, .define n c ∈ l ++ [e] ↔ .define n c ∈ l := by
        intro n c
        simp only [List.mem_append, List.mem_singleton]
        constructor
        · rintro (h | h)
          · exact h
          · exact absurd ⟨n, c, h.symm⟩ hq
        · exact .inl
      have hlast : ∀ n c, LastDef (l ++ [e]) n c → LastDef l n c := by
        rintro n c ⟨pre, post, hsplit, hpost⟩
        have hne : post ≠ [] := by
          rintro rfl
          have := (List.append_inj' hsplit rfl).2
          simp only [List.cons.injEq, and_true] at this
          exact hq ⟨n, c, this⟩
        obtain ⟨post', x, rfl⟩ : ∃ p' x, post = p' ++ [x] := snoc_of_ne hne
        have hl : l = pre ++ .define n c :: post' := by
          have : l ++ [e] = (pre ++ .define n c :: post') ++ [x] := by simpa using hsplit
          exact (List.append_inj' this rfl).1
        exact ⟨pre, post', hl, fun c hc => hpost c (by simp [hc])⟩
      by_cases hu : ∃ m, e = .undef m
      · obtain ⟨m, rfl⟩ := hu
        have hm : ¬ Reserved m := hre m rfl
        have hs : step (run (es ++ l)) (.undef m) =
            { run (es ++ l) with table := (run (es ++ l)).table.set m none } := rfl
        rw [hs]
        refine ⟨i1, i2, ?_, ?_, ?_, ?_⟩
        · intro n hn hcase
          rw [plain_snoc]
          simp only [Table.set]
          by_cases hnm : n = m
          · subst hnm; simp
          · simp only [if_neg hnm, if_neg (Ne.symm hnm)]
            exact i3 n hn (hcase.imp_right fun h e he => h e (by simp [he]))
        · intro n c hc ⟨x, hx, hxt⟩
          rw [plain_snoc]
          by_cases hnm : n = m
          · subst hnm; simp [Table.set]
          · simp only [Table.set, if_neg hnm, if_neg (Ne.symm hnm)]
            refine i4 n c hc ⟨x, ?_, hxt⟩
            rcases List.mem_append.1 hx with hx | hx
            · exact hx
            · simp only [List.mem_singleton] at hx
              subst hx
              exact absurd hxt.symm hnm
        · intro n h c hh hl
          have hcm : copyOf n ≠ m := by rintro rfl; exact hm (hcr n)
          simp only [Table.set, if_neg hcm]
          exact i5 n h c hh (hlast n c hl)
        · intro n hn
          have hcm : copyOf n ≠ m := by rintro rfl; exact hm (hcr n)
          simp only [Table.set, if_neg hcm]
          exact i6 n (hn.imp_right fun h c hc => h c (by simp [hc]))
      · have hs : step (run (es ++ l)) e = run (es ++ l) := by
          cases e with
          | enter m => simp [step, fileChanged, i1]
          | exit => simp [step, fileChanged, i1]
          | otherChange m => rfl
          | define m b => exact absurd ⟨m, b, rfl⟩ hq
          | undef m => exact absurd ⟨m, rfl⟩ hu
        have hpl : ∀ n, Plain (es ++ l ++ [e]) n = Plain (es ++ l) n := by
          intro n
          rw [plain_snoc]
          cases e with
          | enter m => rfl
          | exit => rfl
          | otherChange m => rfl
          | define m b => exact absurd ⟨m, b, rfl⟩ hq
          | undef m => exact absurd ⟨m, rfl⟩ hu
        have hto : ∀ n, ¬ Touches n e := by
          intro n
          cases e with
          | enter m => exact id
          | exit => exact id
          | otherChange m => exact id
          | define m b => exact absurd ⟨m, b, rfl⟩ hq
          | undef m => exact absurd ⟨m, rfl⟩ hu
        rw [hs]
        refine ⟨i1, i2, ?_, ?_, ?_, ?_⟩
        · intro n hn hcase
          rw [hpl]
          exact i3 n hn (hcase.imp_right fun h e he => h e (by simp [he]))
        · intro n c hc ⟨x, hx, hxt⟩
          rw [hpl]
          refine i4 n c hc ⟨x, ?_, hxt⟩
          rcases List.mem_append.1 hx with hx | hx
          · exact hx
          · simp only [List.mem_singleton] at hx
            subst hx
            exact absurd hxt (hto n)
        · exact fun n h c hh hl => i5 n h c hh (hlast n c hl)
        · exact fun n hn => i6 n (hn.imp_right fun h c hc => h c (by simp [hc]))

/-! ## The whole unit -/

theorem unit_run {u : TUnit} (h : u.Ok) :
    let es := u.before ++ .enter u.name :: u.header ++ [.exit]
    (run es).phase = .finished ∧ (∀ n, (run es).table n = Plain es n) ∧
      (∀ n b, ¬ Reserved n → FirstDef u.header n b → (run es).repl.lookup n = some b) ∧
      (∀ n, (Reserved n ∨ ∀ b, .define n b ∉ u.header) → (run es).repl.lookup n = none) := by
  intro es
  have hfirst := h.first
  rw [header_eq] at hfirst
  obtain ⟨b1, b2, b3⟩ := before_run hfirst
  obtain ⟨k, hk⟩ := h.named
  rw [header_eq] at hk
  have hname : removeDotSlash u.name = headerName := by rw [hk, removeDotSlash_dots]
  have henter : run (u.before ++ [.enter u.name]) =
      { run u.before with phase := .inside } := by
    rw [run_snoc']
    simp [step, fileChanged, b1, hname]
  have hplain : ∀ n, (run (u.before ++ [.enter u.name])).table n =
      Plain (u.before ++ [.enter u.name]) n := by
    intro n
    rw [henter, plain_snoc]
    exact b3 n
  obtain ⟨c1, c2, c3, c4⟩ := header_run (es := u.before ++ [.enter u.name]) h.defs
    (by rw [henter]) (by rw [henter]; exact b2) hplain
  have hes : es = (u.before ++ [.enter u.name] ++ u.header) ++ [.exit] := by simp [es]
  rw [hes, run_snoc']
  have hs : step (run (u.before ++ [.enter u.name] ++ u.header)) .exit =
      { run (u.before ++ [.enter u.name] ++ u.header) with phase := .finished } := by
    simp only [step, fileChanged, c1]
  rw [hs]
  refine ⟨rfl, ?_, c3, c4⟩
  intro n
  rw [plain_snoc]
  exact c2 n

/-- What the callbacks do to a whole translation unit: a macro the header
replaces, once the code says anything about it, is defined exactly when it would be
without the tool, and then as the header says. -/
theorem replaced {u : TUnit} (h : u.Ok) {n : Str} {r : Body} (hn : ¬ Reserved n)
    (hr : FirstDef u.header n r) (ht : ∃ e ∈ u.rest, Touches n e) :
    (run u.events).table n = (Plain u.events n).map fun _ => r := by
  obtain ⟨h1, h2, h3, h4⟩ := unit_run h
  have hres : ∀ n b, (run (u.before ++ .enter u.name :: u.header ++ [.exit])).repl.lookup n =
      some b → ¬ Reserved n := fun n b hb hR => by
    rw [h4 n (.inl hR)] at hb; exact absurd hb (by simp)
  have := (rest_run h1 hres h2 h.private_).2.2.2.1 n r (h3 n r hn hr) ht
  have he : u.events = u.before ++ .enter u.name :: u.header ++ [.exit] ++ u.rest := by
    simp [TUnit.events]
  rw [he]
  exact this

/-- The code's own definition, the last one, is kept under the reserved name. -/
theorem original_kept {u : TUnit} (h : u.Ok) {n : Str} {r b : Body} (hn : ¬ Reserved n)
    (hr : FirstDef u.header n r) (hb : LastDef u.rest n b) :
    (run u.events).table (copyOf n) = some b := by
  obtain ⟨h1, h2, h3, h4⟩ := unit_run h
  have hres : ∀ n b, (run (u.before ++ .enter u.name :: u.header ++ [.exit])).repl.lookup n =
      some b → ¬ Reserved n := fun n b hb hR => by
    rw [h4 n (.inl hR)] at hb; exact absurd hb (by simp)
  have := (rest_run h1 hres h2 h.private_).2.2.2.2.1 n r b (h3 n r hn hr) hb
  have he : u.events = u.before ++ .enter u.name :: u.header ++ [.exit] ++ u.rest := by
    simp [TUnit.events]
  rw [he]
  exact this

/-- Every other macro is what it would be without the tool: one the header does not
name or the code says nothing about. -/
theorem others_unchanged {u : TUnit} (h : u.Ok) {n : Str} (hn : ¬ Reserved n)
    (hc : (∀ b, .define n b ∉ u.header) ∨ ∀ e ∈ u.rest, ¬ Touches n e) :
    (run u.events).table n = Plain u.events n := by
  obtain ⟨h1, h2, h3, h4⟩ := unit_run h
  have hres : ∀ n b, (run (u.before ++ .enter u.name :: u.header ++ [.exit])).repl.lookup n =
      some b → ¬ Reserved n := fun n b hb hR => by
    rw [h4 n (.inl hR)] at hb; exact absurd hb (by simp)
  have := (rest_run h1 hres h2 h.private_).2.2.1 n hn (hc.imp_left fun h => h4 n (.inr h))
  have he : u.events = u.before ++ .enter u.name :: u.header ++ [.exit] ++ u.rest := by
    simp [TUnit.events]
  rw [he]
  exact this

/-- A reserved name whose macro is not replaced keeps what the header (or what comes
before) gives it. -/
theorem copy_unchanged {u : TUnit} (h : u.Ok) {n : Str}
    (hc : Reserved n ∨ (∀ b, .define n b ∉ u.header) ∨ ∀ b, .define n b ∉ u.rest) :
    (run u.events).table (copyOf n) =
      Plain (u.before ++ .enter u.name :: u.header) (copyOf n) := by
  obtain ⟨h1, h2, h3, h4⟩ := unit_run h
  have hres : ∀ n b, (run (u.before ++ .enter u.name :: u.header ++ [.exit])).repl.lookup n =
      some b → ¬ Reserved n := fun n b hb hR => by
    rw [h4 n (.inl hR)] at hb; exact absurd hb (by simp)
  have hcase : (run (u.before ++ .enter u.name :: u.header ++ [.exit])).repl.lookup n = none ∨
      ∀ b, .define n b ∉ u.rest := by
    rcases hc with hc | hc | hc
    · exact .inl (h4 n (.inl hc))
    · exact .inl (h4 n (.inr hc))
    · exact .inr hc
  have := (rest_run h1 hres h2 h.private_).2.2.2.2.2 n hcase
  have he : u.events = u.before ++ .enter u.name :: u.header ++ [.exit] ++ u.rest := by
    simp [TUnit.events]
  rw [he, this, plain_snoc]

end Verif.Pre

import Verif.SharedPtr.Inv
/-
C62-C63: the invariant is preserved by every step, and no step is undefined behaviour.
-/
namespace Verif.SharedPtr

theorem step_inv {s s' : State} (h : Inv s) {b : Nat} {k k' : Block} (hk : s.blocks b = some k)
    (hblocks : s'.blocks = setBlock s.blocks b (some k')) (hnext : s'.next = s.next) (hval : k'.val = k.val)
    (hcounts : ∀ b', b' ≠ b → counts s'.toks b' = counts s.toks b')
    (hlog : ∀ b', b' ≠ b → s'.log.count (.destroyed b') = s.log.count (.destroyed b') ∧ s'.log.count (.freed b') = s.log.count (.freed b') ∧
      ∀ o, s'.log.count (.released b' o) = s.log.count (.released b' o))
    (hlive : LiveInv k' (counts s'.toks b) (s'.log.count (.destroyed b)) (s'.log.count (.freed b)) fun o => s'.log.count (.released b o))
    (hstrong : ∀ l c, Tok.strong (some l) c ∈ s'.toks → Tok.strong (some l) c ∈ s.toks ∨ ∃ b, c = some b ∧ Keeps s b l)
    (hweak : ∀ l c, Tok.weak (some l) c ∈ s'.toks → Tok.weak (some l) c ∈ s.toks ∨ Keeps s c l)
    (hobjs : ∀ o, s'.objs o = s'.toks.count (.own o) + (List.range s.next).countP (holds s' o))
    (hcr : ∀ b v, Event.created b v ∈ s'.log → Event.created b v ∈ s.log) : Inv s' := by
  have hkeep : ∀ c l, Keeps s c l → Keeps s' c l := by
    intro c l ⟨j, hj, hl⟩
    unfold Keeps
    rw [hblocks]
    unfold setBlock
    by_cases hc : c = b
    · subst hc
      rw [hk] at hj; cases hj
      refine ⟨k', by simp, ?_⟩
      rw [hval]; exact hl
    · exact ⟨j, by rw [if_neg hc]; exact hj, hl⟩
  refine ⟨?_, ?_, ?_, ?_, ?_⟩
  · intro b'
    by_cases hb : b' = b
    · subst hb
      have hi := h.blocks b'
      rw [hk] at hi
      rw [hblocks, hnext]
      simp only [setBlock, if_pos]
      exact ⟨hi.1, hlive⟩
    · have hi := h.blocks b'
      rw [hblocks, hnext, hcounts b' hb, (hlog b' hb).1, (hlog b' hb).2.1]
      simp only [setBlock, if_neg hb, (hlog b' hb).2.2]
      exact hi
  · intro l c ht
    rcases hstrong l c ht with ht | ⟨b', hb', hkp⟩
    · obtain ⟨b', hb', hkp⟩ := h.ptr l c ht
      exact ⟨b', hb', hkeep _ _ hkp⟩
    · exact ⟨b', hb', hkeep _ _ hkp⟩
  · intro l c ht
    rcases hweak l c ht with ht | hkp
    · exact hkeep _ _ (h.wptr l c ht)
    · exact hkeep _ _ hkp
  · rw [hnext]; exact hobjs
  · intro c v hc
    obtain ⟨h1, h2, h3⟩ := h.created c v (hcr c v hc)
    rw [hnext, hblocks]
    refine ⟨h1, ?_, ?_⟩
    · intro j hj
      unfold setBlock at hj
      split at hj
      · next hcb => subst hcb; cases hj; rw [hval]; exact h2 k hk
      · exact h2 j hj
    · intro o
      by_cases hcb : c = b
      · subst hcb
        have e1 := hlive.rel o
        have e2 := hlive.de
        rw [← h2 k hk, ← hval]
        rw [e2]
        refine e1.trans ?_
        cases k'.live <;> simp
      · rw [(hlog c hcb).2.2, (hlog c hcb).1]; exact h3 o

theorem setBlock_self {m : Nat → Option Block} {b : Nat} {k : Option Block} (h : m b = k) : setBlock m b k = m := by
  funext i; unfold setBlock; split
  · next hi => rw [hi, h]
  · rfl

/-- Steps which change no block. -/
theorem step_toks {s s' : State} (h : Inv s) (hblocks : s'.blocks = s.blocks) (hnext : s'.next = s.next)
    (hcounts : ∀ b', counts s'.toks b' = counts s.toks b') (hlog : s'.log = s.log)
    (hstrong : ∀ l c, Tok.strong (some l) c ∈ s'.toks → Tok.strong (some l) c ∈ s.toks ∨ ∃ b, c = some b ∧ Keeps s b l)
    (hweak : ∀ l c, Tok.weak (some l) c ∈ s'.toks → Tok.weak (some l) c ∈ s.toks)
    (hobjs : ∀ o, s'.objs o + s.toks.count (.own o) = s.objs o + s'.toks.count (.own o)) : Inv s' := by
  have hkeep : ∀ c l, Keeps s c l → Keeps s' c l := by
    intro c l ⟨j, hj, hl⟩; exact ⟨j, by rw [hblocks]; exact hj, hl⟩
  refine ⟨?_, ?_, ?_, ?_, by rw [hnext, hlog, hblocks]; exact h.created⟩
  · intro b'; rw [hblocks, hnext, hcounts, hlog]; exact h.blocks b'
  · intro l c ht
    rcases hstrong l c ht with ht | ⟨b', hb', hkp⟩
    · obtain ⟨b', hb', hkp⟩ := h.ptr l c ht
      exact ⟨b', hb', hkeep _ _ hkp⟩
    · exact ⟨b', hb', hkeep _ _ hkp⟩
  · intro l c ht; exact hkeep _ _ (h.wptr l c (hweak l c ht))
  · intro o
    have h1 := hobjs o
    have h2 := h.objs o
    have : holds s' o = holds s o := by funext b; unfold holds; rw [hblocks]
    rw [hnext, this]
    omega

theorem holds_update {s s' : State} {b : Nat} {k k' : Block} (hk : s.blocks b = some k) (hblocks : s'.blocks = setBlock s.blocks b (some k'))
    (hval : k'.val = k.val) (hl : k'.live = k.live) (o : Obj) : holds s' o = holds s o := by
  funext i
  unfold holds
  rw [hblocks]
  unfold setBlock
  by_cases hi : i = b
  · subst hi; rw [if_pos rfl, hk]; simp [hval, hl]
  · rw [if_neg hi]

theorem count_own_erase (t : Tok) (o : Obj) (ts : List Tok) (h : t ≠ .own o) : (ts.erase t).count (.own o) = ts.count (.own o) :=
  List.count_erase_of_ne (Ne.symm h)

theorem new_inv {s : State} (h : Inv s) (v : Option Obj) {s0 : State} (hs : s0.blocks = s.blocks) (hn : s0.next = s.next) (hl : s0.log = s.log)
    (hc : ∀ b, counts s0.toks b = counts s.toks b) (hst : ∀ l c, Tok.strong (some l) c ∈ s0.toks → Tok.strong (some l) c ∈ s.toks)
    (hwk : ∀ l c, Tok.weak (some l) c ∈ s0.toks → Tok.weak (some l) c ∈ s.toks)
    (hob : ∀ o, s0.objs o + s.toks.count (.own o) = s.objs o + s0.toks.count (.own o) + (if v = some o then 1 else 0)) : Inv (new s0 v).1 := by
  have hnone : s.blocks s.next = none := by
    have := h.blocks s.next
    cases hk : s.blocks s.next with
    | none => rfl
    | some k => rw [hk] at this; exact absurd this.1 (by omega)
  have hkeep : ∀ c l, Keeps s c l → Keeps (new s0 v).1 c l := by
    intro c l ⟨j, hj, hl⟩
    have : c ≠ s.next := by rintro rfl; rw [hnone] at hj; cases hj
    exact ⟨j, by simp only [new, setBlock, hn, hs, if_neg this]; exact hj, hl⟩
  refine ⟨?_, ?_, ?_, ?_, ?_⟩
  · intro b
    have hi := h.blocks b
    by_cases hb : b = s.next
    · subst hb
      rw [hnone] at hi
      obtain ⟨hz, hh⟩ := hi
      rcases hh with ⟨hh, -⟩ | ⟨-, hde, hfr, hrel⟩
      · omega
      obtain ⟨z1, z2, z3, z4, z5, z6, z7⟩ := hz
      simp only [new, hn, hs, hl, setBlock, if_pos]
      refine ⟨by omega, ?_⟩
      obtain ⟨c1, c2, c3, c4, c5, c6, c7⟩ := counts_cons (.strong (some (.inner s.next)) (some s.next)) s0.toks s.next
      rw [hc] at c1 c2 c3 c4 c5 c6 c7
      simp [isS, isW] at c1 c2 c3 c4 c5 c6 c7
      have hde' : (Event.created s.next v :: s.log).count (.destroyed s.next) = 0 := by rw [List.count_cons_of_ne (by simp), hde]
      have hfr' : (Event.created s.next v :: s.log).count (.freed s.next) = 0 := by rw [List.count_cons_of_ne (by simp), hfr]
      refine ⟨?_, ?_, ?_, ?_, ?_, ?_, ?_, ?_, ?_⟩
      · simp only [c1, z1]
      · simp only [c1, c2, z1, z2]; simp
      · simp only [c3, c4, c5, c6, z3, z4, z5, z6]; simp
      · simp only [c6, c7, z6, z7]; simp
      · simp only [c6, z6]; simp
      · simp only [c7, z7]; simp
      · simpa using hde'
      · exact hfr'
      · intro o
        show (Event.created s.next v :: s.log).count (.released s.next o) = _
        rw [List.count_cons_of_ne (by simp)]
        simpa using hrel o
    · simp only [new, hn, hs, hl, setBlock, if_neg hb]
      rw [counts_cons_other (by simp only [Tok.block, ne_eq, Option.some.injEq]; exact fun e => hb e.symm), hc]
      have : (b < s.next + 1) = (b < s.next) := by apply propext; omega
      rw [this, List.count_cons_of_ne (by simp), List.count_cons_of_ne (by simp)]
      have hr : (fun o => (Event.created s.next v :: s.log).count (.released b o)) = fun o => s.log.count (.released b o) := by
        funext o; exact List.count_cons_of_ne (by simp)
      rw [hr]; exact hi
  · intro l c ht
    simp only [new] at ht
    rcases List.mem_cons.mp ht with ht | ht
    · simp only [Tok.strong.injEq, Option.some.injEq] at ht
      refine ⟨s0.next, ht.2, ?_⟩
      rw [ht.1]
      exact ⟨⟨1, 1, true, v⟩, by simp [new, setBlock], Or.inl rfl⟩
    · obtain ⟨b', hb', hkp⟩ := h.ptr l c (hst l c ht)
      exact ⟨b', hb', hkeep _ _ hkp⟩
  · intro l c ht
    simp only [new] at ht
    rcases List.mem_cons.mp ht with ht | ht
    · cases ht
    · exact hkeep _ _ (h.wptr l c (hwk l c ht))
  · intro o
    have h1 := hob o
    have h2 := h.objs o
    have h3 : (new s0 v).1.next = s.next + 1 := by simp [new, hn]
    have h4 : (List.range s.next).countP (holds (new s0 v).1 o) = (List.range s.next).countP (holds s o) := by
      refine countP_range_same _ _ fun i hi => ?_
      simp only [holds, new, setBlock, hn, hs]
      rw [if_neg (by omega)]
    have h5 : holds (new s0 v).1 o s.next = decide (v = some o) := by
      by_cases hv : v = some o <;> simp [holds, new, setBlock, hn, hv]
    have h6 : (new s0 v).1.toks.count (.own o) = s0.toks.count (.own o) := by simp [new, List.count_cons]
    have h7 : (new s0 v).1.objs o = s0.objs o := rfl
    rw [h3, List.range_succ, List.countP_append, List.countP_singleton, h4, h5, h6, h7]
    by_cases hv : v = some o
    · simp only [hv, if_true, decide_true] at h1 ⊢; omega
    · simp only [hv, if_false, decide_false, Bool.false_eq_true] at h1 ⊢; omega
  · intro b w hc
    simp only [new, hl, hn, hs] at hc ⊢
    rcases List.mem_cons.mp hc with hc | hc
    · cases hc
      have hi := h.blocks s.next
      rw [hnone] at hi
      rcases hi.2 with ⟨hh, -⟩ | ⟨-, hde, hfr, hrel⟩
      · omega
      · refine ⟨by omega, ?_, ?_⟩
        · intro k hk; simp only [setBlock, if_pos, Option.some.injEq] at hk; rw [← hk]
        · intro o
          have := hrel o
          simp only at this
          rw [List.count_cons_of_ne (by simp), List.count_cons_of_ne (by simp), this, hde]
          split <;> rfl
    · obtain ⟨h1, h2, h3⟩ := h.created b w hc
      refine ⟨by omega, ?_, ?_⟩
      · intro k hk
        simp only [setBlock, if_neg (show b ≠ s.next by omega)] at hk
        exact h2 k hk
      · intro o
        rw [List.count_cons_of_ne (by simp), List.count_cons_of_ne (by simp)]
        exact h3 o

theorem new_ok {s : State} (h : Inv s) : ∃ s', exec s .new = some s' ∧ Inv s' := by
  refine ⟨_, rfl, new_inv h none rfl rfl rfl (fun _ => rfl) (fun _ _ h => h) (fun _ _ h => h) ?_⟩
  intro o; simp

/-- A projection of a live pointer. -/
theorem project_inv {s : State} (h : Inv s) {p : Option Loc} {c : Option Nat} {f : Loc → Loc} (ht : .strong p c ∈ s.toks)
    (hf : ∀ l, p = some l → ∃ b, c = some b ∧ Keeps s b (f l)) : ∃ s', project s p c f = some s' ∧ Inv s' := by
  have hcount : ∀ q b, counts (.strong q c :: s.toks.erase (.strong p c)) b = counts s.toks b := by
    intro q b
    by_cases hb : c = some b
    · obtain ⟨c1, c2, c3, c4, c5, c6, c7⟩ := counts_cons (.strong q c) (s.toks.erase (.strong p c)) b
      obtain ⟨e1, e2, e3, e4, e5, e6, e7⟩ := counts_erase ht b
      have e : ∀ c d : Counts, c.S = d.S → c.D = d.D → c.W = d.W → c.R = d.R → c.R2 = d.R2 → c.T = d.T → c.F = d.F → c = d := by
        intro c d; cases c; cases d; simp_all
      simp [isS, isW] at c1 c2 c3 c4 c5 c6 c7 e1 e2 e3 e4 e5 e6 e7
      apply e <;> omega
    · rw [counts_cons_other (by simpa [Tok.block] using hb), counts_erase_other (by simpa [Tok.block] using hb)]
  cases p with
  | none =>
    refine ⟨_, rfl, step_toks h rfl rfl (hcount none) rfl ?_ ?_ ?_⟩
    · intro l c' h'
      rcases List.mem_cons.mp h' with h' | h'
      · cases h'
      · exact Or.inl (List.mem_of_mem_erase h')
    · intro l c' h'
      rcases List.mem_cons.mp h' with h' | h'
      · cases h'
      · exact List.mem_of_mem_erase h'
    · intro o; simp [List.count_cons, count_own_erase]
  | some l =>
    obtain ⟨b, rfl, hkp⟩ := hf l rfl
    obtain ⟨b', hb', hkl⟩ := h.ptr l _ ht
    cases hb'
    obtain ⟨-, k, hk, hl⟩ := h.strong_live ht
    have ha := h.alive hk hl hkl
    refine ⟨_, by simp only [project]; rw [if_pos ha], ?_⟩
    refine step_toks h rfl rfl (hcount _) rfl ?_ ?_ ?_
    · intro l' c' h'
      rcases List.mem_cons.mp h' with h' | h'
      · cases h'; exact Or.inr ⟨b, rfl, hkp⟩
      · exact Or.inl (List.mem_of_mem_erase h')
    · intro l c' h'
      rcases List.mem_cons.mp h' with h' | h'
      · cases h'
      · exact List.mem_of_mem_erase h'
    · intro o; simp [List.count_cons, count_own_erase]

theorem fromObj_ok {s : State} (h : Inv s) {o : Obj} (he : .own o ∈ s.toks) : ∃ s', exec s (.fromObj o) = some s' ∧ Inv s' := by
  have hn : Inv (new { s with toks := s.toks.erase (.own o) } (some o)).1 := by
    refine new_inv h (some o) rfl rfl rfl ?_ ?_ ?_ ?_
    · intro b; exact counts_erase_other (by simp [Tok.block]) _
    · intro l c h'; exact List.mem_of_mem_erase h'
    · intro l c h'; exact List.mem_of_mem_erase h'
    · intro o'
      simp only
      have := countP_erase (fun t => t == Tok.own o') he
      simp only [beq_iff_eq, Tok.own.injEq] at this
      rw [← List.count_eq_countP, ← List.count_eq_countP] at this
      simp only [Option.some.injEq]
      omega
  exact project_inv (p := some (.inner s.next)) (c := some s.next) hn (by simp [new]) fun l _ => ⟨s.next, rfl, ⟨1, 1, true, some o⟩, by simp [new, setBlock], Or.inr ⟨o, rfl, rfl⟩⟩

theorem project_ok {s : State} (h : Inv s) {p : Option Loc} {c : Option Nat} {t : Loc} (he : Enabled s (.project p c t)) :
    ∃ s', exec s (.project p c t) = some s' ∧ Inv s' :=
  project_inv h he.1 fun _ hl => he.2 (by rw [hl]; simp)

/-- Adding a null pointer. -/
theorem addNull_inv {s : State} (h : Inv s) : Inv { s with toks := .strong none none :: s.toks } := by
  refine step_toks h rfl rfl ?_ rfl ?_ ?_ ?_
  · intro b; exact counts_cons_other (by simp [Tok.block]) _
  · intro l c h'
    rcases List.mem_cons.mp h' with h' | h'
    · cases h'
    · exact Or.inl h'
  · intro l c h'
    rcases List.mem_cons.mp h' with h' | h'
    · cases h'
    · exact h'
  · intro o; simp [List.count_cons]

theorem tryAsRef_ok {s : State} (h : Inv s) {p : Option Loc} {c : Option Nat} (he : .strong p c ∈ s.toks) :
    ∃ s', exec s (.tryAsRef p c) = some s' ∧ Inv s' := by
  cases p with
  | none => exact ⟨s, rfl, h⟩
  | some l =>
    obtain ⟨b, rfl, hkp⟩ := h.ptr l c he
    obtain ⟨-, k, hk, hl⟩ := h.strong_live he
    exact ⟨s, by simp only [exec]; rw [if_pos (h.alive hk hl hkp)], h⟩

theorem clone_ok {s : State} (h : Inv s) {p : Option Loc} {c : Option Nat} (he : .strong p c ∈ s.toks) :
    ∃ s', exec s (.clone p c) = some s' ∧ Inv s' := by
  cases c with
  | none =>
    cases p with
    | none => exact ⟨_, rfl, addNull_inv h⟩
    | some l => obtain ⟨b, hb, -⟩ := h.ptr l _ he; cases hb
  | some b =>
    obtain ⟨-, k, hk, hi⟩ := h.block he rfl
    refine ⟨_, by simp only [exec, hk, Option.bind_eq_bind, Option.bind_some, Option.pure_def]; rfl, ?_⟩
    refine step_inv h hk rfl rfl rfl ?_ (fun _ _ => ⟨rfl, rfl, fun _ => rfl⟩) ?_ ?_ ?_ ?_ (fun _ _ h' => by simpa using h')
    · intro b' hb'; exact counts_cons_other (by simpa [Tok.block] using Ne.symm hb') _
    · obtain ⟨c1, c2, c3, c4, c5, c6, c7⟩ := counts_cons (.strong p (some b)) s.toks b
      simp [isS, isW] at c1 c2 c3 c4 c5 c6 c7
      have hs1 := strong_counts he
      refine ⟨?_, ?_, ?_, ?_, ?_, ?_, hi.de, hi.fr, hi.rel⟩ <;> simp only [c1, c2, c3, c4, c5, c6, c7]
      · rw [hi.strong]
      · rw [← hi.live, if_neg (by omega), if_neg (by omega)]
      · exact hi.weak
      · exact hi.one
      · exact hi.T
      · exact hi.F
    · intro l c' h'
      rcases List.mem_cons.mp h' with h' | h'
      · cases h'; exact Or.inl he
      · exact Or.inl h'
    · intro l c' h'
      rcases List.mem_cons.mp h' with h' | h'
      · cases h'
      · exact Or.inl h'
    · intro o
      rw [holds_update (s := s) hk rfl (by rfl) (by rfl) o]
      simp only [List.count_cons]
      simpa using h.objs o

theorem drop_ok {s : State} (h : Inv s) {p : Option Loc} {c : Option Nat} (he : .strong p c ∈ s.toks) :
    ∃ s', exec s (.drop p c) = some s' ∧ Inv s' := by
  cases c with
  | none =>
    refine ⟨_, rfl, step_toks h rfl rfl ?_ rfl ?_ ?_ ?_⟩
    · intro b; exact counts_erase_other (by simp [Tok.block]) _
    · intro l c h'; exact Or.inl (List.mem_of_mem_erase h')
    · intro l c h'; exact List.mem_of_mem_erase h'
    · intro o; simp [count_own_erase]
  | some b =>
    obtain ⟨-, k, hk, hi⟩ := h.block he rfl
    have hs1 := strong_counts he
    have hst := hi.strong
    refine ⟨_, by simp only [exec, hk, Option.bind_eq_bind, Option.bind_some, Option.pure_def]; rw [if_neg (by omega)], ?_⟩
    obtain ⟨e1, e2, e3, e4, e5, e6, e7⟩ := counts_erase he b
    simp [isS, isW] at e1 e2 e3 e4 e5 e6 e7
    refine step_inv h hk rfl rfl rfl ?_ (fun _ _ => ⟨rfl, rfl, fun _ => rfl⟩) ?_ ?_ ?_ ?_ (fun _ _ h' => by simpa using h')
    · intro b' hb'
      have h0 : counts (s.toks.erase (.strong p (some b))) b' = counts s.toks b' :=
        counts_erase_other (by simpa [Tok.block] using Ne.symm hb') _
      simp only
      split
      · rw [List.singleton_append, counts_cons_other (by simpa [Tok.block] using Ne.symm hb'), h0]
      · rw [List.nil_append, h0]
    · have hlv := hi.live
      rw [if_neg (by omega)] at hlv
      have hlt : k.live = true := by
        cases hl : k.live
        · simp [hl] at hlv
        · rfl
      rw [hlt] at hlv
      simp only [if_true] at hlv
      by_cases hk1 : k.strong = 1
      · simp only [if_pos hk1, List.singleton_append]
        obtain ⟨c1, c2, c3, c4, c5, c6, c7⟩ := counts_cons (.destroying b) (s.toks.erase (.strong p (some b))) b
        simp [isS, isW] at c1 c2 c3 c4 c5 c6 c7
        refine ⟨?_, ?_, ?_, ?_, ?_, ?_, hi.de, hi.fr, hi.rel⟩ <;> simp only [c1, c2, c3, c4, c5, c6, c7]
        · omega
        · rw [if_pos (by omega), hlt]; simp only [if_true]; omega
        · rw [e3, e4, e5, e6]; exact hi.weak
        · rw [e6, e7]; exact hi.one
        · rw [e6]; exact hi.T
        · rw [e7]; exact hi.F
      · simp only [if_neg hk1, List.nil_append]
        refine ⟨?_, ?_, ?_, ?_, ?_, ?_, hi.de, hi.fr, hi.rel⟩
        · simp only; omega
        · rw [if_neg (by omega), hlt]; simp only [if_true]; omega
        · rw [e3, e4, e5, e6]; exact hi.weak
        · rw [e6, e7]; exact hi.one
        · rw [e6]; exact hi.T
        · rw [e7]; exact hi.F
    · intro l c' h'
      refine Or.inl ?_
      simp only at h'
      split at h'
      · rcases List.mem_cons.mp h' with h' | h'
        · cases h'
        · exact List.mem_of_mem_erase h'
      · exact List.mem_of_mem_erase h'
    · intro l c' h'
      refine Or.inl ?_
      simp only at h'
      split at h'
      · rcases List.mem_cons.mp h' with h' | h'
        · cases h'
        · exact List.mem_of_mem_erase h'
      · exact List.mem_of_mem_erase h'
    · intro o
      rw [holds_update (s := s) hk rfl (by rfl) (by rfl) o]
      have := h.objs o
      simp only
      split
      · simp [List.count_cons, count_own_erase]; exact this
      · simp [count_own_erase]; exact this


theorem destroy_ok {s : State} (h : Inv s) {b : Nat} (he : .destroying b ∈ s.toks) : ∃ s', exec s (.destroy b) = some s' ∧ Inv s' := by
  obtain ⟨hb, k, hk, hi⟩ := h.block he rfl
  have hd := destroying_counts he
  have hlv := hi.live
  have hlt : k.live = true := by
    cases hl : k.live
    · simp [hl] at hlv; omega
    · rfl
  have hS : (counts s.toks b).S = 0 := by
    simp only [hlt, if_true] at hlv
    by_cases h0 : (counts s.toks b).S = 0
    · exact h0
    · rw [if_neg h0] at hlv; omega
  have hde := hi.de
  simp only [hlt, if_true] at hde
  simp only [hlt, if_true, if_pos hS] at hlv
  obtain ⟨e1, e2, e3, e4, e5, e6, e7⟩ := counts_erase he b
  simp [isS, isW] at e1 e2 e3 e4 e5 e6 e7
  obtain ⟨c1, c2, c3, c4, c5, c6, c7⟩ := counts_cons (.relWeak b) (s.toks.erase (.destroying b)) b
  simp [isS, isW] at c1 c2 c3 c4 c5 c6 c7
  have hother : ∀ b', b' ≠ b → counts (Tok.relWeak b :: s.toks.erase (.destroying b)) b' = counts s.toks b' := by
    intro b' hb'
    rw [counts_cons_other (by simpa [Tok.block] using Ne.symm hb'), counts_erase_other (by simpa [Tok.block] using Ne.symm hb')]
  have hst : ∀ l c, Tok.strong (some l) c ∈ Tok.relWeak b :: s.toks.erase (.destroying b) → Tok.strong (some l) c ∈ s.toks := by
    intro l c' h'
    rcases List.mem_cons.mp h' with h' | h'
    · cases h'
    · exact List.mem_of_mem_erase h'
  have hwk : ∀ l c, Tok.weak (some l) c ∈ Tok.relWeak b :: s.toks.erase (.destroying b) → Tok.weak (some l) c ∈ s.toks := by
    intro l c' h'
    rcases List.mem_cons.mp h' with h' | h'
    · cases h'
    · exact List.mem_of_mem_erase h'
  have hown : ∀ o, (Tok.relWeak b :: s.toks.erase (.destroying b)).count (.own o) = s.toks.count (.own o) := by
    intro o; simp [List.count_cons, count_own_erase]
  have hw := hi.weak
  simp only [hlt, if_true] at hw
  have hone := hi.one
  have hT := hi.T
  have hF := hi.F
  have hrel := hi.rel
  simp only [hlt] at hrel
  cases hv : k.val with
  | none =>
    refine ⟨_, by simp only [exec, hk, Option.bind_eq_bind, Option.bind_some, Option.pure_def, hlt, hv]; rfl, ?_⟩
    refine step_inv h hk rfl rfl hv.symm hother ?_ ?_ (fun l c h' => Or.inl (hst l c h')) (fun l c h' => Or.inl (hwk l c h')) ?_ (fun _ _ h' => by simpa using h')
    · intro b' hb'
      refine ⟨?_, ?_, fun o => ?_⟩ <;> simp [List.count_cons]
      exact fun e => absurd e.symm hb'
    · refine ⟨?_, ?_, ?_, ?_, ?_, ?_, ?_, ?_, ?_⟩ <;> simp only [c1, c2, c3, c4, c5, c6, c7, e1, e3, e4, e5, e6, e7]
      · rw [hi.strong]
      · rw [if_pos hS]; simp; omega
      · simp; omega
      · exact hone
      · exact hT
      · exact hF
      · simp [hde]
      · simpa [List.count_cons] using hi.fr
      · intro o; simpa [List.count_cons, hv] using hrel o
    · intro o
      have h1 := h.objs o
      simp only [hown]
      rw [h1]
      congr 1
      refine (countP_range_same _ _ fun i _ => ?_)
      simp only [holds, setBlock]
      by_cases hib : i = b
      · subst hib; simp [hk, hv]
      · simp [if_neg hib]
  | some o' =>
    have hpos : 0 < s.objs o' := h.holds_pos (b := b) (by simp [holds, hk, hlt, hv])
    refine ⟨_, by simp only [exec, hk, Option.bind_eq_bind, Option.bind_some, Option.pure_def, hlt, hv]; rw [if_neg (by simp), if_neg (by omega)], ?_⟩
    refine step_inv h hk rfl rfl hv.symm hother ?_ ?_ (fun l c h' => Or.inl (hst l c h')) (fun l c h' => Or.inl (hwk l c h')) ?_ (fun _ _ h' => by simpa using h')
    · intro b' hb'
      refine ⟨?_, ?_, fun o => ?_⟩ <;> simp [List.count_cons]
      · exact fun e => absurd e.symm hb'
      · exact fun e => absurd e.symm hb'
    · refine ⟨?_, ?_, ?_, ?_, ?_, ?_, ?_, ?_, ?_⟩ <;> simp only [c1, c2, c3, c4, c5, c6, c7, e1, e3, e4, e5, e6, e7]
      · rw [hi.strong]
      · rw [if_pos hS]; simp; omega
      · simp; omega
      · exact hone
      · exact hT
      · exact hF
      · simp [List.count_cons, hde]
      · simpa [List.count_cons] using hi.fr
      · intro o
        have := hrel o
        simp at this
        simp [List.count_cons, this]
    · intro o
      have h1 := h.objs o
      simp only [hown]
      have hu := countP_range_update (n := s.next) (b := b) (holds s o)
        (holds { s with blocks := setBlock s.blocks b (some { k with live := false, val := some o' }), objs := setObj s.objs o' (s.objs o' - 1), toks := .relWeak b :: s.toks.erase (.destroying b), log := .released b o' :: .destroyed b :: s.log } o)
        (by intro i hi'; simp only [holds, setBlock, if_neg hi']) hb
      have hq : holds { s with blocks := setBlock s.blocks b (some { k with live := false, val := some o' }), objs := setObj s.objs o' (s.objs o' - 1), toks := .relWeak b :: s.toks.erase (.destroying b), log := .released b o' :: .destroyed b :: s.log } o b = false := by
        simp [holds, setBlock]
      have hp : holds s o b = decide (o' = o) := by
        by_cases ho : o' = o <;> simp [holds, hk, hlt, hv, ho]
      rw [hq, hp] at hu
      simp only [Bool.false_eq_true, if_false, Nat.add_zero] at hu
      simp only [setObj]
      by_cases ho : o' = o
      · subst ho
        simp only [if_true, decide_true] at hu ⊢
        omega
      · simp only [ho, decide_false, Bool.false_eq_true, if_false] at hu
        rw [if_neg (fun e => ho e.symm), h1, hu]; rfl

end Verif.SharedPtr

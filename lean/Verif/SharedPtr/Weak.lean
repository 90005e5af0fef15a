import Verif.SharedPtr.Props
/-
C62-C63: steps on weak counts, deletion and objects; the theorems.
-/
namespace Verif.SharedPtr

theorem delete_ok {s : State} (h : Inv s) {b : Nat} {x : Bool} (he : .deleting b x ∈ s.toks) : ∃ s', exec s (.delete b x) = some s' ∧ Inv s' := by
  obtain ⟨hb, k, hk, hi⟩ := h.block he rfl
  obtain ⟨e1, e2, e3, e4, e5, e6, e7⟩ := counts_erase he b
  have hlive := hi.live
  have hw := hi.weak
  have hone := hi.one
  have hdead : k.live = false := by
    cases hl : k.live with
    | false => rfl
    | true =>
      simp only [hl, if_true] at hw
      cases x with
      | true => have := deletingT_counts he; have := hi.T (by omega); omega
      | false => have := deletingF_counts he; have := hi.F.mp (by omega); omega
  simp only [hdead, Bool.false_eq_true, if_false] at hlive hw
  have hS : (counts s.toks b).S = 0 := by
    by_cases h0 : (counts s.toks b).S = 0
    · exact h0
    · rw [if_neg h0] at hlive; omega
  have hrest : (counts s.toks b).W = 0 ∧ (counts s.toks b).R = 0 ∧ (counts s.toks b).R2 = 0 := by
    cases x with
    | true => have := deletingT_counts he; have := hi.T (by omega); omega
    | false => have := deletingF_counts he; have := hi.F.mp (by omega); omega
  rw [if_pos hS] at hlive
  have hzero : (counts (s.toks.erase (.deleting b x)) b).zero := by
    simp [isS, isW] at e1 e2 e3 e4 e5 e6 e7
    refine ⟨by omega, by omega, by omega, by omega, by omega, ?_, ?_⟩
    · cases x with
      | true => simp at e6; omega
      | false => have := deletingF_counts he; simp at e6; omega
    · cases x with
      | true => have := deletingT_counts he; simp at e7; omega
      | false => simp at e7; omega
  refine ⟨_, by simp only [exec, hk, Option.bind_eq_bind, Option.bind_some, Option.pure_def]; rfl, ?_⟩
  have hnot : ∀ t ∈ s.toks.erase (.deleting b x), t.block ≠ some b := by
    intro t ht hbl
    obtain ⟨z1, z2, z3, z4, z5, z6, z7⟩ := hzero
    cases t with
    | strong p c => simp only [Tok.block] at hbl; subst hbl; have := strong_counts ht; omega
    | weak p c => simp only [Tok.block, Option.some.injEq] at hbl; subst hbl; have := weak_counts ht; omega
    | own o => simp [Tok.block] at hbl
    | destroying c => simp only [Tok.block, Option.some.injEq] at hbl; subst hbl; have := destroying_counts ht; omega
    | relWeak c => simp only [Tok.block, Option.some.injEq] at hbl; subst hbl; have := relWeak_counts ht; omega
    | relWeak2 c => simp only [Tok.block, Option.some.injEq] at hbl; subst hbl; have := relWeak2_counts ht; omega
    | deleting c y =>
      simp only [Tok.block, Option.some.injEq] at hbl; subst hbl
      cases y
      · have := deletingF_counts ht; omega
      · have := deletingT_counts ht; omega
  have hkeep : ∀ c l, c ≠ b → Keeps s c l → Keeps { s with blocks := setBlock s.blocks b none, toks := s.toks.erase (.deleting b x), log := .freed b :: s.log } c l := by
    intro c l hc ⟨j, hj, hl⟩
    exact ⟨j, by simp only [setBlock, if_neg hc]; exact hj, hl⟩
  refine ⟨?_, ?_, ?_, ?_, ?_⟩
  · intro b'
    by_cases hbb : b' = b
    · subst hbb
      simp only [setBlock, if_pos]
      refine ⟨hzero, Or.inl ⟨hb, ?_, ?_, ?_⟩⟩
      · simpa [List.count_cons, hdead] using hi.de
      · have := hi.fr; simp [this]
      · intro o
        have := hi.rel o
        show (Event.freed b' :: s.log).count (.released b' o) ≤ 1
        rw [List.count_cons_of_ne (by simp), this]
        split <;> omega
    · have := h.blocks b'
      simp only [setBlock, if_neg hbb]
      rw [counts_erase_other (by simpa [Tok.block] using Ne.symm hbb)]
      simpa [List.count_cons, Ne.symm hbb] using this
  · intro l c ht
    obtain ⟨b', hb', hkp⟩ := h.ptr l c (List.mem_of_mem_erase ht)
    refine ⟨b', hb', hkeep _ _ ?_ hkp⟩
    rintro rfl
    exact hnot _ ht hb'
  · intro l c ht
    refine hkeep _ _ ?_ (h.wptr l c (List.mem_of_mem_erase ht))
    rintro rfl
    exact hnot _ ht rfl
  · intro o
    have h1 := h.objs o
    simp only
    rw [count_own_erase _ _ _ (by simp), h1]
    congr 1
    refine countP_range_same _ _ fun i _ => ?_
    simp only [holds, setBlock]
    by_cases hib : i = b
    · subst hib; simp [hk, hdead]
    · simp [if_neg hib]
  · intro c v hc
    obtain ⟨h1, h2, h3⟩ := h.created c v (by simpa using hc)
    refine ⟨h1, ?_, ?_⟩
    · intro j hj
      simp only [setBlock] at hj
      split at hj
      · cases hj
      · exact h2 j hj
    · intro o
      simp only
      rw [List.count_cons_of_ne (by simp), List.count_cons_of_ne (by simp)]
      exact h3 o

theorem releaseWeakLoad_ok {s : State} (h : Inv s) {b : Nat} (he : .relWeak b ∈ s.toks) : ∃ s', exec s (.releaseWeakLoad b) = some s' ∧ Inv s' := by
  obtain ⟨hb, k, hk, hi⟩ := h.block he rfl
  obtain ⟨e1, e2, e3, e4, e5, e6, e7⟩ := counts_erase he b
  simp [isS, isW] at e1 e2 e3 e4 e5 e6 e7
  have hR := relWeak_counts he
  have hw := hi.weak
  have hone := hi.one
  have hF := hi.F
  have hT := hi.T
  refine ⟨_, by simp only [exec, hk, Option.bind_eq_bind, Option.bind_some, Option.pure_def]; rfl, ?_⟩
  refine step_inv h hk (setBlock_self hk).symm rfl rfl ?_ (fun _ _ => ⟨rfl, rfl, fun _ => rfl⟩) ?_ ?_ ?_ ?_ (fun _ _ h' => by simpa using h')
  · intro b' hb'
    simp only
    rw [counts_cons_other (by split <;> simpa [Tok.block] using Ne.symm hb'), counts_erase_other (by simpa [Tok.block] using Ne.symm hb')]
  · by_cases h1 : k.weak = 1
    · simp only [if_pos h1]
      obtain ⟨c1, c2, c3, c4, c5, c6, c7⟩ := counts_cons (.deleting b true) (s.toks.erase (.relWeak b)) b
      simp [isS, isW] at c1 c2 c3 c4 c5 c6 c7
      refine ⟨?_, ?_, ?_, ?_, ?_, ?_, hi.de, hi.fr, hi.rel⟩ <;> simp only [c1, c2, c3, c4, c5, c6, c7, e1, e2, e3, e5, e6, e7]
      · exact hi.strong
      · exact hi.live
      · omega
      · omega
      · intro _; exact h1
      · exact hF
    · simp only [if_neg h1]
      obtain ⟨c1, c2, c3, c4, c5, c6, c7⟩ := counts_cons (.relWeak2 b) (s.toks.erase (.relWeak b)) b
      simp [isS, isW] at c1 c2 c3 c4 c5 c6 c7
      refine ⟨?_, ?_, ?_, ?_, ?_, ?_, hi.de, hi.fr, hi.rel⟩ <;> simp only [c1, c2, c3, c4, c5, c6, c7, e1, e2, e3, e5, e6, e7]
      · exact hi.strong
      · exact hi.live
      · omega
      · omega
      · exact hT
      · exact hF
  · intro l c' h'
    refine Or.inl ?_
    rcases List.mem_cons.mp h' with h' | h'
    · split at h' <;> cases h'
    · exact List.mem_of_mem_erase h'
  · intro l c' h'
    refine Or.inl ?_
    rcases List.mem_cons.mp h' with h' | h'
    · split at h' <;> cases h'
    · exact List.mem_of_mem_erase h'
  · intro o
    show s.objs o = _ + (List.range s.next).countP (holds s o)
    have := h.objs o
    split <;> simpa [List.count_cons, count_own_erase] using this

theorem releaseWeakDec_ok {s : State} (h : Inv s) {b : Nat} (he : .relWeak2 b ∈ s.toks) : ∃ s', exec s (.releaseWeakDec b) = some s' ∧ Inv s' := by
  obtain ⟨hb, k, hk, hi⟩ := h.block he rfl
  obtain ⟨e1, e2, e3, e4, e5, e6, e7⟩ := counts_erase he b
  simp [isS, isW] at e1 e2 e3 e4 e5 e6 e7
  have hR := relWeak2_counts he
  have hw := hi.weak
  have hone := hi.one
  have hF := hi.F
  have hT := hi.T
  refine ⟨_, by simp only [exec, hk, Option.bind_eq_bind, Option.bind_some, Option.pure_def]; rw [if_neg (by omega)], ?_⟩
  refine step_inv h hk rfl rfl rfl ?_ (fun _ _ => ⟨rfl, rfl, fun _ => rfl⟩) ?_ ?_ ?_ ?_ (fun _ _ h' => by simpa using h')
  · intro b' hb'
    have h0 : counts (s.toks.erase (.relWeak2 b)) b' = counts s.toks b' := counts_erase_other (by simpa [Tok.block] using Ne.symm hb') _
    simp only
    split
    · rw [List.singleton_append, counts_cons_other (by simpa [Tok.block] using Ne.symm hb'), h0]
    · rw [List.nil_append, h0]
  · by_cases h1 : k.weak = 1
    · simp only [if_pos h1, List.singleton_append]
      obtain ⟨c1, c2, c3, c4, c5, c6, c7⟩ := counts_cons (.deleting b false) (s.toks.erase (.relWeak2 b)) b
      simp [isS, isW] at c1 c2 c3 c4 c5 c6 c7
      refine ⟨?_, ?_, ?_, ?_, ?_, ?_, hi.de, hi.fr, hi.rel⟩ <;> simp only [c1, c2, c3, c4, c5, c6, c7, e1, e2, e3, e4, e6, e7]
      · exact hi.strong
      · exact hi.live
      · omega
      · omega
      · intro hh; omega
      · constructor
        · intro _; omega
        · intro _; omega
    · simp only [if_neg h1, List.nil_append]
      refine ⟨?_, ?_, ?_, ?_, ?_, ?_, hi.de, hi.fr, hi.rel⟩ <;> simp only [e1, e2, e3, e4, e6, e7]
      · exact hi.strong
      · exact hi.live
      · omega
      · omega
      · intro hh; have := hT hh; omega
      · constructor
        · intro hh; have := hF.mp hh; omega
        · intro hh; omega
  · intro l c' h'
    refine Or.inl ?_
    simp only at h'
    split at h'
    · rcases List.mem_cons.mp h' with h' | h'
      · cases h'
      · exact List.mem_of_mem_erase h'
    · exact List.mem_of_mem_erase h'
  · intro l c' h'
    refine Or.inl ?_
    simp only at h'
    split at h'
    · rcases List.mem_cons.mp h' with h' | h'
      · cases h'
      · exact List.mem_of_mem_erase h'
    · exact List.mem_of_mem_erase h'
  · intro o
    rw [holds_update (s := s) hk rfl (by rfl) (by rfl) o]
    have := h.objs o
    simp only
    split
    · simp [List.count_cons, count_own_erase]; exact this
    · simp [count_own_erase]; exact this

theorem addWeak_ok {s : State} (h : Inv s) {p : Option Loc} {b : Nat} {k : Block} (hk : s.blocks b = some k)
    (hi : LiveInv k (counts s.toks b) (s.log.count (.destroyed b)) (s.log.count (.freed b)) fun o => s.log.count (.released b o))
    (hpos : k.live = true ∨ 1 ≤ (counts s.toks b).W) (hp : ∀ l, p = some l → Keeps s b l) :
    Inv { s with blocks := setBlock s.blocks b (some { k with weak := k.weak + 1 }), toks := .weak p b :: s.toks } := by
  obtain ⟨c1, c2, c3, c4, c5, c6, c7⟩ := counts_cons (.weak p b) s.toks b
  simp [isS, isW] at c1 c2 c3 c4 c5 c6 c7
  have hw := hi.weak
  have hone := hi.one
  have hF := hi.F
  have hT := hi.T
  have hw2 : 1 ≤ k.weak := by
    rcases hpos with hp | hp
    · rw [hp] at hw; simp only [if_true] at hw; omega
    · omega
  have hT0 : (counts s.toks b).T = 0 := by
    by_cases h0 : (counts s.toks b).T = 0
    · exact h0
    · have := hT (by omega)
      rcases hpos with hp | hp
      · rw [hp] at hw; simp only [if_true] at hw; omega
      · omega
  refine step_inv h hk rfl rfl rfl ?_ (fun _ _ => ⟨rfl, rfl, fun _ => rfl⟩) ?_ ?_ ?_ ?_ (fun _ _ h' => by simpa using h')
  · intro b' hb'; exact counts_cons_other (by simpa [Tok.block] using Ne.symm hb') _
  · refine ⟨?_, ?_, ?_, ?_, ?_, ?_, hi.de, hi.fr, hi.rel⟩ <;> simp only [c1, c2, c3, c4, c5, c6, c7]
    · exact hi.strong
    · exact hi.live
    · omega
    · omega
    · intro hh; omega
    · constructor
      · intro hh; have := hF.mp hh; omega
      · intro hh; omega
  · intro l c' h'
    rcases List.mem_cons.mp h' with h' | h'
    · cases h'
    · exact Or.inl h'
  · intro l c' h'
    rcases List.mem_cons.mp h' with h' | h'
    · cases h'; exact Or.inr (hp l rfl)
    · exact Or.inl h'
  · intro o
    rw [holds_update (s := s) hk rfl (by rfl) (by rfl) o]
    simp only [List.count_cons]
    simpa using h.objs o

theorem weakFrom_ok {s : State} (h : Inv s) {p : Option Loc} {b : Nat} (he : .strong p (some b) ∈ s.toks) :
    ∃ s', exec s (.weakFrom p b) = some s' ∧ Inv s' := by
  obtain ⟨-, k, hk, hi⟩ := h.block he rfl
  obtain ⟨-, k', hk', hl⟩ := h.strong_live he
  rw [hk] at hk'; cases hk'
  refine ⟨_, by simp only [exec, hk, Option.bind_eq_bind, Option.bind_some, Option.pure_def]; rfl, ?_⟩
  refine addWeak_ok h hk hi (Or.inl hl) fun l hl => ?_
  subst hl
  obtain ⟨b', hb', hkp⟩ := h.ptr _ _ he
  cases hb'; exact hkp

theorem weakCopy_ok {s : State} (h : Inv s) {p : Option Loc} {b : Nat} (he : .weak p b ∈ s.toks) :
    ∃ s', exec s (.weakCopy p b) = some s' ∧ Inv s' := by
  obtain ⟨-, k, hk, hi⟩ := h.block he rfl
  refine ⟨_, by simp only [exec, hk, Option.bind_eq_bind, Option.bind_some, Option.pure_def]; rfl, ?_⟩
  refine addWeak_ok h hk hi (Or.inr (weak_counts he)) fun l hl => ?_
  subst hl
  exact h.wptr _ _ he

theorem weakDrop_ok {s : State} (h : Inv s) {p : Option Loc} {b : Nat} (he : .weak p b ∈ s.toks) :
    ∃ s', exec s (.weakDrop p b) = some s' ∧ Inv s' := by
  obtain ⟨hb, k, hk, hi⟩ := h.block he rfl
  obtain ⟨e1, e2, e3, e4, e5, e6, e7⟩ := counts_erase he b
  simp [isS, isW] at e1 e2 e3 e4 e5 e6 e7
  obtain ⟨c1, c2, c3, c4, c5, c6, c7⟩ := counts_cons (.relWeak b) (s.toks.erase (.weak p b)) b
  simp [isS, isW] at c1 c2 c3 c4 c5 c6 c7
  refine ⟨_, rfl, ?_⟩
  refine step_inv h hk (setBlock_self hk).symm rfl rfl ?_ (fun _ _ => ⟨rfl, rfl, fun _ => rfl⟩) ?_ ?_ ?_ ?_ (fun _ _ h' => by simpa using h')
  · intro b' hb'
    simp only
    rw [counts_cons_other (by simpa [Tok.block] using Ne.symm hb'), counts_erase_other (by simpa [Tok.block] using Ne.symm hb')]
  · have hw := hi.weak
    refine ⟨?_, ?_, ?_, ?_, ?_, ?_, hi.de, hi.fr, hi.rel⟩ <;> simp only [c1, c2, c3, c4, c5, c6, c7, e1, e2, e4, e5, e6, e7]
    · exact hi.strong
    · exact hi.live
    · omega
    · exact hi.one
    · exact hi.T
    · exact hi.F
  · intro l c' h'
    rcases List.mem_cons.mp h' with h' | h'
    · cases h'
    · exact Or.inl (List.mem_of_mem_erase h')
  · intro l c' h'
    rcases List.mem_cons.mp h' with h' | h'
    · cases h'
    · exact Or.inl (List.mem_of_mem_erase h')
  · intro o
    show s.objs o = _ + (List.range s.next).countP (holds s o)
    simpa [List.count_cons, count_own_erase] using h.objs o

theorem lock_ok {s : State} (h : Inv s) {p : Option Loc} {b : Nat} (he : .weak p b ∈ s.toks) :
    ∃ s', exec s (.lock p b) = some s' ∧ Inv s' := by
  obtain ⟨hb, k, hk, hi⟩ := h.block he rfl
  by_cases h0 : k.strong = 0
  · exact ⟨_, by simp only [exec, hk, Option.bind_eq_bind, Option.bind_some, Option.pure_def]; rw [if_pos h0], addNull_inv h⟩
  · refine ⟨_, by simp only [exec, hk, Option.bind_eq_bind, Option.bind_some, Option.pure_def]; rw [if_neg h0], ?_⟩
    have hst := hi.strong
    refine step_inv h hk rfl rfl rfl ?_ (fun _ _ => ⟨rfl, rfl, fun _ => rfl⟩) ?_ ?_ ?_ ?_ (fun _ _ h' => by simpa using h')
    · intro b' hb'; exact counts_cons_other (by simpa [Tok.block] using Ne.symm hb') _
    · obtain ⟨c1, c2, c3, c4, c5, c6, c7⟩ := counts_cons (.strong p (some b)) s.toks b
      simp [isS, isW] at c1 c2 c3 c4 c5 c6 c7
      refine ⟨?_, ?_, ?_, ?_, ?_, ?_, hi.de, hi.fr, hi.rel⟩ <;> simp only [c1, c2, c3, c4, c5, c6, c7]
      · rw [hi.strong]
      · rw [← hi.live, if_neg (by omega), if_neg (by omega)]
      · exact hi.weak
      · exact hi.one
      · exact hi.T
      · exact hi.F
    · intro l c' h'
      rcases List.mem_cons.mp h' with h' | h'
      · cases h'; exact Or.inr ⟨b, rfl, h.wptr _ _ he⟩
      · exact Or.inl h'
    · intro l c' h'
      rcases List.mem_cons.mp h' with h' | h'
      · cases h'
      · exact Or.inl h'
    · intro o
      rw [holds_update (s := s) hk rfl (by rfl) (by rfl) o]
      simp only [List.count_cons]
      simpa using h.objs o

theorem addOwn_ok {s : State} (h : Inv s) {o : Obj} {n : Nat} (hn : n = s.objs o + 1) :
    Inv { s with objs := setObj s.objs o n, toks := .own o :: s.toks } := by
  refine step_toks h rfl rfl (fun b => counts_cons_other (by simp [Tok.block]) _) rfl ?_ ?_ ?_
  · intro l c' h'
    rcases List.mem_cons.mp h' with h' | h'
    · cases h'
    · exact Or.inl h'
  · intro l c' h'
    rcases List.mem_cons.mp h' with h' | h'
    · cases h'
    · exact h'
  · intro o'
    simp only [setObj, List.count_cons]
    by_cases ho : o' = o
    · subst ho; simp [hn]; omega
    · simp [ho, Ne.symm ho]

theorem dropObj_ok {s : State} (h : Inv s) {o : Obj} (he : .own o ∈ s.toks) : ∃ s', exec s (.dropObj o) = some s' ∧ Inv s' := by
  have hp := h.own_pos he
  refine ⟨_, by simp only [exec]; rw [if_neg (by omega)], ?_⟩
  refine step_toks h rfl rfl (fun b => counts_erase_other (by simp [Tok.block]) _) rfl ?_ ?_ ?_
  · intro l c h'; exact Or.inl (List.mem_of_mem_erase h')
  · intro l c h'; exact List.mem_of_mem_erase h'
  · intro o'
    simp only [setObj]
    have hc : s.toks.count (.own o) ≠ 0 := by
      have := List.count_pos_iff.mpr he; omega
    by_cases ho : o' = o
    · subst ho; rw [if_pos rfl, List.count_erase_self]; omega
    · rw [if_neg ho, count_own_erase _ _ _ (by simpa using Ne.symm ho)]

theorem step_ok {s : State} (h : Inv s) (op : Op) (he : Enabled s op) : ∃ s', exec s op = some s' ∧ Inv s' := by
  cases op with
  | new => exact new_ok h
  | fromObj o => exact fromObj_ok h he
  | project p c t => exact project_ok h he
  | release p c => exact ⟨_, rfl, addNull_inv h⟩
  | tryAsRef p c => exact tryAsRef_ok h he
  | clone p c => exact clone_ok h he
  | drop p c => exact drop_ok h he
  | destroy b => exact destroy_ok h he
  | delete b x => exact delete_ok h he
  | releaseWeakLoad b => exact releaseWeakLoad_ok h he
  | releaseWeakDec b => exact releaseWeakDec_ok h he
  | weakFrom p b => exact weakFrom_ok h he
  | weakCopy p b => exact weakCopy_ok h he
  | weakDrop p b => exact weakDrop_ok h he
  | lock p b => exact lock_ok h he
  | null => exact ⟨_, rfl, addNull_inv h⟩
  | mkObj o => exact ⟨_, rfl, addOwn_ok h (by rw [show s.objs o = 0 from he])⟩
  | arcClone a =>
    have hp := h.own_pos he
    exact ⟨_, by simp only [exec]; rw [if_neg (by omega)], addOwn_ok h rfl⟩
  | dropObj o => exact dropObj_ok h he

theorem reach_inv {s : State} (h : Reach s) : Inv s := by
  induction h with
  | init => exact inv_init
  | step op _ he hx ih =>
    obtain ⟨s', hs', hi⟩ := step_ok ih op he
    rw [hx] at hs'; cases hs'; exact hi

/-! ### C62 -/

/-- Whatever the threads do, no step uses a freed control block or a dead object, or makes a count negative. -/
theorem shared_ptr_safe {s : State} (h : Reach s) (op : Op) (he : Enabled s op) : ∃ s', exec s op = some s' := by
  obtain ⟨s', hs', -⟩ := step_ok (reach_inv h) op he
  exact ⟨s', hs'⟩

/-- What a `shared_ptr` points to is alive, and has not been destroyed, as long as the `shared_ptr` exists. -/
theorem pointee_alive {s : State} (h : Reach s) {l : Loc} {c : Option Nat} (ht : .strong (some l) c ∈ s.toks) :
    s.alive l = true ∧ ∃ b, c = some b ∧ Event.destroyed b ∉ s.log ∧ Event.freed b ∉ s.log := by
  have hi := reach_inv h
  obtain ⟨b, rfl, hkp⟩ := hi.ptr l c ht
  obtain ⟨-, k, hk, hl⟩ := hi.strong_live ht
  obtain ⟨-, k', hk', hb⟩ := hi.block ht rfl
  rw [hk] at hk'; cases hk'
  refine ⟨hi.alive hk hl hkp, b, rfl, ?_, ?_⟩
  · have := hb.de
    rw [hl] at this
    exact List.count_eq_zero.mp this
  · exact List.count_eq_zero.mp hb.fr

/-- A value is not destroyed while it has an owner, null or not. -/
theorem owned_not_destroyed {s : State} (h : Reach s) {p : Option Loc} {b : Nat} (ht : .strong p (some b) ∈ s.toks) :
    Event.destroyed b ∉ s.log := by
  have hi := reach_inv h
  obtain ⟨-, k, hk, hl⟩ := hi.strong_live ht
  obtain ⟨-, k', hk', hb⟩ := hi.block ht rfl
  rw [hk] at hk'; cases hk'
  have := hb.de
  rw [hl] at this
  exact List.count_eq_zero.mp this

/-- Values are destroyed, and memory freed, at most once; memory only after the value. -/
theorem destroyed_once {s : State} (h : Reach s) (b : Nat) :
    s.log.count (.destroyed b) ≤ 1 ∧ s.log.count (.freed b) ≤ s.log.count (.destroyed b) ∧ ∀ o, s.log.count (.released b o) ≤ 1 := by
  have hi := (reach_inv h).blocks b
  cases hk : s.blocks b with
  | some k =>
    rw [hk] at hi
    obtain ⟨-, hi⟩ := hi
    have h1 := hi.de
    have h2 := hi.fr
    refine ⟨?_, ?_, fun o => ?_⟩
    · split at h1 <;> omega
    · omega
    · have := hi.rel o
      split at this <;> omega
  | none =>
    rw [hk] at hi
    rcases hi.2 with ⟨-, h1, h2, h3⟩ | ⟨-, h1, h2, h3⟩
    · exact ⟨by omega, by omega, h3⟩
    · exact ⟨by omega, by omega, fun o => Nat.le_trans (Nat.le_of_eq (h3 o)) (by omega)⟩

/-- No leaks: once the drops under way are finished, a value without owners has been destroyed, and if there are no `weak_ptr`s either
its memory has been freed. -/
theorem no_leak {s : State} (h : Reach s) (hp : ∀ t ∈ s.toks, t.pending = false) {b : Nat} (hb : b < s.next) (ho : owners s b = 0) :
    s.log.count (.destroyed b) = 1 ∧ (weakOwners s b = 0 → s.log.count (.freed b) = 1) := by
  have hi := (reach_inv h).blocks b
  have hS : (counts s.toks b).S = 0 := by
    rw [← ho]; unfold counts owners
    refine List.countP_congr fun t _ => ?_
    cases t <;> simp [isS]
  have hW : (counts s.toks b).W = weakOwners s b := by
    unfold counts weakOwners
    refine List.countP_congr fun t _ => ?_
    cases t <;> simp [isW]
  have hz : ∀ t : Tok, t.pending = true → s.toks.count t = 0 := by
    intro t ht
    refine List.count_eq_zero.mpr fun hm => ?_
    rw [hp t hm] at ht; cases ht
  cases hk : s.blocks b with
  | none =>
    rw [hk] at hi
    rcases hi.2 with ⟨-, h1, h2, -⟩ | ⟨h1, -⟩
    · exact ⟨h1, fun _ => h2⟩
    · exact absurd hb h1
  | some k =>
    rw [hk] at hi
    obtain ⟨-, hi⟩ := hi
    have h1 := hi.live
    rw [if_pos hS] at h1
    have h2 : (counts s.toks b).D = 0 := hz _ rfl
    have h3 : (counts s.toks b).R = 0 := hz _ rfl
    have h4 : (counts s.toks b).R2 = 0 := hz _ rfl
    have h5 : (counts s.toks b).T = 0 := hz _ rfl
    have h6 : (counts s.toks b).F = 0 := hz _ rfl
    have hl : k.live = false := by
      cases hl : k.live with
      | false => rfl
      | true => rw [hl] at h1; simp only [if_true] at h1; omega
    have h7 := hi.de
    rw [hl] at h7
    refine ⟨h7, fun hw => ?_⟩
    exfalso
    have h8 := hi.weak
    rw [hl] at h8
    simp only [Bool.false_eq_true, if_false] at h8
    have := hi.F.mpr (by omega)
    omega

/-- What the value owned (the `Box`, a count of the `Arc`, the argument of the deleter) is released exactly when the value is destroyed, so
exactly once, and nothing else is. -/
theorem released_iff {s : State} (h : Reach s) {b : Nat} {v : Option Obj} (hc : .created b v ∈ s.log) (o : Obj) :
    s.log.count (.released b o) = if v = some o then s.log.count (.destroyed b) else 0 :=
  ((reach_inv h).created b v hc).2.2 o

/-- Boxes and pointers with a deleter have at most one owner, so they are not released twice. -/
theorem unique_objects {s : State} (h : Reach s) (o : Obj) (ho : ∀ a, o ≠ .arc a) : s.objs o ≤ 1 := by
  have hset : ∀ (m : Obj → Nat) (o' : Obj) (n : Nat), m o ≤ 1 → (o' = o → n ≤ 1) → setObj m o' n o ≤ 1 := by
    intro m o' n h1 h2
    unfold setObj
    split
    · next e => exact h2 e.symm
    · exact h1
  induction h with
  | init => simp [State.init]
  | step op hr he hx ih =>
    rename_i s s'
    cases op <;> simp only [exec, new, project, Option.bind_eq_bind, Option.pure_def] at hx
    case fromObj => simp [State.alive, setBlock] at hx; subst hx; exact ih
    case project =>
      split at hx
      · cases hx; exact ih
      · split at hx <;> cases hx; exact ih
    case tryAsRef =>
      split at hx
      · cases hx; exact ih
      · split at hx <;> cases hx; exact ih
    case clone =>
      split at hx
      · cases hx; exact ih
      · obtain ⟨k, -, hx⟩ := Option.bind_eq_some_iff.mp hx; cases hx; exact ih
    case drop =>
      split at hx
      · cases hx; exact ih
      · obtain ⟨k, -, hx⟩ := Option.bind_eq_some_iff.mp hx
        split at hx <;> cases hx; exact ih
    case destroy =>
      obtain ⟨k, -, hx⟩ := Option.bind_eq_some_iff.mp hx
      split at hx
      · cases hx
      · split at hx
        · cases hx; exact ih
        · split at hx
          · cases hx
          · cases hx; exact hset _ _ _ ih (by rintro rfl; omega)
    case delete => obtain ⟨k, -, hx⟩ := Option.bind_eq_some_iff.mp hx; cases hx; exact ih
    case releaseWeakLoad => obtain ⟨k, -, hx⟩ := Option.bind_eq_some_iff.mp hx; cases hx; exact ih
    case releaseWeakDec =>
      obtain ⟨k, -, hx⟩ := Option.bind_eq_some_iff.mp hx
      split at hx <;> cases hx; exact ih
    case weakFrom => obtain ⟨k, -, hx⟩ := Option.bind_eq_some_iff.mp hx; cases hx; exact ih
    case weakCopy => obtain ⟨k, -, hx⟩ := Option.bind_eq_some_iff.mp hx; cases hx; exact ih
    case lock =>
      obtain ⟨k, -, hx⟩ := Option.bind_eq_some_iff.mp hx
      split at hx <;> cases hx <;> exact ih
    case mkObj => cases hx; exact hset _ _ _ ih (by rintro rfl; omega)
    case arcClone =>
      split at hx
      · cases hx
      · cases hx; exact hset _ _ _ ih (by rintro rfl; exact absurd rfl (ho _))
    case dropObj =>
      split at hx
      · cases hx
      · cases hx; exact hset _ _ _ ih (by rintro rfl; omega)
    all_goals (cases hx; exact ih)

/-! ### C63 -/

/-- `use_count` is the number of owners. -/
theorem use_count_exact {s : State} (h : Reach s) {p : Option Loc} {c : Option Nat} (ht : .strong p c ∈ s.toks) :
    useCount s c = some (match c with | some b => owners s b | none => 0) := by
  cases c with
  | none => rfl
  | some b =>
    obtain ⟨-, k, hk, hi⟩ := (reach_inv h).block ht rfl
    simp only [useCount, hk, Option.map_some, hi.strong]
    congr 1

/-- All `shared_ptr`s made from one `Arc` count as one: the strong count of an `Arc` is the number of `Arc`s outside plus the number of
live control blocks made by `from_arc`. For boxes the sum is at most 1. -/
theorem object_owners {s : State} (h : Reach s) (o : Obj) :
    s.objs o = s.toks.count (.own o) + ((List.range s.next).filter (holds s o)).length := by
  rw [(reach_inv h).objs o, List.countP_eq_length_filter]

/-- `lock` gives a pointer iff there is an owner left. -/
theorem lock_iff {s s' : State} (h : Reach s) {p : Option Loc} {b : Nat} (ht : .weak p b ∈ s.toks) (hx : exec s (.lock p b) = some s') :
    s'.toks = (if owners s b = 0 then Tok.strong none none else .strong p (some b)) :: s.toks := by
  obtain ⟨-, k, hk, hi⟩ := (reach_inv h).block ht rfl
  have : k.strong = owners s b := by
    rw [hi.strong]
    unfold counts owners
    refine List.countP_congr fun t _ => ?_
    cases t <;> simp [isS]
  simp only [exec, hk, Option.bind_eq_bind, Option.bind_some, Option.pure_def] at hx
  rw [this] at hx
  split at hx
  · next h0 => cases hx; simp [h0]
  · next h0 => cases hx; simp [h0]

def weight : Tok → Nat
  | .destroying _ => 4
  | .relWeak _ => 3
  | .relWeak2 _ => 2
  | .deleting _ _ => 1
  | _ => 0

def total (ts : List Tok) : Nat := (ts.map weight).sum

theorem total_erase {t : Tok} {ts : List Tok} (h : t ∈ ts) : total (ts.erase t) + weight t = total ts := by
  induction ts with
  | nil => cases h
  | cons u ts ih =>
    by_cases hu : u = t
    · subst hu; simp [total]; omega
    · rw [List.erase_cons_tail (by simpa using hu)]
      have := ih ((List.mem_cons.mp h).resolve_left fun e => hu e.symm)
      simp only [total, List.map_cons, List.sum_cons] at this ⊢
      omega

theorem keep_erase {t u : Tok} {ts : List Tok} (h : u.pending = true) (ht : t.pending = false) : (ts.erase u).count t = ts.count t :=
  List.count_erase_of_ne (by rintro rfl; rw [h] at ht; cases ht)

theorem keep_cons {t u : Tok} {ts : List Tok} (h : u.pending = true) (ht : t.pending = false) : (u :: ts).count t = ts.count t :=
  List.count_cons_of_ne (by rintro rfl; rw [h] at ht; cases ht)

/-- A pending token can be processed, which lowers the weight and touches no other tokens. -/
theorem finish_step {s : State} (h : Inv s) {t : Tok} (ht : t ∈ s.toks) (hp : t.pending = true) :
    ∃ op s', op.finishing = true ∧ Enabled s op ∧ exec s op = some s' ∧ total s'.toks < total s.toks ∧
      ∀ u, u.pending = false → s'.toks.count u = s.toks.count u := by
  have key : ∀ op, op.finishing = true → Enabled s op → (∀ s', exec s op = some s' → total s'.toks < total s.toks ∧
      ∀ u, u.pending = false → s'.toks.count u = s.toks.count u) → ∃ op s', op.finishing = true ∧ Enabled s op ∧ exec s op = some s' ∧
      total s'.toks < total s.toks ∧ ∀ u, u.pending = false → s'.toks.count u = s.toks.count u := by
    intro op h1 h2 h3
    obtain ⟨s', hs', -⟩ := step_ok h op h2
    exact ⟨op, s', h1, h2, hs', h3 s' hs'⟩
  have hw := total_erase ht
  cases t with
  | strong p c => cases hp
  | weak p b => cases hp
  | own o => cases hp
  | destroying b =>
    refine key (.destroy b) rfl ht fun s' hs' => ?_
    obtain ⟨-, k, hk, -⟩ := h.block ht rfl
    have htk : s'.toks = .relWeak b :: s.toks.erase (.destroying b) := by
      simp only [exec, hk, Option.bind_eq_bind, Option.bind_some, Option.pure_def] at hs'
      split at hs'
      · cases hs'
      · split at hs'
        · cases hs'; rfl
        · split at hs'
          · cases hs'
          · cases hs'; rfl
    rw [htk]
    refine ⟨?_, fun u hu => by rw [keep_cons rfl hu, keep_erase rfl hu]⟩
    simp only [total, List.map_cons, List.sum_cons, weight] at hw ⊢
    omega
  | relWeak b =>
    refine key (.releaseWeakLoad b) rfl ht fun s' hs' => ?_
    obtain ⟨-, k, hk, -⟩ := h.block ht rfl
    simp only [exec, hk, Option.bind_eq_bind, Option.bind_some, Option.pure_def] at hs'
    cases hs'
    simp only
    refine ⟨?_, fun u hu => by rw [keep_cons (by split <;> rfl) hu, keep_erase rfl hu]⟩
    simp only [total, List.map_cons, List.sum_cons] at hw ⊢
    split <;> simp only [weight] at hw ⊢ <;> omega
  | relWeak2 b =>
    refine key (.releaseWeakDec b) rfl ht fun s' hs' => ?_
    obtain ⟨-, k, hk, -⟩ := h.block ht rfl
    simp only [exec, hk, Option.bind_eq_bind, Option.bind_some, Option.pure_def] at hs'
    split at hs'
    · cases hs'
    · cases hs'
      simp only
      split
      · rw [List.singleton_append]
        refine ⟨?_, fun u hu => by rw [keep_cons rfl hu, keep_erase rfl hu]⟩
        simp only [total, List.map_cons, List.sum_cons, weight] at hw ⊢
        omega
      · rw [List.nil_append]
        refine ⟨?_, fun u hu => by rw [keep_erase rfl hu]⟩
        simp only [weight] at hw
        omega
  | deleting b x =>
    refine key (.delete b x) rfl ht fun s' hs' => ?_
    obtain ⟨-, k, hk, -⟩ := h.block ht rfl
    simp only [exec, hk, Option.bind_eq_bind, Option.bind_some, Option.pure_def] at hs'
    cases hs'
    refine ⟨?_, fun u hu => by rw [keep_erase rfl hu]⟩
    simp only [weight] at hw ⊢
    omega

/-- Drops under way can always be finished, in any order, without other threads; this changes no pointers. -/
theorem drops_finish {s : State} (h : Reach s) : ∃ s', Finish s s' ∧ (∀ t ∈ s'.toks, t.pending = false) ∧
    (∀ u, u.pending = false → s'.toks.count u = s.toks.count u) ∧ s'.next = s.next := by
  generalize hn : total s.toks = n
  induction n using Nat.strongRecOn generalizing s with
  | _ n ih =>
    by_cases hp : ∀ t ∈ s.toks, t.pending = false
    · exact ⟨s, .refl s, hp, fun _ _ => rfl, rfl⟩
    · have hex : ∃ t, t ∈ s.toks ∧ t.pending = true := by
        refine Classical.byContradiction fun hc => hp fun t ht => ?_
        cases hh : t.pending
        · rfl
        · exact absurd ⟨t, ht, hh⟩ hc
      obtain ⟨t, ht, htp⟩ := hex
      obtain ⟨op, s', h1, h2, h3, h4, h5⟩ := finish_step (reach_inv h) ht htp
      obtain ⟨s'', f1, f2, f3, f4⟩ := ih (total s'.toks) (by omega) (.step op h h2 h3) rfl
      refine ⟨s'', .step op h1 h2 h3 f1, f2, fun u hu => by rw [f3 u hu, h5 u hu], ?_⟩
      rw [f4]
      cases op <;> simp only [Op.finishing] at h1 <;> try cases h1
      all_goals
        simp only [exec, Option.bind_eq_bind, Option.pure_def] at h3
        obtain ⟨k, -, h3⟩ := Option.bind_eq_some_iff.mp h3
      · split at h3
        · cases h3
        · split at h3
          · cases h3; rfl
          · split at h3
            · cases h3
            · cases h3; rfl
      · cases h3; rfl
      · cases h3; rfl
      · split at h3
        · cases h3
        · cases h3; rfl


/-! ### A case: from an `Arc`, cloned, observed by a `weak_ptr`, dropped -/

def exOps : List Op :=
  let l := some (Loc.obj (.arc 7))
  [.mkObj (.arc 7), .arcClone 7, .fromObj (.arc 7), .clone l (some 0), .weakFrom l 0, .drop l (some 0), .lock l 0, .drop l (some 0),
    .drop l (some 0), .destroy 0, .lock l 0, .releaseWeakLoad 0, .releaseWeakDec 0, .weakDrop l 0, .releaseWeakLoad 0, .delete 0 true]

/-- The checks of `Enabled` that concern tokens. -/
def enabledB (s : State) : Op → Bool
  | .new | .null => true
  | .fromObj o | .dropObj o => decide (.own o ∈ s.toks)
  | .project _ _ _ => false
  | .release p c | .tryAsRef p c | .clone p c | .drop p c => decide (.strong p c ∈ s.toks)
  | .destroy b => decide (.destroying b ∈ s.toks)
  | .delete b counted => decide (.deleting b counted ∈ s.toks)
  | .releaseWeakLoad b => decide (.relWeak b ∈ s.toks)
  | .releaseWeakDec b => decide (.relWeak2 b ∈ s.toks)
  | .weakFrom p b => decide (.strong p (some b) ∈ s.toks)
  | .weakCopy p b | .weakDrop p b | .lock p b => decide (.weak p b ∈ s.toks)
  | .mkObj o => decide (s.objs o = 0)
  | .arcClone a => decide (.own (.arc a) ∈ s.toks)

theorem enabled_of_b {s : State} {op : Op} (h : enabledB s op = true) : Enabled s op := by
  cases op <;> simp only [enabledB, decide_eq_true_eq] at h <;> first | trivial | exact h | cases h

def runB (s : State) : List Op → Option State
  | [] => some s
  | op :: ops => if enabledB s op then (exec s op).bind fun s' => runB s' ops else none

theorem reach_of_runB {ops : List Op} : ∀ {s s' : State}, Reach s → runB s ops = some s' → Reach s' := by
  induction ops with
  | nil => intro s s' hr h; cases h; exact hr
  | cons op ops ih =>
    intro s s' hr h
    simp only [runB] at h
    split at h
    · next he =>
      obtain ⟨s1, h1, h2⟩ := Option.bind_eq_some_iff.mp h
      exact ih (.step op hr (enabled_of_b he) h1) h2
    · cases h

/-- After the third drop the `Arc` has one owner left, and the first `lock` had succeeded. At the end the memory is freed. -/
theorem example_run : ∃ s, runB .init exOps = some s ∧ Reach s ∧ s.objs (.arc 7) = 1 ∧
    s.log = [.freed 0, .released 0 (.arc 7), .destroyed 0, .created 0 (some (.arc 7))] ∧ s.toks = [.strong none none, .own (.arc 7)] := by
  obtain ⟨s, hs⟩ : ∃ s, runB .init exOps = some s := ⟨_, rfl⟩
  refine ⟨s, hs, reach_of_runB .init hs, ?_⟩
  have h1 : (runB .init exOps).map (fun s => (s.objs (.arc 7), s.log, s.toks)) =
    some (1, [.freed 0, .released 0 (.arc 7), .destroyed 0, .created 0 (some (.arc 7))], [.strong none none, .own (.arc 7)]) := by decide
  rw [hs] at h1
  simp only [Option.map_some, Option.some.injEq, Prod.mk.injEq] at h1
  exact h1

end Verif.SharedPtr

import Verif.Ctor.Inv
/-
C68-C70: theorems about all programs.
-/
namespace Verif.Ctor
open Verif Classical

/-! ### What follows from a log that memory allows -/

/-- An element comes to exist. -/
def Ev.begins (e : Nat) : Ev → Bool
  | .make e' | .new e' _ => e' = e
  | _ => false

/-- An element is dropped (or forgotten with its `ManuallyDrop`). -/
def Ev.ends (e : Nat) : Ev → Bool
  | .dropHand e' | .drop e' _ | .forget e' _ => e' = e
  | _ => false

def Machine.live (M : Machine) (e : Nat) : Prop := M.hand e ∨ ∃ p, M.mem p = some e

/-- Facts about the history `L` that led to `M`. -/
structure Hist (L : List Ev) (M : Machine) : Prop where
  hand : ∀ e, M.hand e → e < M.next ∧ ∀ p, M.mem p ≠ some e
  uniq : ∀ p q e, M.mem p = some e → M.mem q = some e → p = q
  begins : ∀ e, L.countP (Ev.begins e) = if e < M.next then 1 else 0
  ends : ∀ e, L.countP (Ev.ends e) + (if M.live e then 1 else 0) = if e < M.next then 1 else 0
  home : ∀ e p, .new e p ∈ L → ¬ M.hand e ∧ (∀ q, M.mem q = some e → q = p) ∧ ∀ q, (.drop e q ∈ L ∨ .forget e q ∈ L) → q = p

theorem Hist.mem_lt {L M} (h : Hist L M) {p : List Nat} {e : Nat} (hp : M.mem p = some e) : e < M.next := by
  have := h.ends e
  rw [if_pos (show M.live e from Or.inr ⟨p, hp⟩)] at this
  apply Classical.byContradiction
  intro hn
  rw [if_neg hn] at this; omega

theorem Hist.live_lt {L M} (h : Hist L M) {e : Nat} (hp : M.live e) : e < M.next := by
  rcases hp with hp | ⟨p, hp⟩
  · exact (h.hand e hp).1
  · exact h.mem_lt hp

theorem Hist.new_lt {L M} (h : Hist L M) {p : List Nat} {e : Nat} (hp : .new e p ∈ L) : e < M.next := by
  have h1 := h.begins e
  have : 0 < L.countP (Ev.begins e) := List.countP_pos_iff.2 ⟨_, hp, by simp [Ev.begins]⟩
  apply Classical.byContradiction
  intro hn
  rw [if_neg hn] at h1; omega

theorem hist_init : Hist [] .init := by
  refine ⟨?_, ?_, ?_, ?_, ?_⟩ <;> simp [Machine.init, Machine.live]

theorem ite_one (a b : Prop) [Decidable a] [Decidable b] (h : a ↔ b) : (if a then 1 else 0) = (if b then (1 : Nat) else 0) := by
  by_cases hb : b
  · rw [if_pos hb, if_pos (h.2 hb)]
  · rw [if_neg hb, if_neg (fun ha => hb (h.1 ha))]

theorem hist_step {L M M' ev} (h : Hist L M) (hs : Step M ev M') : Hist (L ++ [ev]) M' := by
  cases ev with
  | make e =>
    obtain ⟨rfl, rfl⟩ := hs
    refine ⟨?_, h.uniq, ?_, ?_, ?_⟩
    · rintro x (rfl | hx)
      · exact ⟨by simp, fun p hp => by have := h.mem_lt hp; omega⟩
      · exact ⟨by have := (h.hand x hx).1; simp only; omega, (h.hand x hx).2⟩
    · intro e
      simp only [List.countP_append, h.begins, List.countP_cons, List.countP_nil, Ev.begins, decide_eq_true_eq]
      split <;> split <;> split <;> omega
    · intro e
      have h1 := h.ends e
      simp only [List.countP_append, List.countP_cons, List.countP_nil, Ev.ends, Bool.false_eq_true, if_false, Nat.add_zero]
      by_cases he : e = M.next
      · subst he
        have hl : ¬ M.live M.next := fun hl => by have := h.live_lt hl; omega
        rw [if_neg hl, if_neg (by omega)] at h1
        rw [if_pos (show Machine.live _ M.next from Or.inl (Or.inl rfl)), if_pos (by simp)]
        omega
      · rw [ite_one _ (M.live e) (by simp [Machine.live, he]), ite_one (e < M.next + 1) (e < M.next) (by omega)]
        exact h1
    · intro e p hm
      simp only [List.mem_append, List.mem_singleton, reduceCtorEq, or_false] at hm
      obtain ⟨a1, a2, a3⟩ := h.home e p hm
      have := h.new_lt hm
      refine ⟨?_, a2, ?_⟩
      · rintro (rfl | hx)
        · omega
        · exact a1 hx
      · intro q hq
        simp only [List.mem_append, List.mem_singleton, reduceCtorEq, or_false] at hq
        exact a3 q hq
  | dropHand e =>
    obtain ⟨hh, rfl⟩ := hs
    refine ⟨fun x hx => h.hand x hx.1, h.uniq, ?_, ?_, ?_⟩
    · intro x
      simp only [List.countP_append, h.begins, List.countP_cons, List.countP_nil, Ev.begins, Bool.false_eq_true, if_false, Nat.add_zero]
    · intro x
      have h1 := h.ends x
      simp only [List.countP_append, List.countP_cons, List.countP_nil, Ev.ends, decide_eq_true_eq]
      by_cases he : e = x
      · subst he
        rw [if_pos (show M.live e from Or.inl hh)] at h1
        rw [if_neg (show ¬ Machine.live _ e from ?_)]
        · simp only [if_true]; omega
        · rintro (⟨-, hc⟩ | ⟨p, hp⟩)
          · exact hc rfl
          · exact (h.hand e hh).2 p hp
      · have he' : x ≠ e := fun h => he h.symm
        rw [ite_one (Machine.live _ x) (M.live x) (by simp [Machine.live, he']), if_neg he]
        exact h1
    · intro x p hm
      simp only [List.mem_append, List.mem_singleton, reduceCtorEq, or_false] at hm
      obtain ⟨a1, a2, a3⟩ := h.home x p hm
      refine ⟨fun hc => a1 hc.1, a2, ?_⟩
      intro q hq
      simp only [List.mem_append, List.mem_singleton, reduceCtorEq, or_false] at hq
      exact a3 q hq
  | put e p =>
    obtain ⟨hh, hp, rfl⟩ := hs
    refine ⟨?_, ?_, ?_, ?_, ?_⟩
    · rintro x ⟨hx, hne⟩
      refine ⟨(h.hand x hx).1, fun q hq => ?_⟩
      simp only at hq
      split at hq
      · simp only [Option.some.injEq] at hq; exact hne hq.symm
      · exact (h.hand x hx).2 q hq
    · intro a b x ha hb
      simp only at ha hb
      split at ha <;> split at hb
      · simp [*]
      · simp only [Option.some.injEq] at ha; subst ha; exact absurd hb ((h.hand _ hh).2 b)
      · simp only [Option.some.injEq] at hb; subst hb; exact absurd ha ((h.hand _ hh).2 a)
      · exact h.uniq _ _ _ ha hb
    · intro x
      simp only [List.countP_append, h.begins, List.countP_cons, List.countP_nil, Ev.begins, Bool.false_eq_true, if_false, Nat.add_zero]
    · intro x
      have h1 := h.ends x
      simp only [List.countP_append, List.countP_cons, List.countP_nil, Ev.ends, Bool.false_eq_true, if_false, Nat.add_zero]
      rw [ite_one (Machine.live _ x) (M.live x)]
      · exact h1
      · constructor
        · rintro (⟨hx, -⟩ | ⟨q, hq⟩)
          · exact Or.inl hx
          · simp only at hq
            split at hq
            · simp only [Option.some.injEq] at hq; subst hq; exact Or.inl hh
            · exact Or.inr ⟨q, hq⟩
        · rintro (hx | ⟨q, hq⟩)
          · by_cases hxe : x = e
            · exact Or.inr ⟨p, by simp [hxe]⟩
            · exact Or.inl ⟨hx, hxe⟩
          · refine Or.inr ⟨q, ?_⟩
            simp only
            rw [if_neg]
            · exact hq
            · rintro rfl; rw [hp] at hq; simp at hq
    · intro x a hm
      simp only [List.mem_append, List.mem_singleton, reduceCtorEq, or_false] at hm
      obtain ⟨a1, a2, a3⟩ := h.home x a hm
      refine ⟨fun hc => a1 hc.1, fun q hq => ?_, ?_⟩
      · simp only at hq
        split at hq
        · simp only [Option.some.injEq] at hq; subst hq; exact absurd hh a1
        · exact a2 q hq
      intro q hq
      simp only [List.mem_append, List.mem_singleton, reduceCtorEq, or_false] at hq
      exact a3 q hq
  | new e p =>
    obtain ⟨rfl, hp, rfl⟩ := hs
    have hno : ¬ M.live M.next := fun hl => by have := h.live_lt hl; omega
    refine ⟨?_, ?_, ?_, ?_, ?_⟩
    · intro x hx
      have hx' := h.hand x hx
      refine ⟨by simp only; omega, fun q hq => ?_⟩
      simp only at hq
      split at hq
      · simp only [Option.some.injEq] at hq; omega
      · exact hx'.2 q hq
    · intro a b x ha hb
      simp only at ha hb
      split at ha <;> split at hb
      · simp [*]
      · simp only [Option.some.injEq] at ha; subst ha; exact absurd (Or.inr ⟨b, hb⟩) hno
      · simp only [Option.some.injEq] at hb; subst hb; exact absurd (Or.inr ⟨a, ha⟩) hno
      · exact h.uniq _ _ _ ha hb
    · intro e
      simp only [List.countP_append, h.begins, List.countP_cons, List.countP_nil, Ev.begins, decide_eq_true_eq]
      split <;> split <;> split <;> omega
    · intro e
      have h1 := h.ends e
      simp only [List.countP_append, List.countP_cons, List.countP_nil, Ev.ends, Bool.false_eq_true, if_false, Nat.add_zero]
      by_cases he : e = M.next
      · subst he
        rw [if_neg hno, if_neg (by omega)] at h1
        rw [if_pos (show Machine.live _ M.next from Or.inr ⟨p, by simp⟩), if_pos (by simp)]
        omega
      · rw [ite_one (Machine.live _ e) (M.live e), ite_one (e < M.next + 1) (e < M.next) (by omega)]
        · exact h1
        · constructor
          · rintro (hx | ⟨q, hq⟩)
            · exact Or.inl hx
            · simp only at hq
              split at hq
              · simp only [Option.some.injEq] at hq; exact absurd hq.symm he
              · exact Or.inr ⟨q, hq⟩
          · rintro (hx | ⟨q, hq⟩)
            · exact Or.inl hx
            · refine Or.inr ⟨q, ?_⟩
              simp only
              rw [if_neg]
              · exact hq
              · rintro rfl; rw [hp] at hq; simp at hq
    · intro x a hm
      simp only [List.mem_append, List.mem_singleton, Ev.new.injEq] at hm
      rcases hm with hm | ⟨rfl, rfl⟩
      · obtain ⟨a1, a2, a3⟩ := h.home x a hm
        have := h.new_lt hm
        refine ⟨a1, fun q hq => ?_, ?_⟩
        · simp only at hq
          split at hq
          · simp only [Option.some.injEq] at hq; omega
          · exact a2 q hq
        · intro q hq
          simp only [List.mem_append, List.mem_singleton, reduceCtorEq, or_false] at hq
          exact a3 q hq
      · refine ⟨fun hc => hno (Or.inl hc), fun q hq => ?_, ?_⟩
        · simp only at hq
          split at hq
          · next e => exact e
          · exact absurd (Or.inr ⟨q, hq⟩) hno
        · intro q hq
          simp only [List.mem_append, List.mem_singleton, reduceCtorEq, or_false] at hq
          have h1 := h.ends M.next
          rw [if_neg hno, if_neg (by omega)] at h1
          have : 0 < L.countP (Ev.ends M.next) := by
            rcases hq with hq | hq
            · exact List.countP_pos_iff.2 ⟨_, hq, by simp [Ev.ends]⟩
            · exact List.countP_pos_iff.2 ⟨_, hq, by simp [Ev.ends]⟩
          omega
  | free x =>
    obtain ⟨-, rfl⟩ := hs
    refine ⟨h.hand, h.uniq, ?_, ?_, ?_⟩
    · intro e; rw [← h.begins]; simp [Ev.begins]
    · intro e; rw [← h.ends]; simp [Ev.ends]
    · intro e p hm
      simp only [List.mem_append, List.mem_singleton, reduceCtorEq, or_false] at hm ⊢
      exact h.home e p hm
  | drop e p =>
    exact hist_remove h hs (fun x => by simp [Ev.begins]) (fun x => by simp [Ev.ends]) (fun x q => by simp) (fun x q hq => by simp at hq; exact hq)
  | forget e p =>
    exact hist_remove h hs (fun x => by simp [Ev.begins]) (fun x => by simp [Ev.ends]) (fun x q => by simp) (fun x q hq => by simp at hq; exact hq)
where
  hist_remove {L M M' ev e p} (h : Hist L M) (hs : M.mem p = some e ∧ M' = { M with mem := fun q => if q = p then none else M.mem q })
      (hb : ∀ x, ev.begins x = false) (he : ∀ x, ev.ends x = decide (e = x)) (hn : ∀ x q, ev ≠ Ev.new x q)
      (hd : ∀ x q, (ev = Ev.drop x q ∨ ev = Ev.forget x q) → e = x ∧ p = q) : Hist (L ++ [ev]) M' := by
    obtain ⟨hp, rfl⟩ := hs
    refine ⟨?_, ?_, ?_, ?_, ?_⟩
    · intro x hx
      refine ⟨(h.hand x hx).1, fun q hq => ?_⟩
      simp only at hq
      split at hq
      · simp at hq
      · exact (h.hand x hx).2 q hq
    · intro a b x ha hb
      simp only at ha hb
      split at ha <;> split at hb <;> simp_all
      exact h.uniq _ _ _ ha hb
    · intro x
      simp only [List.countP_append, h.begins, List.countP_cons, List.countP_nil, hb, Bool.false_eq_true, if_false, Nat.add_zero]
    · intro x
      have h1 := h.ends x
      simp only [List.countP_append, List.countP_cons, List.countP_nil, he, decide_eq_true_eq]
      by_cases hx : e = x
      · subst hx
        rw [if_pos (show M.live e from Or.inr ⟨p, hp⟩)] at h1
        rw [if_neg (show ¬ Machine.live _ e from ?_)]
        · simp only [if_true]; omega
        · rintro (hc | ⟨q, hq⟩)
          · exact (h.hand e hc).2 p hp
          · simp only at hq
            split at hq
            · simp at hq
            · next hne => exact hne (h.uniq _ _ _ hq hp)
      · rw [ite_one (Machine.live _ x) (M.live x), if_neg hx]
        · exact h1
        · constructor
          · rintro (hc | ⟨q, hq⟩)
            · exact Or.inl hc
            · simp only at hq
              split at hq
              · simp at hq
              · exact Or.inr ⟨q, hq⟩
          · rintro (hc | ⟨q, hq⟩)
            · exact Or.inl hc
            · refine Or.inr ⟨q, ?_⟩
              simp only
              rw [if_neg]
              · exact hq
              · rintro rfl; rw [hp] at hq; simp at hq; exact hx hq
    · intro x a hm
      have hm' : Ev.new x a ∈ L := by
        simp only [List.mem_append, List.mem_singleton] at hm
        rcases hm with hm | hm
        · exact hm
        · exact absurd hm.symm (hn x a)
      obtain ⟨a1, a2, a3⟩ := h.home x a hm'
      refine ⟨a1, fun q hq => ?_, fun q hq => ?_⟩
      · simp only at hq
        split at hq
        · simp at hq
        · exact a2 q hq
      · simp only [List.mem_append, List.mem_singleton] at hq
        have : (Ev.drop x q ∈ L ∨ Ev.forget x q ∈ L) ∨ (ev = Ev.drop x q ∨ ev = Ev.forget x q) := by
          rcases hq with (h | h) | (h | h)
          · exact Or.inl (Or.inl h)
          · exact Or.inr (Or.inl h.symm)
          · exact Or.inl (Or.inr h)
          · exact Or.inr (Or.inr h.symm)
        rcases this with h' | h'
        · exact a3 q h'
        · obtain ⟨rfl, rfl⟩ := hd x q h'
          exact a2 _ hp

theorem hist_replay (l : List Ev) : ∀ {L M M'}, Hist L M → Replay M l M' → Hist (L ++ l) M' := by
  induction l with
  | nil => intro L M M' h hr; simp only [Replay] at hr; subst hr; simpa using h
  | cons ev l ih =>
    intro L M M' h hr
    obtain ⟨M1, h1, h2⟩ := hr
    have := ih (hist_step h h1) h2
    simpa using this

theorem run_inv (ops : List Op) : ∀ {s s' : State} {M : Machine}, Inv s M → Replay .init s.log M → (∀ op ∈ ops, op.Safe) → run s ops = some s' →
    ∃ M', Replay .init s'.log M' ∧ Inv s' M' := by
  induction ops with
  | nil => intro s s' M h hr _ he; simp only [run, Option.some.injEq] at he; subst he; exact ⟨M, hr, h⟩
  | cons op ops ih =>
    intro s s' M h hr hs he
    simp only [run, Option.bind_eq_bind, Option.bind_eq_some_iff] at he
    obtain ⟨s1, h1, h2⟩ := he
    have hw := (hist_replay _ hist_init hr).hand
    obtain ⟨l, M1, e1, e2, e3⟩ := exec_inv h (fun e he => (hw e he).1) (hs op (List.mem_cons_self ..)) h1
    exact ih e3 (by rw [e1]; exact hr.trans e2) (fun op hop => hs op (List.mem_cons_of_mem _ hop)) h2

theorem init_inv : Inv .init .init := by
  refine ⟨rfl, ?_, ?_, ?_, rfl, ?_, ?_⟩ <;> simp [State.init, Machine.init, AMap.keys]

/-- C68. Every program only does what memory allows, and afterwards memory contains exactly the values of the program. -/
theorem memory_respected (ops : List Op) (hs : ∀ op ∈ ops, op.Safe) (s : State) (h : run .init ops = some s) :
    ∃ M, Replay .init s.log M ∧ (∀ e, M.hand e ↔ e ∈ s.hand) ∧ (∀ x q, M.mem (x :: q) = (AMap.get? s.roots x).bind (·.at q)) ∧ M.mem [] = none := by
  obtain ⟨M, h1, h2⟩ := run_inv ops init_inv rfl hs h
  exact ⟨M, h1, h2.hand, h2.mem, h2.nil⟩

/-- C68. A value constructed in place is dropped where it was constructed, and its memory is not freed before. -/
theorem pinned (ops : List Op) (hs : ∀ op ∈ ops, op.Safe) (s : State) (h : run .init ops = some s) :
    (∀ e p q, .new e p ∈ s.log → (.drop e q ∈ s.log ∨ .forget e q ∈ s.log) → q = p) ∧ (∀ e p, .new e p ∈ s.log → .dropHand e ∉ s.log ∧ ∀ q, .put e q ∉ s.log) ∧
    ∀ l x l', s.log = l ++ .free x :: l' → ∀ e p, .new e (x :: p) ∈ l → .drop e (x :: p) ∈ l ∨ .forget e (x :: p) ∈ l := by
  obtain ⟨M, h1, h2⟩ := run_inv ops init_inv rfl hs h
  have hh := hist_replay _ hist_init h1
  rw [List.nil_append] at hh
  have outside : ∀ l l' e p, s.log = l ++ l' → .new e p ∈ l → (∀ ev, ev = .dropHand e ∨ (∃ q, ev = .put e q) → ∀ l1 l2, l' = l1 ++ ev :: l2 → False) := by
    intro l l' e p hl hn ev hev l1 l2 hl'
    rw [hl, hl', ← List.append_assoc] at h1
    obtain ⟨M1, r1, M2, r2, -⟩ := (replay_append _ _).1 h1
    have hh1 := hist_replay _ hist_init r1
    rw [List.nil_append] at hh1
    have := (hh1.home e p (List.mem_append_left _ hn)).1
    rcases hev with rfl | ⟨q, rfl⟩
    · exact this r2.1
    · exact this r2.1
  have before : ∀ l l' e p, s.log = l ++ .new e p :: l' → ∀ ev, ev = .dropHand e ∨ (∃ q, ev = .put e q) → ev ∉ l := by
    intro l l' e p hl ev hev hm
    obtain ⟨l1, l2, rfl⟩ := List.append_of_mem hm
    rw [hl] at h1
    obtain ⟨M1, r1, M2, r2, r3⟩ := (replay_append _ _).1 h1
    have hh1 := hist_replay _ hist_init r1
    rw [List.nil_append] at hh1
    have hlt : e = M1.next := r2.1
    obtain ⟨M3, r4, M4, r5, r6⟩ := (replay_append _ _).1 r1
    have hh3 := hist_replay _ hist_init r4
    have hhand : M3.hand e := by
      rcases hev with rfl | ⟨q, rfl⟩
      · exact r5.1
      · exact r5.1
    have h3 := (hh3.hand e hhand).1
    have b3 := hh3.begins e
    rw [if_pos h3] at b3
    have b1 := hh1.begins e
    rw [if_neg (by omega), List.countP_append] at b1
    simp only [List.nil_append] at b3
    omega
  refine ⟨fun e p q hn hd => (hh.home e p hn).2.2 q hd, fun e p hn => ?_, ?_⟩
  · have key : ∀ ev, ev = .dropHand e ∨ (∃ q, ev = .put e q) → ev ∉ s.log := by
      intro ev hev hm
      obtain ⟨l, l', hl⟩ := List.append_of_mem hn
      rw [hl, List.mem_append, List.mem_cons] at hm
      rcases hm with hm | rfl | hm
      · exact before l l' e p hl ev hev hm
      · rcases hev with h | ⟨q, h⟩ <;> cases h
      · obtain ⟨l1, l2, rfl⟩ := List.append_of_mem hm
        exact outside (l ++ [.new e p]) (l1 ++ ev :: l2) e p (by rw [hl]; simp) (by simp) ev hev l1 l2 rfl
    exact ⟨key _ (Or.inl rfl), fun q => key _ (Or.inr ⟨q, rfl⟩)⟩
  · intro l x l' hl e p hn
    rw [hl] at h1
    obtain ⟨M1, r1, M2, r2, -⟩ := (replay_append _ _).1 h1
    have hh1 := hist_replay _ hist_init r1
    rw [List.nil_append] at hh1
    obtain ⟨a1, a2, a3⟩ := hh1.home e _ hn
    have hlt := hh1.new_lt hn
    have he := hh1.ends e
    have hnl : ¬ M1.live e := by
      rintro (hc | ⟨q, hq⟩)
      · exact a1 hc
      · have := a2 q hq
        subst this
        rw [r2.1 p] at hq; simp at hq
    rw [if_neg hnl, if_pos hlt] at he
    obtain ⟨ev, hm, hev⟩ := List.countP_pos_iff.1 (show 0 < l.countP (Ev.ends e) by omega)
    cases ev with
    | drop e' q =>
      simp only [Ev.ends, decide_eq_true_eq] at hev; subst hev
      have := a3 q (Or.inl hm); subst this; exact Or.inl hm
    | forget e' q =>
      simp only [Ev.ends, decide_eq_true_eq] at hev; subst hev
      have := a3 q (Or.inr hm); subst this; exact Or.inr hm
    | dropHand e' =>
      simp only [Ev.ends, decide_eq_true_eq] at hev; subst hev
      obtain ⟨k, k', hk⟩ := List.append_of_mem hn
      subst hk
      rw [List.mem_append, List.mem_cons] at hm
      rcases hm with hm | hm | hm
      · exact absurd hm (before k (k' ++ .free x :: l') e' (x :: p) (by rw [hl]; simp) _ (Or.inl rfl))
      · cases hm
      · obtain ⟨l1, l2, rfl⟩ := List.append_of_mem hm
        exact (outside (k ++ [.new e' (x :: p)]) (l1 ++ .dropHand e' :: (l2 ++ .free x :: l')) e' (x :: p) (by rw [hl]; simp) (by simp) _ (Or.inl rfl) l1 _ rfl).elim
    | make | put | new | free => simp [Ev.ends] at hev

/-- C69. Each value comes to exist once and is dropped at most once; it is not dropped exactly while the program has it; when nothing is
left, all values have been dropped exactly once. -/
theorem dropped_once (ops : List Op) (hs : ∀ op ∈ ops, op.Safe) (s : State) (h : run .init ops = some s) :
    (∀ e, s.log.countP (Ev.begins e) ≤ 1 ∧ s.log.countP (Ev.ends e) ≤ s.log.countP (Ev.begins e)) ∧
    (∀ e, 0 < s.log.countP (Ev.begins e) →
      (s.log.countP (Ev.ends e) = 0 ↔ e ∈ s.hand ∨ ∃ x v q, AMap.get? s.roots x = some v ∧ v.at q = some e)) ∧
    (s.roots = [] → s.hand = [] → ∀ e, s.log.countP (Ev.ends e) = s.log.countP (Ev.begins e)) := by
  obtain ⟨M, h1, h2⟩ := run_inv ops init_inv rfl hs h
  have hh := hist_replay _ hist_init h1
  rw [List.nil_append] at hh
  have hlive : ∀ e, M.live e ↔ e ∈ s.hand ∨ ∃ x v q, AMap.get? s.roots x = some v ∧ v.at q = some e := by
    intro e
    simp only [Machine.live, h2.hand]
    constructor
    · rintro (hc | ⟨p, hp⟩)
      · exact Or.inl hc
      · cases p with
        | nil => rw [h2.nil] at hp; simp at hp
        | cons x q =>
          rw [h2.mem, Option.bind_eq_some_iff] at hp
          obtain ⟨v, hv, hq⟩ := hp
          exact Or.inr ⟨x, v, q, hv, hq⟩
    · rintro (hc | ⟨x, v, q, hv, hq⟩)
      · exact Or.inl hc
      · exact Or.inr ⟨x :: q, by rw [h2.mem, hv]; exact hq⟩
  refine ⟨fun e => ?_, fun e hb => ?_, fun hr hd e => ?_⟩
  · have a := hh.begins e
    have b := hh.ends e
    split at a <;> split at b <;> omega
  · rw [← hlive]
    have a := hh.begins e
    have b := hh.ends e
    by_cases hl : M.live e
    · rw [if_pos hl] at b
      simp only [hl, iff_true]
      split at a <;> split at b <;> omega
    · rw [if_neg hl] at b
      simp only [hl, iff_false]
      split at a <;> split at b <;> omega
  · have hn : ¬ M.live e := by rw [hlive]; simp [hr, hd]
    have a := hh.begins e
    have b := hh.ends e
    rw [if_neg hn] at b
    omega

/-- C70. `emplace`, `try_emplace` and combinators give the documented result, and the value that is then in the box has the right type: one
field for each `Ctor`. If not, there is no box. -/
theorem box_result (s s' : State) (c : Ctor) (h : exec s (.box c) = some s') :
    (c.eval = .ok () ∧ ∃ v, v.fits c ∧ s'.roots = (s.nextRoot, v) :: s.roots) ∨ (c.eval ≠ .ok () ∧ s'.roots = s.roots ∧ .free s.nextRoot ∈ s'.log) := by
  simp only [exec] at h
  split at h
  · simp at h
  simp only [Option.bind_eq_bind, Option.bind_eq_some_iff, Option.pure_def, Option.some.injEq] at h
  obtain ⟨hand, -, rfl⟩ := h
  have he := run_eval c s.next [s.nextRoot]
  unfold execBox
  rcases hc : c.run s.next [s.nextRoot] with ⟨n, l, v | k | -⟩ <;> rw [hc] at he <;> simp only at he ⊢
  · exact Or.inl ⟨he.1, v, he.2, rfl⟩
  · exact Or.inr ⟨by simp [he], trivial, by simp⟩
  · exact Or.inr ⟨by simp [he], trivial, by simp⟩

/-- C70. After `slot.try_replace(c)` the slot has the new value, or nothing if it failed; a failing `reconstruct` aborts. -/
theorem replace_result (s s' : State) (x : Nat) (c : Ctor) (h : exec s (.replace x c) = some s') :
    (c.eval = .ok () ∧ ∃ v, v.fits c ∧ AMap.get? s'.roots x = some (.slotSome v)) ∨ (c.eval ≠ .ok () ∧ AMap.get? s'.roots x = some .slotNone) := by
  simp only [exec] at h
  split at h
  · simp at h
  have main : ∀ hand l0, (c.eval = .ok () ∧ ∃ v, v.fits c ∧ AMap.get? (execReplace s hand x l0 c).roots x = some (.slotSome v)) ∨
      (c.eval ≠ .ok () ∧ AMap.get? (execReplace s hand x l0 c).roots x = some .slotNone) := by
    intro hand l0
    have he := run_eval c s.next [x, 0]
    unfold execReplace
    rcases hc : c.run s.next [x, 0] with ⟨n, l, v | k | -⟩ <;> rw [hc] at he <;> simp only at he ⊢
    · exact Or.inl ⟨he.1, v, he.2, AMap.get?_insert_self ..⟩
    · exact Or.inr ⟨by simp [he], AMap.get?_insert_self ..⟩
    · exact Or.inr ⟨by simp [he], AMap.get?_insert_self ..⟩
  simp only [Option.bind_eq_bind, Option.bind_eq_some_iff, Option.pure_def] at h
  obtain ⟨hand, -, w, -, h⟩ := h
  cases w <;> simp only [Option.some.injEq, reduceCtorEq] at h
  · subst h; exact main _ _
  · subst h; exact main _ _

theorem reconstruct_result (s s' : State) (x : Nat) (c : Ctor) (h : exec s (.reconstruct x c) = some s') :
    (c.eval = .ok () ∧ s'.aborted = s.aborted ∧ ∃ v, v.fits c ∧ (AMap.get? s'.roots x = some v ∨ AMap.get? s'.roots x = some (.slotSome v))) ∨
      (c.eval ≠ .ok () ∧ s'.aborted = true) := by
  simp only [exec] at h
  split at h
  · simp at h
  have main : ∀ hand p v f, (∀ u, f u = u ∨ f u = .slotSome u) →
      (c.eval = .ok () ∧ (execReconstruct s hand x p v f c).aborted = s.aborted ∧ ∃ v', v'.fits c ∧
        (AMap.get? (execReconstruct s hand x p v f c).roots x = some v' ∨ AMap.get? (execReconstruct s hand x p v f c).roots x = some (.slotSome v'))) ∨
      (c.eval ≠ .ok () ∧ (execReconstruct s hand x p v f c).aborted = true) := by
    intro hand p v f hf
    have he := run_eval c s.next p
    unfold execReconstruct
    rcases hc : c.run s.next p with ⟨n, l, u | k | -⟩ <;> rw [hc] at he <;> simp only at he ⊢
    · refine Or.inl ⟨he.1, trivial, u, he.2, ?_⟩
      rw [AMap.get?_insert_self]
      rcases hf u with h | h <;> simp [h]
    · exact Or.inr ⟨by simp [he], trivial⟩
    · exact Or.inr ⟨by simp [he], trivial⟩
  simp only [Option.bind_eq_bind, Option.bind_eq_some_iff, Option.pure_def] at h
  obtain ⟨hand, -, w, -, h⟩ := h
  cases w <;> simp only [Option.some.injEq] at h <;> subst h
  · exact main _ _ _ _ (fun u => Or.inl rfl)
  · exact main _ _ _ _ (fun u => Or.inl rfl)
  · exact main _ _ _ _ (fun u => Or.inl rfl)
  · exact main _ _ _ _ (fun u => Or.inr rfl)
  · exact main _ _ _ _ (fun u => Or.inl rfl)

/-- Disagreement: `Box::try_emplace(c.ctor_then(|_| Err(0)))` frees the memory of a pinned value that was not dropped. -/
theorem then_leaks : (run .init [.box (.andThen .make (.err 0))]).map (·.log) = some [.new 0 [0], .free 0] ∧
    ¬ ∃ M, Replay .init [.new 0 [0], .free 0] M := by
  refine ⟨by decide +kernel, ?_⟩
  rintro ⟨M, M1, ⟨-, -, rfl⟩, M2, ⟨h, -⟩, -⟩
  simpa using h []

/-- Disagreement: if dropping the value in a slot panics, `clear` does not reset the flag, and the value is dropped again with the slot. -/
theorem clear_drops_twice : (run .init [.emplace .make, .clear 0 true, .drop 0]).map (·.log.countP (Ev.ends 0)) = some 2 := by
  decide +kernel

/-- A program with all operations; it satisfies the hypotheses. -/
def example_ops : List Op :=
  [.make, .make, .make, .make, .emplace (.slotNew (.orElse (.mapErr (.error 3) some) (.struct (.cons (.move 0) (.cons .make .nil))))),
   .box (.struct (.cons .make (.cons (.manuallyDrop (.move 1)) (.cons (.expect (.error 1)) (.cons (.move 2) .nil))))),
   .box (.unwrapOrDefault (.error 1) .make), .reconstruct 2 (.andThen (.move 3) .ok), .emplace .slotUninit, .replace 0 (.error 4), .clear 3 false,
   .drop 0, .drop 2, .drop 3]

theorem example_runs : (∀ op ∈ example_ops, op.Safe) ∧ (run .init example_ops).map (fun s => (s.roots.length, s.hand, s.log)) =
    some (0, [], [.make 0, .make 1, .make 2, .make 3, .put 0 [0, 0, 0, 0], .new 4 [0, 0, 0, 1], .new 5 [0, 0, 0],
      .new 6 [1, 0], .put 1 [1, 1], .dropHand 2, .drop 6 [1, 0], .forget 1 [1, 1], .free 1, .new 7 [2], .drop 7 [2], .put 3 [2],
      .drop 5 [0, 0, 0], .drop 0 [0, 0, 0, 0], .drop 4 [0, 0, 0, 1], .free 0, .drop 3 [2], .free 2, .free 3]) := by
  refine ⟨by simp [example_ops, Op.Safe, Ctor.Safe, Ctors.Safe, Ctor.owned], by decide +kernel⟩

end Verif.Ctor

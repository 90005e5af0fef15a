import Verif.SharedPtr.Spec
/-
C62-C63: the invariant.
-/
namespace Verif.SharedPtr

structure Counts where
  S : Nat
  D : Nat
  W : Nat
  R : Nat
  R2 : Nat
  T : Nat
  F : Nat

def isS (b : Nat) : Tok → Bool
  | .strong _ c => c == some b
  | _ => false

def isW (b : Nat) : Tok → Bool
  | .weak _ c => c == b
  | _ => false

def counts (ts : List Tok) (b : Nat) : Counts :=
  ⟨ts.countP (isS b), ts.count (.destroying b), ts.countP (isW b), ts.count (.relWeak b), ts.count (.relWeak2 b),
    ts.count (.deleting b true), ts.count (.deleting b false)⟩

def Counts.zero (c : Counts) : Prop := c.S = 0 ∧ c.D = 0 ∧ c.W = 0 ∧ c.R = 0 ∧ c.R2 = 0 ∧ c.T = 0 ∧ c.F = 0

def Tok.block : Tok → Option Nat
  | .strong _ c => c
  | .weak _ b => some b
  | .own _ => none
  | .destroying b | .relWeak b | .relWeak2 b | .deleting b _ => some b

structure LiveInv (k : Block) (c : Counts) (de fr : Nat) (rel : Obj → Nat) : Prop where
  strong : k.strong = c.S
  live : c.D + (if c.S = 0 then 0 else 1) = if k.live then 1 else 0
  weak : k.weak = c.W + c.R + c.R2 + c.T + (if k.live then 1 else 0)
  one : c.T + c.F ≤ 1
  T : c.T = 1 → k.weak = 1
  F : c.F = 1 ↔ k.weak = 0
  de : de = if k.live then 0 else 1
  fr : fr = 0
  rel : ∀ o, rel o = if k.live = false ∧ k.val = some o then 1 else 0

def BlockInv (isOld : Prop) (k : Option Block) (c : Counts) (de fr : Nat) (rel : Obj → Nat) : Prop := match k with
  | some k => isOld ∧ LiveInv k c de fr rel
  | none => c.zero ∧ ((isOld ∧ de = 1 ∧ fr = 1 ∧ ∀ o, rel o ≤ 1) ∨ (¬ isOld ∧ de = 0 ∧ fr = 0 ∧ ∀ o, rel o = 0))

structure Inv (s : State) : Prop where
  blocks : ∀ b, BlockInv (b < s.next) (s.blocks b) (counts s.toks b) (s.log.count (.destroyed b)) (s.log.count (.freed b))
    (fun o => s.log.count (.released b o))
  ptr : ∀ l c, Tok.strong (some l) c ∈ s.toks → ∃ b, c = some b ∧ Keeps s b l
  wptr : ∀ l b, Tok.weak (some l) b ∈ s.toks → Keeps s b l
  objs : ∀ o, s.objs o = s.toks.count (.own o) + (List.range s.next).countP (holds s o)
  created : ∀ b v, Event.created b v ∈ s.log → b < s.next ∧ (∀ k, s.blocks b = some k → k.val = v) ∧
    ∀ o, s.log.count (.released b o) = if v = some o then s.log.count (.destroyed b) else 0

theorem counts_cons_other {t : Tok} {b : Nat} (h : t.block ≠ some b) (ts : List Tok) : counts (t :: ts) b = counts ts b := by
  cases t <;> simp [counts, Tok.block, isS, isW, List.countP_cons, List.count_cons] at * <;> simp_all

theorem countP_erase {α} [DecidableEq α] (p : α → Bool) {t : α} {ts : List α} (h : t ∈ ts) : (ts.erase t).countP p + (if p t then 1 else 0) = ts.countP p := by
  induction ts with
  | nil => cases h
  | cons u ts ih =>
    by_cases hu : u = t
    · subst hu; simp [List.countP_cons]
    · rw [List.erase_cons_tail (by simpa using hu)]
      have := ih ((List.mem_cons.mp h).resolve_left fun e => hu e.symm)
      simp only [List.countP_cons]
      omega

/-- Erasing one token. -/
theorem counts_erase {t : Tok} {ts : List Tok} (h : t ∈ ts) (b : Nat) :
    (counts (ts.erase t) b).S + (if isS b t then 1 else 0) = (counts ts b).S ∧
    (counts (ts.erase t) b).D + (if t == .destroying b then 1 else 0) = (counts ts b).D ∧
    (counts (ts.erase t) b).W + (if isW b t then 1 else 0) = (counts ts b).W ∧
    (counts (ts.erase t) b).R + (if t == .relWeak b then 1 else 0) = (counts ts b).R ∧
    (counts (ts.erase t) b).R2 + (if t == .relWeak2 b then 1 else 0) = (counts ts b).R2 ∧
    (counts (ts.erase t) b).T + (if t == .deleting b true then 1 else 0) = (counts ts b).T ∧
    (counts (ts.erase t) b).F + (if t == .deleting b false then 1 else 0) = (counts ts b).F :=
  ⟨countP_erase _ h, countP_erase _ h, countP_erase _ h, countP_erase _ h, countP_erase _ h, countP_erase _ h, countP_erase _ h⟩

theorem counts_cons (t : Tok) (ts : List Tok) (b : Nat) :
    (counts (t :: ts) b).S = (counts ts b).S + (if isS b t then 1 else 0) ∧
    (counts (t :: ts) b).D = (counts ts b).D + (if t == .destroying b then 1 else 0) ∧
    (counts (t :: ts) b).W = (counts ts b).W + (if isW b t then 1 else 0) ∧
    (counts (t :: ts) b).R = (counts ts b).R + (if t == .relWeak b then 1 else 0) ∧
    (counts (t :: ts) b).R2 = (counts ts b).R2 + (if t == .relWeak2 b then 1 else 0) ∧
    (counts (t :: ts) b).T = (counts ts b).T + (if t == .deleting b true then 1 else 0) ∧
    (counts (t :: ts) b).F = (counts ts b).F + (if t == .deleting b false then 1 else 0) :=
  ⟨List.countP_cons, List.count_cons, List.countP_cons, List.count_cons, List.count_cons, List.count_cons, List.count_cons⟩

theorem counts_erase_other {t : Tok} {b : Nat} (h : t.block ≠ some b) (ts : List Tok) : counts (ts.erase t) b = counts ts b := by
  by_cases ht : t ∈ ts
  · obtain ⟨h1, h2, h3, h4, h5, h6, h7⟩ := counts_erase ht b
    have e : ∀ c d : Counts, c.S = d.S → c.D = d.D → c.W = d.W → c.R = d.R → c.R2 = d.R2 → c.T = d.T → c.F = d.F → c = d := by
      intro c d; cases c; cases d; simp_all
    cases t <;> simp [Tok.block, isS, isW] at * <;> apply e <;> simp_all
  · rw [List.erase_of_not_mem ht]

theorem strong_counts {ts : List Tok} {p : Option Loc} {b : Nat} (h : .strong p (some b) ∈ ts) : 1 ≤ (counts ts b).S :=
  List.countP_pos_iff.mpr ⟨_, h, by simp [isS]⟩

theorem weak_counts {ts : List Tok} {p : Option Loc} {b : Nat} (h : .weak p b ∈ ts) : 1 ≤ (counts ts b).W :=
  List.countP_pos_iff.mpr ⟨_, h, by simp [isW]⟩

theorem destroying_counts {ts : List Tok} {b : Nat} (h : .destroying b ∈ ts) : 1 ≤ (counts ts b).D := List.count_pos_iff.mpr h
theorem relWeak_counts {ts : List Tok} {b : Nat} (h : .relWeak b ∈ ts) : 1 ≤ (counts ts b).R := List.count_pos_iff.mpr h
theorem relWeak2_counts {ts : List Tok} {b : Nat} (h : .relWeak2 b ∈ ts) : 1 ≤ (counts ts b).R2 := List.count_pos_iff.mpr h
theorem deletingT_counts {ts : List Tok} {b : Nat} (h : .deleting b true ∈ ts) : 1 ≤ (counts ts b).T := List.count_pos_iff.mpr h
theorem deletingF_counts {ts : List Tok} {b : Nat} (h : .deleting b false ∈ ts) : 1 ≤ (counts ts b).F := List.count_pos_iff.mpr h

/-- A block somebody refers to is allocated. -/
theorem Inv.block {s : State} (h : Inv s) {t : Tok} {b : Nat} (ht : t ∈ s.toks) (hb : t.block = some b) :
    b < s.next ∧ ∃ k, s.blocks b = some k ∧ LiveInv k (counts s.toks b) (s.log.count (.destroyed b)) (s.log.count (.freed b))
      (fun o => s.log.count (.released b o)) := by
  have hi := h.blocks b
  cases hk : s.blocks b with
  | some k => rw [hk] at hi; exact ⟨hi.1, k, rfl, hi.2⟩
  | none =>
    rw [hk] at hi
    obtain ⟨h1, h2, h3, h4, h5, h6, h7⟩ := hi.1
    cases t with
    | strong p c => simp only [Tok.block] at hb; subst hb; have := strong_counts ht; omega
    | weak p c => simp only [Tok.block, Option.some.injEq] at hb; subst hb; have := weak_counts ht; omega
    | own o => simp [Tok.block] at hb
    | destroying c => simp only [Tok.block, Option.some.injEq] at hb; subst hb; have := destroying_counts ht; omega
    | relWeak c => simp only [Tok.block, Option.some.injEq] at hb; subst hb; have := relWeak_counts ht; omega
    | relWeak2 c => simp only [Tok.block, Option.some.injEq] at hb; subst hb; have := relWeak2_counts ht; omega
    | deleting c x =>
      simp only [Tok.block, Option.some.injEq] at hb; subst hb
      cases x
      · have := deletingF_counts ht; omega
      · have := deletingT_counts ht; omega

theorem countP_range_update {n b : Nat} (P Q : Nat → Bool) (h : ∀ i, i ≠ b → P i = Q i) (hb : b < n) :
    (List.range n).countP P + (if Q b then 1 else 0) = (List.range n).countP Q + (if P b then 1 else 0) := by
  induction n with
  | zero => omega
  | succ n ih =>
    rw [List.range_succ]
    simp only [List.countP_append, List.countP_singleton]
    by_cases hbn : b = n
    · subst hbn
      have : (List.range b).countP P = (List.range b).countP Q := by
        refine List.countP_congr fun i hi => ?_
        rw [h i (by rw [List.mem_range] at hi; omega)]
      omega
    · have := ih (by omega)
      rw [h n (by omega)]
      omega

theorem countP_range_same {n : Nat} (P Q : Nat → Bool) (h : ∀ i, i < n → P i = Q i) : (List.range n).countP P = (List.range n).countP Q :=
  List.countP_congr fun i hi => by rw [h i (List.mem_range.mp hi)]

/-- A live value which owns `o` keeps it alive. -/
theorem Inv.holds_pos {s : State} (h : Inv s) {b : Nat} {o : Obj} (hh : holds s o b = true) : 0 < s.objs o := by
  rw [h.objs o]
  have hb : b < s.next := by
    have hi := h.blocks b
    unfold holds at hh
    cases hk : s.blocks b with
    | none => simp [hk] at hh
    | some k => rw [hk] at hi; exact hi.1
  have : 0 < (List.range s.next).countP (holds s o) := List.countP_pos_iff.mpr ⟨b, List.mem_range.mpr hb, hh⟩
  omega

theorem Inv.own_pos {s : State} (h : Inv s) {o : Obj} (hh : .own o ∈ s.toks) : 0 < s.objs o := by
  rw [h.objs o]
  have := List.count_pos_iff.mpr hh
  omega

/-- What a live value keeps is alive. -/
theorem Inv.alive {s : State} (h : Inv s) {b : Nat} {l : Loc} {k : Block} (hk : s.blocks b = some k) (hl : k.live = true) (hkeep : Keeps s b l) :
    s.alive l = true := by
  obtain ⟨k', hk', hl'⟩ := hkeep
  rw [hk] at hk'; cases hk'
  rcases hl' with rfl | ⟨o, ho, rfl⟩
  · simp [State.alive, hk, hl]
  · simp only [State.alive, decide_eq_true_eq]
    exact h.holds_pos (b := b) (by simp [holds, hk, hl, ho])

theorem Inv.strong_live {s : State} (h : Inv s) {p : Option Loc} {b : Nat} (ht : .strong p (some b) ∈ s.toks) :
    b < s.next ∧ ∃ k, s.blocks b = some k ∧ k.live = true := by
  obtain ⟨hb, k, hk, hi⟩ := h.block ht rfl
  refine ⟨hb, k, hk, ?_⟩
  have := strong_counts ht
  have := hi.live
  rw [if_neg (by omega)] at this
  cases hl : k.live
  · simp [hl] at this
  · rfl

theorem inv_init : Inv .init := by
  refine ⟨?_, ?_, ?_, ?_, ?_⟩
  · intro b
    simp [BlockInv, State.init, counts, Counts.zero]
  · intro l c h; simp [State.init] at h
  · intro l b h; simp [State.init] at h
  · intro o; simp [State.init]
  · intro b v h; simp [State.init] at h

end Verif.SharedPtr

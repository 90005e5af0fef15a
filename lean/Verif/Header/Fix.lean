import Verif.Header.Lemmas
import Mathlib.Logic.Relation

namespace Verif.Header
open Verif Verif.Toposort

/-- The text of a specialization asks for another one. -/
def Wants (w : Input) (s x : Nat) : Prop :=
  x ∈ (w.gen s).main.pre.wanted ∨ x ∈ (w.gen s).details.pre.wanted

/-- A specialization is needed: directly, or by one that is needed. -/
def Reach (w : Input) (seeds : List Nat) (x : Nat) : Prop :=
  ∃ s ∈ seeds, Relation.ReflTransGen (Wants w) s x

theorem Reach.next {w : Input} {seeds : List Nat} {s x : Nat} (h : Reach w seeds s) (hw : Wants w s x) :
    Reach w seeds x := by
  obtain ⟨r, hr, hrs⟩ := h
  exact ⟨r, hr, hrs.tail hw⟩

/-- The state after processing the specializations `L`, with `pending` still to come. -/
structure AInv (w : Input) (seeds : List Nat) (a0 a : Acc) (L pending : List Nat) : Prop where
  specs : a.specs = L.map fun s => (s, (w.gen s).main)
  impls : a.impls = L.map fun s => (s, (w.gen s).details)
  seen : ∀ x, x ∈ a.seen ↔ x ∈ L
  nodup : L.Nodup
  closed : ∀ s ∈ L, ∀ x, Wants w s x → x ∈ L ∨ x ∈ a.next ∨ x ∈ pending
  seeded : ∀ s ∈ seeds, s ∈ L ∨ s ∈ a.next ∨ s ∈ pending
  sound : ∀ x, x ∈ L ∨ x ∈ a.next ∨ x ∈ pending → Reach w seeds x
  includes : ∀ x, x ∈ a.includes ↔ x ∈ a0.includes ∨ ∃ s ∈ L, x ∈ (w.gen s).details.pre.includes
  sortedI : a.includes.Pairwise (· < ·)
  rs : a.rs = a0.rs ++ L.flatMap fun s => (w.gen s).rs
  decls : ∀ x, x ∈ a.decls ↔ x ∈ a0.decls ∨ ∃ s ∈ L, x ∈ (w.gen s).decls
  sortedD : a.decls.Pairwise (· < ·)

theorem procSpec_inv {w : Input} {seeds : List Nat} {a0 a : Acc} {L p : List Nat} {s : Nat}
    (h : AInv w seeds a0 a L (s :: p)) :
    ∃ L', AInv w seeds a0 (procSpec w.gen a s) L' p ∧ L <+: L' ∧
      (L' = L → (procSpec w.gen a s).next = a.next) ∧ (L' = L → s ∈ L) := by
  by_cases hs : s ∈ a.seen
  · have hL := (h.seen s).1 hs
    refine ⟨L, ?_, List.prefix_refl _, ?_, fun _ => hL⟩
    · simp only [procSpec, hs, if_true]
      refine { h with closed := ?_, seeded := ?_, sound := ?_ }
      · intro s' hs' x hx
        rcases h.closed s' hs' x hx with h1 | h1 | h1
        · exact .inl h1
        · exact .inr (.inl h1)
        · rcases List.mem_cons.1 h1 with rfl | h1
          · exact .inl hL
          · exact .inr (.inr h1)
      · intro s' hs'
        rcases h.seeded s' hs' with h1 | h1 | h1
        · exact .inl h1
        · exact .inr (.inl h1)
        · rcases List.mem_cons.1 h1 with rfl | h1
          · exact .inl hL
          · exact .inr (.inr h1)
      · rintro x (h1 | h1 | h1)
        · exact h.sound x (.inl h1)
        · exact h.sound x (.inr (.inl h1))
        · exact h.sound x (.inr (.inr (List.mem_cons_of_mem _ h1)))
    · intro _; simp [procSpec, hs]
  · have hL : s ∉ L := fun hc => hs ((h.seen s).2 hc)
    have hreach : Reach w seeds s := h.sound s (.inr (.inr (by simp)))
    have hnext : ∀ x, x ∈ (procSpec w.gen a s).next ↔
        x ∈ a.next ∨ (Wants w s x ∧ x ≠ s ∧ x ∉ L) := by
      intro x
      simp only [procSpec, hs, if_false, List.mem_append, List.mem_filter, List.mem_cons,
        h.seen, not_or, decide_eq_true_eq, Wants]
      tauto
    refine ⟨L ++ [s], ?_, List.prefix_append _ _, ?_, ?_⟩
    · constructor
      · simp [procSpec, hs, h.specs]
      · simp [procSpec, hs, h.impls]
      · intro x; simp [procSpec, hs, h.seen]; tauto
      · rw [List.nodup_append]
        refine ⟨h.nodup, by simp, ?_⟩
        intro x hx y hy
        simp only [List.mem_singleton] at hy
        subst hy
        rintro rfl
        exact hL hx
      · intro s' hs' x hx
        rw [hnext]
        simp only [List.mem_append, List.mem_singleton] at hs' ⊢
        rcases hs' with hs' | rfl
        · rcases h.closed s' hs' x hx with h1 | h1 | h1
          · exact .inl (.inl h1)
          · exact .inr (.inl (.inl h1))
          · rcases List.mem_cons.1 h1 with rfl | h1
            · exact .inl (.inr rfl)
            · exact .inr (.inr h1)
        · by_cases e1 : x = s'
          · exact .inl (.inr e1)
          · by_cases e2 : x ∈ L
            · exact .inl (.inl e2)
            · exact .inr (.inl (.inr ⟨hx, e1, e2⟩))
      · intro s' hs'
        rw [hnext]
        simp only [List.mem_append, List.mem_singleton]
        rcases h.seeded s' hs' with h1 | h1 | h1
        · exact .inl (.inl h1)
        · exact .inr (.inl (.inl h1))
        · rcases List.mem_cons.1 h1 with rfl | h1
          · exact .inl (.inr rfl)
          · exact .inr (.inr h1)
      · intro x hx
        rw [hnext] at hx
        simp only [List.mem_append, List.mem_singleton] at hx
        rcases hx with (h1 | rfl) | (h1 | h1) | h1
        · exact h.sound x (.inl h1)
        · exact hreach
        · exact h.sound x (.inr (.inl h1))
        · exact hreach.next h1.1
        · exact h.sound x (.inr (.inr (List.mem_cons_of_mem _ h1)))
      · intro x
        simp only [procSpec, hs, if_false, mem_unionSet, h.includes, List.mem_append,
          List.mem_singleton]
        constructor
        · rintro ((h1 | ⟨t, ht, h1⟩) | h1)
          · exact .inl h1
          · exact .inr ⟨t, .inl ht, h1⟩
          · exact .inr ⟨s, .inr rfl, h1⟩
        · rintro (h1 | ⟨t, ht | rfl, h1⟩)
          · exact .inl (.inl h1)
          · exact .inl (.inr ⟨t, ht, h1⟩)
          · exact .inr h1
      · simp only [procSpec, hs, if_false]; exact sorted_unionSet _ _ h.sortedI
      · simp [procSpec, hs, h.rs]
      · intro x
        simp only [procSpec, hs, if_false, mem_unionSet, h.decls, List.mem_append,
          List.mem_singleton]
        constructor
        · rintro ((h1 | ⟨t, ht, h1⟩) | h1)
          · exact .inl h1
          · exact .inr ⟨t, .inl ht, h1⟩
          · exact .inr ⟨s, .inr rfl, h1⟩
        · rintro (h1 | ⟨t, ht | rfl, h1⟩)
          · exact .inl (.inl h1)
          · exact .inl (.inr ⟨t, ht, h1⟩)
          · exact .inr h1
      · simp only [procSpec, hs, if_false]; exact sorted_unionSet _ _ h.sortedD
    · intro e; simp at e
    · intro e; simp at e

theorem fold_inv {w : Input} {seeds : List Nat} {a0 : Acc} (p : List Nat) {a : Acc} {L : List Nat}
    (h : AInv w seeds a0 a L p) :
    ∃ L', AInv w seeds a0 (p.foldl (procSpec w.gen) a) L' [] ∧ L <+: L' ∧
      (L' = L → (p.foldl (procSpec w.gen) a).next = a.next) := by
  induction p generalizing a L with
  | nil => exact ⟨L, h, List.prefix_refl _, fun _ => rfl⟩
  | cons s p ih =>
      obtain ⟨L1, h1, p1, e1, -⟩ := procSpec_inv h
      obtain ⟨L2, h2, p2, e2⟩ := ih h1
      refine ⟨L2, h2, p1.trans p2, ?_⟩
      intro e
      subst e
      have : L1 = L2 := by
        have l1 := p1.length_le
        have l2 := p2.length_le
        exact p2.eq_of_length_le l1
      subst this
      simp only [List.foldl_cons]
      rw [e2 rfl, e1 rfl]

/-- What a round starts with. -/
theorem round_start {w : Input} {seeds : List Nat} {a0 a : Acc} {L wl : List Nat}
    (h : AInv w seeds a0 a L []) (he : a.next = wl) :
    AInv w seeds a0 { a with next := [] } L (sortBy w.skey wl) := by
  subst he
  refine { h with closed := ?_, seeded := ?_, sound := ?_ }
  · intro s hs x hx
    rcases h.closed s hs x hx with h1 | h1 | h1
    · exact .inl h1
    · exact .inr (.inr ((mem_sortBy _ _ _).2 h1))
    · cases h1
  · intro s hs
    rcases h.seeded s hs with h1 | h1 | h1
    · exact .inl h1
    · exact .inr (.inr ((mem_sortBy _ _ _).2 h1))
    · cases h1
  · rintro x (h1 | h1 | h1)
    · exact h.sound x (.inl h1)
    · cases h1
    · exact h.sound x (.inr (.inl ((mem_sortBy _ _ _).1 h1)))

theorem fixpoint_inv {w : Input} {seeds : List Nat} {a0 : Acc} (n : Nat) {a b : Acc} {L wl : List Nat}
    (h : AInv w seeds a0 a L []) (he : a.next = wl) (hb : fixpoint w n a wl = some b) :
    ∃ L', AInv w seeds a0 b L' [] ∧ b.next = [] := by
  induction n generalizing a L wl with
  | zero =>
      cases wl with
      | nil =>
          simp only [fixpoint, Option.some.injEq] at hb
          subst hb
          exact ⟨L, h, he⟩
      | cons x xs => simp [fixpoint] at hb
  | succ n ih =>
      simp only [fixpoint] at hb
      split at hb
      · rename_i hw
        injection hb with hb
        subst hb
        exact ⟨L, h, by rw [he, hw]⟩
      · obtain ⟨L', h', -, -⟩ := fold_inv _ (round_start h he)
        exact ih h' rfl hb

/-- Enough rounds are enough, when finitely many specializations are needed. -/
theorem fixpoint_ends {w : Input} {seeds : List Nat} {a0 : Acc} (U : List Nat)
    (hU : ∀ x, Reach w seeds x → x ∈ U) (n : Nat) {a : Acc} {L wl : List Nat}
    (h : AInv w seeds a0 a L []) (he : a.next = wl) (hn : U.length < n + L.length) :
    (fixpoint w n a wl).isSome := by
  have hlen : ∀ {a : Acc} {L : List Nat}, AInv w seeds a0 a L [] → L.length ≤ U.length := by
    intro a L h
    exact h.nodup.subperm (fun x hx => hU x (h.sound x (.inl hx))) |>.length_le
  induction n generalizing a L wl with
  | zero => have := hlen h; omega
  | succ n ih =>
      simp only [fixpoint]
      split
      · rfl
      · obtain ⟨L', h', hp, hk⟩ := fold_inv _ (round_start h he)
        by_cases e : L' = L
        · have := hk e
          rw [this]
          cases n <;> simp [fixpoint]
        · refine ih h' rfl ?_
          have h1 := hp.length_le
          have h2 : L'.length ≠ L.length := fun e' => e (hp.eq_of_length e'.symm).symm
          omega

theorem start_inv (w : Input) (seeds : List Nat) (inc rs dec : List Nat)
    (hi : inc.Pairwise (· < ·)) (hd : dec.Pairwise (· < ·)) :
    AInv w seeds ⟨[], [], [], inc, rs, dec, []⟩ ⟨[], [], [], inc, rs, dec, seeds⟩ [] [] where
  specs := rfl
  impls := rfl
  seen := by simp
  nodup := by simp
  closed := by simp
  seeded := by simp
  sound := by
    rintro x (h | h | h)
    · cases h
    · exact ⟨x, h, .refl⟩
    · cases h
  includes := by simp
  sortedI := hi
  rs := by simp
  decls := by simp
  sortedD := hd

/-- The argument `next` is overwritten at once. -/
theorem fixpoint_next (w : Input) (n : Nat) (a : Acc) (x wl : List Nat) (hw : wl ≠ []) :
    fixpoint w n { a with next := x } wl = fixpoint w n a wl := by
  cases n with
  | zero => cases wl <;> simp_all [fixpoint]
  | succ n => simp [fixpoint, hw]

end Verif.Header

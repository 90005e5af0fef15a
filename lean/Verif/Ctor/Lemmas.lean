import Verif.Ctor.Spec
import Mathlib.Tactic.Tauto
/-
C68-C70: running one `Ctor` is allowed by memory.
-/
namespace Verif.Ctor
open Verif Classical

theorem replay_append (l l' : List Ev) : ∀ {M M' : Machine}, Replay M (l ++ l') M' ↔ ∃ M1, Replay M l M1 ∧ Replay M1 l' M' := by
  induction l with
  | nil => intro M M'; simp [Replay]
  | cons ev l ih =>
    intro M M'
    simp only [List.cons_append, Replay, ih]
    constructor
    · rintro ⟨M1, h1, M2, h2, h3⟩; exact ⟨M2, ⟨M1, h1, h2⟩, h3⟩
    · rintro ⟨M2, ⟨M1, h1, h2⟩, h3⟩; exact ⟨M1, h1, M2, h2, h3⟩

theorem Replay.trans {M M1 M2 : Machine} {l l' : List Ev} (h1 : Replay M l M1) (h2 : Replay M1 l' M2) : Replay M (l ++ l') M2 :=
  (replay_append l l').2 ⟨M1, h1, h2⟩

/-- The machine after the part of memory under `p` changed to `f`, and `own` was used. -/
noncomputable def Machine.upd (M : Machine) (n : Nat) (own : List Nat) (p : List Nat) (f : List Nat → Option Nat) : Machine :=
  ⟨n, fun e => M.hand e ∧ e ∉ own, fun a => if p <+: a then f (a.drop p.length) else M.mem a⟩

theorem Machine.ext' {M M' : Machine} (h1 : M.next = M'.next) (h2 : ∀ e, M.hand e ↔ M'.hand e) (h3 : ∀ a, M.mem a = M'.mem a) : M = M' := by
  obtain ⟨n, h, m⟩ := M
  obtain ⟨n', h', m'⟩ := M'
  have e2 : h = h' := funext fun e => propext (h2 e)
  have e3 : m = m' := funext h3
  simp only at h1
  subst h1; subst e2; subst e3; rfl

theorem prefix_iff {p a : List Nat} : p <+: a ↔ ∃ q, a = p ++ q := by
  constructor
  · rintro ⟨q, rfl⟩; exact ⟨q, rfl⟩
  · rintro ⟨q, rfl⟩; exact ⟨q, rfl⟩

theorem upd_mem_under (M : Machine) (n own p f q) : (M.upd n own p f).mem (p ++ q) = f q := by
  simp [Machine.upd]

theorem upd_mem_not (M : Machine) {n own p f a} (h : ¬ p <+: a) : (M.upd n own p f).mem a = M.mem a := by
  simp [Machine.upd, h]

theorem upd_upd (M : Machine) (n n' own own' p f f') : (M.upd n own p f).upd n' own' p f' = M.upd n' (own ++ own') p f' := by
  refine Machine.ext' rfl (fun e => ?_) (fun a => ?_)
  · simp only [Machine.upd, List.mem_append]; tauto
  · simp only [Machine.upd]; split <;> simp_all

theorem upd_self (M : Machine) (p : List Nat) (f) (hf : ∀ q, M.mem (p ++ q) = f q) : M.upd M.next [] p f = M := by
  refine Machine.ext' rfl (fun e => ?_) (fun a => ?_)
  · simp [Machine.upd]
  · simp only [Machine.upd]
    split
    · next h => obtain ⟨q, rfl⟩ := prefix_iff.1 h; simp [hf]
    · rfl

theorem at_nil_of_ne {p q : List Nat} : p ++ q = p ↔ q = [] := by simp

/-- One event at `p`, where nothing is below. -/
theorem upd_point (M : Machine) (n own p) (f : List Nat → Option Nat) (x : Option Nat) (h0 : ∀ q, q ≠ [] → M.mem (p ++ q) = f q) (hx : f [] = x) :
    M.upd n own p f = ⟨n, fun e => M.hand e ∧ e ∉ own, fun a => if a = p then x else M.mem a⟩ := by
  refine Machine.ext' rfl (fun e => Iff.rfl) (fun a => ?_)
  simp only [Machine.upd]
  split
  · next h =>
    obtain ⟨q, rfl⟩ := prefix_iff.1 h
    by_cases hq : q = []
    · subst hq; simp [hx]
    · simp [hq, h0 q hq]
  · next h =>
    rw [if_neg]
    rintro rfl
    exact h (List.prefix_refl _)

theorem upd_congr (M : Machine) (n own p) {f f' : List Nat → Option Nat} (h : ∀ q, f q = f' q) : M.upd n own p f = M.upd n own p f' := by
  have : f = f' := funext h
  rw [this]

theorem not_prefix_of_lt {p : List Nat} {i j : Nat} {q : List Nat} (h : i ≠ j) : ¬ (p ++ [i] <+: p ++ j :: q) := by
  rw [List.prefix_append_right_inj]
  intro hp
  obtain ⟨t, ht⟩ := hp
  simp at ht; exact h ht.1

theorem prefix_field {p : List Nat} {i : Nat} {q : List Nat} : p ++ [i] <+: p ++ i :: q := by
  rw [List.prefix_append_right_inj]; exact ⟨q, rfl⟩

theorem prefix_of_field {p a : List Nat} {i : Nat} (h : p ++ [i] <+: a) : p <+: a := by
  obtain ⟨t, rfl⟩ := h; exact ⟨[i] ++ t, by simp⟩

theorem field_path (p : List Nat) (i : Nat) (q : List Nat) : p ++ [i] ++ q = p ++ i :: q := by simp

/-! ### Dropping -/

theorem dropOwned_replay (es : List Nat) : ∀ (M : Machine), es.Nodup → (∀ e ∈ es, M.hand e) →
    Replay M (dropOwned es) { M with hand := fun e => M.hand e ∧ e ∉ es } := by
  induction es with
  | nil => intro M _ _; simp [dropOwned, Replay]
  | cons e es ih =>
    intro M hn hh
    simp only [List.nodup_cons] at hn
    refine ⟨_, ⟨hh e (List.mem_cons_self ..), rfl⟩, ?_⟩
    have := ih { M with hand := fun x => M.hand x ∧ x ≠ e } hn.2 (fun x hx => ⟨hh x (List.mem_cons_of_mem _ hx), fun h => hn.1 (h ▸ hx)⟩)
    refine Eq.mp ?_ this
    congr 1
    refine Machine.ext' rfl (fun x => ?_) (fun a => rfl)
    simp only [List.mem_cons, not_or]; tauto

/-- Dropping fields `i, i + 1, ...`. -/
noncomputable def Machine.clearFields (M : Machine) (p : List Nat) (i : Nat) : Machine :=
  { M with mem := fun a => if ∃ j q, i ≤ j ∧ a = p ++ j :: q then none else M.mem a }

theorem clearFields_struct (M : Machine) (p : List Nat) (h : M.mem p = none) : M.clearFields p 0 = M.upd M.next [] p (fun _ => none) := by
  refine Machine.ext' rfl (fun e => by simp [Machine.clearFields, Machine.upd]) (fun a => ?_)
  simp only [Machine.clearFields, Machine.upd]
  split
  · next hc =>
    obtain ⟨j, q, -, rfl⟩ := hc
    rw [if_pos ⟨_, rfl⟩]
  · next hc =>
    split
    · next hp =>
      obtain ⟨q, rfl⟩ := prefix_iff.1 hp
      cases q with
      | nil => simpa using h
      | cons j q => exact absurd ⟨j, q, Nat.zero_le _, rfl⟩ hc
    · rfl

mutual
theorem drop_replay (v : Val) (p : List Nat) (M : Machine) (h : ∀ q, M.mem (p ++ q) = v.at q) :
    Replay M (v.drop p) (M.upd M.next [] p (fun _ => none)) := by
  cases v with
  | leaf e =>
    refine ⟨_, ⟨by simpa [Val.at] using h [], rfl⟩, ?_⟩
    simp only [Replay]
    rw [upd_point M M.next [] p _ none (fun q hq => by rw [h q]; simp [Val.at, hq]) rfl]
    refine Machine.ext' rfl (fun e => by simp) (fun a => rfl)
  | struct e vs =>
    have h0 := h []
    simp only [List.append_nil, Val.at] at h0
    refine ⟨_, ⟨h0, rfl⟩, ?_⟩
    have := drops_replay vs p 0 { M with mem := fun q => if q = p then none else M.mem q } (fun j q _ => by
      have := h (j :: q); simp only [Val.at] at this; simp [this])
    rw [clearFields_struct _ _ (by simp)] at this
    refine Eq.mp ?_ this
    congr 1
    refine Machine.ext' rfl (fun x => by simp [Machine.upd]) (fun a => ?_)
    simp only [Machine.upd]
    split
    · rfl
    · next hp => rw [if_neg]; rintro rfl; exact hp (List.prefix_refl _)
  | slotNone =>
    simp only [Val.drop, Replay]
    exact upd_self M p _ (fun q => by rw [h]; simp [Val.at])
  | slotSome v =>
    have := drop_replay v (p ++ [0]) M (fun q => by rw [field_path, h]; simp [Val.at])
    refine Eq.mp ?_ this
    congr 1
    refine Machine.ext' rfl (fun x => by simp [Machine.upd]) (fun a => ?_)
    simp only [Machine.upd]
    by_cases hp : p <+: a
    · obtain ⟨q, rfl⟩ := prefix_iff.1 hp
      rw [if_pos hp, h]
      split
      · rfl
      · next hc =>
        cases q with
        | nil => rfl
        | cons j q =>
          cases j with
          | zero => exact absurd prefix_field hc
          | succ j => rfl
    · rw [if_neg hp, if_neg (fun hc => hp (prefix_of_field hc))]
  | manual v => exact forget_replay v p M (fun q => by rw [h]; simp [Val.at])
theorem drops_replay (vs : Vals) (p : List Nat) (i : Nat) (M : Machine) (h : ∀ j q, i ≤ j → M.mem (p ++ j :: q) = vs.at (j - i) q) :
    Replay M (vs.drop p i) (M.clearFields p i) := by
  cases vs with
  | nil =>
    simp only [Vals.drop, Replay]
    refine Machine.ext' rfl (fun e => Iff.rfl) (fun a => ?_)
    simp only [Machine.clearFields]
    split
    · next hc => obtain ⟨j, q, hj, rfl⟩ := hc; rw [h j q hj]; simp [Vals.at]
    · rfl
  | cons v vs =>
    have h1 := drop_replay v (p ++ [i]) M (fun q => by rw [field_path, h i q (Nat.le_refl _)]; simp [Vals.at])
    refine h1.trans ?_
    have h2 := drops_replay vs p (i + 1) (M.upd M.next [] (p ++ [i]) (fun _ => none)) (fun j q hj => by
      rw [upd_mem_not M (not_prefix_of_lt (by omega)), h j q (by omega)]
      have : j - i = (j - (i + 1)) + 1 := by omega
      rw [this]; simp [Vals.at])
    refine Eq.mp ?_ h2
    congr 1
    refine Machine.ext' rfl (fun x => by simp [Machine.upd, Machine.clearFields]) (fun a => ?_)
    simp only [Machine.clearFields]
    by_cases hc : ∃ j q, i ≤ j ∧ a = p ++ j :: q
    · rw [if_pos hc]
      obtain ⟨j, q, hj, rfl⟩ := hc
      by_cases hji : j = i
      · subst hji
        split
        · rfl
        · simp [Machine.upd, prefix_field]
      · rw [if_pos ⟨j, q, by omega, rfl⟩]
    · rw [if_neg hc, if_neg (fun ⟨j, q, hj, e⟩ => hc ⟨j, q, by omega, e⟩)]
      refine upd_mem_not M (fun hp => hc ?_)
      obtain ⟨t, rfl⟩ := hp
      exact ⟨i, t, Nat.le_refl _, by simp⟩
theorem forget_replay (v : Val) (p : List Nat) (M : Machine) (h : ∀ q, M.mem (p ++ q) = v.at q) :
    Replay M (v.forget p) (M.upd M.next [] p (fun _ => none)) := by
  cases v with
  | leaf e =>
    refine ⟨_, ⟨by simpa [Val.at] using h [], rfl⟩, ?_⟩
    simp only [Replay]
    rw [upd_point M M.next [] p _ none (fun q hq => by rw [h q]; simp [Val.at, hq]) rfl]
    refine Machine.ext' rfl (fun e => by simp) (fun a => rfl)
  | struct e vs =>
    have h0 := h []
    simp only [List.append_nil, Val.at] at h0
    refine ⟨_, ⟨h0, rfl⟩, ?_⟩
    have := forgets_replay vs p 0 { M with mem := fun q => if q = p then none else M.mem q } (fun j q _ => by
      have := h (j :: q); simp only [Val.at] at this; simp [this])
    rw [clearFields_struct _ _ (by simp)] at this
    refine Eq.mp ?_ this
    congr 1
    refine Machine.ext' rfl (fun x => by simp [Machine.upd]) (fun a => ?_)
    simp only [Machine.upd]
    split
    · rfl
    · next hp => rw [if_neg]; rintro rfl; exact hp (List.prefix_refl _)
  | slotNone =>
    simp only [Val.forget, Replay]
    exact upd_self M p _ (fun q => by rw [h]; simp [Val.at])
  | slotSome v =>
    have := forget_replay v (p ++ [0]) M (fun q => by rw [field_path, h]; simp [Val.at])
    refine Eq.mp ?_ this
    congr 1
    refine Machine.ext' rfl (fun x => by simp [Machine.upd]) (fun a => ?_)
    simp only [Machine.upd]
    by_cases hp : p <+: a
    · obtain ⟨q, rfl⟩ := prefix_iff.1 hp
      rw [if_pos hp, h]
      split
      · rfl
      · next hc =>
        cases q with
        | nil => rfl
        | cons j q =>
          cases j with
          | zero => exact absurd prefix_field hc
          | succ j => rfl
    · rw [if_neg hp, if_neg (fun hc => hp (prefix_of_field hc))]
  | manual v => exact forget_replay v p M (fun q => by rw [h]; simp [Val.at])
theorem forgets_replay (vs : Vals) (p : List Nat) (i : Nat) (M : Machine) (h : ∀ j q, i ≤ j → M.mem (p ++ j :: q) = vs.at (j - i) q) :
    Replay M (vs.forget p i) (M.clearFields p i) := by
  cases vs with
  | nil =>
    simp only [Vals.forget, Replay]
    refine Machine.ext' rfl (fun e => Iff.rfl) (fun a => ?_)
    simp only [Machine.clearFields]
    split
    · next hc => obtain ⟨j, q, hj, rfl⟩ := hc; rw [h j q hj]; simp [Vals.at]
    · rfl
  | cons v vs =>
    have h1 := forget_replay v (p ++ [i]) M (fun q => by rw [field_path, h i q (Nat.le_refl _)]; simp [Vals.at])
    refine h1.trans ?_
    have h2 := forgets_replay vs p (i + 1) (M.upd M.next [] (p ++ [i]) (fun _ => none)) (fun j q hj => by
      rw [upd_mem_not M (not_prefix_of_lt (by omega)), h j q (by omega)]
      have : j - i = (j - (i + 1)) + 1 := by omega
      rw [this]; simp [Vals.at])
    refine Eq.mp ?_ h2
    congr 1
    refine Machine.ext' rfl (fun x => by simp [Machine.upd, Machine.clearFields]) (fun a => ?_)
    simp only [Machine.clearFields]
    by_cases hc : ∃ j q, i ≤ j ∧ a = p ++ j :: q
    · rw [if_pos hc]
      obtain ⟨j, q, hj, rfl⟩ := hc
      by_cases hji : j = i
      · subst hji
        split
        · rfl
        · simp [Machine.upd, prefix_field]
      · rw [if_pos ⟨j, q, by omega, rfl⟩]
    · rw [if_neg hc, if_neg (fun ⟨j, q, hj, e⟩ => hc ⟨j, q, by omega, e⟩)]
      refine upd_mem_not M (fun hp => hc ?_)
      obtain ⟨t, rfl⟩ := hp
      exact ⟨i, t, Nat.le_refl _, by simp⟩
end

end Verif.Ctor

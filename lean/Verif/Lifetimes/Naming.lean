import Verif.Lifetimes.Model
/- `NameFromIndex` enumerates the non-empty lowercase words in shortlex order. -/
namespace Verif.Lifetimes

/-- A non-empty lowercase word. -/
def Word (n : Name) : Prop := n ≠ [] ∧ ∀ c ∈ n, 97 ≤ c.toNat ∧ c.toNat ≤ 122

/-- The order "a", …, "z", "aa", "ab", …: shorter first, then alphabetical. -/
def Before (a b : Name) : Prop := a.length < b.length ∨ (a.length = b.length ∧ a.map Char.toNat < b.map Char.toNat)

/-- `26^k + … + 26^(k+n-1)`. -/
def sumPow : Nat → Nat → Nat
  | _, 0 => 0
  | k, n + 1 => 26 ^ k + sumPow (k + 1) n

/-- Value of a word as a base 26 number. -/
def valueFrom (acc : Nat) (n : Name) : Nat := n.foldl (fun a c => 26 * a + (c.toNat - 97)) acc

/-- Position of a word in the enumeration. -/
def rank (n : Name) : Nat := sumPow 1 (n.length - 1) + valueFrom 0 n

theorem nameLoop_spec : ∀ (n k i : Nat), i < 26 ^ (k + n) → nameLoop (sumPow k n + i) (26 ^ k) k = (i, k + n) := by
  intro n
  induction n with
  | zero =>
    intro k i hi
    unfold nameLoop
    rw [dif_neg (by simp only [sumPow, Nat.add_zero] at hi ⊢; omega)]
    simp [sumPow]
  | succ n ih =>
    intro k i hi
    unfold nameLoop
    have hp : 0 < 26 ^ k := Nat.pow_pos (by omega)
    rw [dif_pos (by simp only [sumPow]; omega)]
    have e1 : sumPow k (n + 1) + i - 26 ^ k = sumPow (k + 1) n + i := by simp only [sumPow]; omega
    rw [e1, ← Nat.pow_succ, ih (k + 1) i (by rw [show k + 1 + n = k + (n + 1) by omega]; exact hi)]
    rw [show k + 1 + n = k + (n + 1) by omega]

theorem char_ofNat (d : Nat) (h : d < 26) : (Char.ofNat (97 + d)).toNat = 97 + d := by
  have : ∀ d < 26, (Char.ofNat (97 + d)).toNat = 97 + d := by decide
  exact this d h

theorem char_ofNat' (c : Char) (h : 97 ≤ c.toNat ∧ c.toNat ≤ 122) : Char.ofNat (97 + (c.toNat - 97)) = c := by
  rw [show 97 + (c.toNat - 97) = c.toNat by omega]; exact Char.ofNat_toNat c

theorem nameDigits_spec : ∀ (n : Nat) (w : Name), w.length = n → (∀ c ∈ w, 97 ≤ c.toNat ∧ c.toNat ≤ 122) →
    ∀ acc, nameDigits (valueFrom 0 w) n acc = w ++ acc := by
  intro n
  induction n with
  | zero =>
    intro w hw _ acc
    have : w = [] := List.length_eq_zero_iff.mp hw
    subst this; rfl
  | succ n ih =>
    intro w hw hc acc
    rcases List.eq_nil_or_concat w with rfl | ⟨w', c, rfl⟩
    · simp at hw
    · rw [List.concat_eq_append] at hw hc ⊢
      have hl : w'.length = n := by simpa using hw
      have hcc := hc c (by simp)
      have hv : valueFrom 0 (w' ++ [c]) = 26 * valueFrom 0 w' + (c.toNat - 97) := by simp [valueFrom]
      unfold nameDigits
      rw [hv, show (26 * valueFrom 0 w' + (c.toNat - 97)) / 26 = valueFrom 0 w' by omega,
        show (26 * valueFrom 0 w' + (c.toNat - 97)) % 26 = c.toNat - 97 by omega, char_ofNat' c hcc,
        ih w' hl (fun x hx => hc x (by simp [hx]))]
      simp

theorem value_lt (w : Name) (hc : ∀ c ∈ w, 97 ≤ c.toNat ∧ c.toNat ≤ 122) : ∀ acc, valueFrom acc w < (acc + 1) * 26 ^ w.length ∧ acc * 26 ^ w.length ≤ valueFrom acc w := by
  induction w with
  | nil => intro acc; simp [valueFrom]
  | cons c w ih =>
    intro acc
    have hcc := hc c (by simp)
    obtain ⟨h1, h2⟩ := ih (fun x hx => hc x (by simp [hx])) (26 * acc + (c.toNat - 97))
    have e : valueFrom acc (c :: w) = valueFrom (26 * acc + (c.toNat - 97)) w := rfl
    rw [e]
    simp only [List.length_cons, Nat.pow_succ]
    constructor
    · refine Nat.lt_of_lt_of_le h1 ?_
      have : 26 * acc + (c.toNat - 97) + 1 ≤ (acc + 1) * 26 := by omega
      calc _ ≤ (acc + 1) * 26 * 26 ^ w.length := Nat.mul_le_mul_right _ this
        _ = _ := by rw [Nat.mul_assoc, Nat.mul_comm 26]
    · refine Nat.le_trans ?_ h2
      have : acc * 26 ≤ 26 * acc + (c.toNat - 97) := by omega
      calc _ = acc * 26 * 26 ^ w.length := by rw [Nat.mul_assoc, Nat.mul_comm 26]
        _ ≤ _ := Nat.mul_le_mul_right _ this

theorem name_rank {w : Name} (hw : Word w) : nameFromIndex (rank w) = w := by
  obtain ⟨hne, hc⟩ := hw
  have hl : 1 ≤ w.length := by
    cases w with
    | nil => exact absurd rfl hne
    | cons => simp
  have hv := (value_lt w hc 0).1
  unfold nameFromIndex rank
  have := nameLoop_spec (w.length - 1) 1 (valueFrom 0 w) (by rw [show 1 + (w.length - 1) = w.length by omega]; simpa using hv)
  rw [show (26 : Nat) ^ 1 = 26 from rfl] at this
  rw [this, show 1 + (w.length - 1) = w.length by omega]
  simp [nameDigits_spec w.length w rfl hc]

theorem decompose : ∀ (i k : Nat), ∃ n j, i = sumPow k n + j ∧ j < 26 ^ (k + n) := by
  intro i
  induction i using Nat.strongRecOn with
  | _ i ih =>
    intro k
    by_cases h : i < 26 ^ k
    · exact ⟨0, i, by simp [sumPow], by simpa using h⟩
    · have hp : 0 < 26 ^ k := Nat.pow_pos (by omega)
      obtain ⟨n, j, h1, h2⟩ := ih (i - 26 ^ k) (by omega) (k + 1)
      exact ⟨n + 1, j, by simp only [sumPow]; omega, by rw [show k + (n + 1) = k + 1 + n by omega]; exact h2⟩

theorem exists_word : ∀ (n j : Nat), j < 26 ^ n → ∃ w : Name, w.length = n ∧ (∀ c ∈ w, 97 ≤ c.toNat ∧ c.toNat ≤ 122) ∧ valueFrom 0 w = j := by
  intro n
  induction n with
  | zero => intro j hj; exact ⟨[], rfl, by simp, by simp [valueFrom]; simp at hj; omega⟩
  | succ n ih =>
    intro j hj
    rw [Nat.pow_succ] at hj
    obtain ⟨w, h1, h2, h3⟩ := ih (j / 26) (by omega)
    have hd := char_ofNat (j % 26) (by omega)
    refine ⟨w ++ [Char.ofNat (97 + j % 26)], by simp [h1], ?_, ?_⟩
    · intro c hc
      rcases List.mem_append.mp hc with h | h
      · exact h2 c h
      · simp only [List.mem_singleton] at h; rw [h, hd]; omega
    · have : valueFrom 0 (w ++ [Char.ofNat (97 + j % 26)]) = 26 * valueFrom 0 w + ((Char.ofNat (97 + j % 26)).toNat - 97) := by simp [valueFrom]
      rw [this, h3, hd]; omega

theorem exists_rank (i : Nat) : ∃ w, Word w ∧ rank w = i := by
  obtain ⟨n, j, h1, h2⟩ := decompose i 1
  obtain ⟨w, a, b, c⟩ := exists_word (1 + n) j h2
  refine ⟨w, ⟨?_, b⟩, ?_⟩
  · intro e; subst e; simp at a; omega
  · unfold rank; rw [a, c, show 1 + n - 1 = n by omega, h1]

theorem name_word (i : Nat) : Word (nameFromIndex i) ∧ rank (nameFromIndex i) = i := by
  obtain ⟨w, h, e⟩ := exists_rank i
  rw [← e, name_rank h]; exact ⟨h, rfl⟩

theorem sumPow_succ : ∀ n k, sumPow k (n + 1) = sumPow k n + 26 ^ (k + n) := by
  intro n
  induction n with
  | zero => intro k; simp [sumPow]
  | succ n ih =>
    intro k
    rw [show sumPow k (n + 1 + 1) = 26 ^ k + sumPow (k + 1) (n + 1) from rfl, ih (k + 1)]
    rw [show sumPow k (n + 1) = 26 ^ k + sumPow (k + 1) n from rfl, show k + 1 + n = k + (n + 1) by omega]; omega

theorem sumPow_mono {k n m : Nat} (h : n ≤ m) : sumPow k n ≤ sumPow k m := by
  induction h with
  | refl => exact Nat.le_refl _
  | step _ ih => rw [Nat.succ_eq_add_one, sumPow_succ]; exact Nat.le_trans ih (Nat.le_add_right _ _)

theorem value_lex : ∀ (a b : Name), a.length = b.length → (∀ c ∈ a, 97 ≤ c.toNat ∧ c.toNat ≤ 122) → (∀ c ∈ b, 97 ≤ c.toNat ∧ c.toNat ≤ 122) →
    a.map Char.toNat < b.map Char.toNat → ∀ acc, valueFrom acc a < valueFrom acc b := by
  intro a
  induction a with
  | nil => intro b hl _ _ h; cases b <;> simp at hl h
  | cons x a ih =>
    intro b hl ha hb h acc
    cases b with
    | nil => simp at hl
    | cons y b =>
      have hx := ha x (by simp)
      have hy := hb y (by simp)
      simp only [List.length_cons, Nat.add_right_cancel_iff] at hl
      simp only [List.map_cons, List.cons_lt_cons_iff] at h
      show valueFrom (26 * acc + (x.toNat - 97)) a < valueFrom (26 * acc + (y.toNat - 97)) b
      rcases h with h | ⟨h1, h2⟩
      · have u := (value_lt a (fun c hc => ha c (by simp [hc])) (26 * acc + (x.toNat - 97))).1
        have v := (value_lt b (fun c hc => hb c (by simp [hc])) (26 * acc + (y.toNat - 97))).2
        rw [hl] at u
        have : (26 * acc + (x.toNat - 97) + 1) * 26 ^ b.length ≤ (26 * acc + (y.toNat - 97)) * 26 ^ b.length := Nat.mul_le_mul_right _ (by omega)
        omega
      · rw [h1]; exact ih b hl (fun c hc => ha c (by simp [hc])) (fun c hc => hb c (by simp [hc])) h2 _

theorem before_rank {a b : Name} (ha : Word a) (hb : Word b) (h : Before a b) : rank a < rank b := by
  have la : 1 ≤ a.length := by have := ha.1; cases a <;> simp_all
  rcases h with h | ⟨h1, h2⟩
  · have hv := (value_lt a ha.2 0).1
    have hm : sumPow 1 (a.length - 1 + 1) ≤ sumPow 1 (b.length - 1) := sumPow_mono (by omega)
    rw [sumPow_succ, show 1 + (a.length - 1) = a.length by omega] at hm
    unfold rank
    omega
  · unfold rank
    rw [h1]
    have := value_lex a b h1 ha.2 hb.2 h2 0
    omega

theorem before_total {a b : Name} (h : a ≠ b) : Before a b ∨ Before b a := by
  unfold Before
  rcases Nat.lt_trichotomy a.length b.length with hl | hl | hl
  · exact Or.inl (Or.inl hl)
  · have inj : a.map Char.toNat ≠ b.map Char.toNat := by
      intro e
      apply h
      refine List.map_inj_right (f := Char.toNat) ?_ |>.mp e
      intro x y e; exact Char.toNat_inj.mp e
    by_cases h1 : a.map Char.toNat < b.map Char.toNat
    · exact Or.inl (Or.inr ⟨hl, h1⟩)
    · right; right
      refine ⟨hl.symm, ?_⟩
      refine Decidable.byContradiction fun h2 => inj ?_
      exact List.le_antisymm (List.not_lt.mp h2) (List.not_lt.mp h1)
  · exact Or.inr (Or.inl hl)

/-- The generated names are all the words, in order, each once. -/
theorem names_enumerate : (∀ i, Word (nameFromIndex i)) ∧ (∀ w, Word w → ∃ i, nameFromIndex i = w) ∧
    (∀ i j, i < j ↔ Before (nameFromIndex i) (nameFromIndex j)) := by
  refine ⟨fun i => (name_word i).1, fun w h => ⟨rank w, name_rank h⟩, fun i j => ?_⟩
  constructor
  · intro h
    have hne : nameFromIndex i ≠ nameFromIndex j := by
      intro e
      have := (name_word i).2
      rw [e, (name_word j).2] at this; omega
    rcases before_total hne with hb | hb
    · exact hb
    · have := before_rank (name_word j).1 (name_word i).1 hb
      rw [(name_word i).2, (name_word j).2] at this; omega
  · intro h
    have := before_rank (name_word i).1 (name_word j).1 h
    rwa [(name_word i).2, (name_word j).2] at this

theorem name_inj {i j : Nat} (h : nameFromIndex i = nameFromIndex j) : i = j := by
  have := (name_word i).2
  rw [h, (name_word j).2] at this; exact this.symm

/-- No overflow: while the index is below 26 + … + 26^6 = 321272406, every value the loop computes fits an `int`. -/
theorem no_overflow (i : Nat) (h : i < 321272406) : (nameFromIndex i).length ≤ 6 := by
  obtain ⟨n, j, h1, h2⟩ := decompose i 1
  have hn : n ≤ 5 := by
    rcases Nat.lt_or_ge n 6 with h' | h'
    · omega
    · have := sumPow_mono (k := 1) h'
      have e : sumPow 1 6 = 321272406 := by decide
      omega
  obtain ⟨w, a, b, c⟩ := exists_word (1 + n) j h2
  have hw : Word w := ⟨by intro e; subst e; simp at a; omega, b⟩
  have : rank w = i := by unfold rank; rw [a, c, show 1 + n - 1 = n by omega, h1]
  rw [← this, name_rank hw]; omega

end Verif.Lifetimes

import Verif.InlineCpp.Lines
import Mathlib.Data.Int.ModEq
import Mathlib.Tactic.Ring
import Mathlib.Tactic.NormNum

/-
C157: names of the functions `inline_cpp!` blocks are turned into.
-/

namespace Verif.InlineCpp

/-! ### The hash -/

theorem xor_byte_div (h b : Nat) (hb : b < 256) : (h ^^^ b) / 256 = h / 256 := by
  have := @Nat.xor_div_two_pow h b 8
  rw [show (2 : Nat) ^ 8 = 256 from rfl] at this
  rw [this, Nat.div_eq_of_lt hb, Nat.xor_zero]

theorem xor_lt (h b : Nat) (hh : h < 2 ^ 64) (hb : b < 256) : h ^^^ b < 2 ^ 64 :=
  Nat.xor_lt_two_pow hh (by omega)

/-- A byte changes a number by less than 256. -/
theorem xor_near (h b : Nat) (hb : b < 256) : ∃ e : Int, ((h ^^^ b : Nat) : Int) = h + e ∧ -255 ≤ e ∧ e ≤ 255 := by
  have := xor_byte_div h b hb
  refine ⟨((h ^^^ b : Nat) : Int) - h, by omega, by omega, by omega⟩

theorem xor_inj {h b b' : Nat} (e : h ^^^ b = h ^^^ b') : b = b' := by
  have := congrArg (h ^^^ ·) e
  simpa [← Nat.xor_assoc] using this

theorem fnvByte_lt (h b : Nat) : fnvByte h b < 2 ^ 64 := Nat.mod_lt _ (by decide)

theorem fnvWrite_lt (bs : List Nat) : ∀ h, h < 2 ^ 64 → fnvWrite h bs < 2 ^ 64 := by
  induction bs with
  | nil => exact fun h hh => hh
  | cons b bs ih => exact fun h _ => ih _ (fnvByte_lt h b)

/-- The multiplier to the powers 7 and 8, and the inverse of the seventh power, modulo 2^64. -/
def p7 : Nat := 0x100000001b3 ^ 7 % 2 ^ 64
def p8 : Nat := 0x100000001b3 ^ 8 % 2 ^ 64
def i7 : Nat := 0x375026270df5d953

theorem fnvWrite_cons (h b : Nat) (bs : List Nat) : fnvWrite h (b :: bs) = fnvWrite (fnvByte h b) bs := rfl

theorem zeros (n : Nat) (h : Nat) (hh : h < 2 ^ 64) :
    fnvWrite h (List.replicate n 0) = h * 0x100000001b3 ^ n % 2 ^ 64 := by
  induction n generalizing h with
  | zero => simp [fnvWrite]; omega
  | succ n ih =>
    rw [List.replicate_succ]
    show fnvWrite (fnvByte h 0) (List.replicate n 0) = _
    rw [ih _ (fnvByte_lt _ _)]
    unfold fnvByte
    rw [Nat.xor_zero, Nat.mod_mul_mod, Nat.pow_succ]
    congr 1
    ring

theorem write_line (h l : Nat) (hl : l < 65536) :
    fnvWrite h (neBytes l) = (fnvByte h (l % 256) ^^^ (l / 256)) * p7 % 2 ^ 64 := by
  have e : neBytes l = l % 256 :: l / 256 :: List.replicate 6 0 := by
    simp only [neBytes, List.replicate]
    rw [show l / 256 % 256 = l / 256 by omega, show l / 256 ^ 2 % 256 = 0 by omega,
      show l / 256 ^ 3 % 256 = 0 by omega, show l / 256 ^ 4 % 256 = 0 by omega,
      show l / 256 ^ 5 % 256 = 0 by omega, show l / 256 ^ 6 % 256 = 0 by omega,
      show l / 256 ^ 7 % 256 = 0 by omega]
  rw [e, fnvWrite_cons, fnvWrite_cons, zeros _ _ (fnvByte_lt _ _)]
  generalize fnvByte h (l % 256) = y
  unfold fnvByte p7
  generalize y ^^^ l / 256 = x
  rw [Nat.mod_mul_mod, Nat.mul_mod_mod, Nat.mul_assoc, show 1099511628211 * 1099511628211 ^ 6 = 1099511628211 ^ 7 from by norm_num]

theorem write_col (h c : Nat) (hc : c < 256) :
    fnvWrite h (neBytes c) = (h ^^^ c) * p8 % 2 ^ 64 := by
  have e : neBytes c = c :: List.replicate 7 0 := by
    simp only [neBytes, List.replicate]
    rw [show c % 256 = c by omega, show c / 256 % 256 = 0 by omega, show c / 256 ^ 2 % 256 = 0 by omega,
      show c / 256 ^ 3 % 256 = 0 by omega, show c / 256 ^ 4 % 256 = 0 by omega,
      show c / 256 ^ 5 % 256 = 0 by omega, show c / 256 ^ 6 % 256 = 0 by omega,
      show c / 256 ^ 7 % 256 = 0 by omega]
  rw [e, fnvWrite_cons, zeros _ _ (fnvByte_lt _ _)]
  unfold fnvByte p8
  generalize h ^^^ c = x
  rw [Nat.mod_mul_mod, Nat.mul_mod_mod, Nat.mul_assoc, show 1099511628211 * 1099511628211 ^ 7 = 1099511628211 ^ 8 from by norm_num]

/-- Multiplication with an odd number can be undone. -/
theorem mul_cancel {a b q : Nat} (i : Nat) (hi : q * i % 2 ^ 64 = 1) (ha : a < 2 ^ 64) (hb : b < 2 ^ 64)
    (h : a * q % 2 ^ 64 = b * q % 2 ^ 64) : a = b := by
  have h1 : a * q * i % 2 ^ 64 = b * q * i % 2 ^ 64 := by
    rw [← Nat.mod_mul_mod, h, Nat.mod_mul_mod]
  have key : ∀ x, x < 2 ^ 64 → x * q * i % 2 ^ 64 = x := by
    intro x hx
    rw [Nat.mul_assoc, ← Nat.mul_mod_mod, hi, Nat.mul_one, Nat.mod_eq_of_lt hx]
  rw [key a ha, key b hb] at h1
  exact h1

/-- The small multiples of the inverse are far from the small combinations of `2^40 + 435` and 1. -/
theorem gap_check : ∀ d < 256, d = 0 ∨ (111435 < d * i7 % 2 ^ 40 ∧ d * i7 % 2 ^ 40 < 2 ^ 40 - 111435) := by
  decide +kernel

theorem far {T : Nat} {z K : Int} (hz : -111435 ≤ z) (hz' : z ≤ 111435)
    (h : (T : Int) = z + 1099511627776 * K) (h1 : 111435 < T % 2 ^ 40) (h2 : T % 2 ^ 40 < 2 ^ 40 - 111435) :
    False := by omega

theorem near {d e w : Int} (hd : -255 ≤ d) (hd' : d ≤ 255) (he : -510 ≤ e) (he' : e ≤ 510)
    (h : 0 = (435 * d + e) + 1099511627776 * (d + 16777216 * w)) : d = 0 := by
  have hK : d + 16777216 * w = 0 := by
    generalize d + 16777216 * w = K at h
    omega
  omega

theorem line_differs {h l l' : Nat} (hh : h < 2 ^ 64) (hl : l < 65536) (hl' : l' < 65536)
    (hd : fnvWrite h (neBytes l) / 256 = fnvWrite h (neBytes l') / 256)
    (hle : fnvWrite h (neBytes l') ≤ fnvWrite h (neBytes l)) : l = l' := by
  rw [write_line h l hl, write_line h l' hl'] at hd hle
  have hb0 : l % 256 < 256 := Nat.mod_lt _ (by decide)
  have hb0' : l' % 256 < 256 := Nat.mod_lt _ (by decide)
  have hb1 : l / 256 < 256 := by omega
  have hb1' : l' / 256 < 256 := by omega
  obtain ⟨e₁, he₁, hl₁, hu₁⟩ := xor_near (fnvByte h (l % 256)) (l / 256) hb1
  obtain ⟨e₁', he₁', hl₁', hu₁'⟩ := xor_near (fnvByte h (l' % 256)) (l' / 256) hb1'
  have hX := xor_lt _ _ (fnvByte_lt h (l % 256)) hb1
  have hX' := xor_lt _ _ (fnvByte_lt h (l' % 256)) hb1'
  -- the states after the first byte
  have hA := xor_byte_div h (l % 256) hb0
  have hA' := xor_byte_div h (l' % 256) hb0'
  -- the distance of the results
  generalize hXe : fnvByte h (l % 256) ^^^ l / 256 = X at *
  generalize hXe' : fnvByte h (l' % 256) ^^^ l' / 256 = X' at *
  have hYdef : fnvByte h (l % 256) = (h ^^^ (l % 256)) * 0x100000001b3 % 2 ^ 64 := rfl
  have hYdef' : fnvByte h (l' % 256) = (h ^^^ (l' % 256)) * 0x100000001b3 % 2 ^ 64 := rfl
  generalize hδ : X * p7 % 2 ^ 64 - X' * p7 % 2 ^ 64 = δ
  have hδlt : δ < 256 := by omega
  -- X - X' = δ * i7 modulo 2^64
  have hinv : p7 * i7 % 2 ^ 64 = 1 := by decide +kernel
  have hsum : X * p7 % 2 ^ 64 = (X' * p7 + δ) % 2 ^ 64 := by
    have h1 : X * p7 % 2 ^ 64 = X' * p7 % 2 ^ 64 + δ := by omega
    have h2 : X * p7 % 2 ^ 64 < 2 ^ 64 := Nat.mod_lt _ (by decide)
    rw [← Nat.mod_add_mod, ← h1, Nat.mod_eq_of_lt h2]
  have hXX : X = (X' + δ * i7) % 2 ^ 64 := by
    have h1 : X * p7 * i7 % 2 ^ 64 = (X' * p7 + δ) * i7 % 2 ^ 64 := by
      rw [← Nat.mod_mul_mod, hsum, Nat.mod_mul_mod]
    rw [Nat.mul_assoc, ← Nat.mul_mod_mod, hinv, Nat.mul_one, Nat.mod_eq_of_lt hX, Nat.add_mul,
      Nat.mul_assoc, ← Nat.mod_add_mod, ← Nat.mul_mod_mod X', hinv, Nat.mul_one, Nat.mod_add_mod] at h1
    exact h1
  generalize hA0 : h ^^^ (l % 256) = A at *
  generalize hA0' : h ^^^ (l' % 256) = A' at *
  have hgap := gap_check δ hδlt
  generalize hT : δ * i7 = T at *
  have hK : ∃ w : Int, (T : Int) = (435 * ((A : Int) - A') + (e₁ - e₁')) +
      1099511627776 * (((A : Int) - A') + 16777216 * w) := by
    refine ⟨((X' + T) / 2 ^ 64 : Nat) - ((A * 0x100000001b3) / 2 ^ 64 : Nat) + ((A' * 0x100000001b3) / 2 ^ 64 : Nat), ?_⟩
    clear hgap hδ hsum hd hle
    omega
  obtain ⟨w, hw⟩ := hK
  have hδ0 : δ = 0 := by
    rcases hgap with h0 | ⟨hg1, hg2⟩
    · exact h0
    · exact (far (by omega) (by omega) hw hg1 hg2).elim
  subst hδ0
  rw [Nat.zero_mul] at hT
  subst hT
  have hXX' : X = X' := by rw [hXX]; rw [Nat.add_zero, Nat.mod_eq_of_lt hX']
  have hAA : A = A' := by
    have := near (d := (A : Int) - A') (e := e₁ - e₁') (w := w) (by omega) (by omega) (by omega) (by omega)
      (by simpa using hw)
    omega
  have h0 : l % 256 = l' % 256 := by
    apply xor_inj (h := h)
    rw [hA0, hA0', hAA]
  have h1 : l / 256 = l' / 256 := by
    apply xor_inj (h := fnvByte h (l % 256))
    rw [hXe, h0, hXe', hXX']
  omega

/-- Distinct places have distinct hashes. -/
theorem thunkHash_inj (target file : List Nat) {l c l' c' : Nat} (hl : l < 65536) (hl' : l' < 65536)
    (hc : c < 256) (hc' : c' < 256) (h : thunkHash target file l c = thunkHash target file l' c') :
    l = l' ∧ c = c' := by
  unfold thunkHash at h
  have hs : fnvWrite (fnvWrite 0xcbf29ce484222325 target) file < 2 ^ 64 :=
    fnvWrite_lt _ _ (fnvWrite_lt _ _ (by decide))
  generalize fnvWrite (fnvWrite 0xcbf29ce484222325 target) file = s at h hs
  rw [write_col _ _ hc, write_col _ _ hc'] at h
  have hx := fnvWrite_lt (neBytes l) s hs
  have hx' := fnvWrite_lt (neBytes l') s hs
  have h1 := mul_cancel (q := p8) 0x48e254e75f5eb9e1 (by decide +kernel) (xor_lt _ _ hx hc) (xor_lt _ _ hx' hc') h
  have hdiv : fnvWrite s (neBytes l) / 256 = fnvWrite s (neBytes l') / 256 := by
    rw [← xor_byte_div _ c hc, ← xor_byte_div (fnvWrite s (neBytes l')) c' hc', h1]
  have hll : l = l' := by
    rcases Nat.le_total (fnvWrite s (neBytes l')) (fnvWrite s (neBytes l)) with hle | hle
    · exact line_differs hs hl hl' hdiv hle
    · exact (line_differs hs hl' hl hdiv.symm hle).symm
  subst hll
  exact ⟨rfl, xor_inj h1⟩

end Verif.InlineCpp

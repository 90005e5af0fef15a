import Verif.Consts.Model
import Mathlib.Tactic.NormNum
import Mathlib.Tactic.Linarith
/-
C144: an integer constant of C++ has the same value in Rust.
-/
namespace Verif.Consts

theorem readDec_showNat (n : Nat) : readDec (showNat n) = n := by
  unfold readDec showNat
  split
  · next h => subst h; rfl
  · rw [List.reverse_reverse, Nat.ofDigits_digits]

theorem le_countl {b : Bool} {raw : Nat} : ∀ {n k : Nat}, k ≤ n →
    (k ≤ countl b raw n ↔ ∀ i, n - k ≤ i → i < n → raw.testBit i = b)
  | 0, k, hk => by
    obtain rfl : k = 0 := by omega
    simp
  | n + 1, 0, _ => by
    simp only [Nat.zero_le, true_iff]
    intro i h1 h2; omega
  | n + 1, k + 1, hk => by
    unfold countl
    by_cases h : raw.testBit n = b
    · rw [if_pos h]
      have ih := le_countl (b := b) (raw := raw) (n := n) (k := k) (by omega)
      constructor
      · intro hc i h1 h2
        by_cases hi : i = n
        · rw [hi]; exact h
        · exact ih.1 (by omega) i (by omega) (by omega)
      · intro hall
        have := ih.2 fun i h1 h2 => hall i (by omega) (by omega)
        omega
    · rw [if_neg h]
      constructor
      · intro hc; omega
      · intro hall
        exact absurd (hall n (by omega) (by omega)) h

theorem countl_le {b : Bool} {raw : Nat} : ∀ n, countl b raw n ≤ n
  | 0 => Nat.le_refl _
  | n + 1 => by
    unfold countl
    have := countl_le (b := b) (raw := raw) n
    split <;> omega

/-- the sign of a pattern is its top bit -/
theorem topBit_eq {bits raw : Nat} (hb : 1 ≤ bits) (hr : raw < 2 ^ bits) :
    raw.testBit (bits - 1) = decide (2 ^ (bits - 1) ≤ raw) := by
  by_cases h : 2 ^ (bits - 1) ≤ raw
  · rw [decide_eq_true h]
    have h2 : 2 ^ bits = 2 * 2 ^ (bits - 1) := by
      rw [← Nat.pow_succ']; congr 1; omega
    have : raw = 2 ^ (bits - 1) + (raw - 2 ^ (bits - 1)) := by omega
    rw [this, Nat.testBit_two_pow_add_eq]
    rw [Nat.testBit_lt_two_pow (by omega)]
    rfl
  · rw [decide_eq_false h]
    exact Nat.testBit_lt_two_pow (by omega)

/-- What `getSignificantBits` says about a pattern: its value as a signed number fits 64 bits. -/
theorem significantBits_le {t : IntTy} {raw : Nat} (hb : 64 ≤ t.bits) (hr : raw < 2 ^ t.bits) :
    (APSInt.mk t raw).significantBits ≤ 64 ↔ raw < 2 ^ 63 ∨ 2 ^ t.bits - 2 ^ 63 ≤ raw := by
  have hle := countl_le (b := (APSInt.mk t raw).topBit) (raw := raw) t.bits
  have hp : 2 ^ 63 ≤ 2 ^ (t.bits - 1) := Nat.pow_le_pow_right (by omega) (by omega)
  have h2 : 2 ^ t.bits = 2 * 2 ^ (t.bits - 1) := by
    rw [← Nat.pow_succ']; congr 1; omega
  have key := le_countl (b := (APSInt.mk t raw).topBit) (raw := raw) (n := t.bits)
    (k := t.bits - 63) (by omega)
  have hiff : (APSInt.mk t raw).significantBits ≤ 64 ↔
      t.bits - 63 ≤ countl (APSInt.mk t raw).topBit raw t.bits := by
    unfold APSInt.significantBits
    simp only
    omega
  rw [hiff, key]
  have htop : (APSInt.mk t raw).topBit = decide (2 ^ (t.bits - 1) ≤ raw) :=
    topBit_eq (bits := t.bits) (by omega) hr
  by_cases hneg : 2 ^ (t.bits - 1) ≤ raw
  · rw [htop, decide_eq_true hneg]
    have hcomp : ∀ i, (2 ^ t.bits - (raw + 1)).testBit i = (decide (i < t.bits) && !raw.testBit i) :=
      fun i => Nat.testBit_two_pow_sub_succ hr i
    constructor
    · intro hall
      right
      have : 2 ^ t.bits - (raw + 1) < 2 ^ 63 := by
        apply Nat.lt_pow_two_of_testBit
        intro i hi
        rw [hcomp]
        by_cases hib : i < t.bits
        · rw [hall i (by omega) hib]; simp
        · simp [hib]
      omega
    · rintro (h | h)
      · omega
      · intro i h1 h2'
        have hlt : 2 ^ t.bits - (raw + 1) < 2 ^ 63 := by omega
        have h3 : (2 ^ t.bits - (raw + 1)).testBit i = false := by
          apply Nat.testBit_lt_two_pow
          exact Nat.lt_of_lt_of_le hlt (Nat.pow_le_pow_right (by omega) (by omega))
        rw [hcomp] at h3
        simpa [h2'] using h3
  · rw [htop, decide_eq_false hneg]
    constructor
    · intro hall
      left
      apply Nat.lt_pow_two_of_testBit
      intro i hi
      by_cases hib : i < t.bits
      · exact hall i (by omega) hib
      · apply Nat.testBit_lt_two_pow
        exact Nat.lt_of_lt_of_le hr (Nat.pow_le_pow_right (by omega) (by omega))
    · rintro (h | h)
      · intro i h1 _
        apply Nat.testBit_lt_two_pow
        exact Nat.lt_of_lt_of_le h (Nat.pow_le_pow_right (by omega) (by omega))
      · omega

theorem significantBits_small {t : IntTy} {raw : Nat} (hb : 1 ≤ t.bits) (hb' : t.bits ≤ 64) :
    (APSInt.mk t raw).significantBits ≤ 64 := by
  have := (le_countl (b := (APSInt.mk t raw).topBit) (raw := raw) (n := t.bits) (k := 1) hb).2
    (fun i h1 h2 => by
      obtain rfl : i = t.bits - 1 := by omega
      rfl)
  unfold APSInt.significantBits
  simp only
  omega

theorem toIr_toProto {c : IntConst} (h : c.wrapped < 2 ^ 64) : c.toProto.toIr = c := by
  obtain ⟨n, w⟩ := c
  simp only [IntConst.toProto, ProtoConst.toIr, asI64, asU64, IntConst.mk.injEq, true_and]
  simp only at h
  split <;> omega

theorem asI64_range {n : Nat} (h : n < 2 ^ 64) : asI64 n = (IntTy.mk 64 true).value n := by
  unfold asI64 IntTy.value
  simp only [true_and]
  split <;> split <;> first | rfl | omega

/-- The constant that crosses the boundary, for types of up to 64 bits. -/
theorem fromAPValue_small {t : IntTy} {raw : Nat} (hb : 1 ≤ t.bits) (hb' : t.bits ≤ 64)
    (hr : raw < 2 ^ t.bits) :
    ∃ c, fromAPValue ⟨t, raw⟩ = some c ∧ c.wrapped < 2 ^ 64 ∧
      (c.isNegative = true ↔ t.value raw < 0) ∧
      (if c.isNegative then asI64 c.wrapped else (c.wrapped : Int)) = t.value raw := by
  have hs := significantBits_small (t := t) (raw := raw) hb hb'
  have htop : (APSInt.mk t raw).topBit = decide (2 ^ (t.bits - 1) ≤ raw) := topBit_eq hb hr
  have hp : 2 ^ t.bits ≤ 2 ^ 64 := Nat.pow_le_pow_right (by omega) hb'
  have h2 : 2 ^ t.bits = 2 * 2 ^ (t.bits - 1) := by
    rw [← Nat.pow_succ']; congr 1; omega
  refine ⟨_, by unfold fromAPValue; rw [if_neg (by omega)], ?_⟩
  simp only [APSInt.sext64, APSInt.zext64, htop, if_pos hb', IntTy.value]
  cases hsg : t.signed with
  | false =>
    simp only [Bool.false_and, Bool.false_eq_true, if_false, false_and, false_iff]
    refine ⟨by omega, by omega, ?_⟩
    congr 1
    exact Nat.mod_eq_of_lt (by omega)
  | true =>
    simp only [Bool.true_and, if_true, true_and]
    by_cases h : 2 ^ (t.bits - 1) ≤ raw
    · simp only [decide_eq_true h, if_true, if_pos h, true_iff]
      refine ⟨by omega, by omega, ?_⟩
      unfold asI64
      split <;> omega
    · simp only [decide_eq_false h, Bool.false_eq_true, if_false, if_neg h, false_iff]
      exact ⟨by omega, by omega, trivial⟩

/-- The same for wider signed types. -/
theorem fromAPValue_wide {t : IntTy} {raw : Nat} (hsg : t.signed = true) (hb : 64 < t.bits)
    (hr : raw < 2 ^ t.bits) {c : IntConst} (h : fromAPValue ⟨t, raw⟩ = some c) :
    c.wrapped < 2 ^ 64 ∧ (c.isNegative = true ↔ t.value raw < 0) ∧
      (if c.isNegative then asI64 c.wrapped else (c.wrapped : Int)) = t.value raw := by
  unfold fromAPValue at h
  split at h
  · exact absurd h (by simp)
  · next hs =>
    have hsig := (significantBits_le (t := t) (raw := raw) (by omega) hr).1 (by omega)
    have htop : (APSInt.mk t raw).topBit = decide (2 ^ (t.bits - 1) ≤ raw) :=
      topBit_eq (bits := t.bits) (by omega) hr
    have hp : 2 ^ 64 ≤ 2 ^ (t.bits - 1) := Nat.pow_le_pow_right (by omega) (by omega)
    have h2 : 2 ^ t.bits = 2 * 2 ^ (t.bits - 1) := by
      rw [← Nat.pow_succ']; congr 1; omega
    have h64 : 2 ^ t.bits = 2 ^ 64 * 2 ^ (t.bits - 64) := by
      rw [← Nat.pow_add]; congr 1; omega
    simp only [Option.some.injEq] at h
    subst h
    simp only [htop, hsg, Bool.true_and, if_true, IntTy.value, true_and, APSInt.sext64,
      if_neg (show ¬ t.bits ≤ 64 by omega)]
    by_cases h : 2 ^ (t.bits - 1) ≤ raw
    · simp only [decide_eq_true h, if_true, if_pos h, true_iff]
      obtain ⟨q, hq⟩ : ∃ q, 2 ^ t.bits - 2 ^ 64 = 2 ^ 64 * q := by
        refine ⟨2 ^ (t.bits - 64) - 1, ?_⟩
        rw [Nat.mul_sub, ← h64, Nat.mul_one]
      have hmod : raw % 2 ^ 64 = raw - (2 ^ t.bits - 2 ^ 64) := by
        have : raw = (raw - (2 ^ t.bits - 2 ^ 64)) + 2 ^ 64 * q := by omega
        rw [this, Nat.add_mul_mod_self_left, Nat.mod_eq_of_lt (by omega)]
        omega
      rw [hmod]
      refine ⟨by omega, by omega, ?_⟩
      unfold asI64
      split <;> omega
    · simp only [decide_eq_false h, Bool.false_eq_true, if_false, if_neg h, false_iff]
      refine ⟨by omega, by omega, ?_⟩
      congr 1
      exact Nat.mod_eq_of_lt (by omega)

theorem IntTy.fits_value {t : IntTy} {raw : Nat} (hb : 1 ≤ t.bits) (hr : raw < 2 ^ t.bits) :
    t.Fits (t.value raw) := by
  have h2 : 2 ^ t.bits = 2 * 2 ^ (t.bits - 1) := by
    rw [← Nat.pow_succ']; congr 1; omega
  unfold IntTy.Fits IntTy.lo IntTy.hi IntTy.value
  cases t.signed
  · simp only [Bool.false_eq_true, if_false, false_and]; omega
  · simp only [if_true, true_and]; split <;> omega

/-- The literal for a constant, before it is wrapped for its type. -/
def rawLit (c : IntConst) : RsExpr :=
  if c.isNegative then litI64 (asI64 c.wrapped) else .lit (showNat c.wrapped)

theorem eval_lit {a : Abi} {newTy : Ffi → RsTy} {r : RInt} {c : IntConst} {v : Int}
    (hfit : (r.ty a).Fits v) (hneg : c.isNegative = true ↔ v < 0)
    (hv : (if c.isNegative then asI64 c.wrapped else (c.wrapped : Int)) = v) :
    rsEval a newTy (.int r) (rawLit c) = some v := by
  unfold rawLit
  cases hn : c.isNegative with
  | false =>
    rw [hn] at hv
    simp only [Bool.false_eq_true, if_false] at hv ⊢
    subst hv
    simp only [rsEval, readDec_showNat, if_pos hfit]
  | true =>
    rw [hn] at hv hneg
    simp only [if_true] at hv ⊢
    have hlt : v < 0 := hneg.1 rfl
    have hsg : (r.ty a).signed = true := by
      cases h : (r.ty a).signed with
      | true => rfl
      | false =>
        have := hfit.1
        simp only [IntTy.lo, h, Bool.false_eq_true, if_false] at this
        omega
    rw [hv]
    have habs : -((v.natAbs : Nat) : Int) = v := by omega
    simp only [litI64, if_pos hlt, rsEval, readDec_showNat, habs, hsg, true_and, if_pos hfit]

theorem eval_lit_inv {a : Abi} {newTy : Ffi → RsTy} {r : RInt} {c : IntConst} {v v' : Int}
    (hneg : c.isNegative = true ↔ v < 0)
    (hv : (if c.isNegative then asI64 c.wrapped else (c.wrapped : Int)) = v)
    (h : rsEval a newTy (.int r) (rawLit c) = some v') : v' = v := by
  unfold rawLit at h
  cases hn : c.isNegative with
  | false =>
    rw [hn] at hv h
    simp only [Bool.false_eq_true, if_false, rsEval, readDec_showNat] at hv h
    split at h
    · simp only [Option.some.injEq] at h; omega
    · exact absurd h (by simp)
  | true =>
    rw [hn] at hv h hneg
    simp only [if_true] at hv h
    have hlt : v < 0 := hneg.1 rfl
    rw [hv] at h
    simp only [litI64, if_pos hlt, rsEval, readDec_showNat] at h
    split at h
    · simp only [Option.some.injEq] at h; omega
    · exact absurd h (by simp)

/-- How the token stream is made for types other than `bool` and `char`. -/
theorem constTokens_eq {c : IntConst} {p : Prim} (hb : p ≠ .bool) (hc : p ≠ .char) :
    constTokens c p = match primName p with
      | .native _ => some (rawLit c)
      | .ffi n => some (.new n (rawLit c))
      | .other => none := by
  simp only [constTokens, if_neg hb, if_neg hc, rawLit]
  rfl

/-- The Rust type that stands for a C++ integer type has the same shape. -/
theorem shape_agrees {T : Target} {p : Prim} {t : IntTy} (h : p.ty T = some t) (hb : p ≠ .bool)
    (hc : p ≠ .char) :
    (∃ r, primName p = .native (.int r) ∧ r.ty T.abi = t) ∨
    (∃ n r, primName p = .ffi n ∧ r.ty T.abi = t ∧
      (ffi11 T.abi n = .int r ∨ ffi11 T.abi n = .wrap n r)) := by
  obtain ⟨a, cs⟩ := T
  cases p <;> first | exact absurd rfl hb | exact absurd rfl hc | skip
  all_goals simp only [Prim.ty, Option.some.injEq, reduceCtorEq] at h
  all_goals first
    | (left; exact ⟨_, rfl, h⟩)
    | (right; refine ⟨_, _, rfl, ?_, Or.inl rfl⟩; exact h)
    | (right; cases a <;> first
        | (refine ⟨_, _, rfl, ?_, Or.inl rfl⟩; exact h)
        | (refine ⟨_, _, rfl, ?_, Or.inr rfl⟩; exact h))

/-- Evaluation of the whole expression is that of the literal in the representation type. -/
theorem eval_whole {T : Target} {p : Prim} {t : IntTy} (h : p.ty T = some t) (hb : p ≠ .bool)
    (hc : p ≠ .char) (c : IntConst) :
    ∃ e ty r, constTokens c p = some e ∧ rsTyOf T.abi p = some ty ∧ r.ty T.abi = t ∧
      rsEval T.abi (ffi11 T.abi) ty e = rsEval T.abi (ffi11 T.abi) (.int r) (rawLit c) := by
  rcases shape_agrees h hb hc with ⟨r, hn, hr⟩ | ⟨n, r, hn, hr, hf⟩
  · refine ⟨rawLit c, .int r, r, ?_, ?_, hr, rfl⟩
    · rw [constTokens_eq hb hc, hn]
    · simp only [rsTyOf, hn]
  · refine ⟨.new n (rawLit c), ffi11 T.abi n, r, ?_, ?_, hr, ?_⟩
    · rw [constTokens_eq hb hc, hn]
    · simp only [rsTyOf, hn]
    · rcases hf with hf | hf <;> simp [rsEval, hf]

theorem bits_pos {T : Target} {p : Prim} {t : IntTy} (h : p.ty T = some t) : 1 ≤ t.bits := by
  obtain ⟨a, cs⟩ := T
  cases p <;> simp only [Prim.ty, Option.some.injEq, reduceCtorEq] at h <;> subst h <;>
    cases a <;> simp [Abi.longBits, Abi.ptrBits]

theorem bool_const (T : Target) {raw : Nat} (hr : raw < 2 ^ 1) :
    ∃ e, rustConst .bool ⟨⟨1, false⟩, raw⟩ = some e ∧
      rsEval T.abi (ffi11 T.abi) .bool e = some (raw : Int) := by
  obtain rfl | rfl : raw = 0 ∨ raw = 1 := by omega
  · exact ⟨.ff, by decide +kernel, by cases T.abi <;> rfl⟩
  · exact ⟨.tt, by decide +kernel, by cases T.abi <;> rfl⟩

/-- What a `char` constant becomes. -/
theorem char_tokens (c : IntConst) :
    constTokens c .char = some (.new .c_char (.asU8 (rawLit c))) := rfl

theorem char_eval (a : Abi) (c : IntConst) :
    rsEval a (ffi11 a) (.wrap .c_char .u8) (.new .c_char (.asU8 (rawLit c))) =
      rsEval a (ffi11 a) (.int .u8) (rawLit c) := by
  simp [rsEval, ffi11]

/-- **C144.** An enumerator or `constexpr` variable of a C++ integer type of up to 64 bits becomes a
Rust expression that compiles, in the Rust type that the bindings write for it, and has the value
that the constant has in C++: on every platform, for every type and every value, except negative
values of plain `char`. -/
theorem constant_same_value {T : Target} {p : Prim} {t : IntTy} {raw : Nat}
    (hp : p.ty T = some t) (hb : t.bits ≤ 64) (hr : raw < 2 ^ t.bits)
    (hc : p = .char → 0 ≤ t.value raw) :
    ∃ e ty, rustConst p ⟨t, raw⟩ = some e ∧ rsTyOf T.abi p = some ty ∧
      rsEval T.abi (ffi11 T.abi) ty e = some (t.value raw) := by
  have hpos := bits_pos hp
  by_cases hbool : p = .bool
  · subst hbool
    simp only [Prim.ty, Option.some.injEq] at hp
    subst hp
    obtain ⟨e, h1, h2⟩ := bool_const T hr
    refine ⟨e, .bool, h1, rfl, ?_⟩
    rw [h2]
    simp [IntTy.value]
  · obtain ⟨c, h1, h2, h3, h4⟩ := fromAPValue_small hpos hb hr
    have hfit := IntTy.fits_value hpos hr
    have hrc : ∀ q, rustConst q ⟨t, raw⟩ = constTokens c q := by
      intro q
      simp only [rustConst, h1, Option.bind_some, toIr_toProto h2]
    by_cases hchar : p = .char
    · subst hchar
      refine ⟨_, _, (hrc _).trans (char_tokens c), rfl, ?_⟩
      show rsEval T.abi (ffi11 T.abi) (.wrap .c_char .u8) _ = _
      rw [char_eval]
      refine eval_lit ?_ h3 h4
      have h0 := hc rfl
      simp only [Prim.ty, Option.some.injEq] at hp
      subst hp
      have := hfit.2
      refine ⟨?_, ?_⟩
      · simpa [RInt.ty, IntTy.lo] using h0
      · simp only [RInt.ty, IntTy.hi, Bool.false_eq_true, if_false] at this ⊢
        split at this <;> omega
    · obtain ⟨e, ty, r, g1, g2, g3, g4⟩ := eval_whole hp hbool hchar c
      refine ⟨e, ty, (hrc p).trans g1, g2, ?_⟩
      rw [g4]
      exact eval_lit (by rw [g3]; exact hfit) h3 h4

/-- Whatever the type, if not `unsigned __int128`: a constant that is given and compiles has the
right value. -/
theorem constant_never_wrong {T : Target} {p : Prim} {t : IntTy} {raw : Nat} {e : RsExpr}
    {ty : RsTy} {v : Int} (hp : p.ty T = some t) (hu : p ≠ .unsignedInt128) (hr : raw < 2 ^ t.bits)
    (he : rustConst p ⟨t, raw⟩ = some e) (hty : rsTyOf T.abi p = some ty)
    (hv : rsEval T.abi (ffi11 T.abi) ty e = some v) : v = t.value raw := by
  have hpos := bits_pos hp
  by_cases hbool : p = .bool
  · subst hbool
    simp only [Prim.ty, Option.some.injEq] at hp
    subst hp
    obtain ⟨e', h1, h2⟩ := bool_const T hr
    rw [he] at h1
    simp only [Option.some.injEq] at h1
    subst h1
    simp only [rsTyOf, primName, Option.some.injEq] at hty
    subst hty
    rw [h2] at hv
    simp only [Option.some.injEq] at hv
    rw [← hv]
    simp [IntTy.value]
  · have hex : ∃ c, fromAPValue ⟨t, raw⟩ = some c := by
      unfold rustConst at he
      cases h : fromAPValue ⟨t, raw⟩ with
      | none => rw [h] at he; exact absurd he (by simp)
      | some c => exact ⟨c, rfl⟩
    obtain ⟨c, hc⟩ := hex
    have hfacts : c.wrapped < 2 ^ 64 ∧ (c.isNegative = true ↔ t.value raw < 0) ∧
        (if c.isNegative then asI64 c.wrapped else (c.wrapped : Int)) = t.value raw := by
      by_cases hb : t.bits ≤ 64
      · obtain ⟨c', h1, h2⟩ := fromAPValue_small hpos hb hr
        rw [hc] at h1
        simp only [Option.some.injEq] at h1
        subst h1
        exact h2
      · refine fromAPValue_wide ?_ (by omega) hr hc
        obtain ⟨a, cs⟩ := T
        cases p <;> simp only [Prim.ty, Option.some.injEq, reduceCtorEq] at hp <;> subst hp <;>
          first
            | rfl
            | exact absurd rfl hu
            | (cases a <;> simp [Abi.longBits, Abi.ptrBits] at hb)
            | simp at hb
    obtain ⟨h2, h3, h4⟩ := hfacts
    have hrc : ∀ q, rustConst q ⟨t, raw⟩ = constTokens c q := by
      intro q
      simp only [rustConst, hc, Option.bind_some, toIr_toProto h2]
    rw [hrc] at he
    by_cases hchar : p = .char
    · subst hchar
      rw [char_tokens] at he
      simp only [Option.some.injEq] at he
      subst he
      simp only [rsTyOf, primName, Option.some.injEq] at hty
      subst hty
      have hv' := (char_eval T.abi c).symm.trans hv
      exact eval_lit_inv h3 h4 hv'
    · obtain ⟨e', ty', r, g1, g2, g3, g4⟩ := eval_whole hp hbool hchar c
      rw [he] at g1
      rw [hty] at g2
      simp only [Option.some.injEq] at g1 g2
      subst g1 g2
      rw [g4] at hv
      exact eval_lit_inv h3 h4 hv

/-- Enumerators that are equal in C++ are equal in Rust, and no others (so that comparing generated
enum values gives the C++ answers). -/
theorem constants_equal_iff {T : Target} {p : Prim} {t : IntTy} {r₁ r₂ : Nat} {e₁ e₂ : RsExpr}
    {ty : RsTy} {v₁ v₂ : Int} (hp : p.ty T = some t) (hu : p ≠ .unsignedInt128)
    (h₁ : r₁ < 2 ^ t.bits) (h₂ : r₂ < 2 ^ t.bits) (hty : rsTyOf T.abi p = some ty)
    (he₁ : rustConst p ⟨t, r₁⟩ = some e₁) (he₂ : rustConst p ⟨t, r₂⟩ = some e₂)
    (hv₁ : rsEval T.abi (ffi11 T.abi) ty e₁ = some v₁)
    (hv₂ : rsEval T.abi (ffi11 T.abi) ty e₂ = some v₂) :
    (v₁ = v₂ ↔ t.value r₁ = t.value r₂) ∧ (v₁ < v₂ ↔ t.value r₁ < t.value r₂) := by
  rw [constant_never_wrong hp hu h₁ he₁ hty hv₁, constant_never_wrong hp hu h₂ he₂ hty hv₂]
  exact ⟨Iff.rfl, Iff.rfl⟩

/-- 128-bit signed constants are bound exactly if they fit 64 bits. -/
theorem int128_bound_iff {raw : Nat} (hr : raw < 2 ^ 128) :
    (rustConst .int128 ⟨⟨128, true⟩, raw⟩).isSome ↔
      (IntTy.mk 64 true).Fits ((IntTy.mk 128 true).value raw) := by
  have hs := significantBits_le (t := ⟨128, true⟩) (raw := raw) (by decide) hr
  have hval : (IntTy.mk 64 true).Fits ((IntTy.mk 128 true).value raw) ↔
      (raw < 2 ^ 63 ∨ 2 ^ 128 - 2 ^ 63 ≤ raw) := by
    simp only [IntTy.Fits, IntTy.lo, IntTy.hi, IntTy.value, if_true, true_and]
    split <;> omega
  rw [hval]
  by_cases h : raw < 2 ^ 63 ∨ 2 ^ 128 - 2 ^ 63 ≤ raw
  · have := hs.2 h
    simp only [h, iff_true]
    rw [rustConst, fromAPValue, if_neg (by omega), Option.bind_some,
      constTokens_eq (by decide) (by decide)]
    rfl
  · have : ¬ (APSInt.mk ⟨128, true⟩ raw).significantBits ≤ 64 := fun h' => h (hs.1 h')
    simp only [h, iff_false]
    rw [rustConst, fromAPValue, if_pos (by omega)]
    simp

/-- Disagreement: a negative constant of type `char` becomes `-n as u8`, which does not compile. -/
theorem negative_char_refused {T : Target} {raw : Nat} (hr : raw < 2 ^ 8)
    (hneg : (IntTy.mk 8 T.charSigned).value raw < 0) :
    ∃ e, rustConst .char ⟨⟨8, T.charSigned⟩, raw⟩ = some e ∧
      rsEval T.abi (ffi11 T.abi) (.wrap .c_char .u8) e = none := by
  obtain ⟨c, h1, h2, h3, h4⟩ :=
    fromAPValue_small (t := ⟨8, T.charSigned⟩) (by decide : 1 ≤ 8) (by decide : 8 ≤ 64) hr
  refine ⟨.new .c_char (.asU8 (rawLit c)), ?_, ?_⟩
  · simp only [rustConst, h1, Option.bind_some, toIr_toProto h2]
    exact char_tokens c
  · rw [char_eval]
    have hn : c.isNegative = true := h3.2 hneg
    rw [hn] at h4
    simp only [if_true] at h4
    simp only [rawLit, hn, if_true, h4, litI64, if_pos hneg, rsEval, RInt.ty, Bool.false_eq_true,
      false_and, if_false]

/-- Disagreement: constants of type `unsigned __int128` of at least `2^128 - 2^63` are taken to have
few significant bits, and get a wrong value in Rust. -/
theorem huge_u128_wrong {a : Abi} {raw : Nat} (hr : raw < 2 ^ 128) (h : 2 ^ 128 - 2 ^ 63 ≤ raw) :
    ∃ e, rustConst .unsignedInt128 ⟨⟨128, false⟩, raw⟩ = some e ∧
      rsEval a (ffi11 a) (.int .u128) e = some ((raw : Int) - (2 ^ 128 - 2 ^ 64 : Nat)) := by
  have hs := (significantBits_le (t := ⟨128, false⟩) (raw := raw) (by decide) hr).2 (.inr h)
  refine ⟨.lit (showNat (raw % 2 ^ 64)), ?_, ?_⟩
  · rw [rustConst, fromAPValue, if_neg (by omega), Option.bind_some, toIr_toProto]
    · rfl
    · exact Nat.mod_lt _ (by decide)
  · have : raw % 2 ^ 64 = raw - (2 ^ 128 - 2 ^ 64) := by omega
    rw [this]
    simp only [rsEval, readDec_showNat]
    rw [if_pos]
    · congr 1; omega
    · simp only [RInt.ty, IntTy.Fits, IntTy.lo, IntTy.hi, Bool.false_eq_true, if_false]; omega

/-- Disagreement: constants of type `unsigned __int128` from `2^63` to `2^64 - 1` fit 64 bits, but
are refused. -/
theorem u128_refused {raw : Nat} (h : 2 ^ 63 ≤ raw) (h' : raw < 2 ^ 64) :
    rustConst .unsignedInt128 ⟨⟨128, false⟩, raw⟩ = none := by
  have hs : ¬ (APSInt.mk ⟨128, false⟩ raw).significantBits ≤ 64 := by
    rw [significantBits_le (t := ⟨128, false⟩) (raw := raw) (by decide) (by simp only; omega)]
    simp only
    omega
  rw [rustConst, fromAPValue, if_pos (by omega)]
  rfl

/-! Concrete cases. -/

/-- `enum : int { A = -5 }` on Linux: `::ffi_11::new_c_int(-5)`. -/
theorem ex_int : rustConst .int ⟨⟨32, true⟩, 2 ^ 32 - 5⟩ = some (.new .c_int (.neg [5])) ∧
    rsEval .lp64 (ffi11 .lp64) (.int .i32) (.new .c_int (.neg [5])) = some (-5) := by
  decide +kernel

/-- The extremes of the 64-bit types. -/
theorem ex_extremes :
    (rustConst .unsignedLong ⟨⟨64, false⟩, 2 ^ 64 - 1⟩).bind
      (rsEval .lp64 (ffi11 .lp64) (ffi11 .lp64 .c_ulong)) = some (2 ^ 64 - 1) ∧
    (rustConst .longLong ⟨⟨64, true⟩, 2 ^ 63⟩).bind
      (rsEval .lp64 (ffi11 .lp64) (ffi11 .lp64 .c_longlong)) = some (-(2 ^ 63)) ∧
    (rustConst .char ⟨⟨8, true⟩, 65⟩).bind
      (rsEval .lp64 (ffi11 .lp64) (ffi11 .lp64 .c_char)) = some 65 := by
  decide +kernel

end Verif.Consts

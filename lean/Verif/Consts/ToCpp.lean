import Verif.Consts.ToRust
/-
C145: an integer constant of Rust has the same value in C++. C146: round trip.
-/
namespace Verif.Consts

/-- The types of Rust that a constant can have on a platform: newtypes are those of `ffi_11`. -/
def RsTy.Wf (a : Abi) : RsTy → Prop
  | .wrap n r => ffi11 a n = .wrap n r
  | _ => True

/-- Bit patterns of a Rust type: `bool` is 0 or 1. -/
def RsTy.Valid (a : Abi) (ty : RsTy) (raw : Nat) : Prop :=
  raw < 2 ^ (ty.shape a).bits ∧ (ty = .bool → raw < 2)

theorem IntTy.value_pattern {t : IntTy} {v : Int} (hb : 1 ≤ t.bits) (h : t.Fits v) :
    t.value (t.pattern v) = v := by
  have h2 : 2 ^ t.bits = 2 * 2 ^ (t.bits - 1) := by
    rw [← Nat.pow_succ']; congr 1; omega
  have hpos : 0 < 2 ^ (t.bits - 1) := Nat.two_pow_pos _
  obtain ⟨h1, h3⟩ := h
  unfold IntTy.lo at h1
  unfold IntTy.hi at h3
  unfold IntTy.value IntTy.pattern
  by_cases hv : 0 ≤ v
  · have hm : v % ((2 ^ t.bits : Nat) : Int) = v := by
      apply Int.emod_eq_of_lt hv
      split at h3 <;> omega
    rw [hm]
    cases hs : t.signed
    · simp only [Bool.false_eq_true, false_and, if_false]; omega
    · simp only [hs, if_true, true_and] at h3 ⊢; split <;> omega
  · cases hs : t.signed
    · simp only [hs, Bool.false_eq_true, if_false] at h1; omega
    · simp only [hs, if_true, true_and] at h1 ⊢
      have hm : v % ((2 ^ t.bits : Nat) : Int) = v + (2 ^ t.bits : Nat) := by
        rw [← Int.add_emod_right]
        exact Int.emod_eq_of_lt (by omega) (by omega)
      rw [hm]
      split <;> omega

theorem IntTy.pattern_value {t : IntTy} {raw : Nat} (hr : raw < 2 ^ t.bits) :
    t.pattern (t.value raw) = raw := by
  unfold IntTy.value IntTy.pattern
  split
  · have : ((raw : Int) - (2 ^ t.bits : Nat)) % ((2 ^ t.bits : Nat) : Int) = raw := by
      rw [Int.sub_emod_right]
      exact Int.emod_eq_of_lt (by omega) (by omega)
    rw [this]; rfl
  · have : (raw : Int) % ((2 ^ t.bits : Nat) : Int) = raw :=
      Int.emod_eq_of_lt (by omega) (by omega)
    rw [this]; rfl

/-- Suffixes without `U`. -/
def Suffix.signed : Suffix → Bool
  | .none | .L | .LL => true
  | .U | .UL | .ULL => false

theorem types_signed {a : Abi} {s : Suffix} : ∀ t ∈ s.types a, t.signed = s.signed := by
  cases s <;> simp [Suffix.types, Suffix.signed]

theorem types_last {a : Abi} {s : Suffix} : (⟨64, s.signed⟩ : IntTy) ∈ s.types a := by
  cases s <;> simp [Suffix.types, Suffix.signed]

/-- A literal that fits the widest type of its suffix is well formed, and has its value. -/
theorem ccLit_eq {a : Abi} {s : Suffix} {n : Nat} (h : (IntTy.mk 64 s.signed).Fits n) :
    ∃ t : IntTy, t.signed = s.signed ∧ ccLit a s (showNat n) = some (t, (n : Int)) := by
  unfold ccLit
  rw [readDec_showNat]
  cases hf : (s.types a).find? fun t => decide (t.Fits n) with
  | none =>
    rw [List.find?_eq_none] at hf
    exact absurd (by simpa using h) (hf _ types_last)
  | some t =>
    exact ⟨t, types_signed t (List.mem_of_find?_eq_some hf), rfl⟩

/-- A possibly negated literal, with a suffix. -/
theorem cc_signed {a : Abi} {s : Suffix} {v : Int} (hs : s.signed = true) (h1 : -(2 ^ 63 : Nat) < v)
    (h2 : v < (2 ^ 63 : Nat)) :
    ∃ t, ((ccLit a s (showNat v.natAbs)).map fun w => if decide (v < 0) then ccNeg w else w) =
      some (t, v) := by
  have hfit : (IntTy.mk 64 s.signed).Fits (v.natAbs : Nat) := by
    rw [hs]
    simp only [IntTy.Fits, IntTy.lo, IntTy.hi, if_true]
    omega
  obtain ⟨t, ht, he⟩ := ccLit_eq (a := a) hfit
  refine ⟨t, ?_⟩
  rw [he, Option.map_some]
  by_cases hv : v < 0
  · simp only [hv, decide_true, if_true, ccNeg, ht, hs]
    congr 2; omega
  · simp only [hv, decide_false, Bool.false_eq_true, if_false]
    congr 2; omega

theorem cc_nonneg {a : Abi} {s : Suffix} {v : Int} (h1 : 0 ≤ v)
    (h : (IntTy.mk 64 s.signed).Fits v) :
    ∃ t, ((ccLit a s (showNat v.natAbs)).map fun w => if decide (v < 0) then ccNeg w else w) =
      some (t, v) := by
  have e1 : ((v.natAbs : Nat) : Int) = v := by omega
  obtain ⟨t, _, he⟩ := ccLit_eq (a := a) (s := s) (n := v.natAbs) (by rw [e1]; exact h)
  refine ⟨t, ?_⟩
  rw [he, Option.map_some, e1]
  simp [show ¬ v < 0 by omega]

theorem eval_litInt {a : Abi} {v : Int} (h1 : -(2 ^ 63 : Nat) < v) (h2 : v < (2 ^ 63 : Nat)) :
    ∃ t, ccEval a (litInt v) = some (t, v) := cc_signed (s := .none) rfl h1 h2

theorem eval_macInt {a : Abi} {m : Mac} {v : Int} (hs : (m.suffix a).signed = true)
    (h1 : -(2 ^ 63 : Nat) < v) (h2 : v < (2 ^ 63 : Nat)) :
    ∃ t, ccEval a (macInt m v) = some (t, v) := cc_signed (s := m.suffix a) hs h1 h2

theorem eval_macNat {a : Abi} {m : Mac} {v : Int} (h1 : 0 ≤ v)
    (h : (IntTy.mk 64 (m.suffix a).signed).Fits v) :
    ∃ t, ccEval a (macInt m v) = some (t, v) := cc_nonneg (s := m.suffix a) h1 h

theorem eval_i64Text {a : Abi} {v : Int} (h1 : -(2 ^ 63 : Nat) ≤ v) (h2 : v < (2 ^ 63 : Nat)) :
    ∃ t, ccEval a (i64Text v) = some (t, v) := by
  unfold i64Text
  split
  · next h => exact ⟨_, by rw [h]; rfl⟩
  · exact eval_macInt (by cases a <;> rfl) (by omega) h2

/-- The one value that has no literal: the least `c_longlong`, where that is a newtype. -/
def NoLiteral (a : Abi) (ty : RsTy) (raw : Nat) : Prop :=
  ty = .wrap .c_longlong .i64 ∧ (ty.shape a).value raw = -(2 ^ 63 : Nat)

theorem ofRead_ok {v : Option Int} {f : Int → CcExpr} {e : CcExpr} (h : Res.ofRead v f = .ok e) :
    ∃ i, v = some i ∧ e = f i := by
  cases v with
  | none => simp [Res.ofRead] at h
  | some i => simp only [Res.ofRead, Res.ok.injEq] at h; exact ⟨i, rfl, h.symm⟩

theorem scalarTo_ok {t want : IntTy} {raw : Nat} {i : Int} (h : scalarTo t want raw = some i) :
    t.bits = want.bits ∧ i = want.value raw := by
  unfold scalarTo at h
  split at h
  · next hb => exact ⟨hb, by simpa using h.symm⟩
  · exact absurd h (by simp)

theorem value_bounds {t : IntTy} {raw : Nat} (hb : 1 ≤ t.bits) (hr : raw < 2 ^ t.bits) :
    t.lo ≤ t.value raw ∧ t.value raw ≤ t.hi := IntTy.fits_value hb hr

theorem rint_pos (a : Abi) (r : RInt) : 1 ≤ (r.ty a).bits := by
  cases r <;> cases a <;> decide

theorem shape_pos {a : Abi} (ty : RsTy) : 1 ≤ (ty.shape a).bits := by
  cases ty with
  | bool => show 1 ≤ 8; decide
  | int r => exact rint_pos a r
  | wrap n r => exact rint_pos a r

/-- The text that is written for a Rust constant is a well-formed C++ expression with the value of
the constant. -/
theorem text_value {a : Abi} {ty : RsTy} {raw : Nat} {e : CcExpr} (hw : ty.Wf a)
    (hv : ty.Valid a raw) (hn : ¬ NoLiteral a ty raw) (he : scalarText a ty raw = .ok e) :
    ∃ ct, ccEval a e = some (ct, (ty.shape a).value raw) := by
  obtain ⟨hr, hbool⟩ := hv
  have hpos : 1 ≤ (ty.shape a).bits := shape_pos ty
  have hbd := value_bounds hpos hr
  cases ty with
  | bool =>
    simp only [scalarText, Res.ok.injEq] at he
    subst he
    have := hbool rfl
    obtain rfl | rfl : raw = 0 ∨ raw = 1 := by omega
    · exact ⟨_, rfl⟩
    · exact ⟨_, rfl⟩
  | int r =>
    simp only [scalarText] at he
    split at he
    · next hsm =>
      simp only [Res.ok.injEq] at he
      subst he
      obtain ⟨t, ht, heq⟩ := ccLit_eq (a := a) (s := .none) (n := raw)
        (by simp only [Suffix.signed, IntTy.Fits, IntTy.lo, IntTy.hi, if_true]; omega)
      refine ⟨t, ?_⟩
      simp only [ccEval, heq, Option.map_some, Bool.false_eq_true, if_false, IntTy.value, hsm.1,
        false_and]
    · cases r <;> simp only [reduceCtorEq] at he
      all_goals
        obtain ⟨i, hi, rfl⟩ := ofRead_ok he
        obtain ⟨_, rfl⟩ := scalarTo_ok hi
        simp only [RsTy.shape, RInt.ty] at hbd hr ⊢
        simp only [IntTy.lo, IntTy.hi, if_true, Bool.false_eq_true, if_false] at hbd
      · exact eval_litInt (by omega) (by omega)
      · exact eval_litInt (by omega) (by omega)
      · exact eval_macInt rfl (by omega) (by omega)
      · exact eval_i64Text (by omega) (by omega)
      · cases a <;> simp only [Abi.ptrBits] at hbd ⊢ <;> exact eval_i64Text (by omega) (by omega)
      · exact eval_litInt (by omega) (by omega)
      · exact eval_macInt rfl (by omega) (by omega)
      · exact eval_macNat (by omega) (by
          simp only [Mac.suffix, Suffix.signed, IntTy.Fits, IntTy.lo, IntTy.hi, Bool.false_eq_true,
            if_false]
          omega)
      · exact eval_macNat (by omega) (by
          cases a <;>
          simp only [Mac.suffix, Suffix.signed, IntTy.Fits, IntTy.lo, IntTy.hi, Bool.false_eq_true,
            if_false, reduceCtorEq, if_true] <;>
          omega)
      · cases a <;> simp only [Abi.ptrBits] at hbd ⊢ <;>
          exact eval_macNat (by omega) (by
          simp only [Mac.suffix, Suffix.signed, IntTy.Fits, IntTy.lo, IntTy.hi, Bool.false_eq_true,
            if_false, reduceCtorEq, if_true]
          omega)
  | wrap n r =>
    simp only [RsTy.Wf] at hw
    simp only [scalarText] at he
    cases n <;> simp only [reduceCtorEq] at he
    all_goals
      obtain ⟨i, hi, rfl⟩ := ofRead_ok he
      obtain ⟨hbits, rfl⟩ := scalarTo_ok hi
    · simp only [ffi11, RsTy.wrap.injEq, true_and] at hw
      subst hw
      simp only [RsTy.shape, RInt.ty] at hbd ⊢
      simp only [IntTy.lo, IntTy.hi, Bool.false_eq_true, if_false] at hbd
      exact eval_litInt (by omega) (by omega)
    · cases a <;> simp only [ffi11, RsTy.wrap.injEq, true_and, reduceCtorEq] at hw <;> subst hw <;>
        simp only [RsTy.shape, RInt.ty, Nat.reduceEqDiff] at hbd hbits ⊢ <;>
        simp only [IntTy.lo, IntTy.hi, if_true] at hbd <;>
        exact eval_macInt rfl (by omega) (by omega)
    · cases a <;> simp only [ffi11, RsTy.wrap.injEq, true_and, reduceCtorEq] at hw <;> subst hw <;>
        simp only [RsTy.shape, RInt.ty, Nat.reduceEqDiff] at hbd hbits ⊢ <;>
        simp only [IntTy.lo, IntTy.hi, Bool.false_eq_true, if_false] at hbd <;>
        exact eval_macNat (by omega) (by
          simp only [Mac.suffix, Suffix.signed, IntTy.Fits, IntTy.lo, IntTy.hi, Bool.false_eq_true,
            if_false]
          omega)
    · cases a <;> simp only [ffi11, RsTy.wrap.injEq, true_and, reduceCtorEq] at hw
      subst hw
      have hne : (IntTy.mk 64 true).value raw ≠ -(2 ^ 63 : Nat) := fun h => hn ⟨rfl, h⟩
      simp only [RsTy.shape, RInt.ty] at hbd ⊢
      simp only [IntTy.lo, IntTy.hi, if_true] at hbd
      exact eval_macInt rfl (by omega) (by omega)
    · cases a <;> simp only [ffi11, RsTy.wrap.injEq, true_and, reduceCtorEq] at hw
      subst hw
      simp only [RsTy.shape, RInt.ty] at hbd ⊢
      simp only [IntTy.lo, IntTy.hi, Bool.false_eq_true, if_false] at hbd
      exact eval_macNat (by omega) (by
        simp only [Mac.suffix, Suffix.signed, IntTy.Fits, IntTy.lo, IntTy.hi, Bool.false_eq_true,
          if_false, if_true]
        omega)

/-- The shape of the C++ type is that of the Rust type, except for `bool` and `c_char`. -/
theorem ccTy_shape {T : Target} {ty : RsTy} {ct : IntTy} (h : ccTyOf T ty = some ct)
    (hb : ty ≠ .bool) (hc : ∀ r, ty ≠ .wrap .c_char r) : ct = ty.shape T.abi := by
  cases ty with
  | bool => exact absurd rfl hb
  | int r => cases r <;> simp_all [ccTyOf, RsTy.shape]
  | wrap n r => cases n <;> simp_all [ccTyOf, RsTy.shape]

/-- **C145.** A Rust constant of an integer type or `bool`, for which a C++ constant is generated,
has in C++ the same value: as `static constexpr` variable, as enumerator, and as tag in braces
(where a value that does not fit would be an error), on every platform. -/
theorem rust_constant_same_value {T : Target} {ty : RsTy} {raw : Nat} {e : CcExpr} {ct : IntTy}
    (hw : ty.Wf T.abi) (hv : ty.Valid T.abi raw) (hn : ¬ NoLiteral T.abi ty raw)
    (hc : ∀ r, ty ≠ .wrap .c_char r) (hct : ccTyOf T ty = some ct)
    (he : scalarText T.abi ty raw = .ok e) :
    ccConst T.abi ct e = some ((ty.shape T.abi).value raw) ∧
    ccBrace T.abi ct e = some ((ty.shape T.abi).value raw) := by
  obtain ⟨t, ht⟩ := text_value hw hv hn he
  have hfit : ct.Fits ((ty.shape T.abi).value raw) ∧ 1 ≤ ct.bits := by
    by_cases hb : ty = .bool
    · subst hb
      simp only [ccTyOf, Option.some.injEq] at hct
      subst hct
      have := hv.2 rfl
      simp only [RsTy.shape, IntTy.value, IntTy.Fits, IntTy.lo, IntTy.hi, Bool.false_eq_true,
        false_and, if_false]
      omega
    · rw [ccTy_shape hct hb hc]
      exact ⟨IntTy.fits_value (shape_pos ty) hv.1, shape_pos ty⟩
  constructor
  · simp only [ccConst, ht, Option.map_some]
    rw [IntTy.value_pattern hfit.2 hfit.1]
  · simp only [ccBrace, ht, if_pos hfit.1]

/-- A constant of type `c_char` has in C++ the same bits; as an enumerator or in braces it is the
same unless the value is negative there, which is an error. -/
theorem c_char_same_bits {T : Target} {raw : Nat} {e : CcExpr} {ct : IntTy} (hr : raw < 256)
    (hct : ccTyOf T (.wrap .c_char .u8) = some ct)
    (he : scalarText T.abi (.wrap .c_char .u8) raw = .ok e) :
    Prim.ty T .char = some ct ∧
    (∃ v, ccConst T.abi ct e = some v ∧ ct.pattern v = raw) ∧
    (T.charSigned = false ∨ raw < 128 → ccBrace T.abi ct e = some (raw : Int)) := by
  simp only [ccTyOf, Option.some.injEq] at hct
  subst hct
  refine ⟨rfl, ?_⟩
  obtain ⟨t, ht⟩ := text_value (ty := .wrap .c_char .u8) (by cases T.abi <;> rfl) ⟨hr, by simp⟩
    (by simp [NoLiteral]) he
  have hval : (RsTy.shape T.abi (.wrap .c_char .u8)).value raw = raw := by
    simp [RsTy.shape, RInt.ty, IntTy.value]
  rw [hval] at ht
  constructor
  · refine ⟨_, by simp only [ccConst, ht, Option.map_some]; rfl, ?_⟩
    have hp : (IntTy.mk 8 T.charSigned).pattern (raw : Int) = raw := by
      simp only [IntTy.pattern]
      omega
    rw [hp, IntTy.pattern_value hr]
  · intro h
    simp only [ccBrace, ht]
    rw [if_pos]
    simp only [IntTy.Fits, IntTy.lo, IntTy.hi]
    rcases h with h | h
    · simp only [h, Bool.false_eq_true, if_false]; omega
    · split <;> omega

/-- For which types constants are given: `bool`, all builtin integers of up to 64 bits, and those of
`ffi_11` except `charN_t` and `wchar_t`; with one exception, see `apple_long_panics`. -/
theorem rust_constant_given {T : Target} {ty : RsTy} {raw : Nat} {ct : IntTy} (hw : ty.Wf T.abi)
    (hct : ccTyOf T ty = some ct)
    (hx : T.abi = .lp64ll → ∀ r, ty ≠ .wrap .c_long r ∧ ty ≠ .wrap .c_ulong r)
    (hn : ∀ r, ty ≠ .wrap .c_char8_t r ∧ ty ≠ .wrap .c_char16_t r ∧ ty ≠ .wrap .c_char32_t r ∧
      ty ≠ .wrap .c_wchar_t r) :
    ∃ e, scalarText T.abi ty raw = .ok e := by
  obtain ⟨a, cs⟩ := T
  simp only at hw hx ⊢
  cases ty with
  | bool => exact ⟨_, rfl⟩
  | int r =>
    simp only [scalarText]
    split
    · exact ⟨_, rfl⟩
    · cases r <;> simp only [ccTyOf, reduceCtorEq] at hct ⊢ <;>
        simp [scalarTo, RsTy.shape, RInt.ty, Res.ofRead]
  | wrap n r =>
    simp only [RsTy.Wf] at hw
    have := hn r
    cases n <;> simp only [ne_eq, not_true, false_and, and_false] at this <;>
      cases a <;> simp only [ffi11, RsTy.wrap.injEq, true_and, reduceCtorEq] at hw <;>
      first
        | (exact absurd rfl (hx rfl r).1)
        | (exact absurd rfl (hx rfl r).2)
        | (subst hw; simp [scalarText, scalarTo, RsTy.shape, RInt.ty, Res.ofRead])

/-- Disagreement: on iOS and OpenBSD `ffi_11::c_long` is a newtype of 64 bits; the generator takes
it to have 32, and panics. -/
theorem apple_long_panics (raw : Nat) :
    ffi11 .lp64ll .c_long = .wrap .c_long .i64 ∧
    scalarText .lp64ll (.wrap .c_long .i64) raw = .panic ∧
    scalarText .lp64ll (.wrap .c_ulong .u64) raw = .panic := by
  simp [ffi11, scalarText, scalarTo, RsTy.shape, RInt.ty, Res.ofRead]

/-- Disagreement: the least `c_longlong` is written `INT64_C(-9223372036854775808)` on Linux, whose
literal has no type. -/
theorem least_longlong_ill_formed :
    ∃ e, scalarText .lp64 (.wrap .c_longlong .i64) (2 ^ 63) = .ok e ∧ ccEval .lp64 e = none := by
  refine ⟨.mac .INT64_C true (showNat (2 ^ 63)), by decide +kernel, ?_⟩
  have : readDec (showNat (2 ^ 63)) = 2 ^ 63 := readDec_showNat _
  simp only [ccEval, ccLit, this]
  decide

/-- Disagreement: a `c_char` of at least 128 as an enumerator, where `char` is signed, is an error. -/
theorem c_char_enumerator_ill_formed :
    scalarText .lp64 (.wrap .c_char .u8) 200 = .ok (.lit false [2, 0, 0]) ∧
    ccBrace .lp64 ⟨8, true⟩ (.lit false [2, 0, 0]) = none := by
  decide +kernel

/-! ### Round trip -/

/-- The C++ typedef whose Rust type is a given builtin one. -/
def backPrim : RInt → Option Prim
  | .i8 => some .int8T | .i16 => some .int16T | .i32 => some .int32T | .i64 => some .int64T
  | .isize => some .intptrT
  | .u8 => some .uint8T | .u16 => some .uint16T | .u32 => some .uint32T | .u64 => some .uint64T
  | .usize => some .uintptrT
  | .i128 => none | .u128 => none

theorem backPrim_ty {T : Target} {r : RInt} {p : Prim} (h : backPrim r = some p) :
    p.ty T = some (r.ty T.abi) ∧ rsTyOf T.abi p = some (.int r) ∧ ccTyOf T (.int r) = some (r.ty T.abi) ∧
      (r.ty T.abi).bits ≤ 64 ∧ p ≠ .char := by
  obtain ⟨a, cs⟩ := T
  cases r <;> simp only [backPrim, Option.some.injEq, reduceCtorEq] at h <;> subst h <;>
    cases a <;> exact ⟨rfl, rfl, rfl, by simp [RInt.ty, Abi.ptrBits], by decide⟩

/-- **C146.** A constant of a builtin integer type of Rust, taken to C++, and taken back to Rust
from there, has the same type and the same value. -/
theorem rust_cpp_rust {T : Target} {r : RInt} {p : Prim} {raw : Nat} (hp : backPrim r = some p)
    (hr : raw < 2 ^ (r.ty T.abi).bits) :
    ∃ e v e', scalarText T.abi (.int r) raw = .ok e ∧ ccConst T.abi (r.ty T.abi) e = some v ∧
      rustConst p ⟨r.ty T.abi, (r.ty T.abi).pattern v⟩ = some e' ∧ rsTyOf T.abi p = some (.int r) ∧
      rsEval T.abi (ffi11 T.abi) (.int r) e' = some ((r.ty T.abi).value raw) := by
  obtain ⟨h1, h2, h3, h4, h5⟩ := backPrim_ty (T := T) hp
  obtain ⟨e, he⟩ := rust_constant_given (T := T) (ty := .int r) (raw := raw) trivial h3 (by simp)
    (by simp)
  have hv := (rust_constant_same_value (T := T) (ty := .int r) trivial ⟨hr, by simp⟩
    (by simp [NoLiteral]) (by simp) h3 he).1
  simp only [RsTy.shape] at hv
  have hlt : (r.ty T.abi).pattern ((r.ty T.abi).value raw) < 2 ^ (r.ty T.abi).bits := by
    rw [IntTy.pattern_value hr]; exact hr
  obtain ⟨e', ty, g1, g2, g3⟩ := constant_same_value h1 h4 hlt (fun h => absurd h h5)
  rw [h2, Option.some.injEq] at g2
  subst g2
  refine ⟨e, _, e', he, hv, g1, h2, ?_⟩
  rw [g3, IntTy.pattern_value hr]

/-- `-5i32` crosses as `INT32_C(-5)`, and comes back as `-5`. -/
theorem ex_roundtrip : scalarText .lp64 (.int .i32) (2 ^ 32 - 5) = .ok (.mac .INT32_C true [5]) ∧
    ccConst .lp64 ⟨32, true⟩ (.mac .INT32_C true [5]) = some (-5) ∧
    scalarText .lp64 (.int .u16) 32766 = .ok (.lit false [3, 2, 7, 6, 6]) ∧
    scalarText .lp64 (.int .u16) 32767 = .ok (.mac .UINT16_C false [3, 2, 7, 6, 7]) ∧
    scalarText .lp64 (.int .i64) (2 ^ 63) = .ok .int64Min := by
  decide +kernel

end Verif.Consts

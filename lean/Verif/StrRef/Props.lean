import Verif.StrRef.Model
import Verif.Common.Utf8
/- C34: `StrRef::FromUtf8` accepts exactly well-formed UTF-8. C35: `SliceRef` invariants. -/
namespace Verif.StrRef
open Verif.Utf8

theorem isAscii_iff (s : List Nat) : isAscii s = true ↔ ∀ c ∈ s, c < 0x80 := by
  induction s with
  | nil => simp [isAscii]
  | cons c s ih =>
    simp only [isAscii, isAsciiChar]
    by_cases h : c ≤ 0x7f
    · simp [h, ih]; intro _; omega
    · simp [h]; intro h'; omega

theorem ascii_wellFormed (s : List Nat) (h : ∀ c ∈ s, c < 0x80) : WellFormed s := by
  refine ⟨s, fun c hc => ⟨?_, ?_⟩, ?_⟩
  · have := h c hc; omega
  · have := h c hc; omega
  · induction s with
    | nil => rfl
    | cons c s ih =>
      have hc := h c (by simp)
      simp only [encodeAll, List.flatMap_cons, encode, if_pos hc]
      have := ih (fun d hd => h d (by simp [hd]))
      simp only [encodeAll] at this
      exact congrArg (c :: ·) this

/-- The size table, as ranges. -/
theorem table (c : Nat) (hc : c < 256) : firstByteToUtf8CharSize.getD c 0 =
    if c < 0x80 then 1 else if c < 0xC2 then 0 else if c < 0xE0 then 2 else if c < 0xF0 then 3
    else if c < 0xF5 then 4 else 0 := by
  have : ∀ c : Fin 256, firstByteToUtf8CharSize.getD c 0 =
      if (c : Nat) < 0x80 then 1 else if (c : Nat) < 0xC2 then 0 else if (c : Nat) < 0xE0 then 2 else if (c : Nat) < 0xF0 then 3
      else if (c : Nat) < 0xF5 then 4 else 0 := by decide +kernel
  exact this ⟨c, hc⟩

/-- One step of the loop recognises exactly one encoded scalar. -/
theorem step_sound (c : Nat) (str : List Nat) (hb : ∀ x ∈ c :: str, x < 256) (n : Nat)
    (hn : n = firstByteToUtf8CharSize.getD c 0) (h1 : ¬ n > (c :: str).length)
    (h2 : isUtf8Char ((c :: str).take n) = true) :
    ∃ s, IsScalar s ∧ encode s = (c :: str).take n := by
  have hc := hb c (by simp)
  rw [table c hc] at hn
  split at hn
  · subst hn
    refine ⟨c, ⟨by omega, by omega⟩, ?_⟩
    simp [encode, *]
  · split at hn
    · subst hn; simp [isUtf8Char] at h2
    · split at hn
      · subst hn
        match str, h1 with
        | b :: r, _ =>
          simp only [List.take_succ_cons, List.take_zero, isUtf8Char, case2, case1, notTail] at h2 ⊢
          have hb' := hb b (by simp)
          simp at h2
          have h3 : 0x80 ≤ b ∧ b ≤ 0xBF := by omega
          refine ⟨(c - 0xC0) * 64 + (b - 0x80), ⟨by omega, by omega⟩, ?_⟩
          unfold encode
          rw [if_neg (by omega), if_pos (by omega)]
          simp; omega
        | [], h1 => simp at h1
      · split at hn
        · subst hn
          match str, h1 with
          | b :: d :: r, _ =>
            simp only [List.take_succ_cons, List.take_zero, isUtf8Char, case3, case2, case1, notTail] at h2 ⊢
            simp at h2
            obtain ⟨h3, h4, h2⟩ := h2
            have hlo : c = 0xE0 → 0xA0 ≤ b := by
              rintro rfl; simp at h2; omega
            have hhi : c = 0xED → b ≤ 0x9F := by
              rintro rfl; simp at h2; omega
            refine ⟨(c - 0xE0) * 4096 + (b - 0x80) * 64 + (d - 0x80), ⟨by omega, ?_⟩, ?_⟩
            · intro hh
              by_cases e : c = 0xED
              · have := hhi e; omega
              · omega
            · have : 0x800 ≤ (c - 0xE0) * 4096 + (b - 0x80) * 64 + (d - 0x80) := by
                by_cases e : c = 0xE0
                · have := hlo e; omega
                · omega
              unfold encode
              rw [if_neg (by omega), if_neg (by omega), if_pos (by omega)]
              simp; omega
          | [], h1 => simp at h1
          | [_], h1 => simp at h1
        · split at hn
          · subst hn
            match str, h1 with
            | b :: d :: e :: r, _ =>
              simp only [List.take_succ_cons, List.take_zero, isUtf8Char, case4, case3, case2, case1, notTail] at h2 ⊢
              simp at h2
              obtain ⟨h3, h4, h5, h2⟩ := h2
              have hlo : c = 0xF0 → 0x90 ≤ b := by
                rintro rfl; simp at h2; omega
              have hhi : c = 0xF4 → b ≤ 0x8F := by
                rintro rfl; simp at h2; omega
              have hmax : (c - 0xF0) * 262144 + (b - 0x80) * 4096 + (d - 0x80) * 64 + (e - 0x80) ≤ 0x10FFFF := by
                by_cases x : c = 0xF4
                · have := hhi x; omega
                · omega
              have hmin : 0x10000 ≤ (c - 0xF0) * 262144 + (b - 0x80) * 4096 + (d - 0x80) * 64 + (e - 0x80) := by
                by_cases x : c = 0xF0
                · have := hlo x; omega
                · omega
              refine ⟨(c - 0xF0) * 262144 + (b - 0x80) * 4096 + (d - 0x80) * 64 + (e - 0x80), ⟨hmax, by omega⟩, ?_⟩
              unfold encode
              rw [if_neg (by omega), if_neg (by omega), if_neg (by omega)]
              simp; omega
            | [], h1 => simp at h1
            | [_], h1 => simp at h1
            | [_, _], h1 => simp at h1
          · subst hn; simp [isUtf8Char] at h2

/-- Conversely every encoded scalar at the head is accepted. -/
theorem step_complete (s : Nat) (hs : IsScalar s) (rest : List Nat) :
    ∃ c str, encode s ++ rest = c :: str ∧ firstByteToUtf8CharSize.getD c 0 = (encode s).length ∧ c < 256 ∧
      isUtf8Char (encode s) = true := by
  obtain ⟨h1, h2⟩ := hs
  unfold encode
  split
  · refine ⟨s, rest, rfl, ?_, by omega, ?_⟩
    · rw [table s (by omega)]; simp; omega
    · simp [isUtf8Char, case1]; omega
  · split
    · refine ⟨_, _, rfl, ?_, by omega, ?_⟩
      · rw [table _ (by omega), if_neg (by omega), if_neg (by omega), if_pos (by omega)]; rfl
      · simp only [isUtf8Char, case2, case1, notTail]; simp
        (repeat' split) <;> first | omega | (simp; done) | (simp; omega)
    · split
      · refine ⟨_, _, rfl, ?_, by omega, ?_⟩
        · rw [table _ (by omega), if_neg (by omega), if_neg (by omega), if_neg (by omega), if_pos (by omega)]; rfl
        · simp only [isUtf8Char, case3, case2, case1, notTail]; simp
          refine ⟨by omega, by omega, ?_⟩
          (repeat' split) <;> first | omega | (simp; done) | (simp; omega)
      · refine ⟨_, _, rfl, ?_, by omega, ?_⟩
        · rw [table _ (by omega), if_neg (by omega), if_neg (by omega), if_neg (by omega), if_neg (by omega), if_pos (by omega)]; rfl
        · simp only [isUtf8Char, case4, case3, case2, case1, notTail]; simp
          refine ⟨by omega, by omega, by omega, ?_⟩
          (repeat' split) <;> first | omega | (simp; done) | (simp; omega)

theorem wellFormed_cons (s : Nat) (hs : IsScalar s) (r : List Nat) : WellFormed (encode s ++ r) ↔ WellFormed r := by
  constructor
  · rintro ⟨cs, hcs, he⟩
    cases cs with
    | nil =>
      simp only [encodeAll, List.flatMap_nil] at he
      exact absurd (List.append_eq_nil_iff.mp he).1 (encode_ne_nil _)
    | cons c cs =>
      simp only [encodeAll, List.flatMap_cons] at he
      obtain ⟨rfl, rfl⟩ := encode_append_inj hs (hcs _ (by simp)) he
      exact ⟨cs, fun c hc => hcs c (by simp [hc]), rfl⟩
  · rintro ⟨cs, hcs, rfl⟩
    refine ⟨s :: cs, ?_, rfl⟩
    intro c hc
    rcases List.mem_cons.mp hc with h | h
    · rw [h]; exact hs
    · exact hcs c h

theorem wellFormed_nil : WellFormed [] := ⟨[], by simp, rfl⟩

theorem isUtf8Loop_spec (fuel : Nat) : ∀ (str : List Nat), (∀ x ∈ str, x < 256) → str.length ≤ fuel →
    ∃ b, isUtf8Loop fuel str = some b ∧ (b = true ↔ WellFormed str) := by
  induction fuel with
  | zero =>
    intro str _ hl
    have : str = [] := by simpa using hl
    subst this; exact ⟨true, rfl, by simp [wellFormed_nil]⟩
  | succ fuel ih =>
    intro str hb hl
    cases str with
    | nil => exact ⟨true, rfl, by simp [wellFormed_nil]⟩
    | cons c str =>
      simp only [isUtf8Loop]
      have hcompl : WellFormed (c :: str) → ¬ firstByteToUtf8CharSize.getD c 0 > (c :: str).length ∧
          isUtf8Char ((c :: str).take (firstByteToUtf8CharSize.getD c 0)) = true := by
        rintro ⟨cs, hcs, he⟩
        cases cs with
        | nil => simp [encodeAll] at he
        | cons s cs =>
          simp only [encodeAll, List.flatMap_cons] at he
          obtain ⟨c', str', e1, e2, -, e3⟩ := step_complete s (hcs s (by simp)) (cs.flatMap encode)
          rw [e1] at he
          simp only [List.cons.injEq] at he
          obtain ⟨rfl, rfl⟩ := he
          rw [e2, ← e1]
          refine ⟨?_, ?_⟩
          · simp
          · rw [List.take_left]; exact e3
      by_cases h1 : firstByteToUtf8CharSize.getD c 0 > (c :: str).length
      · rw [if_pos h1]
        refine ⟨false, rfl, ?_⟩
        simp only [Bool.false_eq_true, false_iff]
        exact fun hw => (hcompl hw).1 h1
      · rw [if_neg h1]
        by_cases h2 : isUtf8Char ((c :: str).take (firstByteToUtf8CharSize.getD c 0)) = true
        · simp only [h2, Bool.not_true, Bool.false_eq_true, if_false]
          obtain ⟨s, hs, he⟩ := step_sound c str hb _ rfl h1 h2
          have hpos : 1 ≤ firstByteToUtf8CharSize.getD c 0 := by
            rcases Nat.eq_zero_or_pos (firstByteToUtf8CharSize.getD c 0) with h0 | h0
            · rw [h0] at h2; simp [isUtf8Char] at h2
            · exact h0
          have hsplit : c :: str = encode s ++ (c :: str).drop (firstByteToUtf8CharSize.getD c 0) := by
            rw [he, List.take_append_drop]
          obtain ⟨b, hb1, hb2⟩ := ih ((c :: str).drop (firstByteToUtf8CharSize.getD c 0))
            (fun x hx => hb x (List.mem_of_mem_drop hx)) (by
              rw [List.length_drop]; omega)
          refine ⟨b, hb1, ?_⟩
          rw [hb2]
          conv => rhs; rw [hsplit]
          exact (wellFormed_cons s hs _).symm
        · simp only [h2, Bool.not_false, if_true]
          refine ⟨false, rfl, ?_⟩
          simp only [Bool.false_eq_true, false_iff]
          exact fun hw => h2 (hcompl hw).2

/-- C34: validation terminates within one step per byte on every byte string, and accepts exactly the
well-formed UTF-8 strings. -/
theorem is_utf8_iff (str : List Nat) (hb : ∀ x ∈ str, x < 256) (fuel : Nat) (hf : str.length ≤ fuel) :
    ∃ b, isUtf8 str fuel = some b ∧ (b = true ↔ WellFormed str) := by
  unfold isUtf8
  by_cases h : isAscii str = true
  · simp only [h, if_true]
    exact ⟨true, rfl, by simp [ascii_wellFormed str ((isAscii_iff str).mp h)]⟩
  · simp only [h]
    exact isUtf8Loop_spec fuel str hb hf

/-- C34: `FromUtf8` returns a value exactly for well-formed UTF-8, and the value views the same bytes: the
same length, the same pointer unless empty. -/
theorem from_utf8_iff (ptr : Nat) (bytes : List Nat) (hb : ∀ x ∈ bytes, x < 256) (hp : bytes ≠ [] → ptr ≠ 0) :
    ((fromUtf8 ptr bytes).isSome ↔ WellFormed bytes) ∧
    ∀ s, fromUtf8 ptr bytes = some s → s.size = bytes.length ∧ (bytes ≠ [] → s.data = ptr) := by
  obtain ⟨b, h1, h2⟩ := is_utf8_iff bytes hb bytes.length (Nat.le_refl _)
  unfold fromUtf8
  rw [h1]
  cases b with
  | false => simp at h2 ⊢; exact h2
  | true =>
    simp at h2 ⊢
    refine ⟨h2, ?_, ?_⟩
    · simp only [Slice.new]
      by_cases hne : bytes = []
      · subst hne; simp
      · have := hp hne
        have hl : bytes.length > 0 := List.length_pos_iff.mpr hne
        simp [this, hl]
    · intro hne
      have := hp hne
      have hl : bytes.length > 0 := List.length_pos_iff.mpr hne
      simp [Slice.new, Slice.data, this, hl]

/-- How a `SliceRef` can come about: the default constructor, or the primary constructor (to which every
other constructor delegates), or a copy. `align` is `alignof(T)`. -/
inductive Built (align : Nat) : Slice → Prop
  | default : Built align (.default align)
  | new (ptr size : Nat) : Built align (.new align ptr size)

/-- C35: whatever pointer and size a slice was built from, the word handed to Rust is never null, and
aligned whenever the original pointer was; `data()` is null exactly for empty slices. -/
theorem slice_never_null (align : Nat) (ha : 0 < align) (s : Slice) (h : Built align s) :
    s.word ≠ 0 ∧ (s.data = 0 ↔ s.size = 0) ∧
    ∀ ptr size, s = .new align ptr size → align ∣ ptr → align ∣ s.word := by
  rw [← and_assoc]
  refine ⟨?_, ?_⟩
  case refine_2 =>
    rintro ptr size rfl hd
    simp only [Slice.new]
    by_cases hs : (if ptr = 0 then 0 else size) > 0
    · rw [if_pos hs]; exact hd
    · rw [if_neg hs]; exact Nat.dvd_refl _
  cases h with
  | default => simp [Slice.default, Slice.data]; omega
  | new ptr size =>
    simp only [Slice.new, Slice.data]
    by_cases hp : ptr = 0
    · simp [hp]; omega
    · by_cases hs : size > 0
      · simp [hp, hs]; omega
      · simp [hp, hs]; omega

/-- C35: the slice has the span it was built from: size and (if non-empty) pointer; converting back to a
span and rebuilding gives the same slice. -/
theorem slice_span_roundtrip (align ptr size : Nat) (hp : size ≠ 0 → ptr ≠ 0) :
    (Slice.new align ptr size).size = size ∧
    (size ≠ 0 → (Slice.new align ptr size).toSpan = (ptr, size) ∧ (Slice.new align ptr size).word = ptr) ∧
    (size = 0 → (Slice.new align ptr size).word = align) ∧
    ∀ s, Built align s → Slice.new align s.toSpan.1 s.toSpan.2 = s := by
  refine ⟨?_, ?_, ?_, ?_⟩
  · simp only [Slice.new]
    by_cases h : size = 0
    · simp [h]
    · have := hp h; simp [this]; split <;> rfl
  · intro h; have := hp h
    have h' : size > 0 := by omega
    simp [Slice.new, Slice.toSpan, this, h']
  · rintro rfl; simp [Slice.new]
  · intro s hs
    cases hs with
    | default => simp [Slice.default, Slice.toSpan, Slice.new]
    | new p n =>
      simp only [Slice.new, Slice.toSpan]
      by_cases hp : p = 0
      · simp [hp]
      · by_cases hn : n > 0
        · simp [hp, hn]
        · have : n = 0 := by omega
          subst this; simp

theorem stdEqual_iff {T : Type} [DecidableEq T] (m : Mem T) (a b n : Nat) : ∀ i, stdEqual m a b i n = true ↔
    ∀ j, j < n → m a (i + j) = m b (i + j) := by
  induction n with
  | zero => intro i; simp [stdEqual]
  | succ n ih =>
    intro i
    simp only [stdEqual]
    by_cases h : m a i = m b i
    · simp only [h, if_true, ih]
      constructor
      · intro hj j hlt
        cases j with
        | zero => simpa using h
        | succ j => have := hj j (by omega); rw [show i + (j + 1) = i + 1 + j by omega]; exact this
      · intro hj j hlt
        have := hj (j + 1) (by omega); rw [show i + (j + 1) = i + 1 + j by omega] at this; exact this
    · simp only [h, if_false, Bool.false_eq_true, false_iff]
      intro hj; exact h (by simpa using hj 0 (by omega))

/-- C35: two slices compare equal iff they have the same length and equal elements. -/
theorem slice_eq_iff {T : Type} [DecidableEq T] (m : Mem T) (a b : Slice) :
    a.equalImpl m b = true ↔ a.size = b.size ∧ ∀ i, i < a.size → m a.data i = m b.data i := by
  simp only [Slice.equalImpl]
  by_cases h : a.size = b.size
  · simp [h, stdEqual_iff]
  · simp [h]

/-- Non-vacuity: "é€😀" is accepted, a lone surrogate (ED A0 80), an overlong slash (C0 AF) and a truncated
euro sign are rejected. -/
example : isUtf8 [0xC3, 0xA9, 0xE2, 0x82, 0xAC, 0xF0, 0x9F, 0x98, 0x80] 9 = some true ∧
    isUtf8 [0xED, 0xA0, 0x80] 3 = some false ∧ isUtf8 [0xC0, 0xAF] 2 = some false ∧ isUtf8 [0x41, 0xE2, 0x82] 3 = some false := by
  decide +kernel

example : (Slice.new 4 0x1000 3).toSpan = (0x1000, 3) ∧ (Slice.new 4 0 3).toSpan = (0, 0) ∧ (Slice.new 4 0x1000 0).word = 4 := by decide

end Verif.StrRef

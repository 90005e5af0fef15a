import Verif.Lossy.Spec
namespace Verif.Lossy
open Verif.Utf8

/-- complete sequences, as a table -/
def fullB : List Nat → Bool
  | [a] => charWidth a == 1
  | [a, b] => charWidth a == 2 && isCont b
  | [a, b, c] => charWidth a == 3 && second3 a b && isCont c
  | [a, b, c, d] => charWidth a == 4 && second4 a b && isCont c && isCont d
  | _ => false

/-- proper non-empty prefixes, as a table -/
def partialB : List Nat → Bool
  | [a] => charWidth a == 2 || charWidth a == 3 || charWidth a == 4
  | [a, b] => (charWidth a == 3 && second3 a b) || (charWidth a == 4 && second4 a b)
  | [a, b, c] => charWidth a == 4 && second4 a b && isCont c
  | _ => false

theorem cw1 (a : Nat) : charWidth a = 1 ↔ a < 0x80 := by
  simp only [charWidth, Bool.and_eq_true, decide_eq_true_eq]; (repeat' split) <;> omega
theorem cw2 (a : Nat) : charWidth a = 2 ↔ 0xC2 ≤ a ∧ a ≤ 0xDF := by
  simp only [charWidth, Bool.and_eq_true, decide_eq_true_eq]; (repeat' split) <;> omega
theorem cw3 (a : Nat) : charWidth a = 3 ↔ 0xE0 ≤ a ∧ a ≤ 0xEF := by
  simp only [charWidth, Bool.and_eq_true, decide_eq_true_eq]; (repeat' split) <;> omega
theorem cw4 (a : Nat) : charWidth a = 4 ↔ 0xF0 ≤ a ∧ a ≤ 0xF4 := by
  simp only [charWidth, Bool.and_eq_true, decide_eq_true_eq]; (repeat' split) <;> omega
theorem cw_cases (a : Nat) : charWidth a = 0 ∨ charWidth a = 1 ∨ charWidth a = 2 ∨ charWidth a = 3 ∨ charWidth a = 4 := by
  simp only [charWidth]; (repeat' split) <;> omega

theorem isCont_iff (b : Nat) : isCont b = true ↔ 0x80 ≤ b ∧ b ≤ 0xBF := by simp [isCont]
theorem second3_iff (a b : Nat) : second3 a b = true ↔
    (a = 0xE0 ∧ 0xA0 ≤ b ∧ b ≤ 0xBF) ∨ ((0xE1 ≤ a ∧ a ≤ 0xEC) ∧ 0x80 ≤ b ∧ b ≤ 0xBF) ∨
    (a = 0xED ∧ 0x80 ≤ b ∧ b ≤ 0x9F) ∨ ((0xEE ≤ a ∧ a ≤ 0xEF) ∧ 0x80 ≤ b ∧ b ≤ 0xBF) := by
  simp [second3, or_assoc]
theorem second4_iff (a b : Nat) : second4 a b = true ↔
    (a = 0xF0 ∧ 0x90 ≤ b ∧ b ≤ 0xBF) ∨ ((0xF1 ≤ a ∧ a ≤ 0xF3) ∧ 0x80 ≤ b ∧ b ≤ 0xBF) ∨
    (a = 0xF4 ∧ 0x80 ≤ b ∧ b ≤ 0x8F) := by
  simp [second4, or_assoc]

theorem enc2 (c : Nat) (h1 : 0x80 ≤ c) (h2 : c < 0x800) : encode c = [0xC0 + c / 64, 0x80 + c % 64] := by
  simp [encode, show ¬ c < 0x80 by omega, h2]
theorem enc3 (c : Nat) (h1 : 0x800 ≤ c) (h2 : c < 0x10000) :
    encode c = [0xE0 + c / 4096, 0x80 + c / 64 % 64, 0x80 + c % 64] := by
  simp [encode, show ¬ c < 0x80 by omega, show ¬ c < 0x800 by omega, h2]
theorem enc4 (c : Nat) (h1 : 0x10000 ≤ c) :
    encode c = [0xF0 + c / 262144, 0x80 + c / 4096 % 64, 0x80 + c / 64 % 64, 0x80 + c % 64] := by
  simp [encode, show ¬ c < 0x80 by omega, show ¬ c < 0x800 by omega, show ¬ c < 0x10000 by omega]

/-- a complete sequence is the encoding of a scalar, and `firstChar` decodes it -/
theorem full_encode {m : List Nat} (h : fullB m = true) :
    ∃ c, IsScalar c ∧ m = encode c ∧ firstChar m = some c := by
  unfold fullB at h
  split at h
  · rename_i a
    simp only [beq_iff_eq, cw1] at h
    exact ⟨a, by unfold IsScalar; omega, by simp [encode, h], by simp [firstChar, h]⟩
  · rename_i a b
    simp only [beq_iff_eq, Bool.and_eq_true, cw2, isCont_iff] at h
    refine ⟨(a - 0xC0) * 64 + (b - 0x80), by unfold IsScalar; omega, ?_, ?_⟩
    · rw [enc2 _ (by omega) (by omega)]
      simp only [List.cons.injEq, and_true]
      refine ⟨?_, ?_⟩ <;> omega
    · simp only [firstChar, safeGet, List.getD_cons_zero, if_neg (show ¬ a < 0x80 by omega), if_pos (show a < 0xE0 by omega)]
      exact congrArg some (by omega)
  · rename_i a b c
    simp only [beq_iff_eq, Bool.and_eq_true, cw3, isCont_iff, second3_iff] at h
    refine ⟨(a - 0xE0) * 4096 + (b - 0x80) * 64 + (c - 0x80), by unfold IsScalar; omega, ?_, ?_⟩
    · rw [enc3 _ (by omega) (by omega)]
      simp only [List.cons.injEq, and_true]
      refine ⟨?_, ?_, ?_⟩ <;> omega
    · simp only [firstChar, safeGet, List.getD_cons_zero, List.getD_cons_succ, if_neg (show ¬ a < 0x80 by omega),
        if_neg (show ¬ a < 0xE0 by omega), if_pos (show a < 0xF0 by omega)]
      exact congrArg some (by omega)
  · rename_i a b c d
    simp only [beq_iff_eq, Bool.and_eq_true, cw4, isCont_iff, second4_iff] at h
    refine ⟨(a - 0xF0) * 262144 + (b - 0x80) * 4096 + (c - 0x80) * 64 + (d - 0x80), by unfold IsScalar; omega, ?_, ?_⟩
    · rw [enc4 _ (by omega)]
      simp only [List.cons.injEq, and_true]
      refine ⟨?_, ?_, ?_, ?_⟩ <;> omega
    · simp only [firstChar, safeGet, List.getD_cons_zero, List.getD_cons_succ, if_neg (show ¬ a < 0x80 by omega),
        if_neg (show ¬ a < 0xE0 by omega), if_neg (show ¬ a < 0xF0 by omega)]
      exact congrArg some (by omega)
  · simp at h

theorem encode_full {c : Nat} (hc : IsScalar c) : fullB (encode c) = true := by
  obtain ⟨h1, h2⟩ := hc
  unfold encode
  split
  · simp only [fullB, beq_iff_eq, cw1]; assumption
  split
  · simp only [fullB, beq_iff_eq, Bool.and_eq_true, cw2, isCont_iff]; omega
  split
  · simp only [fullB, beq_iff_eq, Bool.and_eq_true, cw3, isCont_iff, second3_iff]; omega
  · simp only [fullB, beq_iff_eq, Bool.and_eq_true, cw4, isCont_iff, second4_iff]; omega

theorem full_prefix_partial {m t : List Nat} (hm : m ≠ []) (ht : t ≠ []) (h : fullB (m ++ t) = true) :
    partialB m = true := by
  rcases m with - | ⟨a, - | ⟨b, - | ⟨c, - | ⟨d, m⟩⟩⟩⟩
  · simp at hm
  · rcases t with - | ⟨x, - | ⟨y, - | ⟨z, - | ⟨w, t⟩⟩⟩⟩ <;> simp_all [fullB, partialB]
  · rcases t with - | ⟨x, - | ⟨y, - | ⟨z, t⟩⟩⟩ <;> simp_all [fullB, partialB]
  · rcases t with - | ⟨x, - | ⟨y, t⟩⟩ <;> simp_all [fullB, partialB]
  · rcases t with - | ⟨x, t⟩ <;> simp_all [fullB]

/-- a proper non-empty prefix can be completed -/
theorem partial_complete {m : List Nat} (h : partialB m = true) : ∃ t, t ≠ [] ∧ fullB (m ++ t) = true := by
  unfold partialB at h
  split at h
  · rename_i a
    simp only [beq_iff_eq, Bool.or_eq_true, cw2, cw3, cw4] at h
    rcases h with (h | h) | h
    · exact ⟨[0x80], by simp, by simp [fullB, cw2, isCont_iff]; omega⟩
    · by_cases ha : a = 0xE0
      · exact ⟨[0xA0, 0x80], by simp, by simp [fullB, cw3, isCont_iff, second3_iff]; omega⟩
      · exact ⟨[0x80, 0x80], by simp, by simp [fullB, cw3, isCont_iff, second3_iff]; omega⟩
    · by_cases ha : a = 0xF0
      · exact ⟨[0x90, 0x80, 0x80], by simp, by simp [fullB, cw4, isCont_iff, second4_iff]; omega⟩
      · exact ⟨[0x80, 0x80, 0x80], by simp, by simp [fullB, cw4, isCont_iff, second4_iff]; omega⟩
  · rename_i a b
    simp only [beq_iff_eq, Bool.or_eq_true, Bool.and_eq_true] at h
    rcases h with h | h
    · exact ⟨[0x80], by simp, by simp [fullB, h, isCont_iff]⟩
    · exact ⟨[0x80, 0x80], by simp, by simp [fullB, h, isCont_iff]⟩
  · rename_i a b c
    simp only [beq_iff_eq, Bool.and_eq_true] at h
    exact ⟨[0x80], by simp, by simp [fullB, h, isCont_iff]⟩
  · simp at h

theorem partial_iff (m : List Nat) : partialB m = true ↔ m ≠ [] ∧ ∃ c, IsScalar c ∧ m <+: encode c ∧ m ≠ encode c := by
  constructor
  · intro h
    refine ⟨by rintro rfl; simp [partialB] at h, ?_⟩
    obtain ⟨t, ht, hf⟩ := partial_complete h
    obtain ⟨c, hc, he, -⟩ := full_encode hf
    refine ⟨c, hc, he ▸ List.prefix_append _ _, ?_⟩
    rw [← he]; intro h'; simp at h'; exact ht h'
  · rintro ⟨hm, c, hc, ⟨t, ht⟩, hne⟩
    have := encode_full hc
    rw [← ht] at this
    refine full_prefix_partial hm ?_ this
    rintro rfl; simp at ht; exact hne ht

theorem full_iff (m : List Nat) : fullB m = true ↔ ∃ c, IsScalar c ∧ m = encode c := by
  constructor
  · intro h; obtain ⟨c, h1, h2, -⟩ := full_encode h; exact ⟨c, h1, h2⟩
  · rintro ⟨c, h, rfl⟩; exact encode_full h

theorem isPartial_iff {m : List Nat} (hm : m ≠ []) : IsPartial m ↔ partialB m = true ∨ fullB m = true := by
  rw [partial_iff, full_iff]
  constructor
  · rintro ⟨c, hc, hp⟩
    by_cases h : m = encode c
    · exact .inr ⟨c, hc, h⟩
    · exact .inl ⟨hm, c, hc, hp, h⟩
  · rintro (⟨_, c, hc, hp, _⟩ | ⟨c, hc, rfl⟩)
    · exact ⟨c, hc, hp⟩
    · exact ⟨c, hc, List.prefix_refl _⟩

theorem partial_length {m : List Nat} (h : partialB m = true) : 1 ≤ m.length ∧ m.length ≤ 3 := by
  unfold partialB at h; split at h <;> simp_all

theorem partial_not_full {m : List Nat} (h : partialB m = true) : fullB m = false := by
  unfold partialB at h
  split at h
  · simp [fullB] at h ⊢; omega
  · simp [fullB] at h ⊢; omega
  · simp [fullB] at h ⊢; omega
  · simp at h

/-! ### The scanner in terms of the tables -/

theorem scan1_full {m : List Nat} (r : List Nat) (h : fullB m = true) : scan1 (m ++ r) = (m.length, true) := by
  unfold fullB at h
  split at h <;> simp at h <;> simp [scan1, safeGet, h]

theorem scan1_stuck {m : List Nat} (r : List Nat) (h : partialB m = true)
    (hr : ∀ d r', r = d :: r' → partialB (m ++ [d]) = false ∧ fullB (m ++ [d]) = false) :
    scan1 (m ++ r) = (m.length, false) := by
  unfold partialB at h
  split at h
  · rename_i a
    rcases r with - | ⟨d, r⟩
    · simp at h
      rcases h with (h | h) | h <;> simp [scan1, safeGet, h, isCont, second3, second4]
    · have := hr d r rfl
      simp at h
      rcases h with (h | h) | h <;> simp [fullB, partialB, h] at this <;> simp [scan1, safeGet, h, this]
  · rename_i a b
    rcases r with - | ⟨d, r⟩
    · simp at h
      rcases h with h | h <;> simp [scan1, safeGet, h, isCont]
    · have := hr d r rfl
      simp at h
      rcases h with h | h <;> simp [fullB, partialB, h] at this <;> simp [scan1, safeGet, h, this]
  · rename_i a b c
    rcases r with - | ⟨d, r⟩
    · simp at h
      simp [scan1, safeGet, h]; simp [isCont]
    · have := hr d r rfl
      simp at h
      simp [fullB, h] at this
      simp [scan1, safeGet, h, this]
  · simp at h

theorem single_cases (d : Nat) : fullB [d] = true ∨ partialB [d] = true ∨ charWidth d = 0 := by
  rcases cw_cases d with h | h | h | h | h <;> simp [fullB, partialB, h]

theorem bad_not {d : Nat} (h : charWidth d = 0) (t : List Nat) : partialB (d :: t) = false ∧ fullB (d :: t) = false := by
  rcases t with - | ⟨x, - | ⟨y, - | ⟨z, - | ⟨w, t⟩⟩⟩⟩ <;> simp [partialB, fullB, h]

theorem scan1_bad {d : Nat} (r : List Nat) (h : charWidth d = 0) : scan1 (d :: r) = (1, false) := by
  simp [scan1, safeGet, h]

/-- What the scanner can find at the head of a non-empty source. -/
inductive Head : List Nat → Nat → Bool → Prop
  | full {m r} : fullB m = true → Head (m ++ r) m.length true
  | stuck {m r} : partialB m = true →
      (∀ d r', r = d :: r' → partialB (m ++ [d]) = false ∧ fullB (m ++ [d]) = false) → Head (m ++ r) m.length false
  | bad {d r} : charWidth d = 0 → Head (d :: r) 1 false

/-- longest partial prefix extension -/
theorem head_of_partial (r : List Nat) : ∀ {m : List Nat}, partialB m = true → ∃ n ok, Head (m ++ r) n ok := by
  induction r with
  | nil => intro m h; exact ⟨_, _, .stuck h (by simp)⟩
  | cons d r ih =>
    intro m h
    by_cases hp : partialB (m ++ [d]) = true
    · have := ih hp; simpa using this
    · by_cases hf : fullB (m ++ [d]) = true
      · have := Head.full (r := r) hf
        exact ⟨_, _, by simpa using this⟩
      · exact ⟨_, _, .stuck h (by intro d' r' he; simp at he; obtain ⟨rfl, rfl⟩ := he; simp_all)⟩

theorem head_exists (src : List Nat) (h : src ≠ []) : ∃ n ok, Head src n ok := by
  rcases src with - | ⟨d, r⟩
  · simp at h
  · rcases single_cases d with h | h | h
    · exact ⟨_, _, by simpa using Head.full (r := r) h⟩
    · simpa using head_of_partial r h
    · exact ⟨_, _, .bad h⟩

theorem Head.scan {src n ok} (h : Head src n ok) : scan1 src = (n, ok) := by
  cases h with
  | full h => exact scan1_full _ h
  | stuck h hr => exact scan1_stuck _ h hr
  | bad h => exact scan1_bad _ h

theorem validate1_full {m : List Nat} (r : List Nat) (h : fullB m = true) : validate1 (m ++ r) = .ok m.length := by
  unfold fullB at h
  split at h <;> simp at h <;> simp [validate1, safeGet, h]

theorem validate1_partial {m : List Nat} (h : partialB m = true) : validate1 m = .err none := by
  unfold partialB at h
  split at h
  · simp at h; rcases h with (h | h) | h <;> simp [validate1, safeGet, h]
  · simp at h; rcases h with h | h <;> simp [validate1, safeGet, h]
  · simp at h; simp [validate1, safeGet, h]
  · simp at h

theorem fromUtf8_partial {m : List Nat} (h : partialB m = true) : fromUtf8 m = some none := by
  rw [fromUtf8]
  have : m ≠ [] := by rintro rfl; simp [partialB] at h
  have hv := validate1_partial h
  simp only [*, dite_false]
  split
  · rename_i h2; rw [hv] at h2; simp at h2
  · rename_i h2; rw [hv] at h2; simp at h2; simp [h2]

theorem fromUtf8_bad {d : Nat} (h : charWidth d = 0) : fromUtf8 [d] = some (some 1) := by
  rw [fromUtf8]
  have : validate1 [d] = .err (some 1) := by simp [validate1, safeGet, h]
  simp only [List.cons_ne_nil, dite_false]
  split
  · rename_i h2; rw [this] at h2; simp at h2
  · rename_i h2; rw [this] at h2; simp at h2; simp [h2]

theorem fromUtf8_nil : fromUtf8 [] = none := by rw [fromUtf8]; simp

/-! ### Chunks -/

theorem nextChunk_nil : nextChunk [] = (⟨[], []⟩, []) := by rw [nextChunk]; simp

theorem nextChunk_full {m r : List Nat} (h : fullB m = true) :
    nextChunk (m ++ r) = (⟨m ++ (nextChunk r).1.valid, (nextChunk r).1.invalid⟩, (nextChunk r).2) := by
  have hm : m ++ r ≠ [] := by rintro he; simp at he; simp [he.1, fullB] at h
  rw [nextChunk]
  simp [hm, scan1_full r h]

theorem nextChunk_stuck {m r : List Nat} (h : partialB m = true)
    (hr : ∀ d r', r = d :: r' → partialB (m ++ [d]) = false ∧ fullB (m ++ [d]) = false) :
    nextChunk (m ++ r) = (⟨[], m⟩, r) := by
  have hm : m ++ r ≠ [] := by rintro he; simp at he; simp [he.1, partialB] at h
  rw [nextChunk]
  simp [hm, scan1_stuck r h hr]

theorem nextChunk_bad {d : Nat} {r : List Nat} (h : charWidth d = 0) : nextChunk (d :: r) = (⟨[], [d]⟩, r) := by
  rw [nextChunk]
  simp [scan1_bad r h]

theorem utf8Chunks_nil : utf8Chunks [] = [] := by rw [utf8Chunks]; simp
theorem utf8Chunks_cons {src : List Nat} (h : src ≠ []) :
    utf8Chunks src = (nextChunk src).1 :: utf8Chunks (nextChunk src).2 := by rw [utf8Chunks]; simp [h]
theorem utf8Chunks_eq_nil (src : List Nat) : utf8Chunks src = [] ↔ src = [] := by
  by_cases h : src = []
  · simp [h, utf8Chunks_nil]
  · simp [utf8Chunks_cons h, h]

/-- State invariant of the pending buffer. -/
def PendOk (p : List Nat) : Prop := p = [] ∨ partialB p = true

/-- The table of `push`: never a panic. -/
inductive PushSpec : List Nat → Nat → PushState → List Nat → Prop
  | full {p d c} : IsScalar c → p ++ [d] = encode c → PushSpec p d (.valid c) []
  | more {p d} : partialB (p ++ [d]) = true → PushSpec p d .incomplete (p ++ [d])
  | bad {d} : charWidth d = 0 → PushSpec [] d .invalid []
  | stuckValid {p d c} : partialB p = true → partialB (p ++ [d]) = false → fullB (p ++ [d]) = false →
      IsScalar c → [d] = encode c → PushSpec p d (.invalidThenValid c) []
  | stuckMore {p d} : partialB p = true → partialB (p ++ [d]) = false → fullB (p ++ [d]) = false →
      partialB [d] = true → PushSpec p d .invalid [d]
  | stuckBad {p d} : partialB p = true → partialB (p ++ [d]) = false → fullB (p ++ [d]) = false →
      charWidth d = 0 → PushSpec p d .invalidThenInvalid []

theorem chunks_full {m : List Nat} (h : fullB m = true) : utf8Chunks m = [⟨m, []⟩] := by
  have hm : m ≠ [] := by rintro rfl; simp [fullB] at h
  have := nextChunk_full (r := []) h
  rw [utf8Chunks_cons hm]
  simp only [List.append_nil, nextChunk_nil] at this
  rw [this]; simp [utf8Chunks_nil]

theorem chunks_partial {m : List Nat} (h : partialB m = true) : utf8Chunks m = [⟨[], m⟩] := by
  have hm : m ≠ [] := by rintro rfl; simp [partialB] at h
  have := nextChunk_stuck (r := []) h (by simp)
  rw [utf8Chunks_cons hm]
  simp only [List.append_nil] at this
  rw [this]; simp [utf8Chunks_nil]

theorem chunks_bad {d : Nat} (h : charWidth d = 0) : utf8Chunks [d] = [⟨[], [d]⟩] := by
  rw [utf8Chunks_cons (by simp), nextChunk_bad h]; simp [utf8Chunks_nil]

theorem push_spec (p : List Nat) (d : Nat) (hp : PendOk p) : ∃ st p', push p d = some (st, p') ∧ PushSpec p d st p' := by
  by_cases hf : fullB (p ++ [d]) = true
  · obtain ⟨c, hc, he, hfc⟩ := full_encode hf
    exact ⟨.valid c, [], by simp [push, chunks_full hf, fromUtf8_nil, hfc], .full hc he⟩
  by_cases hq : partialB (p ++ [d]) = true
  · refine ⟨.incomplete, _, ?_, .more hq⟩
    have := (partial_length hq).2
    simp only [push, chunks_partial hq, fromUtf8_partial hq, copyFromSlice, this]; simp
  simp only [Bool.not_eq_true] at hf hq
  rcases hp with rfl | hp
  · have hb : charWidth d = 0 := by
      rcases single_cases d with h | h | h
      · simp at hf; simp [hf] at h
      · simp at hq; simp [hq] at h
      · exact h
    refine ⟨.invalid, [], ?_, .bad hb⟩
    simp only [push, List.nil_append, chunks_bad hb, fromUtf8_bad hb]; simp
  · have hc : utf8Chunks (p ++ [d]) = ⟨[], p⟩ :: utf8Chunks [d] := by
      rw [utf8Chunks_cons (by simp), nextChunk_stuck hp]
      rintro d' r' he; simp at he; obtain ⟨rfl, rfl⟩ := he; exact ⟨hq, hf⟩
    rcases single_cases d with h | h | h
    · obtain ⟨c, hs, he, hfc⟩ := full_encode h
      refine ⟨.invalidThenValid c, [], ?_, .stuckValid hp hq hf hs he⟩
      simp only [push, hc, chunks_full h, fromUtf8_partial hp, fromUtf8_nil, hfc]; simp
    · refine ⟨.invalid, [d], ?_, .stuckMore hp hq hf h⟩
      simp only [push, hc, chunks_partial h, fromUtf8_partial hp, fromUtf8_partial h, copyFromSlice]; simp
    · refine ⟨.invalidThenInvalid, [], ?_, .stuckBad hp hq hf h⟩
      simp only [push, hc, chunks_bad h, fromUtf8_partial hp, fromUtf8_bad h]; simp

theorem PushSpec.pendOk {p d st p'} (h : PushSpec p d st p') : PendOk p' := by
  cases h <;> first | exact .inl rfl | (right; assumption)

/-! ### `Decodes` in terms of the tables -/

theorem Decodes.full {m r t : List Nat} {c : Nat} (hc : IsScalar c) (he : m = encode c) (h : Decodes r t) :
    Decodes (m ++ r) (c :: t) := he ▸ Decodes.char hc h

theorem Decodes.stuck {m r t : List Nat} (hm : partialB m = true)
    (hr : ∀ d r', r = d :: r' → partialB (m ++ [d]) = false ∧ fullB (m ++ [d]) = false) (h : Decodes r t) :
    Decodes (m ++ r) (0xFFFD :: t) := by
  have hne : m ≠ [] := by rintro rfl; simp [partialB] at hm
  have key : ∀ q, q <+: m ++ r → (partialB q = true ∨ fullB q = true) → q.length ≤ m.length := by
    intro q hq hpf
    refine Decidable.byContradiction fun hlt => ?_
    obtain ⟨s, hs⟩ := hq
    have hmq : m <+: q := by
      apply List.prefix_of_prefix_length_le (l₃ := m ++ r) (List.prefix_append _ _) ⟨s, hs⟩; omega
    obtain ⟨u, rfl⟩ := hmq
    rcases u with - | ⟨d, u⟩
    · simp at hlt
    · simp at hs
      have := hr d (u ++ s) hs.symm
      rcases u with - | ⟨x, u⟩
      · simp_all
      · have hfull : ∃ w, fullB ((m ++ [d]) ++ (x :: u ++ w)) = true := by
          rcases hpf with hpf | hpf
          · obtain ⟨w, -, hw⟩ := partial_complete hpf
            exact ⟨w, by simpa using hw⟩
          · exact ⟨[], by simpa using hpf⟩
        obtain ⟨w, hw⟩ := hfull
        have := full_prefix_partial (m := m ++ [d]) (by simp) (by simp) hw
        simp_all
  refine Decodes.bad ?_ ⟨List.prefix_append _ _, .inl ⟨hne, (isPartial_iff hne).mpr (.inl hm)⟩, ?_⟩ h
  · intro c hc hpre
    have hl := key _ hpre (.inr (encode_full hc))
    have hp : encode c <+: m := List.prefix_of_prefix_length_le hpre (List.prefix_append _ _) hl
    obtain ⟨-, c', hc', hm', hne'⟩ := (partial_iff m).mp hm
    have := encode_prefix_free hc hc' (hp.trans hm')
    subst this
    exact hne' (hm'.eq_of_length (Nat.le_antisymm hm'.length_le hp.length_le))
  · intro m' hm' hp
    by_cases he : m' = []
    · subst he; simp
    · exact key m' hm' ((isPartial_iff he).mp hp)

theorem Decodes.badByte {d : Nat} {r t : List Nat} (hd : charWidth d = 0) (h : Decodes r t) :
    Decodes (d :: r) (0xFFFD :: t) := by
  have key : ∀ q, q ≠ [] → q <+: d :: r → ¬ (partialB q = true ∨ fullB q = true) := by
    intro q hq ⟨s, hs⟩
    rcases q with - | ⟨x, q⟩
    · simp at hq
    · simp at hs; obtain ⟨rfl, -⟩ := hs
      simp [bad_not hd q]
  refine Decodes.bad (m := [d]) ?_ ⟨⟨r, rfl⟩, .inr rfl, ?_⟩ h
  · intro c hc hpre
    exact key _ (encode_ne_nil c) hpre (.inr (encode_full hc))
  · intro m' hm' hp
    by_cases he : m' = []
    · subst he; simp
    · exact absurd ((isPartial_iff he).mp hp) (key m' he hm')

/-- The lossy decoding exists. -/
theorem decodes_exists (src : List Nat) : ∃ t, Decodes src t := by
  induction hn : src.length using Nat.strongRecOn generalizing src with
  | ind n ih =>
    by_cases h : src = []
    · exact ⟨[], h ▸ .nil⟩
    · obtain ⟨n', ok, hh⟩ := head_exists src h
      cases hh with
      | @full m r hf =>
        obtain ⟨c, hc, he, -⟩ := full_encode hf
        have : 1 ≤ m.length := by rw [he]; exact (encode_length c).1
        obtain ⟨t, ht⟩ := ih r.length (by simp at hn; omega) r rfl
        exact ⟨_, .full hc he ht⟩
      | @stuck m r hp hr =>
        have := (partial_length hp).1
        obtain ⟨t, ht⟩ := ih r.length (by simp at hn; omega) r rfl
        exact ⟨_, .stuck hp hr ht⟩
      | @bad d r hb =>
        obtain ⟨t, ht⟩ := ih r.length (by simp at hn; omega) r rfl
        exact ⟨_, .badByte hb ht⟩

/-- The lossy decoding is unique. -/
theorem decodes_unique {src t u : List Nat} (h : Decodes src t) (h' : Decodes src u) : t = u := by
  induction h generalizing u with
  | nil =>
    generalize hs : ([] : List Nat) = s at h'
    cases h' with
    | nil => rfl
    | char hc _ => exact absurd (List.append_eq_nil_iff.mp hs.symm).1 (encode_ne_nil _)
    | bad _ hm _ =>
      have := (List.append_eq_nil_iff.mp hs.symm).1
      obtain ⟨-, h1, -⟩ := hm
      subst this
      rcases h1 with h1 | h1 <;> simp at h1
  | @char c rest text hc _ ih =>
    generalize hs : encode c ++ rest = s at h'
    cases h' with
    | nil => exact absurd (List.append_eq_nil_iff.mp hs).1 (encode_ne_nil _)
    | char hc' h'' =>
      obtain ⟨rfl, rfl⟩ := encode_append_inj hc hc' hs
      rw [ih h'']
    | bad hn _ _ => exact absurd (hs ▸ List.prefix_append _ _) (hn c hc)
  | @bad m rest text hn hm _ ih =>
    generalize hs : m ++ rest = s at h'
    cases h' with
    | nil =>
      have := (List.append_eq_nil_iff.mp hs).1
      obtain ⟨-, h1, -⟩ := hm
      subst this
      rcases h1 with h1 | h1 <;> simp at h1
    | @char c _ _ hc' _ => exact absurd (hs ▸ List.prefix_append _ _) (hn c hc')
    | @bad m' rest' _ hn' hm' h'' =>
      have hlen : m.length = m'.length := by
        obtain ⟨p1, q1, r1⟩ := hm
        obtain ⟨p2, q2, r2⟩ := hm'
        rw [hs] at p1 r1
        have a1 : 1 ≤ m.length := by
          rcases q1 with ⟨h, -⟩ | h
          · have : m.length ≠ 0 := by simpa using h
            omega
          · omega
        have a2 : 1 ≤ m'.length := by
          rcases q2 with ⟨h, -⟩ | h
          · have : m'.length ≠ 0 := by simpa using h
            omega
          · omega
        have b1 : m.length ≤ m'.length := by
          rcases q1 with ⟨-, h⟩ | h
          · exact r2 m p1 h
          · omega
        have b2 : m'.length ≤ m.length := by
          rcases q2 with ⟨-, h⟩ | h
          · exact r1 m' p2 h
          · omega
        omega
      obtain ⟨rfl, rfl⟩ := List.append_inj hs hlen
      rw [ih h'']

theorem decodes_wellFormed {cs : List Nat} (h : ∀ c ∈ cs, IsScalar c) : Decodes (encodeAll cs) cs := by
  induction cs with
  | nil => exact .nil
  | cons c cs ih =>
    simp only [encodeAll, List.flatMap_cons]
    exact .char (h c (by simp)) (ih fun c hc => h c (by simp [hc]))

end Verif.Lossy

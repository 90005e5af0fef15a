import Verif.Report.Model

/-
What is hidden in messages (C178).
-/

namespace Verif.Report

/-- Matches do not care about what comes before, and consume something. -/
theorem replaceAll_skip (m : Str → Option Str) (r : Str) : ∀ (w s : Str),
    replaceAll m r w.length (w ++ s) = replaceAll m r 0 s
  | [], s => by cases s <;> rfl
  | _ :: w, s => replaceAll_skip m r w s

/-- A match at the beginning -/
theorem replaceAll_match {m : Str → Option Str} {r w s : Str} (hw : w ≠ []) (h : m (w ++ s) = some s) :
    replaceAll m r 0 (w ++ s) = r ++ replaceAll m r 0 s := by
  cases w with
  | nil => exact absurd rfl hw
  | cons c w =>
    have e : (w ++ s).length - s.length = w.length := by simp
    rw [List.cons_append] at h ⊢
    rw [replaceAll, h]
    show r ++ replaceAll m r ((w ++ s).length - s.length) (w ++ s) = _
    rw [e, replaceAll_skip]

/-- If no match goes over a border, both sides are replaced on their own. -/
theorem replaceAll_append {m : Str → Option Str} {r : Str} (b : Str) :
    ∀ (k : Nat) (a : Str),
      (∀ u v, a = u ++ v → v ≠ [] → (m v = none ∧ m (v ++ b) = none) ∨ ∃ t, m v = some t ∧ t.length < v.length ∧ m (v ++ b) = some (t ++ b)) →
      k ≤ a.length → replaceAll m r k (a ++ b) = replaceAll m r k a ++ replaceAll m r 0 b := by
  intro k a
  induction a generalizing k with
  | nil =>
    intro _ hk
    obtain rfl : k = 0 := Nat.le_zero.mp hk
    rfl
  | cons c a ih =>
    intro h hk
    have h' : ∀ u v, a = u ++ v → v ≠ [] →
        (m v = none ∧ m (v ++ b) = none) ∨ ∃ t, m v = some t ∧ t.length < v.length ∧ m (v ++ b) = some (t ++ b) :=
      fun u v e => h (c :: u) v (by rw [e]; rfl)
    cases k with
    | succ k => exact ih k h' (Nat.le_of_succ_le_succ hk)
    | zero =>
      rcases h [] (c :: a) rfl (by simp) with ⟨h1, h2⟩ | ⟨t, h1, hl, h2⟩
      · rw [List.cons_append] at h2
        rw [List.cons_append, replaceAll, h2, replaceAll, h1]
        show c :: replaceAll m r 0 (a ++ b) = (c :: replaceAll m r 0 a) ++ _
        rw [ih 0 h' (Nat.zero_le _), List.cons_append]
      · rw [List.cons_append] at h2
        rw [List.cons_append, replaceAll, h2, replaceAll, h1]
        show r ++ replaceAll m r ((a ++ b).length - (t ++ b).length) (a ++ b) =
          (r ++ replaceAll m r (a.length - t.length) a) ++ _
        rw [List.length_append, List.length_append, Nat.add_sub_add_right, ih _ h' (Nat.sub_le _ _), List.append_assoc]

theorem literal_iff {l s t : Str} : literal l s = some t ↔ s = l ++ t := by
  induction l generalizing s with
  | nil => simp [literal]
  | cons a l ih =>
    cases s with
    | nil => simp [literal]
    | cons c s =>
      rw [literal]
      split
      · rename_i e; subst e; rw [ih]; simp
      · rename_i e
        constructor
        · nofun
        · intro h; simp at h; exact absurd h.1.symm e

/-- `defId` matches exactly what it should. -/
theorem digits_iff {digit : Char → Bool} {s t : Str} :
    digits digit s = some t ↔ ∃ d, d ≠ [] ∧ (∀ c ∈ d, digit c = true) ∧ s = d ++ t ∧ ∀ c, t.head? = some c → digit c = false := by
  cases s with
  | nil =>
    constructor
    · nofun
    · rintro ⟨d, hd, _, h, _⟩
      cases d with
      | nil => exact absurd rfl hd
      | cons => cases h
  | cons c s =>
    rw [digits]
    constructor
    · intro h
      split at h
      · rename_i hc
        cases h
        refine ⟨c :: s.takeWhile digit, by simp, ?_, by simp, ?_⟩
        · intro x hx
          rcases List.mem_cons.mp hx with rfl | hx
          · exact hc
          · have := List.all_takeWhile (p := digit) (l := s)
            rw [List.all_eq_true] at this
            exact this x hx
        · intro x hx
          have := List.head?_dropWhile_not digit s
          rw [hx] at this
          simpa using this
      · cases h
    · rintro ⟨d, hd, hall, h, ht⟩
      cases d with
      | nil => exact absurd rfl hd
      | cons x d =>
        rw [List.cons_append] at h
        cases h
        rw [if_pos (hall _ (List.mem_cons_self ..)), List.dropWhile_append_of_pos fun x hx => hall x (List.mem_cons_of_mem _ hx)]
        cases t with
        | nil => rfl
        | cons y t => rw [List.dropWhile_cons_of_neg]; rw [ht y rfl]; simp

/-- Digits are no punctuation. -/
structure Digits (digit : Char → Bool) : Prop where
  colon : digit ':' = false
  space : digit ' ' = false
  d : digit 'D' = false
  bracket : digit '[' = false

/-- An identifier of a definition as rustc prints it -/
def defIdText (d e : Str) : Str := ['D', 'e', 'f', 'I', 'd', '('] ++ d ++ ':' :: e ++ [' ', '~', ' ']

theorem defId_iff {digit : Char → Bool} (hd : Digits digit) {s t : Str} :
    defId digit s = some t ↔ ∃ d e, d ≠ [] ∧ e ≠ [] ∧ (∀ c ∈ d, digit c = true) ∧ (∀ c ∈ e, digit c = true) ∧
      s = defIdText d e ++ t := by
  unfold defId defIdText
  simp only [Option.bind_eq_bind, Option.bind_eq_some_iff, literal_iff, digits_iff]
  constructor
  · rintro ⟨s1, rfl, s2, ⟨d, hd0, hda, rfl, -⟩, s3, rfl, s4, ⟨e, he0, hea, rfl, -⟩, rfl⟩
    exact ⟨d, e, hd0, he0, hda, hea, by simp⟩
  · rintro ⟨d, e, hd0, he0, hda, hea, rfl⟩
    refine ⟨d ++ (':' :: (e ++ ([' ', '~', ' '] ++ t))), by simp, ':' :: (e ++ ([' ', '~', ' '] ++ t)), ⟨d, hd0, hda, rfl, ?_⟩,
      e ++ ([' ', '~', ' '] ++ t), by simp, [' ', '~', ' '] ++ t, ⟨e, he0, hea, rfl, ?_⟩, rfl⟩
    · intro c hc
      rw [List.head?_cons] at hc
      cases hc; exact hd.colon
    · intro c hc
      simp at hc
      subst hc; exact hd.space

theorem defId_mono {digit : Char → Bool} (hd : Digits digit) {s t : Str} (b : Str) (h : defId digit s = some t) :
    defId digit (s ++ b) = some (t ++ b) := by
  rw [defId_iff hd] at h ⊢
  obtain ⟨d, e, h1, h2, h3, h4, rfl⟩ := h
  exact ⟨d, e, h1, h2, h3, h4, by rw [List.append_assoc]⟩

theorem border {m : Str → Option Str} {b v : Str} {x : Char} (hx : b.head? = some x) (hv : v ≠ [])
    (mono : ∀ t, m v = some t → m (v ++ b) = some (t ++ b))
    (shape : ∀ s t, m s = some t → ∃ w, w ≠ [] ∧ x ∉ w.tail ∧ s = w ++ t ∧ ∀ t', m (w ++ t') = some t') :
    (m v = none ∧ m (v ++ b) = none) ∨ ∃ t, m v = some t ∧ t.length < v.length ∧ m (v ++ b) = some (t ++ b) := by
  cases h : m v with
  | some t =>
    obtain ⟨w, hw, -, e, -⟩ := shape v t h
    refine .inr ⟨t, rfl, ?_, mono t h⟩
    have : 0 < w.length := List.length_pos_iff.mpr hw
    rw [e, List.length_append]; omega
  | none =>
    refine .inl ⟨rfl, ?_⟩
    cases h' : m (v ++ b) with
    | none => rfl
    | some t =>
      obtain ⟨w, hw, hxw, e, hall⟩ := shape _ t h'
      rcases List.append_eq_append_iff.mp e with ⟨z, hz, hz'⟩ | ⟨z, hz, hz'⟩
      · -- `w = v ++ z`
        cases z with
        | nil =>
          rw [List.append_nil] at hz
          have := hall []
          rw [List.append_nil, hz, h] at this
          cases this
        | cons y z =>
          rw [hz'] at hx
          obtain rfl : y = x := by simpa using hx
          cases v with
          | nil => exact absurd rfl hv
          | cons c v => rw [hz] at hxw; simp at hxw
      · have := hall z
        rw [← hz, h] at this
        cases this

theorem mem_defIdText_tail {digit : Char → Bool} (hd : Digits digit) {d e : Str} (h3 : ∀ c ∈ d, digit c = true)
    (h4 : ∀ c ∈ e, digit c = true) {x : Char} (hx : x = 'D' ∨ x = '[') : x ∉ (defIdText d e).tail := by
  have hdig : digit x = false := by rcases hx with rfl | rfl; exact hd.d; exact hd.bracket
  have hxd : x ∉ d := fun h => by rw [h3 x h] at hdig; cases hdig
  have hxe : x ∉ e := fun h => by rw [h4 x h] at hdig; cases hdig
  have e' : (defIdText d e).tail = ['e', 'f', 'I', 'd', '('] ++ d ++ ':' :: e ++ [' ', '~', ' '] := by simp [defIdText]
  rw [e']
  rcases hx with rfl | rfl <;> simp [hxd, hxe]

theorem border_defId {digit : Char → Bool} (hd : Digits digit) {b : Str} {x : Char} (hx : b.head? = some x)
    (hc : x = 'D' ∨ x = '[') (a : Str) :
    replaceAll (defId digit) ['D', 'e', 'f', 'I', 'd', '('] 0 (a ++ b) =
      replaceAll (defId digit) ['D', 'e', 'f', 'I', 'd', '('] 0 a ++ replaceAll (defId digit) ['D', 'e', 'f', 'I', 'd', '('] 0 b := by
  apply replaceAll_append b 0 a _ (Nat.zero_le _)
  intro u v _ hv
  refine border hx hv (fun t => defId_mono hd b) ?_
  intro s t h
  obtain ⟨d, e, h1, h2, h3, h4, rfl⟩ := (defId_iff hd).mp h
  refine ⟨defIdText d e, by simp [defIdText], mem_defIdText_tail hd h3 h4 hc, rfl, fun t' => ?_⟩
  exact (defId_iff hd).mpr ⟨d, e, h1, h2, h3, h4, rfl⟩

/-- A hash as rustc prints it -/
def hashText (w : Str) : Str := '[' :: w ++ [']']

theorem hash_iff {s t : Str} : hash s = some t ↔ ∃ w, w.length = 4 ∧ (∀ c ∈ w, isHex c = true) ∧ s = hashText w ++ t := by
  constructor
  · intro h
    unfold hash at h
    split at h
    · split at h
      · rename_i a b c d s hh
        cases h
        simp only [Bool.and_eq_true] at hh
        refine ⟨[a, b, c, d], rfl, ?_, rfl⟩
        intro x hx
        simp at hx
        rcases hx with rfl | rfl | rfl | rfl <;> simp [hh]
      · cases h
    · cases h
  · rintro ⟨w, hw, hall, rfl⟩
    match w, hw with
    | [a, b, c, d], _ => simp at hall; simp [hashText, hash, hall]

theorem border_hash {b : Str} (hx : b.head? = some '[') (a : Str) :
    replaceAll hash [] 0 (a ++ b) = replaceAll hash [] 0 a ++ replaceAll hash [] 0 b := by
  apply replaceAll_append b 0 a _ (Nat.zero_le _)
  intro u v _ hv
  refine border hx hv (fun t h => ?_) ?_
  · rw [hash_iff] at h ⊢
    obtain ⟨w, h1, h2, rfl⟩ := h
    exact ⟨w, h1, h2, by rw [List.append_assoc]⟩
  · intro s t h
    obtain ⟨w, h1, h2, rfl⟩ := hash_iff.mp h
    refine ⟨hashText w, by simp [hashText], ?_, rfl, fun t' => hash_iff.mpr ⟨w, h1, h2, rfl⟩⟩
    intro hm
    have e : (hashText w).tail = w ++ [']'] := rfl
    rw [e] at hm
    simp at hm
    have := h2 _ hm
    revert this; decide

/-- C178: Messages in reports do not depend on line and column in identifiers of definitions. -/
theorem hide_def_id {digit : Char → Bool} (hd : Digits digit) {d e d' e' : Str} (h1 : d ≠ [] ∧ ∀ c ∈ d, digit c = true)
    (h2 : e ≠ [] ∧ ∀ c ∈ e, digit c = true) (h3 : d' ≠ [] ∧ ∀ c ∈ d', digit c = true)
    (h4 : e' ≠ [] ∧ ∀ c ∈ e', digit c = true) (a b : Str) :
    hide digit (a ++ defIdText d e ++ b) = hide digit (a ++ defIdText d' e' ++ b) := by
  have key : ∀ {d e : Str}, (d ≠ [] ∧ ∀ c ∈ d, digit c = true) → (e ≠ [] ∧ ∀ c ∈ e, digit c = true) →
      replaceAll (defId digit) ['D', 'e', 'f', 'I', 'd', '('] 0 (a ++ defIdText d e ++ b) =
        replaceAll (defId digit) ['D', 'e', 'f', 'I', 'd', '('] 0 a ++ (['D', 'e', 'f', 'I', 'd', '('] ++ replaceAll (defId digit) ['D', 'e', 'f', 'I', 'd', '('] 0 b) := by
    intro d e h1 h2
    rw [List.append_assoc, border_defId hd (b := defIdText d e ++ b) (x := 'D') (by simp [defIdText]) (.inl rfl), replaceAll_match (by simp [defIdText])]
    exact (defId_iff hd).mpr ⟨d, e, h1.1, h2.1, h1.2, h2.2, rfl⟩
  unfold hide
  rw [key h1 h2, key h3 h4]

theorem defId_none_hash {digit : Char → Bool} {w : Str} (hw : w.length = 4) (b : Str) :
    replaceAll (defId digit) ['D', 'e', 'f', 'I', 'd', '('] 0 (hashText w ++ b) =
      hashText w ++ replaceAll (defId digit) ['D', 'e', 'f', 'I', 'd', '('] 0 b := by
  match w, hw with
  | [a, b', c, d], _ => simp [hashText, replaceAll, defId, literal]

theorem isHex_iff {c : Char} : isHex c = true ↔ Hex c := by
  have range : ∀ l u : Char, (l ≤ c && c ≤ u : Bool) = true ↔ l.toNat ≤ c.toNat ∧ c.toNat ≤ u.toNat := by
    intro l u
    rw [Bool.and_eq_true, decide_eq_true_eq, decide_eq_true_eq]
    exact Iff.rfl
  have eq : ∀ d : Char, c = d ↔ c.toNat = d.toNat := fun d =>
    ⟨congrArg _, fun e => Char.ext (UInt32.toNat_inj.mp e)⟩
  have hx : Hex c ↔ c ∈ ['0', '1', '2', '3', '4', '5', '6', '7', '8', '9', 'a', 'b', 'c', 'd', 'e', 'f', 'A', 'B', 'C', 'D',
      'E', 'F'] := by
    unfold Hex
    have e : "0123456789abcdefABCDEF".toList = ['0', '1', '2', '3', '4', '5', '6', '7', '8', '9', 'a', 'b', 'c', 'd', 'e', 'f',
        'A', 'B', 'C', 'D', 'E', 'F'] := by decide +kernel
    rw [e]
  rw [hx]
  unfold isHex
  rw [Bool.or_eq_true, Bool.or_eq_true, range, range, range]
  simp only [List.mem_cons, List.not_mem_nil, or_false, eq]
  simp only [Char.reduceToNat]
  omega

/-- C178: nor on hashes, which are left out. -/
theorem hide_hash {digit : Char → Bool} (hd : Digits digit) {w : Str} (hw : w.length = 4) (hh : ∀ c ∈ w, Hex c)
    (a b : Str) : hide digit (a ++ hashText w ++ b) = hide digit a ++ hide digit b := by
  replace hh : ∀ c ∈ w, isHex c = true := fun c hc => isHex_iff.mpr (hh c hc)
  unfold hide
  rw [List.append_assoc, border_defId hd (b := hashText w ++ b) (x := '[') (by simp [hashText]) (.inr rfl), defId_none_hash hw, border_hash (b := hashText w ++ _) (by simp [hashText]),
    replaceAll_match (by simp [hashText]), List.nil_append]
  exact hash_iff.mpr ⟨w, hw, hh, rfl⟩

theorem replaceAll_none {m : Str → Option Str} {r : Str} : ∀ {s : Str}, (∀ u v, s = u ++ v → m v = none) →
    replaceAll m r 0 s = s
  | [], _ => rfl
  | c :: s, h => by
      rw [replaceAll, h [] _ rfl]
      show c :: replaceAll m r 0 s = _
      rw [replaceAll_none fun u v e => h (c :: u) v (by rw [e]; rfl)]

/-- C178: Other messages stay as they are. -/
theorem hide_other {digit : Char → Bool} (hd : Digits digit) {s : Str} (h1 : ¬ ['D', 'e', 'f', 'I', 'd', '('] <:+: s)
    (h2 : ∀ w : Str, w.length = 4 → (∀ c ∈ w, Hex c) → ¬ hashText w <:+: s) :
    hide digit s = s := by
  unfold hide
  have e : replaceAll (defId digit) ['D', 'e', 'f', 'I', 'd', '('] 0 s = s := by
    apply replaceAll_none
    intro u v e
    cases h : defId digit v with
    | none => rfl
    | some t =>
      obtain ⟨d, e', -, -, -, -, rfl⟩ := (defId_iff hd).mp h
      refine absurd ⟨u, d ++ ':' :: e' ++ [' ', '~', ' '] ++ t, ?_⟩ h1
      rw [e]
      simp [defIdText]
  rw [e]
  apply replaceAll_none
  intro u v e
  cases h : hash v with
  | none => rfl
  | some t =>
    obtain ⟨w, hw, hh, rfl⟩ := hash_iff.mp h
    exact absurd ⟨u, t, by rw [e, List.append_assoc]⟩ (h2 w hw fun c hc => isHex_iff.mp (hh c hc))

/-- Disagreement: what is left after a hash is left out can look like a hash. -/
theorem hash_in_hash : hide Char.isDigit "[ab[1234]cd]".toList = "[abcd]".toList := by decide +kernel

example : Digits Char.isDigit := by constructor <;> decide

example : hide Char.isDigit "in DefId(0:12 ~ my_crate[3a4F]::f) [x]".toList = "in DefId(my_crate::f) [x]".toList := by
  decide +kernel

example : hide Char.isDigit "a[12x4] b[123]".toList = "a[12x4] b[123]".toList := by decide +kernel

end Verif.Report

import Verif.Label.Model
/- Bazel label properties C25-C27. -/
namespace Verif.Label
open Verif.Utf8

/-! ### Characters -/

theorem char_isScalar (c : Char) : IsScalar c.toNat := by
  have := c.valid
  unfold IsScalar
  have h : c.toNat = c.val.toNat := rfl
  rw [h]
  rcases this with h | ⟨h1, h2⟩ <;> omega

theorem char_toNat_inj {a b : Char} (h : a.toNat = b.toNat) : a = b := Char.toNat_inj.mp h

theorem bytes_injective {a b : Str} (h : bytes a = bytes b) : a = b := by
  have h1 : ∀ s : Str, ∀ c ∈ s.map Char.toNat, IsScalar c := by
    intro s c hc; obtain ⟨x, -, rfl⟩ := List.mem_map.mp hc; exact char_isScalar x
  have := encodeAll_injective (h1 a) (h1 b) h
  exact List.map_inj_right (fun _ _ => char_toNat_inj) |>.mp this

theorem encode_lt_256 {c : Nat} (hc : IsScalar c) : ∀ b ∈ encode c, b < 256 := by
  obtain ⟨h1, -⟩ := hc
  unfold encode
  intro b hb
  (repeat' split at hb) <;> simp at hb <;> omega

theorem bytes_lt_256 (s : Str) : ∀ b ∈ bytes s, b < 256 := by
  intro b hb
  simp only [bytes, encodeAll, List.mem_flatMap, List.mem_map] at hb
  obtain ⟨c, ⟨x, -, rfl⟩, hb⟩ := hb
  exact encode_lt_256 (char_isScalar x) b hb

/-! ### C25 -/

/-- Characters allowed in the result: `[A-Za-z0-9_]`. -/
def IsIdentChar (c : Char) : Prop := ('0' ≤ c ∧ c ≤ '9') ∨ ('a' ≤ c ∧ c ≤ 'z') ∨ ('A' ≤ c ∧ c ≤ 'Z') ∨ c = '_'

instance (c : Char) : Decidable (IsIdentChar c) := by unfold IsIdentChar; infer_instance

theorem alnum_ident {c : Char} (h : isAsciiAlnum c = true) : IsIdentChar c := by
  simp only [isAsciiAlnum, Bool.or_eq_true, Bool.and_eq_true, decide_eq_true_eq] at h
  unfold IsIdentChar
  rcases h with (h | h) | h
  · exact .inl h
  · exact .inr (.inl h)
  · exact .inr (.inr (.inl h))

theorem hexDigit_ident (n : Nat) (h : n < 16) : IsIdentChar (hexDigit n) := by
  have : ∀ k : Fin 16, IsIdentChar (hexDigit k.val) := by decide
  exact this ⟨n, h⟩

theorem hexDigit_inj {a b : Nat} (ha : a < 16) (hb : b < 16) (h : hexDigit a = hexDigit b) : a = b := by
  have : ∀ x y : Fin 16, hexDigit x.val = hexDigit y.val → x = y := by decide
  have := this ⟨a, ha⟩ ⟨b, hb⟩ h
  simpa using this

theorem alnum_underscore : isAsciiAlnum '_' = false := by decide

theorem ofNat_inj {a b : Nat} (ha : a < 256) (hb : b < 256) (h : Char.ofNat a = Char.ofNat b) : a = b := by
  have e : ∀ n, n < 256 → (Char.ofNat n).toNat = n := by
    intro n hn
    have hv : n.isValidChar := Or.inl (by omega)
    simp [Char.ofNat, hv, Char.ofNatAux, Char.toNat]
  rw [← e a ha, ← e b hb, h]

theorem escape_prefix_inj {a b : Nat} (ha : a < 256) (hb : b < 256) {r s : List Char}
    (h : escapeByte a ++ r = escapeByte b ++ s) : a = b ∧ r = s := by
  unfold escapeByte at h
  split at h <;> split at h
  · simp at h; exact ⟨ofNat_inj ha hb h.1, h.2⟩
  · rename_i h1 _
    simp at h; rw [h.1] at h1; simp [alnum_underscore] at h1
  · rename_i _ h1
    simp at h; rw [← h.1] at h1; simp [alnum_underscore] at h1
  · simp at h
    have e1 := hexDigit_inj (by omega) (by omega) h.1
    have e2 := hexDigit_inj (by omega) (by omega) h.2.1
    exact ⟨by omega, h.2.2⟩

theorem escapeByte_ne_nil (b : Nat) : escapeByte b ≠ [] := by unfold escapeByte; split <;> simp

theorem escape_inj : ∀ {a b : List Nat}, (∀ x ∈ a, x < 256) → (∀ x ∈ b, x < 256) →
    a.flatMap escapeByte = b.flatMap escapeByte → a = b
  | [], [], _, _, _ => rfl
  | [], y :: b, _, _, h => by
    simp only [List.flatMap_nil, List.flatMap_cons] at h
    exact absurd (List.append_eq_nil_iff.mp h.symm).1 (escapeByte_ne_nil y)
  | x :: a, [], _, _, h => by
    simp only [List.flatMap_nil, List.flatMap_cons] at h
    exact absurd (List.append_eq_nil_iff.mp h).1 (escapeByte_ne_nil x)
  | x :: a, y :: b, ha, hb, h => by
    simp only [List.flatMap_cons] at h
    obtain ⟨rfl, h2⟩ := escape_prefix_inj (ha x (by simp)) (hb y (by simp)) h
    rw [escape_inj (fun z hz => ha z (by simp [hz])) (fun z hz => hb z (by simp [hz])) h2]

/-- C25: different label strings never share a C++ identifier. -/
theorem cc_identifier_injective (a b : Str) (h : convertToCcIdentifier a = convertToCcIdentifier b) : a = b := by
  simp only [convertToCcIdentifier, List.cons.injEq, true_and] at h
  exact bytes_injective (escape_inj (bytes_lt_256 a) (bytes_lt_256 b) h)

/-- C25: the result is a C++ identifier: it starts with an underscore and contains only
`[A-Za-z0-9_]`. -/
theorem cc_identifier_valid (l : Str) :
    (convertToCcIdentifier l).head? = some '_' ∧ ∀ c ∈ convertToCcIdentifier l, IsIdentChar c := by
  refine ⟨rfl, fun c hc => ?_⟩
  simp only [convertToCcIdentifier, List.mem_cons, List.mem_flatMap] at hc
  rcases hc with rfl | ⟨b, hb, hc⟩
  · decide
  · have := bytes_lt_256 l b hb
    unfold escapeByte at hc
    split at hc
    · rename_i ha; simp at hc; subst hc; exact alnum_ident ha
    · simp at hc
      rcases hc with rfl | rfl | rfl
      · decide
      · exact hexDigit_ident _ (by omega)
      · exact hexDigit_ident _ (by omega)

/-- C25, limitation found: labels that compare equal (`//foo` and `//foo:foo`) get different
identifiers, so the identifier is a function of the spelling, not of the label. -/
theorem equal_labels_may_differ_in_identifier :
    ∃ a b : Str, eq a b = true ∧ convertToCcIdentifier a ≠ convertToCcIdentifier b :=
  ⟨"//foo".toList, "//foo:foo".toList, by decide, by decide⟩

/-! ### C26 -/

theorem cmpBytes_eq_iff : ∀ {a b : List Nat}, cmpBytes a b = .eq ↔ a = b
  | [], [] => by simp [cmpBytes]
  | [], _ :: _ => by simp [cmpBytes]
  | _ :: _, [] => by simp [cmpBytes]
  | a :: as, b :: bs => by
    have := @cmpBytes_eq_iff as bs
    simp only [cmpBytes, List.cons.injEq]
    split
    · simp; omega
    · split
      · simp; omega
      · rw [this]; constructor
        · intro h; exact ⟨by omega, h⟩
        · exact fun h => h.2

theorem cmpBytes_swap : ∀ (a b : List Nat), cmpBytes b a = (cmpBytes a b).swap
  | [], [] => rfl
  | [], _ :: _ => rfl
  | _ :: _, [] => rfl
  | a :: as, b :: bs => by
    have := cmpBytes_swap as bs
    simp only [cmpBytes]
    by_cases h1 : a < b
    · have h2 : ¬ b < a := by omega
      simp [h1, h2]
    · by_cases h2 : b < a
      · simp [h1, h2]
      · simp [h1, h2, this]

theorem cmpBytes_trans : ∀ {a b c : List Nat}, cmpBytes a b = .lt → cmpBytes b c = .lt → cmpBytes a c = .lt
  | [], [], _, h, _ => by simp [cmpBytes] at h
  | _ :: _, [], _, h, _ => by simp [cmpBytes] at h
  | _, _ :: _, [], _, h => by simp [cmpBytes] at h
  | [], _ :: _, _ :: _, _, _ => rfl
  | a :: as, b :: bs, c :: cs, h1, h2 => by
    simp only [cmpBytes] at h1 h2 ⊢
    split at h1
    · split at h2
      · rw [if_pos (by omega)]
      · split at h2
        · simp at h2
        · rw [if_pos (by omega)]
    · split at h1
      · simp at h1
      · split at h2
        · rw [if_pos (by omega)]
        · split at h2
          · simp at h2
          · rw [if_neg (by omega), if_neg (by omega)]
            exact cmpBytes_trans h1 h2

theorem eq_iff (a b : Str) : eq a b = true ↔ targetName a = targetName b ∧ packageName a = packageName b := by
  simp [eq, components]

theorem cmp_eq_iff (a b : Str) : cmp a b = .eq ↔ eq a b = true := by
  rw [eq_iff]
  unfold cmp components
  cases h : cmpBytes (bytes (targetName a)) (bytes (targetName b)) with
  | eq =>
    simp only [cmpBytes_eq_iff]
    have := cmpBytes_eq_iff.mp h
    exact ⟨fun h2 => ⟨bytes_injective this, bytes_injective h2⟩, fun h2 => by rw [h2.2]⟩
  | lt =>
    simp
    intro h2; rw [h2, cmpBytes_eq_iff.mpr rfl] at h; simp at h
  | gt =>
    simp
    intro h2; rw [h2, cmpBytes_eq_iff.mpr rfl] at h; simp at h

/-- C26: `==` is an equivalence relation; `cmp` is a total order on the equivalence classes, equal
exactly on `==`; equal labels feed the hasher the same bytes, unequal ones different bytes. -/
theorem equality_order_hash_agree :
    (∀ a, eq a a = true) ∧ (∀ a b, eq a b = true → eq b a = true) ∧
    (∀ a b c, eq a b = true → eq b c = true → eq a c = true) ∧
    (∀ a b, cmp a b = .eq ↔ eq a b = true) ∧
    (∀ a b, cmp b a = (cmp a b).swap) ∧
    (∀ a b c, cmp a b = .lt → cmp b c = .lt → cmp a c = .lt) ∧
    (∀ a b c, eq a b = true → cmp a c = cmp b c ∧ cmp c a = cmp c b) ∧
    (∀ a b, eq a b = true → hashInput a = hashInput b) := by
  refine ⟨?_, ?_, ?_, cmp_eq_iff, ?_, ?_, ?_, ?_⟩
  · intro a; simp [eq]
  · intro a b h; simp [eq] at h ⊢; exact h.symm
  · intro a b c h1 h2; simp [eq] at h1 h2 ⊢; exact h1.trans h2
  · intro a b
    unfold cmp
    rw [cmpBytes_swap (bytes (components a).1)]
    cases h : cmpBytes (bytes (components a).1) (bytes (components b).1) with
    | eq => simp; rw [cmpBytes_swap]
    | lt => simp
    | gt => simp
  · intro a b c h1 h2
    unfold cmp at *
    generalize bytes (components a).1 = a1 at *
    generalize bytes (components b).1 = b1 at *
    generalize bytes (components c).1 = c1 at *
    cases e1 : cmpBytes a1 b1 with
    | gt => simp [e1] at h1
    | lt =>
      cases e2 : cmpBytes b1 c1 with
      | gt => simp [e2] at h2
      | lt => simp [cmpBytes_trans e1 e2]
      | eq => rw [cmpBytes_eq_iff] at e2; subst e2; simp [e1]
    | eq =>
      rw [cmpBytes_eq_iff] at e1; subst e1
      cases e2 : cmpBytes a1 c1 with
      | gt => simp [e2] at h2
      | lt => simp
      | eq =>
        simp only [cmpBytes_eq_iff.mpr rfl] at h1
        simp only [e2] at h2
        exact cmpBytes_trans h1 h2
  · intro a b c h
    simp only [eq, decide_eq_true_eq] at h
    simp [cmp, h]
  · intro a b h
    simp only [eq, decide_eq_true_eq] at h
    simp [hashInput, h]

/-! #### What equality means on ordinary labels -/

theorem splitOnce_none {c : Char} : ∀ {s : Str}, splitOnce c s = none ↔ c ∉ s
  | [] => by simp [splitOnce]
  | x :: xs => by
    have := @splitOnce_none c xs
    simp only [splitOnce]
    split
    · rename_i h; subst h; simp
    · rename_i h
      rw [Option.map_eq_none_iff, this, List.mem_cons]
      constructor
      · intro a b; rcases b with b | b
        · exact h b.symm
        · exact a b
      · intro a b; exact a (.inr b)

theorem rsplitOnce_none {c : Char} : ∀ {s : Str}, rsplitOnce c s = none ↔ c ∉ s
  | [] => by simp [rsplitOnce]
  | x :: xs => by
    have := @rsplitOnce_none c xs
    simp only [rsplitOnce]
    split
    · rename_i a b h
      simp [h] at this
      simp [this]
    · rename_i h
      have h' := this.mp h
      split
      · rename_i e; subst e; simp
      · rename_i e; simp [h']; exact fun e' => e e'.symm

theorem splitOnce_append {c : Char} : ∀ {p t : Str}, c ∉ p → splitOnce c (p ++ c :: t) = some (p, t)
  | [], t, _ => by simp [splitOnce]
  | x :: p, t, h => by
    simp only [List.mem_cons, not_or] at h
    simp [splitOnce, splitOnce_append h.2]; exact fun e => h.1 e.symm

theorem rsplitOnce_append {c : Char} : ∀ {p t : Str}, c ∉ t → rsplitOnce c (p ++ c :: t) = some (p, t)
  | [], t, h => by simp [rsplitOnce, rsplitOnce_none.mpr h]
  | x :: p, t, h => by simp [rsplitOnce, rsplitOnce_append (p := p) h]

/-- Canonical long form of a package/target pair. -/
def long (p t : Str) : Str := p ++ ':' :: t

/-- C26: for labels written in long form with one colon, equality is equality of the strings: package
and target. -/
theorem long_form_eq (p t p' t' : Str) (h1 : ':' ∉ p) (h2 : ':' ∉ t) (h3 : ':' ∉ p') (h4 : ':' ∉ t') :
    (targetName (long p t) = t ∧ packageName (long p t) = p) ∧
    (eq (long p t) (long p' t') = true ↔ p = p' ∧ t = t') := by
  have key : ∀ p t : Str, ':' ∉ p → ':' ∉ t → targetName (long p t) = t ∧ packageName (long p t) = p := by
    intro p t h1 h2
    simp [targetName, packageName, long, splitOnce_append h1, rsplitOnce_append h2]
  refine ⟨key p t h1 h2, ?_⟩
  rw [eq_iff, (key p t h1 h2).1, (key p t h1 h2).2, (key p' t' h3 h4).1, (key p' t' h3 h4).2]
  exact And.comm

/-- C26: the short form `p/b` is the same label as `p/b:b`, for every path and component. -/
theorem short_form_eq (p b : Str) (h1 : ':' ∉ p) (h2 : ':' ∉ b) (h3 : '/' ∉ b) :
    eq (p ++ '/' :: b) (long (p ++ '/' :: b) b) = true := by
  have hc : ':' ∉ p ++ '/' :: b := by simp [h1, h2]
  have hl := (long_form_eq (p ++ '/' :: b) b [] [] hc h2 (by simp) (by simp)).1
  rw [eq_iff, hl.1, hl.2]
  constructor
  · simp [targetName, splitOnce_none.mpr hc, rsplitOnce_append h3]
  · simp [packageName, rsplitOnce_none.mpr hc]

/-! ### C27 -/

/-- C27: every character of the escaped name is an ASCII alphanumeric or underscore, it does not
start with a digit, is not `core`, and is empty only if the target name is. -/
theorem escaped_name_ok (isNumeric : Char → Bool) (hnum : ∀ c, '0' ≤ c → c ≤ '9' → isNumeric c = true) (l : Str) :
    (∀ c ∈ targetNameEscaped isNumeric l, IsIdentChar c) ∧
    (∀ c, (targetNameEscaped isNumeric l).head? = some c → ¬ ('0' ≤ c ∧ c ≤ '9')) ∧
    targetNameEscaped isNumeric l ≠ "core".toList ∧
    (targetNameEscaped isNumeric l = [] ↔ targetName l = []) := by
  unfold targetNameEscaped
  generalize ht : targetName l = t
  generalize lastPackageComponent l = lp
  simp only
  refine ⟨?_, ?_, ?_, ?_⟩
  · intro c hc
    obtain ⟨x, -, rfl⟩ := List.mem_map.mp hc
    split
    · rename_i h; exact alnum_ident h
    · decide
  · intro c hc
    by_cases hcore : t = "core".toList
    · simp only [hcore, if_true] at hc
      have : ("core_".toList ++ lp) = 'c' :: ("ore_".toList ++ lp) := rfl
      rw [this] at hc
      simp only [List.map_cons, List.head?_cons, Option.some.injEq] at hc
      subst hc; decide
    · simp only [hcore, if_false] at hc
      cases t with
      | nil => simp at hc
      | cons x t =>
        simp only at hc
        by_cases hn : isNumeric x = true
        · simp only [hn, if_true, List.map_cons, List.head?_cons, Option.some.injEq] at hc
          subst hc; decide
        · simp only [hn] at hc
          simp only [Bool.false_eq_true, if_false, List.map_cons, List.head?_cons, Option.some.injEq] at hc
          subst hc
          split
          · rintro ⟨a, b⟩; exact hn (hnum x a b)
          · decide
  · intro hc
    by_cases hcore : t = "core".toList
    · simp only [hcore, if_true] at hc
      have := congrArg List.length hc
      simp at this
    · simp only [hcore, if_false] at hc
      have hmap : ∀ s : Str, s.map (fun c => if isAsciiAlnum c = true then c else '_') = "core".toList → s = "core".toList := by
        intro s hs
        have hid : ∀ (s u : Str), (∀ c ∈ u, c ≠ '_') → s.map (fun c => if isAsciiAlnum c = true then c else '_') = u → s = u := by
          intro s
          induction s with
          | nil => intro u _ h; simpa using h
          | cons x s ih =>
            intro u hu h
            cases u with
            | nil => simp at h
            | cons y u =>
              simp only [List.map_cons, List.cons.injEq] at h
              obtain ⟨h1, h2⟩ := h
              rw [ih u (fun c hc => hu c (by simp [hc])) h2]
              split at h1
              · rw [h1]
              · exact absurd h1.symm (hu y (by simp))
        exact hid s _ (by decide) hs
      have := hmap _ hc
      cases t with
      | nil => simp at this
      | cons x t =>
        simp only at this
        split at this
        · simp at this
        · exact hcore this
  · by_cases hcore : t = "core".toList
    · simp [hcore]
    · simp only [hcore, if_false]
      cases t with
      | nil => simp
      | cons x t => simp only; split <;> simp

/-- C27: names that are already fine are kept: a target name other than `core` made of ASCII
letters, digits and underscores and not starting with a numeric character is unchanged; in general
the escape keeps the length of such a name and changes only characters outside `[A-Za-z0-9]`, to `_`. -/
theorem escaped_name_keeps (isNumeric : Char → Bool) (l : Str) (hc : targetName l ≠ "core".toList)
    (hs : ∀ c, (targetName l).head? = some c → isNumeric c = false) :
    (targetNameEscaped isNumeric l).length = (targetName l).length ∧
    (∀ (i : Nat) (c : Char), (targetName l)[i]? = some c → (targetNameEscaped isNumeric l)[i]? = some (if isAsciiAlnum c then c else '_')) ∧
    ((∀ c ∈ targetName l, IsIdentChar c) → targetNameEscaped isNumeric l = targetName l) := by
  have he : targetNameEscaped isNumeric l = (targetName l).map fun c => if isAsciiAlnum c then c else '_' := by
    unfold targetNameEscaped
    generalize targetName l = t at *
    simp only [hc, if_false]
    cases t with
    | nil => rfl
    | cons x t => simp only [hs x (by simp), Bool.false_eq_true, if_false]
  rw [he]
  refine ⟨by simp, ?_, ?_⟩
  · intro i c h; simp [h]
  · intro h
    conv => rhs; rw [← List.map_id (targetName l)]
    apply List.map_congr_left
    intro c hm
    have := h c hm
    simp only [id]
    split
    · rfl
    · rename_i hn
      simp only [IsIdentChar] at this
      simp only [isAsciiAlnum, Bool.or_eq_true, Bool.and_eq_true, decide_eq_true_eq, not_or] at hn
      rcases this with h1 | h1 | h1 | h1
      · exact absurd h1 hn.1.1
      · exact absurd h1 hn.1.2
      · exact absurd h1 hn.2
      · exact h1.symm

/-- C27, limitation found: the escape is not injective — two targets of one package can get the same
crate name. -/
theorem escaped_name_not_injective (isNumeric : Char → Bool) (h : isNumeric 'a' = false) :
    ∃ a b : Str, eq a b = false ∧ packageName a = packageName b ∧ targetNameEscaped isNumeric a = targetNameEscaped isNumeric b :=
  ⟨"//p:a-b".toList, "//p:a_b".toList, by decide, by decide, by
    have e1 : targetName "//p:a-b".toList = ['a', '-', 'b'] := by decide
    have e2 : targetName "//p:a_b".toList = ['a', '_', 'b'] := by decide
    simp only [targetNameEscaped, e1, e2, h]
    decide⟩

/-- Display hides the pseudo package of unknown targets and is otherwise the identity. -/
theorem display_spec (l f : Str) : display ("//_unknown_target:".toList ++ f) = f ∧
    (¬ "//_unknown_target:".toList <+: l → display l = l) := by
  constructor
  · unfold display
    simp
  · intro h
    simp only [display, List.isPrefixOf_iff_prefix, h, if_false]

/-- Non-vacuity -/
example : convertToCcIdentifier "//foo".toList = "__2f_2ffoo".toList := by decide
example : targetNameEscaped Char.isDigit "//foo/bar:core".toList = "core_bar".toList := by decide
example : targetNameEscaped Char.isDigit "//foo:1-x".toList = "n1_x".toList := by decide

end Verif.Label

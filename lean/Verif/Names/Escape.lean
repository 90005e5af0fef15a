import Verif.Names.Model
import Verif.Names.Facts

/-
Escaped symbols and names of thunks (C168).
-/

namespace Verif.Names

/-! ### Numbers -/

def val (c : Char) : Nat := if c.toNat < 58 then c.toNat - 48 else c.toNat - 87

theorem digit_facts : ∀ n < 16, val (digit n) = n ∧ digit n ≠ '_' ∧ ((digit n).isAlpha = true ∨ (digit n).isDigit = true) := by
  decide +kernel

theorem digit_inj {a b : Nat} (ha : a < 16) (hb : b < 16) (h : digit a = digit b) : a = b := by
  have := congrArg val h
  rwa [(digit_facts a ha).1, (digit_facts b hb).1] at this

theorem hexN_length : ∀ (k n : Nat), (hexN k n).length = k
  | 0, _ => rfl
  | k + 1, n => by rw [hexN, List.length_append, hexN_length k]; rfl

theorem hexN_inj : ∀ (k : Nat) {a b : Nat}, a < 16 ^ k → b < 16 ^ k → hexN k a = hexN k b → a = b
  | 0, a, b, ha, hb, _ => by omega
  | k + 1, a, b, ha, hb, h => by
      rw [hexN, hexN] at h
      obtain ⟨h1, h2⟩ := List.append_inj' h rfl
      have h3 := digit_inj (Nat.mod_lt a (by omega)) (Nat.mod_lt b (by omega)) (List.singleton_inj.mp h2)
      rw [Nat.pow_succ] at ha hb
      have h4 := hexN_inj k (Nat.div_lt_of_lt_mul (by rw [Nat.mul_comm]; exact ha))
        (Nat.div_lt_of_lt_mul (by rw [Nat.mul_comm]; exact hb)) h1
      omega

theorem hexN_chars {X : Xid} : ∀ (k n : Nat), ∀ c ∈ hexN k n, X.cont c = true ∧ c ≠ '_'
  | 0, _, c, h => by cases h
  | k + 1, n, c, h => by
      rw [hexN, List.mem_append, List.mem_singleton] at h
      rcases h with h | rfl
      · exact hexN_chars k _ c h
      · obtain ⟨-, h1, h2⟩ := digit_facts (n % 16) (Nat.mod_lt n (by omega))
        exact ⟨h2.elim (fun h => X.sub _ (X.alpha _ h)) (X.digit _), h1⟩

theorem hex_chars {X : Xid} (n : Nat) : ∀ c ∈ hex n, X.cont c = true ∧ c ≠ '_' := by
  induction n using Nat.strongRecOn with
  | _ n ih =>
    have hd : ∀ k < 16, X.cont (digit k) = true ∧ digit k ≠ '_' := by
      intro k hk
      obtain ⟨-, h1, h2⟩ := digit_facts k hk
      exact ⟨h2.elim (fun h => X.sub _ (X.alpha _ h)) (X.digit _), h1⟩
    rw [hex]
    intro c hc
    split at hc
    · rw [List.mem_singleton] at hc
      subst hc
      exact hd n (by assumption)
    · rw [List.mem_append, List.mem_singleton] at hc
      rcases hc with hc | rfl
      · exact ih _ (by omega) c hc
      · exact hd _ (Nat.mod_lt n (by omega))

theorem hex_ne_nil (n : Nat) : hex n ≠ [] := by
  rw [hex]
  split <;> simp

theorem hex_inj (a : Nat) : ∀ b, hex a = hex b → a = b := by
  induction a using Nat.strongRecOn with
  | _ a ih =>
    intro b h
    rw [hex, hex.eq_def b] at h
    split at h <;> split at h
    · exact digit_inj (by assumption) (by assumption) (List.singleton_inj.mp h)
    · have := congrArg List.length h
      have h2 := List.length_pos_iff.mpr (hex_ne_nil (b / 16))
      rw [List.length_append, List.length_singleton, List.length_singleton] at this
      omega
    · have := congrArg List.length h
      have h2 := List.length_pos_iff.mpr (hex_ne_nil (a / 16))
      rw [List.length_append, List.length_singleton, List.length_singleton] at this
      omega
    · obtain ⟨h1, h2⟩ := List.append_inj' h rfl
      have h3 := digit_inj (Nat.mod_lt a (by omega)) (Nat.mod_lt b (by omega)) (List.singleton_inj.mp h2)
      have h4 := ih (a / 16) (by omega) _ h1
      omega

theorem dec_ne_nil (n : Nat) : dec n ≠ [] := by
  rw [dec]
  split <;> simp

theorem dec_inj (a : Nat) : ∀ b, dec a = dec b → a = b := by
  induction a using Nat.strongRecOn with
  | _ a ih =>
    intro b h
    rw [dec, dec.eq_def b] at h
    split at h <;> split at h
    · exact digit_inj (by omega) (by omega) (List.singleton_inj.mp h)
    · have := congrArg List.length h
      have h2 := List.length_pos_iff.mpr (dec_ne_nil (b / 10))
      rw [List.length_append, List.length_singleton, List.length_singleton] at this
      omega
    · have := congrArg List.length h
      have h2 := List.length_pos_iff.mpr (dec_ne_nil (a / 10))
      rw [List.length_append, List.length_singleton, List.length_singleton] at this
      omega
    · obtain ⟨h1, h2⟩ := List.append_inj' h rfl
      have h3 := digit_inj (a := a % 10) (b := b % 10) (by omega) (by omega) (List.singleton_inj.mp h2)
      have h4 := ih (a / 10) (by omega) _ h1
      omega

theorem dec_chars {X : Xid} (n : Nat) : ∀ c ∈ dec n, X.cont c = true := by
  induction n using Nat.strongRecOn with
  | _ n ih =>
    have hd : ∀ k < 16, X.cont (digit k) = true := by
      intro k hk
      obtain ⟨-, h1, h2⟩ := digit_facts k hk
      exact h2.elim (fun h => X.sub _ (X.alpha _ h)) (X.digit _)
    rw [dec]
    intro c hc
    split at hc
    · rw [List.mem_singleton] at hc
      subst hc
      exact hd n (by omega)
    · rw [List.mem_append, List.mem_singleton] at hc
      rcases hc with hc | rfl
      · exact ih _ (by omega) c hc
      · exact hd _ (by omega)

/-! ### Escapes -/

/-- The ways a character is escaped. -/
theorem escChar_cases (X : Xid) (b : Bool) (c : Char) :
    (c = '_' ∧ escChar X b c = ['_', 'u']) ∨ (c = '$' ∧ escChar X b c = ['_', 'd']) ∨
    (c = '.' ∧ escChar X b c = ['_', 'p']) ∨
    (c ≠ '_' ∧ (X.start c = true ∨ b = false ∧ X.cont c = true) ∧ escChar X b c = [c]) ∨
    (escChar X b c = '_' :: 'x' :: hexN 8 c.toNat) := by
  unfold escChar
  by_cases h1 : c = '_'
  · left; exact ⟨h1, by rw [if_pos h1]; rfl⟩
  right
  rw [if_neg h1]
  by_cases h2 : c = '$'
  · left; exact ⟨h2, by rw [if_pos h2]; rfl⟩
  right
  rw [if_neg h2]
  by_cases h3 : c = '.'
  · left; exact ⟨h3, by rw [if_pos h3]; rfl⟩
  right
  rw [if_neg h3]
  by_cases h4 : (if b = true then X.start c else X.cont c) = true
  · left
    rw [if_pos h4]
    refine ⟨h1, ?_, rfl⟩
    cases b <;> simp at h4 <;> simp [h4]
  · right
    rw [if_neg h4]
    rfl

theorem toNat_lt (c : Char) : c.toNat < 16 ^ 8 := by
  have := c.val.toNat_lt
  exact this

/-- No escape is the beginning of another. -/
theorem escChar_prefix {X : Xid} {b b' : Bool} {c c' : Char} {r r' : Str}
    (h : escChar X b c ++ r = escChar X b' c' ++ r') : c = c' ∧ r = r' := by
  rcases escChar_cases X b c with ⟨rfl, e⟩ | ⟨rfl, e⟩ | ⟨rfl, e⟩ | ⟨hc, -, e⟩ | e <;>
    rcases escChar_cases X b' c' with ⟨rfl, e'⟩ | ⟨rfl, e'⟩ | ⟨rfl, e'⟩ | ⟨hc', -, e'⟩ | e' <;>
      rw [e, e'] at h <;> simp only [List.cons_append, List.nil_append, List.cons.injEq, true_and] at h
  all_goals first
    | exact ⟨rfl, h⟩
    | exact absurd h.1 (by decide)
    | exact absurd h.1.symm hc'
    | exact absurd h.1 hc
    | exact h
    | skip
  obtain ⟨h1, h2⟩ := List.append_inj h (by rw [hexN_length, hexN_length])
  have := hexN_inj 8 (toNat_lt c) (toNat_lt c') h1
  exact ⟨Char.toNat_inj.mp this, h2⟩

theorem escChar_ne_nil (X : Xid) (b : Bool) (c : Char) : escChar X b c ≠ [] := by
  rcases escChar_cases X b c with ⟨-, e⟩ | ⟨-, e⟩ | ⟨-, e⟩ | ⟨-, -, e⟩ | e <;> rw [e] <;> exact nofun

theorem esc_rest_inj {X : Xid} : ∀ {s t : Str}, s.flatMap (escChar X false) = t.flatMap (escChar X false) → s = t
  | [], [], _ => rfl
  | [], c :: t, h => by
      rw [List.flatMap_nil, List.flatMap_cons] at h
      exact absurd (List.append_eq_nil_iff.mp h.symm).1 (escChar_ne_nil _ _ _)
  | c :: s, [], h => by
      rw [List.flatMap_nil, List.flatMap_cons] at h
      exact absurd (List.append_eq_nil_iff.mp h).1 (escChar_ne_nil _ _ _)
  | c :: s, d :: t, h => by
      rw [List.flatMap_cons, List.flatMap_cons] at h
      obtain ⟨h1, h2⟩ := escChar_prefix h
      rw [h1, esc_rest_inj h2]

/-- C168: Different symbols stay different when they are escaped. -/
theorem escape_injective {X : Xid} : ∀ {s t : Str}, escape X s = escape X t → s = t
  | [], [], _ => rfl
  | [], c :: t, h => absurd (List.append_eq_nil_iff.mp h.symm).1 (escChar_ne_nil _ _ _)
  | c :: s, [], h => absurd (List.append_eq_nil_iff.mp h).1 (escChar_ne_nil _ _ _)
  | c :: s, d :: t, h => by
      obtain ⟨h1, h2⟩ := escChar_prefix h
      rw [h1, esc_rest_inj h2]

theorem escChar_cont (X : Xid) (b : Bool) (c : Char) : ∀ d ∈ escChar X b c, X.cont d = true := by
  have hl : ∀ d : Char, d.isAlpha = true → X.cont d = true := fun d h => X.sub _ (X.alpha _ h)
  rcases escChar_cases X b c with ⟨-, e⟩ | ⟨-, e⟩ | ⟨-, e⟩ | ⟨-, h, e⟩ | e <;> rw [e] <;> intro d hd
  · simp only [List.mem_cons, List.not_mem_nil, or_false] at hd
    rcases hd with rfl | rfl
    · exact X.under
    · exact hl _ (by decide)
  · simp only [List.mem_cons, List.not_mem_nil, or_false] at hd
    rcases hd with rfl | rfl
    · exact X.under
    · exact hl _ (by decide)
  · simp only [List.mem_cons, List.not_mem_nil, or_false] at hd
    rcases hd with rfl | rfl
    · exact X.under
    · exact hl _ (by decide)
  · rw [List.mem_singleton] at hd
    subst hd
    exact h.elim (X.sub _) (·.2)
  · rw [List.mem_cons, List.mem_cons] at hd
    rcases hd with rfl | rfl | hd
    · exact X.under
    · exact hl _ (by decide)
    · exact (hexN_chars 8 _ d hd).1

theorem rest_cont (X : Xid) (s : Str) : ∀ d ∈ s.flatMap (escChar X false), X.cont d = true := by
  intro d hd
  obtain ⟨c, -, hd⟩ := List.mem_flatMap.mp hd
  exact escChar_cont X false c d hd

/-- C168: Escaped symbols are identifiers. -/
theorem escape_ident (X : Xid) {s : Str} (h : s ≠ []) : IsIdent X (escape X s) := by
  match s, h with
  | c :: s, _ =>
    have h1 := escChar_cont X true c
    have h2 := rest_cont X s
    rcases escChar_cases X true c with ⟨-, e⟩ | ⟨-, e⟩ | ⟨-, e⟩ | ⟨-, hc, e⟩ | e <;>
      show IsIdent X (escChar X true c ++ s.flatMap (escChar X false)) <;> rw [e] at h1 ⊢
    · exact ⟨.inr rfl, fun d hd => (List.mem_append.mp hd).elim (fun h => h1 d (List.mem_cons_of_mem _ h)) (h2 d)⟩
    · exact ⟨.inr rfl, fun d hd => (List.mem_append.mp hd).elim (fun h => h1 d (List.mem_cons_of_mem _ h)) (h2 d)⟩
    · exact ⟨.inr rfl, fun d hd => (List.mem_append.mp hd).elim (fun h => h1 d (List.mem_cons_of_mem _ h)) (h2 d)⟩
    · exact ⟨.inl (hc.elim id fun h => absurd h.1 (by decide)), h2⟩
    · exact ⟨.inr rfl, fun d hd => (List.mem_append.mp hd).elim (fun h => h1 d (List.mem_cons_of_mem _ h)) (h2 d)⟩

/-! ### Thunks for Rust functions -/

theorem split_under : ∀ {a b r r' : Str}, (∀ c ∈ a, c ≠ '_') → (∀ c ∈ b, c ≠ '_') → a ++ '_' :: r = b ++ '_' :: r' →
    a = b ∧ r = r'
  | [], [], r, r', _, _, h => by simpa using h
  | [], c :: b, r, r', _, hb, h => by
      rw [List.nil_append, List.cons_append, List.cons.injEq] at h
      exact absurd h.1.symm (hb c (List.mem_cons_self ..))
  | c :: a, [], r, r', ha, _, h => by
      rw [List.nil_append, List.cons_append, List.cons.injEq] at h
      exact absurd h.1 (ha c (List.mem_cons_self ..))
  | c :: a, d :: b, r, r', ha, hb, h => by
      rw [List.cons_append, List.cons_append, List.cons.injEq] at h
      obtain ⟨h1, h2⟩ := split_under (fun x hx => ha x (List.mem_cons_of_mem _ hx))
        (fun x hx => hb x (List.mem_cons_of_mem _ hx)) h.2
      rw [h.1, h1]
      exact ⟨rfl, h2⟩

/-- C168: Thunks of different functions, or in the bindings of different crates, have different names. -/
theorem thunk_names_differ (X : Xid) {c c' : Nat} {s s' : Str} (h : thunkName X c s = thunkName X c' s') :
    c = c' ∧ s = s' := by
  unfold thunkName at h
  rw [List.append_assoc, List.append_assoc, List.append_assoc, List.append_assoc] at h
  have h := List.append_cancel_left h
  obtain ⟨h1, h2⟩ := split_under (fun x hx => (hex_chars (X := X) c x hx).2) (fun x hx => (hex_chars (X := X) c' x hx).2) h
  exact ⟨hex_inj c c' h1, escape_injective h2⟩

theorem IsIdent.append {X : Xid} {s t : Str} (h : IsIdent X s) (ht : ∀ c ∈ t, X.cont c = true) : IsIdent X (s ++ t) := by
  cases s with
  | nil => exact absurd h id
  | cons c s => exact ⟨h.1, fun d hd => (List.mem_append.mp hd).elim (h.2 d) (ht d)⟩

theorem ident_cont {X : Xid} {s : Str} (h : IsIdent X s) : ∀ c ∈ s, X.cont c = true := by
  cases s with
  | nil => exact absurd h id
  | cons c s =>
    intro d hd
    rcases List.mem_cons.mp hd with rfl | hd
    · exact h.1.elim (X.sub _) (fun h => h ▸ X.under)
    · exact h.2 d hd

/-- ASCII letters and underscores are an identifier. -/
theorem ascii_ident (X : Xid) {s : Str} (hs : s ≠ []) (h : ∀ c ∈ s, c.isAlpha = true ∨ c = '_') : IsIdent X s := by
  cases s with
  | nil => exact absurd rfl hs
  | cons c s =>
    refine ⟨(h c (List.mem_cons_self ..)).imp (X.alpha _) id, fun d hd => ?_⟩
    rcases h d (List.mem_cons_of_mem _ hd) with h | rfl
    · exact X.sub _ (X.alpha _ h)
    · exact X.under

/-- C168: Names of thunks are identifiers, and not reserved in C++. -/
theorem thunk_name_ident (X : Xid) (c : Nat) (s : Str) :
    IsIdent X (thunkName X c s) ∧ ∀ m, isReserved m (thunkName X c s) = false := by
  constructor
  · unfold thunkName
    rw [List.append_assoc]
    refine (ascii_ident X (by decide) (by decide +kernel)).append fun d hd => ?_
    rw [List.mem_append, List.mem_append] at hd
    rcases hd with (hd | hd) | hd
    · exact (hex_chars c d hd).1
    · have : d = '_' := by simpa using hd
      subst this; exact X.under
    · cases s with
      | nil => cases hd
      | cons a s => exact ident_cont (escape_ident X (by simp)) d hd
  · intro m
    have ht : (thunkName X c s).take 8 = "__crubit".toList := by
      unfold thunkName
      rw [List.append_assoc, List.take_append_of_le_length (by decide)]
      decide +kernel
    have hn : thunkName X c s ∉ keywords ++ macros := fun h => no_crubit _ h ht
    rw [List.mem_append, not_or] at hn
    unfold isReserved isKeyword
    cases m <;> simp [hn]

end Verif.Names

import Verif.Names.Escape

/-
Names of thunks for C++ functions (C171).
-/

namespace Verif.Names

/-- C171: Fragments consist of characters that may be in identifiers. -/
theorem fragment_cont (X : Xid) (s : Str) : ∀ c ∈ fragment X s, X.cont c = true := by
  unfold fragment
  simp only
  split
  · rename_i h
    exact List.all_eq_true.mp h
  · intro c hc
    obtain ⟨d, -, hd⟩ := List.mem_flatMap.mp hc
    split at hd
    · rw [List.mem_singleton] at hd
      subst hd
      assumption
    · rw [List.mem_append, List.mem_append] at hd
      rcases hd with (hd | hd) | hd
      · have : d = d := rfl
        simp at hd
        rcases hd with rfl | rfl
        · exact X.under
        · exact X.sub _ (X.alpha _ (by decide))
      · exact dec_chars _ c hd
      · have : c = '_' := by simpa using hd
        subst this; exact X.under

/-- C171: Mangled names that may be in identifiers are left alone. -/
theorem fragment_id {X : Xid} {s : Str} (h : ∀ c ∈ s, X.cont c = true) : fragment X s = s := by
  unfold fragment
  have e : stripOne s = s := by
    cases s with
    | nil => rfl
    | cons c t =>
      rw [stripOne, if_neg]
      rintro rfl
      have := h _ (List.mem_cons_self ..)
      rw [X.nocontrol] at this
      cases this
  simp only
  rw [e, if_pos (List.all_eq_true.mpr h)]

/-- C171: The name of a thunk is an identifier, also in Rust. -/
theorem thunk_ident_ident (X : Xid) (fs : List Func) (f : Func) :
    IsIdent X (thunkIdent X fs f) ∧ (RsId.plain (thunkIdent X fs f)).Valid X := by
  have h1 : IsIdent X (thunkIdent X fs f) := by
    unfold thunkIdent
    rw [List.append_assoc]
    refine (ascii_ident X (by decide) (by decide +kernel)).append fun d hd => ?_
    rcases List.mem_append.mp hd with hd | hd
    · split at hd
      · rcases List.mem_append.mp hd with hd | hd
        · exact (hexN_chars 8 _ d hd).1
        · have : d = '_' := by simpa using hd
          subst this; exact X.under
      · cases hd
    · exact fragment_cont X _ d hd
  refine ⟨h1, h1, fun hm => ?_⟩
  have hno : ∀ w ∈ rustKeywords.map String.toList, w.take 2 ≠ "__".toList := by decide +kernel
  refine hno _ hm ?_
  unfold thunkIdent
  rw [List.append_assoc, List.take_append_of_le_length (by decide)]
  decide +kernel

theorem two_in_filter {α : Type} (p : α → Bool) : ∀ (l : List α) {i j : Nat} {a b : α}, l[i]? = some a → l[j]? = some b →
    i < j → p a = true → p b = true → 1 < (l.filter p).length
  | [], i, j, a, b, h, _, _, _, _ => by simp at h
  | x :: l, 0, j, a, b, hi, hj, hij, ha, hb => by
      obtain ⟨j, rfl⟩ : ∃ k, j = k + 1 := ⟨j - 1, by omega⟩
      simp only [List.getElem?_cons_zero, Option.some.injEq] at hi
      subst hi
      rw [List.getElem?_cons_succ] at hj
      rw [List.filter_cons_of_pos ha, List.length_cons]
      have : b ∈ l.filter p := List.mem_filter.mpr ⟨List.mem_of_getElem? hj, hb⟩
      have := List.length_pos_of_mem this
      omega
  | x :: l, i + 1, j, a, b, hi, hj, hij, ha, hb => by
      obtain ⟨j, rfl⟩ : ∃ k, j = k + 1 := ⟨j - 1, by omega⟩
      rw [List.getElem?_cons_succ] at hi hj
      have := two_in_filter p l hi hj (by omega) ha hb
      rw [List.filter_cons]
      split
      · rw [List.length_cons]; omega
      · exact this

theorem conflicting_of_two {fs : List Func} {i j : Nat} {f g : Func} (hi : fs[i]? = some f) (hj : fs[j]? = some g)
    (hne : i ≠ j) (h : f.mangled = g.mangled) : conflicting fs f = true := by
  unfold conflicting
  rw [decide_eq_true_eq]
  rcases Nat.lt_or_gt_of_ne hne with hij | hij
  · exact two_in_filter _ fs hi hj hij (by simp) (by simp [h])
  · exact two_in_filter _ fs hj hi hij (by simp [h]) (by simp)

/-- A mangled name of the Itanium ABI, or another that can not be taken for one after a hash -/
def Plain (X : Xid) (s : Str) : Prop :=
  (∀ c ∈ s, X.cont c = true) ∧ ∀ k t, s ≠ hexN 8 k ++ '_' :: t

theorem itanium_plain {X : Xid} {s : Str} (h : ∀ c ∈ s, X.cont c = true) : Plain X ("_Z".toList ++ s) := by
  constructor
  · intro c hc
    rcases List.mem_append.mp hc with hc | hc
    · simp at hc
      rcases hc with rfl | rfl
      · exact X.under
      · exact X.sub _ (X.alpha _ (by decide))
    · exact h c hc
  · intro k t e
    have hl := hexN_length 8 k
    cases hx : hexN 8 k with
    | nil => rw [hx] at hl; cases hl
    | cons c r =>
      rw [hx] at e
      have : c = '_' := (List.cons.inj e).1.symm
      exact (hexN_chars (X := X) 8 k c (by rw [hx]; exact List.mem_cons_self ..)).2 this

/-- C171: Two functions of one target have thunks with the same name only if they have the same mangled name and the same
hash. -/
theorem thunks_differ {X : Xid} {fs : List Func} (hp : ∀ f ∈ fs, Plain X f.mangled) (hh : ∀ f ∈ fs, f.hash < 2 ^ 32)
    {i j : Nat} {f g : Func} (hi : fs[i]? = some f) (hj : fs[j]? = some g) (hne : i ≠ j)
    (h : thunkIdent X fs f = thunkIdent X fs g) : f.mangled = g.mangled ∧ f.hash = g.hash := by
  have hf := hp f (List.mem_of_getElem? hi)
  have hg := hp g (List.mem_of_getElem? hj)
  have hfh : f.hash < 16 ^ 8 := hh f (List.mem_of_getElem? hi)
  have hgh : g.hash < 16 ^ 8 := hh g (List.mem_of_getElem? hj)
  unfold thunkIdent at h
  rw [fragment_id hf.1, fragment_id hg.1, List.append_assoc, List.append_assoc] at h
  have h := List.append_cancel_left h
  split at h <;> split at h
  · rw [List.append_assoc, List.append_assoc] at h
    obtain ⟨h1, h2⟩ := List.append_inj h (by rw [hexN_length, hexN_length])
    exact ⟨List.append_cancel_left h2, hexN_inj 8 hfh hgh h1⟩
  · rw [List.append_assoc, List.nil_append] at h
    exact absurd h.symm (hg.2 _ _)
  · rw [List.append_assoc, List.nil_append] at h
    exact absurd h (hf.2 _ _)
  · rename_i hc _
    have := conflicting_of_two hi hj hne (by simpa using h)
    rw [this] at hc
    exact absurd rfl hc

/-- C171: A function outside class templates whose mangled name no other function has gets a thunk named after the mangled
name alone. -/
theorem thunk_readable {X : Xid} {fs : List Func} {f : Func} (hp : Plain X f.mangled) (ht : f.templ = false)
    (hu : ∀ i j : Nat, ∀ a b, fs[i]? = some a → fs[j]? = some b → a.mangled = f.mangled → b.mangled = f.mangled → i = j) :
    thunkIdent X fs f = "__rust_thunk__".toList ++ f.mangled := by
  have hc : conflicting fs f = false := by
    unfold conflicting
    rw [decide_eq_false_iff_not]
    intro hl
    obtain ⟨i, j, hij, hi, hj⟩ := pair fs hl
    obtain ⟨a, ha, ea⟩ := hi
    obtain ⟨b, hb, eb⟩ := hj
    exact hij (hu i j a b ha hb (by simpa using ea) (by simpa using eb))
  unfold thunkIdent
  rw [hc, ht, fragment_id hp.1]
  rfl
where
  one {α : Type} {p : α → Bool} : ∀ (l : List α), 0 < (l.filter p).length → ∃ i a, l[i]? = some a ∧ p a = true
    | l, h => by
        obtain ⟨a, ha⟩ := List.exists_mem_of_length_pos h
        obtain ⟨h1, h2⟩ := List.mem_filter.mp ha
        obtain ⟨i, hi⟩ := List.mem_iff_getElem?.mp h1
        exact ⟨i, a, hi, h2⟩
  pair {α : Type} {p : α → Bool} : ∀ (l : List α), 1 < (l.filter p).length →
      ∃ i j : Nat, i ≠ j ∧ (∃ a, l[i]? = some a ∧ p a = true) ∧ ∃ b, l[j]? = some b ∧ p b = true
    | [], h => by simp at h
    | x :: l, h => by
        by_cases hx : p x = true
        · rw [List.filter_cons_of_pos hx, List.length_cons] at h
          obtain ⟨i, a, h1, h2⟩ := one (p := p) l (by omega)
          exact ⟨0, i + 1, by omega, ⟨x, rfl, hx⟩, a, by simpa using h1, h2⟩
        · rw [List.filter_cons_of_neg hx] at h
          obtain ⟨i, j, hij, ⟨a, h1, h2⟩, b, h3, h4⟩ := pair l h
          exact ⟨i + 1, j + 1, by omega, ⟨a, by simpa using h1, h2⟩, b, by simpa using h3, h4⟩

end Verif.Names

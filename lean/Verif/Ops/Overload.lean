import Verif.Ops.Model
/-
C149: which function of an overload set is bound.
-/
namespace Verif.Ops

variable {K : Type} [DecidableEq K]

theorem CMap.get_insert (m : CMap K) (k k' : K) (new : Cand) :
    (m.insert k new).get k' = if k' = k then some (((m.get k).getD new).update new) else m.get k' := by
  induction m with
  | nil =>
    by_cases h : k' = k
    · subst h; simp [CMap.insert, CMap.get]
    · simp [CMap.insert, CMap.get, h, Ne.symm h]
  | cons p m ih =>
    obtain ⟨k₁, v⟩ := p
    by_cases h1 : k₁ = k
    · subst h1
      by_cases h : k' = k₁
      · subst h; simp [CMap.insert, CMap.get]
      · simp [CMap.insert, CMap.get, h, Ne.symm h]
    · by_cases h : k' = k
      · subst h
        simp [CMap.insert, CMap.get, h1, ih]
      · by_cases h2 : k₁ = k'
        · subst h2; simp [CMap.insert, CMap.get, h1]
        · simp [CMap.insert, CMap.get, h1, h2, ih, h]

/-- What the map says about key `k` after the entries `l`. -/
def Inv (l : List (Nat × K × Nat)) (k : K) : Option Cand → Prop
  | none => ∀ y ∈ l, y.2.1 ≠ k
  | some c => (c.item, k, c.rank) ∈ l ∧ (∀ y ∈ l, y.2.1 = k → y.2.2 ≤ c.rank) ∧
      (c.ambiguous = true ↔ ∃ y ∈ l, y.2.1 = k ∧ y.1 ≠ c.item ∧ y.2.2 = c.rank)

omit [DecidableEq K] in
theorem Inv.step {l : List (Nat × K × Nat)} {k : K} {o : Option Cand} (x : Nat × K × Nat)
    (hf : ∀ y ∈ l, y.1 = x.1 → y = x) (h : Inv l k o) (hk : x.2.1 = k) :
    Inv (l ++ [x]) k (some ((o.getD ⟨x.1, x.2.2, false⟩).update ⟨x.1, x.2.2, false⟩)) := by
  obtain ⟨i, kx, r⟩ := x
  simp only at hk; subst hk
  cases o with
  | none =>
    simp only [Option.getD_none, Cand.update, if_true]
    refine ⟨by simp, ?_, ?_⟩
    · intro y hy hyk
      rcases List.mem_append.1 hy with hy | hy
      · exact absurd hyk (h y hy)
      · simp at hy; subst hy; exact Nat.le_refl _
    · simp only [Bool.false_eq_true, false_iff]
      rintro ⟨y, hy, hyk, hne, _⟩
      rcases List.mem_append.1 hy with hy | hy
      · exact h y hy hyk
      · simp at hy; subst hy; exact hne rfl
  | some c =>
    obtain ⟨hin, hmax, hamb⟩ := h
    simp only [Option.getD_some, Cand.update]
    by_cases hi : c.item = i
    · rw [if_pos hi]
      have hxl : (i, kx, r) ∈ l := by
        have := hf _ hin hi; rw [← this]; exact hin
      refine ⟨List.mem_append_left _ hin, ?_, ?_⟩
      · intro y hy hyk
        rcases List.mem_append.1 hy with hy | hy
        · exact hmax y hy hyk
        · simp at hy; subst hy; exact hmax _ hxl rfl
      · rw [hamb]
        constructor
        · rintro ⟨y, hy, h1⟩; exact ⟨y, List.mem_append_left _ hy, h1⟩
        · rintro ⟨y, hy, h1⟩
          rcases List.mem_append.1 hy with hy | hy
          · exact ⟨y, hy, h1⟩
          · simp at hy; subst hy; exact ⟨_, hxl, h1⟩
    · rw [if_neg hi]
      by_cases hr : r > c.rank
      · rw [if_pos hr]
        refine ⟨by simp, ?_, ?_⟩
        · intro y hy hyk
          rcases List.mem_append.1 hy with hy | hy
          · have := hmax y hy hyk; show y.2.2 ≤ r; omega
          · simp at hy; subst hy; exact Nat.le_refl _
        · simp only [Bool.false_eq_true, false_iff]
          rintro ⟨y, hy, hyk, hne, hyr⟩
          rcases List.mem_append.1 hy with hy | hy
          · have := hmax y hy hyk; have hyr' : y.2.2 = r := hyr; omega
          · simp at hy; subst hy; exact hne rfl
      · rw [if_neg hr]
        by_cases he : r = c.rank
        · rw [if_pos he]
          refine ⟨List.mem_append_left _ hin, ?_, ?_⟩
          · intro y hy hyk
            rcases List.mem_append.1 hy with hy | hy
            · exact hmax y hy hyk
            · simp at hy; subst hy; exact Nat.le_of_eq he
          · simp only [true_iff]
            exact ⟨(i, kx, r), by simp, rfl, fun h => hi h.symm, he⟩
        · rw [if_neg he]
          refine ⟨List.mem_append_left _ hin, ?_, ?_⟩
          · intro y hy hyk
            rcases List.mem_append.1 hy with hy | hy
            · exact hmax y hy hyk
            · simp at hy; subst hy; show r ≤ c.rank; omega
          · rw [hamb]
            constructor
            · rintro ⟨y, hy, h1⟩; exact ⟨y, List.mem_append_left _ hy, h1⟩
            · rintro ⟨y, hy, h1⟩
              rcases List.mem_append.1 hy with hy | hy
              · exact ⟨y, hy, h1⟩
              · simp at hy; subst hy; exact absurd h1.2.2 he

omit [DecidableEq K] in
theorem Inv.skip {l : List (Nat × K × Nat)} {k : K} {o : Option Cand} (x : Nat × K × Nat)
    (h : Inv l k o) (hk : x.2.1 ≠ k) : Inv (l ++ [x]) k o := by
  cases o with
  | none =>
    intro y hy
    rcases List.mem_append.1 hy with hy | hy
    · exact h y hy
    · simp at hy; subst hy; exact hk
  | some c =>
    obtain ⟨h1, h2, h3⟩ := h
    refine ⟨List.mem_append_left _ h1, ?_, ?_⟩
    · intro y hy hyk
      rcases List.mem_append.1 hy with hy | hy
      · exact h2 y hy hyk
      · simp at hy; subst hy; exact absurd hyk hk
    · rw [h3]
      constructor
      · rintro ⟨y, hy, h⟩; exact ⟨y, List.mem_append_left _ hy, h⟩
      · rintro ⟨y, hy, h⟩
        rcases List.mem_append.1 hy with hy | hy
        · exact ⟨y, hy, h⟩
        · simp at hy; subst hy; exact absurd h.1 hk

theorem inv_overloadSets_aux (l : List (Nat × K × Nat)) :
    ∀ (p : List (Nat × K × Nat)) (m : CMap K), (∀ x ∈ p ++ l, ∀ y ∈ p ++ l, x.1 = y.1 → x = y) →
      (∀ k, Inv p k (m.get k)) →
      ∀ k, Inv (p ++ l) k ((l.foldl (fun m x => m.insert x.2.1 ⟨x.1, x.2.2, false⟩) m).get k) := by
  induction l with
  | nil => intro p m _ h k; simpa using h k
  | cons x l ih =>
    intro p m hf h k
    have hf' : ∀ a ∈ (p ++ [x]) ++ l, ∀ b ∈ (p ++ [x]) ++ l, a.1 = b.1 → a = b := by
      simpa using hf
    have := ih (p ++ [x]) (m.insert x.2.1 ⟨x.1, x.2.2, false⟩) hf' (by
      intro k'
      rw [CMap.get_insert]
      by_cases hk : k' = x.2.1
      · rw [if_pos hk]; subst hk
        exact (h _).step x (fun y hy hyx => hf y (List.mem_append_left _ hy) x (by simp) hyx) rfl
      · rw [if_neg hk]
        exact (h _).skip x (fun h => hk h.symm)) k
    simpa using this

theorem inv_overloadSets (l : List (Nat × K × Nat)) (hf : ∀ x ∈ l, ∀ y ∈ l, x.1 = y.1 → x = y) (k : K) :
    Inv l k ((overloadSets l).get k) := by
  have := inv_overloadSets_aux l [] [] (by simpa using hf) (by intro k y hy; simp at hy) k
  unfold overloadSets
  simpa using this

/-- C149: a function is bound iff it is the canonical one of its overload set: every other function
with the same Rust path has a lower rank. `l` lists the functions that can be bound: item, Rust path, rank. -/
theorem bound_iff_canonical (l : List (Nat × K × Nat)) (hf : ∀ x ∈ l, ∀ y ∈ l, x.1 = y.1 → x = y)
    (x : Nat × K × Nat) (hx : x ∈ l) :
    isAmbiguous l x.2.1 x.1 = false ↔
      Canonical (fun y : Nat × K × Nat => y ∈ l ∧ y.2.1 = x.2.1) (fun y => y.2.2) x := by
  have hinv := inv_overloadSets l hf x.2.1
  unfold isAmbiguous
  cases hg : (overloadSets l).get x.2.1 with
  | none => rw [hg] at hinv; exact absurd rfl (hinv x hx)
  | some c =>
    rw [hg] at hinv
    obtain ⟨hin, hmax, hamb⟩ := hinv
    simp only
    constructor
    · intro h
      by_cases ha : c.ambiguous = true
      · rw [if_pos ha] at h; exact absurd h (by simp)
      · rw [if_neg ha] at h
        simp at h
        have hcx : (c.item, x.2.1, c.rank) = x := hf _ hin x hx h
        have hcr : c.rank = x.2.2 := by rw [← hcx]
        refine ⟨⟨hx, rfl⟩, fun y ⟨hy, hyk⟩ hne => ?_⟩
        have h1 := hmax y hy hyk
        have h2 : y.2.2 ≠ c.rank := by
          intro heq
          exact ha (hamb.2 ⟨y, hy, hyk, fun e => hne (hf y hy x hx (e.trans h)), heq⟩)
        simp only; omega
    · rintro ⟨_, hall⟩
      have hci : c.item = x.1 := by
        by_cases he : (c.item, x.2.1, c.rank) = x
        · rw [← he]
        · have h1 := hall _ ⟨hin, rfl⟩ he
          have h2 := hmax x hx rfl
          simp only at h1; omega
      have hcr : c.rank = x.2.2 := by
        have := hf _ hin x hx hci
        rw [← this]
      have hna : ¬ c.ambiguous = true := by
        rw [hamb]
        rintro ⟨y, hy, hyk, hne, hyr⟩
        have := hall y ⟨hy, hyk⟩ (fun e => hne (by rw [e, hci]))
        simp only at this; omega
      rw [if_neg hna]; simp [hci]

/-- C149: at most one function is bound under a Rust path. -/
theorem bound_unique (l : List (Nat × K × Nat)) (hf : ∀ x ∈ l, ∀ y ∈ l, x.1 = y.1 → x = y)
    (x y : Nat × K × Nat) (hx : x ∈ l) (hy : y ∈ l) (hk : x.2.1 = y.2.1)
    (bx : isAmbiguous l x.2.1 x.1 = false) (bY : isAmbiguous l y.2.1 y.1 = false) : x = y := by
  have h1 := (bound_iff_canonical l hf x hx).1 bx
  have h2 := (bound_iff_canonical l hf y hy).1 bY
  by_cases e : x = y
  · exact e
  · have a := h1.2 y ⟨hy, hk.symm⟩ (fun h => e h.symm)
    have b := h2.2 x ⟨hx, hk⟩ e
    omega

/-- C149: neither the order of the declarations nor the hash order matters. -/
theorem bound_perm (l l' : List (Nat × K × Nat)) (hf : ∀ x ∈ l, ∀ y ∈ l, x.1 = y.1 → x = y)
    (hp : ∀ x, x ∈ l ↔ x ∈ l') (x : Nat × K × Nat) (hx : x ∈ l) :
    isAmbiguous l x.2.1 x.1 = isAmbiguous l' x.2.1 x.1 := by
  have hf' : ∀ x ∈ l', ∀ y ∈ l', x.1 = y.1 → x = y :=
    fun a ha b hb => hf a ((hp a).2 ha) b ((hp b).2 hb)
  have h1 := bound_iff_canonical l hf x hx
  have h2 := bound_iff_canonical l' hf' x ((hp x).1 hx)
  have : isAmbiguous l x.2.1 x.1 = false ↔ isAmbiguous l' x.2.1 x.1 = false := by
    rw [h1, h2]; unfold Canonical; simp only [hp]
  cases ha : isAmbiguous l x.2.1 x.1 <;> cases hb : isAmbiguous l' x.2.1 x.1 <;> simp_all

/-- C149: the only function that is not deprecated is bound, whatever deprecated overloads there are, and
two that are not deprecated hide each other. -/
theorem nondeprecated_wins (l : List (Nat × K × Nat)) (hf : ∀ x ∈ l, ∀ y ∈ l, x.1 = y.1 → x = y)
    (hr : ∀ x ∈ l, x.2.2 ≤ 1) (x : Nat × K × Nat) (hx : x ∈ l) (h1 : x.2.2 = 1) :
    isAmbiguous l x.2.1 x.1 = false ↔ ∀ y ∈ l, y.2.1 = x.2.1 → y.2.2 = 1 → y = x := by
  rw [bound_iff_canonical l hf x hx]
  constructor
  · rintro ⟨_, h⟩ y hy hk hyr
    by_cases e : y = x
    · exact e
    · have := h y ⟨hy, hk⟩ e; simp only at this; omega
  · intro h
    refine ⟨⟨hx, rfl⟩, fun y ⟨hy, hk⟩ hne => ?_⟩
    have := hr y hy
    have : y.2.2 ≠ 1 := fun e => hne (h y hy hk e)
    simp only; omega

/-- Three overloads, one of them not deprecated: it is bound, the others are not. -/
theorem overload_example :
    isAmbiguous [(1, "f", 0), (2, "f", 1), (3, "f", 0), (4, "g", 0), (5, "g", 0)] "f" 2 = false ∧
    isAmbiguous [(1, "f", 0), (2, "f", 1), (3, "f", 0), (4, "g", 0), (5, "g", 0)] "f" 1 = true ∧
    isAmbiguous [(1, "f", 0), (2, "f", 1), (3, "f", 0), (4, "g", 0), (5, "g", 0)] "g" 4 = true := by
  decide

end Verif.Ops

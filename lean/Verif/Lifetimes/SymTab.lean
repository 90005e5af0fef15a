import Verif.Lifetimes.Table
/- C45: the symbol table. -/
namespace Verif.Lifetimes

/-- Calls that can change a symbol table, or create lifetimes next to it. -/
inductive Op
  | newVar | newLocal
  | declareName (n : Name)
  | nameFor (l : Lifetime)
  | add (n : Name) (l : Lifetime)
  | rebind (n : Name) (l : Lifetime)

structure St where
  ids : Ids
  tab : Table

def St.init : St := ⟨Ids.init, Table.empty⟩

/-- One call; `none` if it aborts the process. -/
def St.step (s : St) : Op → Option St
  | .newVar => some { s with ids := (createVariable s.ids).2 }
  | .newLocal => some { s with ids := (createLocal s.ids).2 }
  | .declareName n => let r := s.tab.lookupNameAndMaybeDeclare s.ids n; some ⟨r.2.2, r.2.1⟩
  | .nameFor l => (s.tab.lookupLifetimeAndMaybeDeclare l).map fun r => { s with tab := r.2 }
  | .add n l => (s.tab.add n l).map fun t => { s with tab := t }
  | .rebind n l => (s.tab.rebind n l).map fun t => { s with tab := t }

/-- A history of calls. -/
def St.run (s : St) : List Op → Option St
  | [] => some s
  | o :: os => (s.step o).bind fun s => s.run os

/-- A lifetime that has been created. -/
def Known (ids : Ids) (l : Lifetime) : Prop :=
  l = .static ∨ (2 ≤ l.id ∧ l.id < ids.nextVar) ∨ (ids.nextLocal < l.id ∧ l.id ≤ -2)

/-- The documented preconditions: lifetimes exist, a lifetime has at most one name, "static" is reserved; and the
counters have not run out (2^31 lifetimes, 2·10^8 names). -/
def Ok (s : St) : Op → Prop
  | .newVar => s.ids.nextVar < 2147483647
  | .newLocal => -2147483648 < s.ids.nextLocal
  | .declareName _ => s.ids.nextVar < 2147483647
  | .nameFor l => Known s.ids l ∧ s.tab.names.length < 200000000
  | .add n l => n ≠ staticName ∧ l ≠ .static ∧ Known s.ids l ∧ s.tab.lookupLifetime l = none
  | .rebind n l => l ≠ .static ∧ Known s.ids l ∧ (s.tab.lookupLifetime l = none ∨ s.tab.lookupLifetime l = some n)

/-- A history in which every call meets its preconditions. -/
def OkRun (s : St) : List Op → Prop
  | [] => True
  | o :: os => Ok s o ∧ ∀ s', s.step o = some s' → OkRun s' os

/-! ### Facts that need no preconditions -/

/-- Generated names with a smaller index are taken. -/
def Dense (t : Table) : Prop := ∀ i, i < t.next → nameFromIndex i ∈ AMap.keys t.names

theorem freeIndex_spec (names : List (Name × Lifetime)) : ∀ fuel i j, freeIndex names fuel i = some j →
    i ≤ j ∧ nameFromIndex j ∉ AMap.keys names ∧ ∀ k, i ≤ k → k < j → nameFromIndex k ∈ AMap.keys names := by
  intro fuel
  induction fuel with
  | zero => intro i j h; simp [freeIndex] at h
  | succ f ih =>
    intro i j h
    unfold freeIndex at h
    cases hg : AMap.get? names (nameFromIndex i) with
    | none =>
      rw [hg] at h; simp only [Option.some.injEq] at h; subst h
      exact ⟨Nat.le_refl _, (AMap.get?_eq_none_iff _ _).mp hg, fun k h1 h2 => by omega⟩
    | some v =>
      rw [hg] at h
      obtain ⟨a, b, c⟩ := ih (i + 1) j h
      refine ⟨by omega, b, fun k h1 h2 => ?_⟩
      rcases Nat.lt_or_ge i k with hk | hk
      · exact c k hk h2
      · have : k = i := by omega
        rw [this]; exact (AMap.mem_keys_iff _ _).mpr ⟨v, hg⟩

theorem freeIndex_some (names : List (Name × Lifetime)) : ∀ fuel i, freeIndex names fuel i = none →
    ∀ k, i ≤ k → k < i + fuel → nameFromIndex k ∈ AMap.keys names := by
  intro fuel
  induction fuel with
  | zero => intro i _ k h1 h2; omega
  | succ f ih =>
    intro i h k h1 h2
    unfold freeIndex at h
    cases hg : AMap.get? names (nameFromIndex i) with
    | none => rw [hg] at h; simp at h
    | some v =>
      rw [hg] at h
      rcases Nat.lt_or_ge i k with hk | hk
      · exact ih (i + 1) h k hk (by omega)
      · have : k = i := by omega
        rw [this]; exact (AMap.mem_keys_iff _ _).mpr ⟨v, hg⟩

theorem names_range {K : List Name} {a n : Nat} (h : ∀ k, a ≤ k → k < a + n → nameFromIndex k ∈ K) : n ≤ K.length := by
  have hnd : ((List.range n).map fun k => nameFromIndex (a + k)).Nodup := by
    rw [List.nodup_iff_pairwise_ne, List.pairwise_map]
    refine List.Pairwise.imp ?_ (List.nodup_iff_pairwise_ne.mp List.nodup_range)
    intro x y hxy e; exact hxy (by have := name_inj e; omega)
  have := hnd.length_le_of_subset (l₂ := K) (by
    intro x hx
    obtain ⟨k, hk, rfl⟩ := List.mem_map.mp hx
    exact h _ (by omega) (by have := List.mem_range.mp hk; omega))
  simpa using this

/-- The naming loop always stops. -/
theorem naming_terminates (t : Table) (l : Lifetime) : ∃ r, t.lookupLifetimeAndMaybeDeclare l = some r := by
  unfold Table.lookupLifetimeAndMaybeDeclare
  split
  · exact ⟨_, rfl⟩
  · cases AMap.get? t.lifetimes l with
    | some n => exact ⟨_, rfl⟩
    | none =>
      cases h : freeIndex t.names (t.names.length + 1) t.next with
      | some i => exact ⟨_, rfl⟩
      | none =>
        have := names_range (freeIndex_some _ _ _ h)
        simp only [AMap.keys, List.length_map] at this
        omega

theorem step_dense {s s' : St} {o : Op} (h : s.step o = some s') (d : Dense s.tab) : Dense s'.tab := by
  cases o with
  | newVar => simp only [St.step, Option.some.injEq] at h; subst h; exact d
  | newLocal => simp only [St.step, Option.some.injEq] at h; subst h; exact d
  | declareName n =>
    simp only [St.step, Option.some.injEq] at h; subst h
    unfold Table.lookupNameAndMaybeDeclare
    split
    · exact d
    · split
      · exact d
      · intro i hi; rw [AMap.keys_insert_mem]; exact Or.inr (d i hi)
  | nameFor l =>
    simp only [St.step] at h
    unfold Table.lookupLifetimeAndMaybeDeclare at h
    split at h
    · simp only [Option.map_some, Option.some.injEq] at h; subst h; exact d
    · split at h
      · simp only [Option.map_some, Option.some.injEq] at h; subst h; exact d
      · cases hf : freeIndex s.tab.names (s.tab.names.length + 1) s.tab.next with
        | none => rw [hf] at h; simp at h
        | some j =>
          rw [hf] at h; simp only [Option.map_some, Option.some.injEq] at h; subst h
          obtain ⟨a, b, c⟩ := freeIndex_spec _ _ _ _ hf
          intro i hi
          simp only at hi ⊢
          rw [AMap.keys_insert_mem]
          rcases Nat.lt_or_ge i s.tab.next with h1 | h1
          · exact Or.inr (d i h1)
          · rcases Nat.lt_or_ge i j with h2 | h2
            · exact Or.inr (c i h1 h2)
            · left; rw [show i = j by omega]
  | add n l =>
    simp only [St.step, Table.add] at h
    split at h
    · simp at h
    · simp only [Option.map_some, Option.some.injEq] at h; subst h
      intro i hi; simp only; rw [AMap.keys_insert_mem]; exact Or.inr (d i hi)
  | rebind n l =>
    simp only [St.step, Table.rebind] at h
    split at h
    · simp at h
    · simp only [Option.map_some, Option.some.injEq] at h; subst h
      intro i hi; simp only; rw [AMap.keys_insert_mem]; exact Or.inr (d i hi)

theorem run_dense : ∀ (os : List Op) (s s' : St), s.run os = some s' → Dense s.tab → Dense s'.tab := by
  intro os
  induction os with
  | nil => intro s s' h d; simp only [St.run, Option.some.injEq] at h; subst h; exact d
  | cons o os ih =>
    intro s s' h d
    simp only [St.run, Option.bind_eq_some_iff] at h
    obtain ⟨s1, h1, h2⟩ := h
    exact ih s1 s' h2 (step_dense h1 d)

theorem init_dense : Dense St.init.tab := by intro i hi; simp [St.init, Table.empty] at hi

/-- C45: naming an unnamed lifetime, after any history of calls, gives it the first word of "a", …, "z", "aa", "ab", … that
is not in the table yet, and binds exactly that name. -/
theorem generated_name_is_first_unused (os : List Op) (s : St) (h : St.init.run os = some s) (l : Lifetime)
    (hl : s.tab.lookupLifetime l = none) :
    ∃ n t, s.tab.lookupLifetimeAndMaybeDeclare l = some (n, t) ∧ Word n ∧
      AMap.get? s.tab.names n = none ∧ (∀ w, Word w → Before w n → AMap.get? s.tab.names w ≠ none) ∧
      AMap.get? t.names n = some l ∧ t.lookupLifetime l = some n ∧ (∀ m, m ≠ n → t.lookupName m = s.tab.lookupName m) := by
  have d := run_dense os _ _ h init_dense
  obtain ⟨r, hr⟩ := naming_terminates s.tab l
  unfold Table.lookupLifetime at hl
  split at hl
  · simp at hl
  · rename_i hls
    unfold Table.lookupLifetimeAndMaybeDeclare at hr ⊢
    rw [if_neg hls, hl] at hr ⊢
    simp only at hr ⊢
    cases hf : freeIndex s.tab.names (s.tab.names.length + 1) s.tab.next with
    | none => rw [hf] at hr; simp at hr
    | some j =>
      obtain ⟨a, b, c⟩ := freeIndex_spec _ _ _ _ hf
      refine ⟨_, _, rfl, (name_word j).1, (AMap.get?_eq_none_iff _ _).mpr b, ?_, AMap.get?_insert_self _ _ _, ?_, ?_⟩
      · intro w hw hb
        obtain ⟨i, rfl⟩ := names_enumerate.2.1 w hw
        have hij := (names_enumerate.2.2 i j).mpr hb
        rw [ne_eq, AMap.get?_eq_none_iff, not_not]
        rcases Nat.lt_or_ge i s.tab.next with h1 | h1
        · exact d i h1
        · exact c i h1 hij
      · simp only [Table.lookupLifetime, if_neg hls]; exact AMap.get?_insert_self _ _ _
      · intro m hm
        simp only [Table.lookupName]
        split
        · rfl
        · rw [AMap.get?_insert_ne _ _ (Ne.symm hm)]

/-- C45: looking up a name after a call. A name once in the table stays bound to its lifetime until it is rebound, and
`Rebind` changes that name only; `Add` aborts exactly for names in use, `Rebind` exactly for names not in use. -/
theorem lookup_after (t : Table) (ids : Ids) (n : Name) (l : Lifetime) (m : Name) (hm : m ≠ staticName) (hn : n ≠ staticName) :
    ((t.lookupNameAndMaybeDeclare ids n).1 = (t.lookupName n).getD ⟨ids.nextVar⟩ ∧
      (t.lookupNameAndMaybeDeclare ids n).2.1.lookupName m = if m = n then some (t.lookupNameAndMaybeDeclare ids n).1 else t.lookupName m) ∧
    (match t.add n l with
      | some t' => t.lookupName n = none ∧ t'.lookupName m = if m = n then some l else t.lookupName m
      | none => t.lookupName n ≠ none) ∧
    (match t.rebind n l with
      | some t' => t.lookupName n ≠ none ∧ t'.lookupName m = if m = n then some l else t.lookupName m
      | none => t.lookupName n = none) := by
  have ln : ∀ (t : Table), t.lookupName n = AMap.get? t.names n := fun t => by simp [Table.lookupName, hn]
  have lm : ∀ (t : Table), t.lookupName m = AMap.get? t.names m := fun t => by simp [Table.lookupName, hm]
  refine ⟨?_, ?_, ?_⟩
  · simp only [ln, lm]
    unfold Table.lookupNameAndMaybeDeclare
    rw [if_neg hn]
    cases hg : AMap.get? t.names n with
    | some l' =>
      refine ⟨rfl, ?_⟩
      simp only
      split
      · rename_i e; rw [e, hg]
      · rfl
    | none =>
      refine ⟨rfl, ?_⟩
      simp only [AMap.get?_insert]
      by_cases e : m = n
      · simp [e, createVariable]
      · simp [e, Ne.symm e]
  · unfold Table.add
    cases hg : AMap.get? t.names n with
    | some l' => simp [ln, hg]
    | none =>
      simp only [ln, lm, hg, true_and, AMap.get?_insert]
      by_cases e : m = n
      · simp [e]
      · simp [e, Ne.symm e]
  · unfold Table.rebind
    cases hg : AMap.get? t.names n with
    | none => simp [ln, hg]
    | some l' =>
      simp only [ln, lm, hg, AMap.get?_insert]
      by_cases e : m = n
      · simp [e]
      · simp [e, Ne.symm e]

/-! ### With the preconditions: the two directions agree -/

structure Inv (s : St) : Prop where
  dense : Dense s.tab
  nd1 : (AMap.keys s.tab.names).Nodup
  nd2 : (AMap.keys s.tab.lifetimes).Nodup
  inverse : ∀ n l, AMap.get? s.tab.names n = some l ↔ AMap.get? s.tab.lifetimes l = some n
  noStatic : AMap.get? s.tab.names staticName = none ∧ AMap.get? s.tab.lifetimes .static = none
  known : ∀ n l, AMap.get? s.tab.names n = some l → Known s.ids l
  var : 2 ≤ s.ids.nextVar ∧ s.ids.nextVar ≤ 2147483647
  loc : s.ids.nextLocal ≤ -2 ∧ -2147483648 ≤ s.ids.nextLocal

theorem rank_static : rank staticName = 234916996 := by decide

theorem Inv.next_le {s : St} (i : Inv s) : s.tab.next ≤ s.tab.names.length := by
  have := names_range (K := AMap.keys s.tab.names) (a := 0) (n := s.tab.next) (fun k _ h => i.dense k (by omega))
  simpa [AMap.keys] using this

theorem known_mono {a b : Ids} (h1 : a.nextVar ≤ b.nextVar) (h2 : b.nextLocal ≤ a.nextLocal) {l : Lifetime} (h : Known a l) : Known b l := by
  rcases h with h | ⟨h, h'⟩ | ⟨h, h'⟩
  · exact Or.inl h
  · exact Or.inr (Or.inl ⟨h, by omega⟩)
  · exact Or.inr (Or.inr ⟨by omega, h'⟩)

/-- Binding an unused name to an unused lifetime keeps the invariant. -/
theorem inv_bind {s : St} (i : Inv s) {n : Name} {l : Lifetime} (hn : AMap.get? s.tab.names n = none) (hl : AMap.get? s.tab.lifetimes l = none)
    (hns : n ≠ staticName) (hls : l ≠ .static) {ids : Ids} (hid : Known ids l) (h1 : s.ids.nextVar ≤ ids.nextVar) (h2 : ids.nextLocal ≤ s.ids.nextLocal)
    (hv : ids.nextVar ≤ 2147483647) (hloc : -2147483648 ≤ ids.nextLocal)
    {k : Nat} (hk : ∀ j, j < k → nameFromIndex j = n ∨ nameFromIndex j ∈ AMap.keys s.tab.names) :
    Inv ⟨ids, ⟨AMap.insert s.tab.names n l, AMap.insert s.tab.lifetimes l n, k⟩⟩ := by
  refine ⟨?_, AMap.nodup_insert _ _ _ i.nd1, AMap.nodup_insert _ _ _ i.nd2, ?_, ?_, ?_, ?_, ?_⟩
  · intro j hj; simp only; rw [AMap.keys_insert_mem]; exact hk j hj
  · intro m x
    simp only [AMap.get?_insert]
    by_cases e : n = m
    · subst e
      by_cases e' : l = x
      · subst e'; simp
      · simp only [if_true, Option.some.injEq, if_neg e']
        constructor
        · intro h; exact absurd h e'
        · intro h; rw [← i.inverse, hn] at h; simp at h
    · by_cases e' : l = x
      · subst e'
        simp only [if_neg e, if_true, Option.some.injEq]
        constructor
        · intro h; rw [i.inverse, hl] at h; simp at h
        · intro h; exact absurd h e
      · simp only [if_neg e, if_neg e']; exact i.inverse m x
  · simp only [AMap.get?_insert, if_neg hns, if_neg hls]; exact i.noStatic
  · intro m x h
    simp only [AMap.get?_insert] at h
    split at h
    · simp only [Option.some.injEq] at h; subst h; exact hid
    · exact known_mono h1 h2 (i.known m x h)
  · exact ⟨by have := i.var.1; simp only; omega, hv⟩
  · exact ⟨by have := i.loc.1; simp only; omega, hloc⟩

theorem step_inv {s s' : St} {o : Op} (h : s.step o = some s') (i : Inv s) (ok : Ok s o) : Inv s' := by
  cases o with
  | newVar =>
    simp only [St.step, Option.some.injEq] at h; subst h
    have hb : s.ids.nextVar < 2147483647 := ok
    have hw : (createVariable s.ids).2.nextVar = s.ids.nextVar + 1 := wrap32_id (by have := i.var; omega) (by omega)
    have hl : (createVariable s.ids).2.nextLocal = s.ids.nextLocal := rfl
    refine ⟨i.dense, i.nd1, i.nd2, i.inverse, i.noStatic, fun n l hn => known_mono (by rw [hw]; omega) (by rw [hl]; omega) (i.known n l hn), ?_, ?_⟩
    · simp only [hw]; have := i.var; omega
    · simp only [hl]; exact i.loc
  | newLocal =>
    simp only [St.step, Option.some.injEq] at h; subst h
    have hb : -2147483648 < s.ids.nextLocal := ok
    have hw : (createLocal s.ids).2.nextLocal = s.ids.nextLocal - 1 := wrap32_id (by omega) (by have := i.loc; omega)
    have hl : (createLocal s.ids).2.nextVar = s.ids.nextVar := rfl
    refine ⟨i.dense, i.nd1, i.nd2, i.inverse, i.noStatic, fun n l hn => known_mono (by rw [hl]; omega) (by rw [hw]; omega) (i.known n l hn), ?_, ?_⟩
    · simp only [hl]; exact i.var
    · simp only [hw]; have := i.loc; omega
  | declareName n =>
    simp only [St.step, Option.some.injEq] at h; subst h
    unfold Table.lookupNameAndMaybeDeclare
    split
    · exact i
    · rename_i hns
      cases hg : AMap.get? s.tab.names n with
      | some l => exact i
      | none =>
        simp only
        have hb : s.ids.nextVar < 2147483647 := ok
        have hw : (createVariable s.ids).2.nextVar = s.ids.nextVar + 1 := wrap32_id (by have := i.var; omega) (by omega)
        have hl : (createVariable s.ids).2.nextLocal = s.ids.nextLocal := rfl
        have hid : (createVariable s.ids).1.id = s.ids.nextVar := rfl
        refine inv_bind i hg ?_ hns ?_ ?_ (by rw [hw]; omega) (by rw [hl]; omega) (by rw [hw]; omega) (by rw [hl]; exact i.loc.2) (fun j hj => Or.inr (i.dense j hj))
        · cases hx : AMap.get? s.tab.lifetimes (createVariable s.ids).1 with
          | none => rfl
          | some m =>
            have := i.known m _ ((i.inverse _ _).mpr hx)
            have hv := i.var
            have hlo := i.loc
            rcases this with h | ⟨h, h'⟩ | ⟨h, h'⟩
            · have : (createVariable s.ids).1.id = -1 := by rw [h]; rfl
              omega
            · omega
            · omega
        · intro e
          have : (createVariable s.ids).1.id = -1 := by rw [e]; rfl
          have hv := i.var; omega
        · exact Or.inr (Or.inl ⟨by have := i.var; omega, by omega⟩)
  | nameFor l =>
    obtain ⟨hkn, hlen⟩ := ok
    simp only [St.step] at h
    unfold Table.lookupLifetimeAndMaybeDeclare at h
    split at h
    · simp only [Option.map_some, Option.some.injEq] at h; subst h; exact i
    · rename_i hls
      cases hg : AMap.get? s.tab.lifetimes l with
      | some n => rw [hg] at h; simp only [Option.map_some, Option.some.injEq] at h; subst h; exact i
      | none =>
        rw [hg] at h
        simp only at h
        cases hf : freeIndex s.tab.names (s.tab.names.length + 1) s.tab.next with
        | none => rw [hf] at h; simp at h
        | some j =>
          rw [hf] at h; simp only [Option.map_some, Option.some.injEq] at h; subst h
          obtain ⟨a, b, c⟩ := freeIndex_spec _ _ _ _ hf
          have all : ∀ k, k < j → nameFromIndex k ∈ AMap.keys s.tab.names := by
            intro k hk
            rcases Nat.lt_or_ge k s.tab.next with h1 | h1
            · exact i.dense k h1
            · exact c k h1 hk
          have hj : j ≤ s.tab.names.length := by
            have := names_range (K := AMap.keys s.tab.names) (a := 0) (n := j) (fun k _ h => all k (by omega))
            simpa [AMap.keys] using this
          refine inv_bind i ((AMap.get?_eq_none_iff _ _).mpr b) hg ?_ hls hkn (Int.le_refl _) (Int.le_refl _) i.var.2 i.loc.2 ?_
          · intro e
            have := (name_word j).2
            rw [e, rank_static] at this
            omega
          · intro k hk
            rcases Nat.lt_or_ge k j with h1 | h1
            · exact Or.inr (all k h1)
            · left; rw [show k = j by omega]
  | add n l =>
    obtain ⟨hns, hls, hkn, hl⟩ := ok
    simp only [Table.lookupLifetime, if_neg hls] at hl
    simp only [St.step, Table.add] at h
    cases hg : AMap.get? s.tab.names n with
    | some x => rw [hg] at h; simp at h
    | none =>
      rw [hg] at h; simp only [Option.map_some, Option.some.injEq] at h; subst h
      exact inv_bind i hg hl hns hls hkn (Int.le_refl _) (Int.le_refl _) i.var.2 i.loc.2 (fun j hj => Or.inr (i.dense j hj))
  | rebind n l =>
    obtain ⟨hls, hkn, hl⟩ := ok
    simp only [Table.lookupLifetime, if_neg hls] at hl
    simp only [St.step, Table.rebind] at h
    cases hg : AMap.get? s.tab.names n with
    | none => rw [hg] at h; simp at h
    | some old =>
      rw [hg] at h; simp only [Option.map_some, Option.some.injEq] at h; subst h
      have hns : n ≠ staticName := by intro e; rw [e, i.noStatic.1] at hg; simp at hg
      have hinv := (i.inverse n old).mp hg
      refine ⟨?_, AMap.nodup_insert _ _ _ i.nd1, AMap.nodup_insert _ _ _ (AMap.nodup_erase _ _ i.nd2), ?_, ?_, ?_, i.var, i.loc⟩
      · intro j hj; simp only; rw [AMap.keys_insert_mem]; exact Or.inr (i.dense j hj)
      · intro m x
        simp only [AMap.get?_insert, AMap.get?_erase _ _ _ i.nd2]
        by_cases e : n = m
        · subst e
          by_cases e' : l = x
          · subst e'; simp
          · simp only [if_true, Option.some.injEq, if_neg e']
            constructor
            · intro h; exact absurd h e'
            · intro h
              split at h
              · simp at h
              · rename_i e2
                rw [← i.inverse, hg] at h
                simp only [Option.some.injEq] at h
                exact absurd h e2
        · by_cases e' : l = x
          · subst e'
            simp only [if_neg e, if_true, Option.some.injEq]
            constructor
            · intro h
              rw [i.inverse] at h
              rcases hl with hl | hl
              · rw [hl] at h; simp at h
              · rw [hl] at h; simp only [Option.some.injEq] at h; exact h
            · intro h; exact absurd h e
          · simp only [if_neg e, if_neg e']
            rw [i.inverse m x]
            split
            · rename_i e2; rw [← e2, hinv]
              simp only [Option.some.injEq, reduceCtorEq, iff_false]; exact e
            · rfl
      · simp only [AMap.get?_insert, if_neg hns, if_neg hls, AMap.get?_erase _ _ _ i.nd2]
        refine ⟨i.noStatic.1, ?_⟩
        split
        · rfl
        · exact i.noStatic.2
      · intro m x h
        simp only [AMap.get?_insert] at h
        split at h
        · simp only [Option.some.injEq] at h; subst h; exact hkn
        · exact i.known m x h

theorem init_inv : Inv St.init :=
  ⟨init_dense, by simp [St.init, Table.empty, AMap.keys], by simp [St.init, Table.empty, AMap.keys],
   by simp [St.init, Table.empty], by simp [St.init, Table.empty], by simp [St.init, Table.empty], by simp [St.init, Ids.init], by simp [St.init, Ids.init]⟩

theorem run_inv : ∀ (os : List Op) (s s' : St), s.run os = some s' → OkRun s os → Inv s → Inv s' := by
  intro os
  induction os with
  | nil => intro s s' h _ i; simp only [St.run, Option.some.injEq] at h; subst h; exact i
  | cons o os ih =>
    intro s s' h ok i
    simp only [St.run, Option.bind_eq_some_iff] at h
    obtain ⟨s1, h1, h2⟩ := h
    exact ih s1 s' h2 (ok.2 s1 h1) (step_inv h1 i ok.1)

/-- C45: names and lifetimes. After any history that meets the preconditions, the two lookups are inverse to each other:
a name stands for a lifetime iff the lifetime has that name. In particular no two names share a lifetime. -/
theorem lookups_inverse (os : List Op) (s : St) (h : St.init.run os = some s) (ok : OkRun St.init os) (n : Name) (l : Lifetime) :
    s.tab.lookupName n = some l ↔ s.tab.lookupLifetime l = some n := by
  have i := run_inv os _ _ h ok init_inv
  unfold Table.lookupName Table.lookupLifetime
  by_cases hn : n = staticName
  · by_cases hl : l = .static
    · simp [hn, hl]
    · simp only [if_pos hn, if_neg hl, Option.some.injEq]
      constructor
      · intro e; exact absurd e.symm hl
      · intro e; rw [← i.inverse, hn, i.noStatic.1] at e; simp at e
  · by_cases hl : l = .static
    · simp only [if_neg hn, if_pos hl, Option.some.injEq]
      constructor
      · intro e; rw [i.inverse, hl, i.noStatic.2] at e; simp at e
      · intro e; exact absurd e.symm hn
    · simp only [if_neg hn, if_neg hl]; exact i.inverse n l

/-- C45: declaring a new name creates a variable that nothing was called before. -/
theorem declared_is_fresh (os : List Op) (s : St) (h : St.init.run os = some s) (ok : OkRun St.init os) (n : Name)
    (hn : s.tab.lookupName n = none) :
    let r := s.tab.lookupNameAndMaybeDeclare s.ids n
    ¬ Known s.ids r.1 ∧ s.tab.lookupLifetime r.1 = none ∧ r.1.isVariable = true := by
  have i := run_inv os _ _ h ok init_inv
  unfold Table.lookupName at hn
  split at hn
  · simp at hn
  · rename_i hns
    intro r
    have hr : r.1 = ⟨s.ids.nextVar⟩ := by
      show (s.tab.lookupNameAndMaybeDeclare s.ids n).1 = _
      unfold Table.lookupNameAndMaybeDeclare
      rw [if_neg hns, hn]; rfl
    have hv := i.var
    have hlo := i.loc
    have hk : ¬ Known s.ids r.1 := by
      rw [hr]
      rintro (e | ⟨a, b⟩ | ⟨a, b⟩)
      · have : s.ids.nextVar = -1 := congrArg Lifetime.id e
        omega
      · simp only at b; omega
      · simp only at b; omega
    refine ⟨hk, ?_, ?_⟩
    · cases hx : s.tab.lookupLifetime r.1 with
      | none => rfl
      | some m =>
        exfalso; apply hk
        unfold Table.lookupLifetime at hx
        split at hx
        · rename_i e; exact Or.inl e
        · exact i.known m _ ((i.inverse _ _).mpr hx)
    · rw [hr]; simp only [Lifetime.isVariable, decide_eq_true_eq]; omega

/-- Disagreement: rebinding a name to a lifetime that already has another name loses that other name's entry: two names
stand for the lifetime, which has only one of them. -/
theorem rebind_to_used_lifetime : ∃ os s, St.init.run os = some s ∧
    s.tab.lookupName ['x'] = some ⟨2⟩ ∧ s.tab.lookupName ['y'] = some ⟨2⟩ ∧ s.tab.lookupLifetime ⟨2⟩ = some ['y'] :=
  ⟨[.declareName ['x'], .declareName ['y'], .rebind ['y'] ⟨2⟩], _, rfl, by decide, by decide, by decide⟩

theorem run_append (os os' : List Op) (s : St) : s.run (os ++ os') = (s.run os).bind fun s => s.run os' := by
  induction os generalizing s with
  | nil => rfl
  | cons o os ih =>
    simp only [List.cons_append, St.run]
    cases s.step o with
    | none => rfl
    | some s1 => simp only [Option.bind_some]; exact ih s1

theorem name_many : ∀ n : Nat, n < 2147483640 → ∃ os s, St.init.run os = some s ∧ s.tab.next = n ∧ s.ids.nextVar = 2 + n ∧
    (∀ w, w ∈ AMap.keys s.tab.names → ∃ i, i < n ∧ w = nameFromIndex i) ∧
    (∀ l n', AMap.get? s.tab.lifetimes l = some n' → l.id < 2 + n) ∧
    (∀ i, i < n → s.tab.lookupLifetime ⟨2 + i⟩ = some (nameFromIndex i)) := by
  intro n
  induction n with
  | zero => intro _; exact ⟨[], St.init, rfl, rfl, rfl, by simp [St.init, Table.empty, AMap.keys], by simp [St.init, Table.empty], by simp⟩
  | succ n ih =>
    intro hn
    obtain ⟨os, s, h1, h2, h3, h4, h5, h6⟩ := ih (by omega)
    have hw : wrap32 (s.ids.nextVar + 1) = 2 + (n + 1 : Nat) := by rw [h3, wrap32_id (by omega) (by omega)]; omega
    have hls : (⟨2 + n⟩ : Lifetime) ≠ .static := by
      intro e; have : (2 + n : Int) = -1 := congrArg Lifetime.id e
      omega
    have hgl : AMap.get? s.tab.lifetimes ⟨2 + n⟩ = none := by
      cases hx : AMap.get? s.tab.lifetimes (⟨2 + n⟩ : Lifetime) with
      | none => rfl
      | some m => have := h5 _ _ hx; simp only at this; omega
    have hfree : freeIndex s.tab.names (s.tab.names.length + 1) s.tab.next = some n := by
      unfold freeIndex
      rw [h2, (AMap.get?_eq_none_iff _ _).mpr]
      intro hm
      obtain ⟨i, hi, e⟩ := h4 _ hm
      have := name_inj e; omega
    refine ⟨os ++ [.newVar, .nameFor ⟨2 + n⟩], ⟨(createVariable s.ids).2, ⟨AMap.insert s.tab.names (nameFromIndex n) ⟨2 + n⟩, AMap.insert s.tab.lifetimes ⟨2 + n⟩ (nameFromIndex n), n + 1⟩⟩, ?_, rfl, hw, ?_, ?_, ?_⟩
    · rw [run_append, h1]
      simp only [Option.bind_some, St.run, St.step, Table.lookupLifetimeAndMaybeDeclare, if_neg hls, hgl, hfree, Option.map_some]
    · intro w hw'
      rw [AMap.keys_insert_mem] at hw'
      rcases hw' with e | e
      · exact ⟨n, by omega, e⟩
      · obtain ⟨i, hi, e⟩ := h4 w e; exact ⟨i, by omega, e⟩
    · intro l n' hg
      simp only [AMap.get?_insert] at hg
      split at hg
      · rename_i e; rw [← e]; simp only; omega
      · have := h5 l n' hg; omega
    · intro i hi
      have hls' : (⟨2 + i⟩ : Lifetime) ≠ .static := by
        intro e; have : (2 + i : Int) = -1 := congrArg Lifetime.id e
        omega
      simp only [Table.lookupLifetime, if_neg hls', AMap.get?_insert, Lifetime.mk.injEq]
      by_cases e : i = n
      · rw [e]; simp
      · rw [if_neg (by omega)]
        have := h6 i (by omega)
        simpa only [Table.lookupLifetime, if_neg hls'] using this

/-- Disagreement: the word "static" is among the generated names. Naming 234916997 lifetimes calls the last of them
"static" — although looking that name up gives 'static. -/
theorem generated_static : ∃ os s l, St.init.run os = some s ∧ l ≠ .static ∧ s.tab.lookupLifetime l = some staticName ∧
    s.tab.lookupName staticName = some .static := by
  obtain ⟨os, s, h, -, -, -, -, h6⟩ := name_many 234916997 (by omega)
  have hw : Word staticName := ⟨by decide, by decide⟩
  have hn : nameFromIndex 234916996 = staticName := by rw [← rank_static, name_rank hw]
  refine ⟨os, s, ⟨2 + (234916996 : Nat)⟩, h, by decide, ?_, by simp [Table.lookupName]⟩
  rw [h6 234916996 (by omega), hn]

/-- Non-vacuity: a history that meets the preconditions. -/
example : ∃ os s, OkRun St.init os ∧ St.init.run os = some s ∧ s.tab.lookupName ['a'] = some ⟨2⟩ ∧ s.tab.lookupLifetime ⟨3⟩ = some ['b'] ∧
    s.tab.lookupName ['q'] = some ⟨-2⟩ := by
  have n0 : nameFromIndex 0 = ['a'] := name_rank (w := ['a']) ⟨by decide, by decide⟩
  have n1 : nameFromIndex 1 = ['b'] := name_rank (w := ['b']) ⟨by decide, by decide⟩
  let s : St := ⟨⟨4, -3⟩, ⟨[(['a'], ⟨2⟩), (['b'], ⟨3⟩), (['q'], ⟨-2⟩)], [(⟨2⟩, ['a']), (⟨3⟩, ['b']), (⟨-2⟩, ['q'])], 2⟩⟩
  have e1 : St.init.step (.declareName ['a']) = some ⟨⟨3, -2⟩, ⟨[(['a'], ⟨2⟩)], [(⟨2⟩, ['a'])], 0⟩⟩ := rfl
  have e2 : St.step ⟨⟨3, -2⟩, ⟨[(['a'], ⟨2⟩)], [(⟨2⟩, ['a'])], 0⟩⟩ .newVar = some ⟨⟨4, -2⟩, ⟨[(['a'], ⟨2⟩)], [(⟨2⟩, ['a'])], 0⟩⟩ := rfl
  have e3 : St.step ⟨⟨4, -2⟩, ⟨[(['a'], ⟨2⟩)], [(⟨2⟩, ['a'])], 0⟩⟩ (.nameFor ⟨3⟩) =
      some ⟨⟨4, -2⟩, ⟨[(['a'], ⟨2⟩), (['b'], ⟨3⟩)], [(⟨2⟩, ['a']), (⟨3⟩, ['b'])], 2⟩⟩ := by
    have f : freeIndex [(['a'], (⟨2⟩ : Lifetime))] 2 0 = some 1 := by simp [freeIndex, n0, n1, AMap.get?]
    simp only [St.step, Table.lookupLifetimeAndMaybeDeclare]
    rw [if_neg (by decide)]
    simp only [AMap.get?, if_neg (show ¬ (⟨2⟩ : Lifetime) = ⟨3⟩ by decide), List.length_singleton, f, Option.map_some, n1]
    rfl
  have e4 : St.step ⟨⟨4, -2⟩, ⟨[(['a'], ⟨2⟩), (['b'], ⟨3⟩)], [(⟨2⟩, ['a']), (⟨3⟩, ['b'])], 2⟩⟩ .newLocal =
      some ⟨⟨4, -3⟩, ⟨[(['a'], ⟨2⟩), (['b'], ⟨3⟩)], [(⟨2⟩, ['a']), (⟨3⟩, ['b'])], 2⟩⟩ := rfl
  have e5 : St.step ⟨⟨4, -3⟩, ⟨[(['a'], ⟨2⟩), (['b'], ⟨3⟩)], [(⟨2⟩, ['a']), (⟨3⟩, ['b'])], 2⟩⟩ (.add ['q'] ⟨-2⟩) = some s := rfl
  refine ⟨[.declareName ['a'], .newVar, .nameFor ⟨3⟩, .newLocal, .add ['q'] ⟨-2⟩], s, ?_, ?_, by decide, by decide, by decide⟩
  · refine ⟨(by decide : (2:Int) < 2147483647), fun s1 h1 => ?_⟩
    rw [e1, Option.some.injEq] at h1; subst h1
    refine ⟨(by decide : (3:Int) < 2147483647), fun s1 h1 => ?_⟩
    rw [e2, Option.some.injEq] at h1; subst h1
    refine ⟨⟨Or.inr (Or.inl ⟨by decide, by decide⟩), by decide⟩, fun s1 h1 => ?_⟩
    rw [e3, Option.some.injEq] at h1; subst h1
    refine ⟨(by decide : (-2147483648:Int) < -2), fun s1 h1 => ?_⟩
    rw [e4, Option.some.injEq] at h1; subst h1
    refine ⟨⟨by decide, by decide, Or.inr (Or.inr ⟨by decide, by decide⟩), by decide⟩, fun s1 h1 => ?_⟩
    trivial
  · simp only [St.run, e1, e2, e3, e4, e5, Option.bind_some]

end Verif.Lifetimes

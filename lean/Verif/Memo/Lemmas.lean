import Verif.Memo.Spec
/- Invariants of the memoised database. -/
namespace Verif.Memo
open Verif
variable {K V : Type} [DecidableEq K]

def countYes (a : List (K × Bool)) : Nat := a.countP (fun p => p.2)

theorem countYes_insert_absent (a : List (K × Bool)) (k : K) (h : AMap.get? a k = none) :
    countYes (AMap.insert a k false) = countYes a := by
  induction a with
  | nil => rfl
  | cons p a ih =>
    obtain ⟨x, b⟩ := p
    simp only [AMap.get?] at h
    split at h
    · simp at h
    · rename_i hx
      simp only [AMap.insert, hx, if_false]
      have := ih h
      simp only [countYes, List.countP_cons] at this ⊢
      omega

theorem countYes_set (a : List (K × Bool)) (k : K) (b : Bool) (h : AMap.get? a k = some b) :
    countYes (AMap.insert a k true) = countYes a + (if b then 0 else 1) := by
  induction a with
  | nil => simp at h
  | cons p a ih =>
    obtain ⟨x, c⟩ := p
    simp only [AMap.get?] at h
    split at h
    · rename_i hx
      simp only [Option.some.injEq] at h
      subst h
      simp only [AMap.insert, hx, if_true, countYes, List.countP_cons]
      cases c <;> simp
    · rename_i hx
      simp only [AMap.insert, hx, if_false]
      have := ih h
      simp only [countYes, List.countP_cons] at this ⊢
      omega

theorem countYes_erase (a : List (K × Bool)) (k : K) (b : Bool) (h : AMap.get? a k = some b) :
    countYes (AMap.erase a k) + (if b then 1 else 0) = countYes a := by
  induction a with
  | nil => simp at h
  | cons p a ih =>
    obtain ⟨x, c⟩ := p
    simp only [AMap.get?] at h
    split at h
    · rename_i hx
      simp only [Option.some.injEq] at h
      subst h
      simp only [AMap.erase, hx, if_true, countYes, List.countP_cons]
    · rename_i hx
      simp only [AMap.erase, hx, if_false]
      have := ih h
      simp only [countYes, List.countP_cons] at this ⊢
      omega

theorem countYes_pos_of_get? (a : List (K × Bool)) (k : K) (h : AMap.get? a k = some true) : 0 < countYes a := by
  have := countYes_erase a k true h
  simp at this; omega

theorem exists_yes (a : List (K × Bool)) (hn : (AMap.keys a).Nodup) (h : 0 < countYes a) :
    ∃ k, AMap.get? a k = some true := by
  simp only [countYes, List.countP_pos_iff] at h
  obtain ⟨⟨k, b⟩, hm, hb⟩ := h
  simp only at hb; subst hb
  exact ⟨k, AMap.get?_of_mem a hn hm⟩

/-- Bookkeeping invariant. -/
structure Inv (s : St K V) : Prop where
  nodup : (AMap.keys s.active).Nodup
  count : s.unwinding = countYes s.active

theorem Inv.zero_iff {s : St K V} (h : Inv s) : s.unwinding = 0 ↔ ∀ a, AMap.get? s.active a ≠ some true := by
  constructor
  · intro h0 a ha
    have := countYes_pos_of_get? _ _ ha
    rw [← h.count] at this; omega
  · intro ha
    rcases Nat.eq_zero_or_pos s.unwinding with h0 | h0
    · exact h0
    · rw [h.count] at h0
      obtain ⟨k, hk⟩ := exists_yes _ h.nodup h0
      exact absurd hk (ha k)

theorem Inv.init : Inv (St.init : St K V) := ⟨by simp [St.init, AMap.keys], rfl⟩

/-- What any completed piece of execution guarantees. -/
structure Frame (s s' : St K V) : Prop where
  keys : AMap.keys s'.active = AMap.keys s.active
  mono : ∀ a, AMap.get? s.active a = some true → AMap.get? s'.active a = some true
  memo : ∀ j w, AMap.get? s.memo j = some w → AMap.get? s'.memo j = some w
  runs : ∃ l, s'.runs = l ++ s.runs ∧ ∀ j ∈ l, AMap.get? s.memo j = none ∧ j ∉ AMap.keys s.active
  hits : ∃ h, s'.hits = h ++ s.hits ∧ (∀ a ∈ h, a ∈ AMap.keys s.active → AMap.get? s'.active a = some true) ∧
    (∀ a, AMap.get? s'.active a = some true → AMap.get? s.active a = some true ∨ a ∈ h)
  frozen : ∀ j ∈ AMap.keys s.active, AMap.get? s'.memo j = AMap.get? s.memo j

theorem Frame.refl (s : St K V) : Frame s s :=
  ⟨rfl, fun _ h => h, fun _ _ h => h, ⟨[], rfl, by simp⟩, ⟨[], rfl, by simp, fun _ h => .inl h⟩, fun _ _ => rfl⟩

theorem Frame.trans {s1 s2 s3 : St K V} (h1 : Frame s1 s2) (h2 : Frame s2 s3) : Frame s1 s3 := by
  obtain ⟨l1, a1, a2⟩ := h1.runs
  obtain ⟨l2, b1, b2⟩ := h2.runs
  obtain ⟨g1, c1, c2, c3⟩ := h1.hits
  obtain ⟨g2, d1, d2, d3⟩ := h2.hits
  refine ⟨h2.keys.trans h1.keys, fun a h => h2.mono a (h1.mono a h), fun j w h => h2.memo j w (h1.memo j w h),
    ⟨l2 ++ l1, by rw [b1, a1]; simp, ?_⟩, ⟨g2 ++ g1, by rw [d1, c1]; simp, ?_, ?_⟩,
    fun j hj => (h2.frozen j (h1.keys ▸ hj)).trans (h1.frozen j hj)⟩
  · intro j hj
    rcases List.mem_append.1 hj with hj | hj
    · refine ⟨?_, h1.keys ▸ (b2 j hj).2⟩
      cases hm : AMap.get? s1.memo j with
      | none => rfl
      | some w => have := h1.memo j w hm; rw [(b2 j hj).1] at this; simp at this
    · exact a2 j hj
  · intro a ha hk
    rcases List.mem_append.1 ha with ha | ha
    · exact d2 a ha (h1.keys ▸ hk)
    · exact h2.mono a (c2 a ha hk)
  · intro a ha
    rcases d3 a ha with h | h
    · rcases c3 a h with h | h
      · exact .inl h
      · exact .inr (by simp [h])
    · exact .inr (by simp [h])

/-- Outcomes that are excluded. -/
def Out.Good {α : Type} : Out α → Prop
  | .internalPanic => False
  | .underflow => False
  | _ => True

theorem erase_keys_append (l : List K) (k : K) (h : k ∉ l) : (l ++ [k]).erase k = l := by
  rw [List.erase_append_right _ h]; simp

/-- Facts about a call that has a body run. -/
theorem call_frame (sys : Sys K V) (n : Nat) : ∀ (k : K) (s : St K V), Inv s →
    (call sys n k s).Good ∧ ∀ v s', call sys n k s = .ok (v, s') → Inv s' ∧ Frame s s' ∧
      (s'.unwinding = 0 → ¬ InProgress s k → Cached s' k v) := by
  induction n with
  | zero => intro k s _; exact ⟨trivial, by simp [call]⟩
  | succ n ih =>
    have hrun : ∀ (p : Prog K V) (s : St K V), Inv s → (run (call sys n) p s).Good ∧
        ∀ v s', run (call sys n) p s = .ok (v, s') → Inv s' ∧ Frame s s' := by
      intro p
      induction p with
      | ret v =>
        intro s hs
        refine ⟨trivial, ?_⟩
        intro w s' h
        simp only [run, Out.ok.injEq, Prod.mk.injEq] at h
        obtain ⟨-, rfl⟩ := h
        exact ⟨hs, Frame.refl _⟩
      | ask k c ihp =>
        intro s hs
        obtain ⟨g, f⟩ := ih k s hs
        simp only [run]
        cases hc : call sys n k s with
        | ok r =>
          obtain ⟨v, s1⟩ := r
          obtain ⟨i1, f1, -⟩ := f v s1 hc
          obtain ⟨g2, f2⟩ := ihp v s1 i1
          refine ⟨g2, ?_⟩
          intro w s' h
          obtain ⟨i2, f3⟩ := f2 w s' h
          exact ⟨i2, f1.trans f3⟩
        | more => exact ⟨trivial, by simp⟩
        | cyclePanic => exact ⟨trivial, by simp⟩
        | internalPanic => rw [hc] at g; exact absurd g id
        | underflow => rw [hc] at g; exact absurd g id
    intro k s hs
    simp only [call]
    cases hm : AMap.get? s.memo k with
    | some v =>
      refine ⟨trivial, ?_⟩
      intro w s' h
      simp only [Out.ok.injEq, Prod.mk.injEq] at h
      obtain ⟨rfl, rfl⟩ := h
      exact ⟨hs, Frame.refl _, fun _ _ => hm⟩
    | none =>
      cases ha : AMap.get? s.active k with
      | some found =>
        have hkm : k ∈ AMap.keys s.active := (AMap.mem_keys_iff _ _).2 ⟨_, ha⟩
        simp only [hitCycle]
        cases hd : sys.onCycle k with
        | none => exact ⟨trivial, by simp⟩
        | some d =>
          refine ⟨trivial, ?_⟩
          intro w s' h
          simp only [Out.ok.injEq, Prod.mk.injEq] at h
          obtain ⟨rfl, rfl⟩ := h
          refine ⟨⟨?_, ?_⟩, ⟨?_, ?_, ?_, ?_, ?_, fun _ _ => by cases found <;> rfl⟩, ?_⟩
          · simp only
            cases found <;> simp only [if_true, if_false, Bool.false_eq_true] <;>
            exact AMap.nodup_insert _ _ _ hs.nodup
          · cases found
            · simp [countYes_set _ _ _ ha, hs.count]
            · simp [countYes_set _ _ _ ha, hs.count]
          · cases found <;> simp only [if_true, if_false, Bool.false_eq_true] <;>
            exact AMap.keys_insert_of_mem _ _ _ hkm
          · intro a h
            cases found <;> simp only [if_true, if_false, Bool.false_eq_true, AMap.get?_insert] <;> split <;>
              first | rfl | exact h
          · intro j w h; cases found <;> exact h
          · cases found <;> exact ⟨[], rfl, by simp⟩
          · refine ⟨[k], by cases found <;> rfl, ?_, ?_⟩
            · intro a h _
              simp only [List.mem_singleton] at h; subst h
              cases found <;> exact AMap.get?_insert_self _ _ _
            · intro a h
              have h' : AMap.get? (AMap.insert s.active k true) a = some true := by cases found <;> exact h
              by_cases hak : k = a
              · exact .inr (by simp [hak])
              · rw [AMap.get?_insert_ne _ _ hak] at h'; exact .inl h'
          · intro _ hip; exact absurd hkm hip
      | none =>
        have hkm : k ∉ AMap.keys s.active := (AMap.get?_eq_none_iff _ _).1 ha
        have i0 : Inv ({ s with active := AMap.insert s.active k false, runs := k :: s.runs } : St K V) :=
          ⟨AMap.nodup_insert _ _ _ hs.nodup, by simp [countYes_insert_absent _ _ ha, hs.count]⟩
        obtain ⟨g, f⟩ := hrun (sys.body k) _ i0
        simp only
        cases hr : run (call sys n) (sys.body k) { s with active := AMap.insert s.active k false, runs := k :: s.runs } with
        | more => exact ⟨trivial, by simp⟩
        | cyclePanic => exact ⟨trivial, by simp⟩
        | internalPanic => rw [hr] at g; exact absurd g id
        | underflow => rw [hr] at g; exact absurd g id
        | ok r =>
          obtain ⟨v, s1⟩ := r
          obtain ⟨i1, f1⟩ := f v s1 hr
          have hk1 : AMap.keys s1.active = AMap.keys s.active ++ [k] := by
            rw [f1.keys]; exact AMap.keys_insert_of_not_mem _ _ _ hkm
          have hkin : k ∈ AMap.keys s1.active := by rw [hk1]; simp
          obtain ⟨found, hf⟩ := (AMap.mem_keys_iff _ _).1 hkin
          have hce := countYes_erase _ _ _ hf
          have hcnt := i1.count
          have hkeys : AMap.keys (AMap.erase s1.active k) = AMap.keys s.active := by
            rw [AMap.keys_erase, hk1, erase_keys_append _ _ hkm]
          have hne : ∀ a, a ∈ AMap.keys s.active → k ≠ a := fun a h e => hkm (e ▸ h)
          -- the state after `finish`
          have key : ∃ s', finish k v s1 = .ok (v, s') ∧ s'.active = AMap.erase s1.active k ∧
              s'.unwinding = countYes (AMap.erase s1.active k) ∧ s'.runs = s1.runs ∧ s'.hits = s1.hits ∧
              s'.memo = (if s'.unwinding = 0 then AMap.insert s1.memo k v else s1.memo) := by
            simp only [finish, hf]
            cases found with
            | false =>
              simp only [Bool.false_and, Bool.false_eq_true, if_false] at hce ⊢
              refine ⟨_, rfl, ?_⟩
              by_cases h0 : s1.unwinding = 0 <;> simp [h0] <;> omega
            | true =>
              simp only [if_true] at hce
              have hpos : s1.unwinding ≠ 0 := by omega
              simp only [Bool.true_and, beq_iff_eq, hpos, if_false, if_true]
              refine ⟨_, rfl, ?_⟩
              by_cases h0 : s1.unwinding - 1 = 0 <;> simp [h0] <;> omega
          obtain ⟨s', e0, e1, e2, e3, e4, e5⟩ := key
          simp only [e0]
          refine ⟨trivial, ?_⟩
          intro w s'' h
          simp only [Out.ok.injEq, Prod.mk.injEq] at h
          obtain ⟨rfl, rfl⟩ := h
          have hmemo : ∀ j w, AMap.get? s1.memo j = some w → k ≠ j → AMap.get? s'.memo j = some w := by
            intro j w h hj
            rw [e5]; split
            · rw [AMap.get?_insert_ne _ _ hj]; exact h
            · exact h
          obtain ⟨l1, a1, a2⟩ := f1.runs
          obtain ⟨g1, c1, c2, c3⟩ := f1.hits
          refine ⟨⟨by rw [e1]; exact AMap.nodup_erase _ _ i1.nodup, by rw [e1, e2]⟩, ⟨?_, ?_, ?_, ?_, ?_, ?_⟩, ?_⟩
          · rw [e1]; exact hkeys
          · intro a h
            have hak : k ≠ a := hne a ((AMap.mem_keys_iff _ _).2 ⟨_, h⟩)
            rw [e1, AMap.get?_erase_ne _ hak]
            exact f1.mono a (by simp only; rw [AMap.get?_insert_ne _ _ hak]; exact h)
          · intro j w h
            refine hmemo j w (f1.memo j w h) ?_
            rintro rfl; rw [hm] at h; simp at h
          · refine ⟨l1 ++ [k], by rw [e3, a1]; simp, ?_⟩
            intro j hj
            rcases List.mem_append.1 hj with hj | hj
            · refine ⟨(a2 j hj).1, fun hk => (a2 j hj).2 ?_⟩
              exact (AMap.keys_insert_mem _ _ _ _).2 (.inr hk)
            · simp only [List.mem_singleton] at hj; subst hj; exact ⟨hm, hkm⟩
          · refine ⟨g1, by rw [e4, c1], ?_, ?_⟩
            · intro a h hk
              rw [e1, AMap.get?_erase_ne _ (hne a hk)]
              exact c2 a h ((AMap.keys_insert_mem _ _ _ _).2 (.inr hk))
            · intro a h
              rw [e1] at h
              have hmem : a ∈ AMap.keys s.active := by
                rw [← hkeys]; exact (AMap.mem_keys_iff _ _).2 ⟨_, h⟩
              rw [AMap.get?_erase_ne _ (hne a hmem)] at h
              rcases c3 a h with h | h
              · simp only at h; rw [AMap.get?_insert_ne _ _ (hne a hmem)] at h; exact .inl h
              · exact .inr h
          · intro j hj
            have hj1 : AMap.get? s1.memo j = AMap.get? s.memo j :=
              f1.frozen j ((AMap.keys_insert_mem _ _ _ _).2 (.inr hj))
            rw [e5, ← hj1]
            split
            · exact AMap.get?_insert_ne _ _ (hne j hj)
            · rfl
          · intro h0 _
            show AMap.get? s'.memo k = some v
            rw [e5, if_pos h0, AMap.get?_insert_self]

end Verif.Memo

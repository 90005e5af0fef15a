import Verif.Iter.Model

/-
Rust iterators used from C++ (C173).
-/

namespace Verif.Iter

variable {σ α : Type} {nx : Next σ α}

/-- The adapter after `n` increments, with its element moved out or not -/
def At (nx : Next σ α) (s : σ) (n : Nat) (t : Bool) (A : Adapter σ α) : Prop :=
  A.source = after nx s (n + 1) ∧
  A.current = (nth nx s n).map (fun a => if t then .moved else .full a) ∧
  A.gone = (List.range (if t then n + 1 else n)).filterMap (nth nx s)

theorem at_new (s : σ) : At nx s 0 false (Adapter.new nx s) := by
  refine ⟨rfl, ?_, rfl⟩
  show ((nx s).1).map Cell.full = _
  rfl

theorem range_succ_nth (s : σ) (n : Nat) : (List.range (n + 1)).filterMap (nth nx s) =
    (List.range n).filterMap (nth nx s) ++ (nth nx s n).toList := by
  rw [List.range_succ, List.filterMap_append]
  congr 1

theorem at_gone {s : σ} {n : Nat} {t : Bool} {A : Adapter σ α} (h : At nx s n t A) :
    A.gone ++ Cell.dropped A.current = (List.range (n + 1)).filterMap (nth nx s) := by
  obtain ⟨-, h2, h3⟩ := h
  rw [h2, h3]
  cases t
  · rw [range_succ_nth]
    cases nth nx s n <;> rfl
  · cases nth nx s n <;> simp [Cell.dropped]

theorem at_next {s : σ} {n : Nat} {t : Bool} {A : Adapter σ α} (h : At nx s n t A) :
    At nx s (n + 1) false (A.next nx) := by
  have hg := at_gone h
  obtain ⟨h1, h2, h3⟩ := h
  refine ⟨?_, ?_, hg⟩
  · show (nx A.source).2 = _
    rw [h1]; rfl
  · show (nx A.source).1.map Cell.full = _
    rw [h1]
    rfl

theorem run_spec (s : σ) : ∀ (ops : List Op) (n : Nat) (t : Bool) (A : Adapter σ α), At nx s n t A →
    (A.run nx ops).1 = expected nx s n t ops ∧ ∃ t', At nx s (n + incs ops) t' (A.run nx ops).2
  | [], n, t, A, h => ⟨rfl, t, h⟩
  | .inc :: ops, n, t, A, h => by
      obtain ⟨h1, t', h2⟩ := run_spec s ops (n + 1) false (A.next nx) (at_next h)
      refine ⟨?_, t', ?_⟩
      · show Obs.none :: ((A.next nx).run nx ops).1 = _
        rw [h1]; rfl
      · have : n + incs (.inc :: ops) = n + 1 + incs ops := by
          unfold incs
          rw [List.filter_cons_of_pos (by decide), List.length_cons]
          omega
        rw [this]
        exact h2
  | .deref :: ops, n, t, A, h => by
      obtain ⟨h1, t', h2⟩ := run_spec s ops n t A h
      refine ⟨?_, t', h2⟩
      show A.deref :: (A.run nx ops).1 = _
      rw [h1, expected]
      congr 1
      unfold Adapter.deref
      rw [h.2.1]
      cases nth nx s n <;> cases t <;> rfl
  | .isEnd :: ops, n, t, A, h => by
      obtain ⟨h1, t', h2⟩ := run_spec s ops n t A h
      refine ⟨?_, t', h2⟩
      show Obs.isEnd A.isEnd :: (A.run nx ops).1 = _
      rw [h1, expected]
      congr 2
      unfold Adapter.isEnd
      rw [h.2.1]
      cases nth nx s n <;> rfl
  | .take :: ops, n, t, A, h => by
      have hA : At nx s n true A.take.2 ∧ A.take.1 = (match nth nx s n with
          | some a => if t then .moved else .got a
          | none => .error) := by
        obtain ⟨h1, h2, h3⟩ := h
        unfold Adapter.take
        cases hn : nth nx s n with
        | none =>
          rw [hn] at h2
          rw [h2]
          refine ⟨⟨h1, by rw [hn]; exact h2, ?_⟩, rfl⟩
          show A.gone = _
          rw [h3, if_pos rfl]
          cases t
          · rw [range_succ_nth, hn]; simp
          · rfl
        | some a =>
          rw [hn] at h2
          cases t
          · rw [h2]
            refine ⟨⟨h1, by rw [hn]; rfl, ?_⟩, rfl⟩
            show A.gone ++ [a] = _
            rw [h3, if_pos rfl, range_succ_nth, hn]
            rfl
          · rw [h2]
            exact ⟨⟨h1, by rw [hn]; exact h2, h3⟩, rfl⟩
      obtain ⟨h1, t', h2⟩ := run_spec s ops n true A.take.2 hA.1
      refine ⟨?_, t', h2⟩
      show A.take.1 :: (A.take.2.run nx ops).1 = _
      rw [h1, hA.2]
      rfl

/-- C173: Whatever C++ code does with the adapter, it sees the results of `next()`, in order; moved-from elements only after
it has moved them out itself, and an error only where Rust has returned `None`. -/
theorem adapter_observes (s : σ) (ops : List Op) :
    ((Adapter.new nx s).run nx ops).1 = expected nx s 0 false ops :=
  (run_spec s ops 0 false _ (at_new s)).1

/-- C173: `next()` has been called once more than the adapter has been incremented. -/
theorem adapter_source (s : σ) (ops : List Op) :
    ((Adapter.new nx s).run nx ops).2.source = after nx s (incs ops + 1) := by
  obtain ⟨t, h, -⟩ := (run_spec s ops 0 false _ (at_new (nx := nx) s)).2
  rw [h, Nat.zero_add]

/-- C173: At the end every element that `next()` has returned has been dropped or given to the user exactly once. -/
theorem adapter_drops (s : σ) (ops : List Op) :
    ((Adapter.new nx s).run nx ops).2.destroy = (List.range (incs ops + 1)).filterMap (nth nx s) := by
  obtain ⟨t, h⟩ := (run_spec s ops 0 false _ (at_new (nx := nx) s)).2
  have := at_gone h
  rw [Nat.zero_add] at this
  exact this

/-- C173: A C++ loop does what the Rust loop does. -/
theorem loop_same (s : σ) (l : List α) :
    (∃ s', RustFor nx s l s') ↔ ∃ A', CppFor nx (Adapter.new nx s) l A' := by
  have key : ∀ (l : List α) (s : σ) (A : Adapter σ α), A.source = (nx s).2 → A.current = (nx s).1.map Cell.full →
      ((∃ s', RustFor nx s l s') ↔ ∃ A', CppFor nx A l A') := by
    intro l
    induction l with
    | nil =>
      intro s A h1 h2
      constructor
      · rintro ⟨s', h⟩
        cases h with
        | done h =>
          refine ⟨A, .done ?_⟩
          unfold Adapter.isEnd
          rw [h2, h]; rfl
      · rintro ⟨A', h⟩
        cases h with
        | done h =>
          unfold Adapter.isEnd at h
          rw [h2] at h
          refine ⟨(nx s).2, .done ?_⟩
          have : (nx s).1 = none := by
            cases hn : (nx s).1 with
            | none => rfl
            | some a => rw [hn] at h; cases h
          rw [← this]
    | cons a l ih =>
      intro s A h1 h2
      have hn : (A.next nx).source = (nx (nx s).2).2 ∧ (A.next nx).current = (nx (nx s).2).1.map Cell.full := by
        unfold Adapter.next
        rw [h1]
        exact ⟨rfl, rfl⟩
      constructor
      · rintro ⟨s', h⟩
        cases h with
        | step h hr =>
          rw [h] at hn h2
          obtain ⟨A', hc⟩ := (ih _ _ hn.1 hn.2).mp ⟨s', hr⟩
          refine ⟨A', .step ?_ ?_ hc⟩
          · unfold Adapter.isEnd; rw [h2]; rfl
          · unfold Adapter.deref; rw [h2]; rfl
      · rintro ⟨A', h⟩
        cases h with
        | step hb hd hc =>
          obtain ⟨s', hr⟩ := (ih _ _ hn.1 hn.2).mpr ⟨A', hc⟩
          refine ⟨s', .step ?_ hr⟩
          unfold Adapter.deref at hd
          rw [h2] at hd
          cases hx : (nx s).1 with
          | none => rw [hx] at hd; cases hd
          | some b =>
            rw [hx] at hd
            have : b = a := by simpa using hd
            rw [← this, ← hx]
  exact key l s _ rfl rfl

/-! ### Examples -/

/-- An iterator that counts down, and starts again after the end. -/
def down : Next Nat Nat := fun s => match s with
  | 0 => (none, 2)
  | s + 1 => (some s, s)

example : ((Adapter.new down 2).run down [.isEnd, .deref, .inc, .take, .deref, .inc, .isEnd, .deref]).1 =
    [.isEnd false, .val 1, .none, .got 0, .moved, .none, .isEnd true, .error] := by decide +kernel

example : ((Adapter.new down 2).run down [.take, .inc]).2.destroy = [1, 0] := by decide +kernel

example : RustFor down 2 [1, 0] 2 := .step rfl (.step rfl (.done rfl))

/-- An adapter that is at the end and is incremented goes on, if the iterator is not fused (a C++ program must not do this). -/
theorem not_fused : ((Adapter.new down 0).run down [.isEnd, .inc, .isEnd]).1 = [.isEnd true, .none, .isEnd false] := by
  decide +kernel

end Verif.Iter

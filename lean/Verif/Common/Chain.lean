/- Following a partial function until it is undefined: used for substitution chains and union-find parents. -/
namespace Verif.Chain

variable {α : Type}

/-- Follow `step` until it is undefined; `none` if that takes more than `fuel` steps. -/
def chase (step : α → Option α) : Nat → α → Option α
  | fuel, l => match step l, fuel with
    | none, _ => some l
    | some _, 0 => none
    | some q, n + 1 => chase step n q

/-- From `l`, `n` steps lead to `r`, where `step` is undefined. -/
inductive Ends (step : α → Option α) : α → Nat → α → Prop
  | stop {l} : step l = none → Ends step l 0 l
  | next {l q n r} : step l = some q → Ends step q n r → Ends step l (n + 1) r

theorem Ends.end_stops {step : α → Option α} {l n r} (h : Ends step l n r) : step r = none := by
  induction h with
  | stop h => exact h
  | next _ _ ih => exact ih

theorem Ends.unique {step : α → Option α} {l n r m s} (h : Ends step l n r) (h' : Ends step l m s) : n = m ∧ r = s := by
  induction h generalizing m s with
  | stop h =>
    cases h' with
    | stop => exact ⟨rfl, rfl⟩
    | next h2 _ => rw [h] at h2; simp at h2
  | next h1 _ ih =>
    cases h' with
    | stop h2 => rw [h1] at h2; simp at h2
    | next h2 h3 =>
      rw [h1] at h2; simp only [Option.some.injEq] at h2; subst h2
      obtain ⟨a, b⟩ := ih h3
      exact ⟨by omega, b⟩

theorem chase_eq {step : α → Option α} {l n r} (h : Ends step l n r) : ∀ fuel, n ≤ fuel → chase step fuel l = some r := by
  induction h with
  | stop h => intro fuel _; unfold chase; simp [h]
  | next h1 _ ih =>
    intro fuel hf
    cases fuel with
    | zero => omega
    | succ k => unfold chase; simp only [h1]; exact ih k (by omega)

theorem chase_ends {step : α → Option α} : ∀ fuel l r, chase step fuel l = some r → ∃ n, Ends step l n r := by
  intro fuel
  induction fuel with
  | zero =>
    intro l r h
    unfold chase at h
    cases hs : step l with
    | none => rw [hs] at h; simp only [Option.some.injEq] at h; subst h; exact ⟨0, .stop hs⟩
    | some q => rw [hs] at h; simp at h
  | succ k ih =>
    intro l r h
    unfold chase at h
    cases hs : step l with
    | none => rw [hs] at h; simp only [Option.some.injEq] at h; subst h; exact ⟨0, .stop hs⟩
    | some q =>
      rw [hs] at h
      obtain ⟨n, hn⟩ := ih q r h
      exact ⟨n + 1, .next hs hn⟩

/-- A chain is no longer than the number of points where `step` is defined. -/
theorem ends_bound {step : α → Option α} {K : List α} (hK : ∀ x, step x ≠ none → x ∈ K) {l n r} (h : Ends step l n r) : n ≤ K.length := by
  have : ∃ path : List α, path.length = n ∧ path.Nodup ∧ (∀ x ∈ path, x ∈ K) ∧ ∀ x ∈ path, ∃ m s, m ≤ n ∧ Ends step x m s := by
    induction h with
    | stop h => exact ⟨[], by simp⟩
    | @next l q n r h1 h2 ih =>
      obtain ⟨p, hl, hn, hk, hm⟩ := ih
      refine ⟨l :: p, by simp [hl], ?_, ?_, ?_⟩
      · rw [List.nodup_cons]
        refine ⟨fun hmem => ?_, hn⟩
        obtain ⟨m, s, hle, he⟩ := hm l hmem
        have := (he.unique (.next h1 h2)).1
        omega
      · intro x hx
        rcases List.mem_cons.mp hx with e | e
        · rw [e]; exact hK l (by rw [h1]; simp)
        · exact hk x e
      · intro x hx
        rcases List.mem_cons.mp hx with e | e
        · rw [e]; exact ⟨n + 1, r, Nat.le_refl _, .next h1 h2⟩
        · obtain ⟨m, s, hle, he⟩ := hm x e
          exact ⟨m, s, by omega, he⟩
  obtain ⟨p, hl, hn, hk, -⟩ := this
  rw [← hl]
  exact hn.length_le_of_subset hk

/-- `l` leads to `v`. -/
inductive Leads (step : α → Option α) : α → α → Prop
  | refl (l) : Leads step l l
  | next {l q v} : step l = some q → Leads step q v → Leads step l v

/-- Redirecting `v` to a point where `step` is undefined redirects exactly what led to `v`. -/
theorem ends_redirect [DecidableEq α] {step step' : α → Option α} {v r : α} (hr : step r = none) (hv : v ≠ r)
    (hs : ∀ x, step' x = if x = v then some r else step x) {l n s} (h : Ends step l n s) :
    (Leads step l v → ∃ m, Ends step' l m r) ∧ (¬ Leads step l v → Ends step' l n s) := by
  have hrs : step' r = none := by rw [hs, if_neg (Ne.symm hv)]; exact hr
  induction h with
  | stop h =>
    rename_i l
    by_cases e : l = v
    · subst e
      exact ⟨fun _ => ⟨1, .next (by rw [hs, if_pos rfl]) (.stop hrs)⟩, fun hn => absurd (.refl _) hn⟩
    · refine ⟨fun hl => ?_, fun _ => .stop (by rw [hs, if_neg e]; exact h)⟩
      cases hl with
      | refl => exact absurd rfl e
      | next h2 _ => rw [h] at h2; simp at h2
  | next h1 h2 ih =>
    rename_i l q n s
    by_cases e : l = v
    · subst e
      exact ⟨fun _ => ⟨1, .next (by rw [hs, if_pos rfl]) (.stop hrs)⟩, fun hn => absurd (.refl _) hn⟩
    · have hs' : step' l = some q := by rw [hs, if_neg e]; exact h1
      constructor
      · intro hl
        cases hl with
        | refl => exact absurd rfl e
        | next h3 h4 =>
          rw [h1] at h3; simp only [Option.some.injEq] at h3; subst h3
          obtain ⟨m, hm⟩ := ih.1 h4
          exact ⟨m + 1, .next hs' hm⟩
      · intro hl
        exact .next hs' (ih.2 (fun hh => hl (.next h1 hh)))

end Verif.Chain

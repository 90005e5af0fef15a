import Verif.DynCallable.Spec
import Mathlib.Tactic.ByCases

namespace Verif.DynCallable

theorem WellOwned.nil : WellOwned [] where
  touch pre e post b h := by simp at h
  recv pre e post b h := by simp at h

theorem WellOwned.snoc {l : List Ev} {e : Ev} (h : WellOwned l)
    (h1 : ∀ b, e.touches b = true → owned b l) (h2 : ∀ b, e.acquires b = true → unowned b l) :
    WellOwned (l ++ [e]) := by
  have split : ∀ pre x post, l ++ [e] = pre ++ x :: post →
      (pre = l ∧ x = e) ∨ ∃ post', l = pre ++ x :: post' := by
    intro pre x post heq
    rcases List.eq_nil_or_concat post with rfl | ⟨post', y, rfl⟩
    · have := List.append_inj' heq rfl
      exact .inl ⟨this.1.symm, by simpa using this.2.symm⟩
    · refine .inr ⟨post', ?_⟩
      rw [List.concat_eq_append, ← List.cons_append, ← List.append_assoc] at heq
      exact (List.append_inj' heq rfl).1
  constructor
  · intro pre x post b heq ht
    rcases split _ _ _ heq with ⟨rfl, rfl⟩ | ⟨post', hl⟩
    · exact h1 b ht
    · exact h.touch _ _ _ b hl ht
  · intro pre x post b heq ht
    rcases split _ _ _ heq with ⟨rfl, rfl⟩ | ⟨post', hl⟩
    · exact h2 b ht
    · exact h.recv _ _ _ b hl ht

theorem owned_neutral {l : List Ev} {e : Ev} {b : Nat} (h1 : e.acquires b = false)
    (h2 : e.releases b = false) : owned b (l ++ [e]) ↔ owned b l := by
  simp [owned, h1, h2]

theorem unowned_neutral {l : List Ev} {e : Ev} {b : Nat} (h1 : e.acquires b = false)
    (h2 : e.releases b = false) : unowned b (l ++ [e]) ↔ unowned b l := by
  simp [unowned, h1, h2]

theorem unowned_of_release {l : List Ev} {e : Ev} {b : Nat} (h1 : e.acquires b = false)
    (h2 : e.releases b = true) (h : owned b l) : unowned b (l ++ [e]) := by
  simp [unowned, h1, h2]; exact h

theorem owned_of_acquire {l : List Ev} {e : Ev} {b : Nat} (h1 : e.acquires b = true)
    (h2 : e.releases b = false) (h : unowned b l) : owned b (l ++ [e]) := by
  simp [owned, h1, h2]; exact h

namespace Spec

/-- Invariant: a variable holds `b` exactly when the log says that C++ owns `b`. -/
structure Inv (a : State) : Prop where
  held : ∀ n b, a.cells n = some (.holds b) → owned b a.log ∧ a.atRust b = false
  free : ∀ b, (∀ n, a.cells n ≠ some (.holds b)) → unowned b a.log
  uniq : ∀ n m b, a.cells n = some (.holds b) → a.cells m = some (.holds b) → n = m
  log : WellOwned a.log

theorem inv_init : Inv init where
  held n b h := by simp [init] at h
  free b _ := by simp [init, unowned]
  uniq n m b h := by simp [init] at h
  log := .nil

/-- Same log, cells permuted or emptied of nothing. -/
theorem Inv.same {a a' : State} (h : Inv a) (hlog : a'.log = a.log) (hat : a'.atRust = a.atRust)
    (f : ∀ b, (∃ n, a.cells n = some (.holds b)) → ∃ n, a'.cells n = some (.holds b))
    (g : ∀ n b, a'.cells n = some (.holds b) → ∃ m, a.cells m = some (.holds b))
    (u : ∀ n m b, a'.cells n = some (.holds b) → a'.cells m = some (.holds b) → n = m) : Inv a' where
  held n b hn := by
    obtain ⟨m, hm⟩ := g n b hn
    rw [hlog, hat]; exact h.held _ _ hm
  free b hb := by
    rw [hlog]
    exact h.free b (fun n hn => by obtain ⟨m, hm⟩ := f b ⟨n, hn⟩; exact hb m hm)
  uniq := u
  log := by rw [hlog]; exact h.log

/-- One event that neither acquires nor releases anything. -/
theorem Inv.neutral {a a' : State} {e : Ev} (h : Inv a) (hlog : a'.log = a.log ++ [e])
    (hat : a'.atRust = a.atRust)
    (hc : ∀ n b, a'.cells n = some (.holds b) ↔ a.cells n = some (.holds b))
    (ha : ∀ b, e.acquires b = false) (hr : ∀ b, e.releases b = false)
    (ht : ∀ b, e.touches b = true → ∃ n, a.cells n = some (.holds b)) : Inv a' where
  held n b hn := by
    rw [hlog, hat, owned_neutral (ha b) (hr b)]; exact h.held _ _ ((hc _ _).1 hn)
  free b hb := by
    rw [hlog, unowned_neutral (ha b) (hr b)]
    exact h.free b (fun n hn => hb n ((hc _ _).2 hn))
  uniq n m b hn hm := h.uniq _ _ _ ((hc _ _).1 hn) ((hc _ _).1 hm)
  log := by
    rw [hlog]
    refine h.log.snoc ?_ ?_
    · intro b hb; obtain ⟨n, hn⟩ := ht b hb; exact (h.held _ _ hn).1
    · intro b hb; simp [ha b] at hb

/-- The closure `b`, which `d` held, is released; nobody holds it any more. -/
theorem Inv.release {a a' : State} {e : Ev} {d b : Nat} (h : Inv a) (hd : a.cells d = some (.holds b))
    (hlog : a'.log = a.log ++ [e]) (hat : ∀ b', b' ≠ b → a'.atRust b' = a.atRust b')
    (hc : ∀ n b', a'.cells n = some (.holds b') ↔ a.cells n = some (.holds b') ∧ n ≠ d)
    (ha : ∀ b', e.acquires b' = false) (hr : ∀ b', e.releases b' = true ↔ b' = b)
    (ht : ∀ b', e.touches b' = true ↔ b' = b) : Inv a' where
  held n b' hn := by
    obtain ⟨h1, h2⟩ := (hc _ _).1 hn
    have hne : b' ≠ b := by rintro rfl; exact h2 (h.uniq _ _ _ h1 hd)
    have h3 : e.releases b' = false := by
      cases hx : e.releases b'
      · rfl
      · exact absurd ((hr _).1 hx) hne
    rw [hlog, owned_neutral (ha b') h3, hat _ hne]
    exact h.held _ _ h1
  free b' hb := by
    rw [hlog]
    by_cases e1 : b' = b
    · subst e1; exact unowned_of_release (ha b') ((hr b').2 rfl) (h.held _ _ hd).1
    · have h3 : e.releases b' = false := by
        cases hx : e.releases b'
        · rfl
        · exact absurd ((hr _).1 hx) e1
      rw [unowned_neutral (ha b') h3]
      refine h.free b' (fun n hn => hb n ((hc _ _).2 ⟨hn, ?_⟩))
      rintro rfl; rw [hd] at hn; simp at hn; exact e1 hn.symm
  uniq n m b' hn hm := h.uniq _ _ _ ((hc _ _).1 hn).1 ((hc _ _).1 hm).1
  log := by
    rw [hlog]
    refine h.log.snoc ?_ ?_
    · intro b' hb; rw [(ht b').1 hb]; exact (h.held _ _ hd).1
    · intro b' hb; simp [ha b'] at hb

theorem upd_holds {f : Nat → Option Cell} {d : Nat} {k : Option Cell} (hk : ∀ b, k ≠ some (.holds b))
    (n b : Nat) : Function.update f d k n = some (.holds b) ↔ f n = some (.holds b) ∧ n ≠ d := by
  by_cases e : n = d
  · subst e; simp [hk b]
  · simp [Function.update_apply, e]

theorem inv_recv {a : State} {b o : Nat} (h : Inv a) (ho : a.cells o = none) (hb : a.atRust b = true) :
    Inv { a with
        cells := Function.update a.cells o (some (.holds b)),
        atRust := Function.update a.atRust b false, log := a.log ++ [.recv b] } := by
  have nob : ∀ n, a.cells n ≠ some (.holds b) := by
    intro n hn; have := (h.held _ _ hn).2; simp [hb] at this
  have hc : ∀ n b', Function.update a.cells o (some (.holds b)) n = some (.holds b') →
      (n = o ∧ b' = b) ∨ (n ≠ o ∧ b' ≠ b ∧ a.cells n = some (.holds b')) := by
    intro n b' hn
    by_cases e : n = o
    · subst e; simp at hn; exact .inl ⟨rfl, hn.symm⟩
    · simp [Function.update_apply, e] at hn
      exact .inr ⟨e, by rintro rfl; exact nob _ hn, hn⟩
  constructor
  · intro n b' hn
    rcases hc _ _ hn with ⟨-, rfl⟩ | ⟨-, hne, h1⟩
    · exact ⟨owned_of_acquire (by simp [Ev.acquires]) rfl (h.free _ nob), by simp⟩
    · have := h.held _ _ h1
      refine ⟨(owned_neutral (by simp [Ev.acquires, Ne.symm hne]) rfl).2 this.1, ?_⟩
      simp [Function.update_apply, hne, this.2]
  · intro b' hb'
    have hne : b' ≠ b := by rintro rfl; exact hb' o (by simp)
    rw [unowned_neutral (by simp [Ev.acquires, Ne.symm hne]) rfl]
    refine h.free _ (fun n hn => hb' n ?_)
    have : n ≠ o := by rintro rfl; simp [ho] at hn
    simp [Function.update_apply, this, hn]
  · intro n m b' hn hm
    rcases hc _ _ hn with ⟨h1, h2⟩ | ⟨h1, h2, h3⟩ <;> rcases hc _ _ hm with ⟨h4, h5⟩ | ⟨h4, h5, h6⟩
    · rw [h1, h4]
    · exact absurd h2 h5
    · exact absurd h5 h2
    · exact h.uniq _ _ _ h3 h6
  · refine h.log.snoc ?_ ?_
    · intro b' hx; simp [Ev.touches, Ev.releases] at hx
    · intro b' hx; simp [Ev.acquires] at hx; subst hx; exact h.free _ nob

/-- Emptying a variable: what it held is destroyed. -/
theorem inv_drop {a : State} {d : Nat} {k : Cell} {k' : Option Cell} (h : Inv a)
    (hd : a.cells d = some k) (hk : ∀ b, k' ≠ some (.holds b)) :
    Inv { a with cells := Function.update a.cells d k', log := a.log ++ dropOf k } := by
  have plain : (∀ b, k ≠ .holds b) →
      Inv { a with cells := Function.update a.cells d k', log := a.log } := by
    intro hk2
    refine h.same rfl rfl ?_ ?_ ?_
    · rintro b ⟨n, hn⟩
      refine ⟨n, (upd_holds hk _ _).2 ⟨hn, ?_⟩⟩
      rintro rfl; rw [hd] at hn; simp at hn; exact hk2 b hn
    · intro n b hn; exact ⟨n, ((upd_holds hk _ _).1 hn).1⟩
    · intro n m b hn hm
      exact h.uniq _ _ _ ((upd_holds hk _ _).1 hn).1 ((upd_holds hk _ _).1 hm).1
  cases k with
  | empty => simpa [dropOf] using plain (by intro b; simp)
  | spent => simpa [dropOf] using plain (by intro b; simp)
  | holds b =>
    refine h.release hd (e := .drop b) rfl (fun _ _ => rfl) (upd_holds hk) (fun _ => rfl) ?_ ?_
    · intro b'; simp [Ev.releases]; exact eq_comm
    · intro b'; simp [Ev.touches, Ev.releases]; exact eq_comm

/-- Moving a cell into a variable that holds nothing, and emptying the source. -/
theorem inv_move {a : State} {d r : Nat} {k : Cell} (h : Inv a) (hne : d ≠ r)
    (hd : ∀ b, a.cells d ≠ some (.holds b)) (hr : a.cells r = some k) :
    Inv { a with cells := Function.update (Function.update a.cells d (some k)) r (some .empty) } := by
  have hc : ∀ n b, Function.update (Function.update a.cells d (some k)) r (some .empty) n =
      some (.holds b) → (n = d ∧ a.cells r = some (.holds b)) ∨
        (n ≠ r ∧ n ≠ d ∧ a.cells n = some (.holds b)) := by
    intro n b hn
    obtain ⟨h1, h2⟩ := (upd_holds (by intro b; simp) _ _).1 hn
    by_cases e : n = d
    · subst e; simp at h1; subst h1; exact .inl ⟨rfl, hr⟩
    · simp [Function.update_apply, e] at h1; exact .inr ⟨h2, e, h1⟩
  refine h.same rfl rfl ?_ ?_ ?_
  · rintro b ⟨n, hn⟩
    by_cases e : n = r
    · subst e
      refine ⟨d, (upd_holds (by intro b; simp) _ _).2 ⟨?_, hne⟩⟩
      rw [hr] at hn; simp [hn]
    · refine ⟨n, (upd_holds (by intro b; simp) _ _).2 ⟨?_, e⟩⟩
      have : n ≠ d := by rintro rfl; exact hd _ hn
      simp [Function.update_apply, this, hn]
  · intro n b hn
    rcases hc _ _ hn with ⟨-, h1⟩ | ⟨-, -, h1⟩
    · exact ⟨r, h1⟩
    · exact ⟨n, h1⟩
  · intro n m b hn hm
    rcases hc _ _ hn with ⟨e1, h1⟩ | ⟨e1, e2, h1⟩ <;> rcases hc _ _ hm with ⟨e3, h2⟩ | ⟨e3, e4, h2⟩
    · rw [e1, e3]
    · exact absurd (h.uniq _ _ _ h1 h2) (Ne.symm e3)
    · exact absurd (h.uniq _ _ _ h1 h2) e1
    · exact h.uniq _ _ _ h1 h2

theorem inv_swap {a : State} {x y : Nat} {kx ky : Cell} (h : Inv a)
    (hx : a.cells x = some kx) (hy : a.cells y = some ky) :
    Inv { a with cells := Function.update (Function.update a.cells x (some ky)) y (some kx) } := by
  let p : Nat → Nat := fun n => if n = x then y else if n = y then x else n
  have pp : ∀ n, p (p n) = n := by
    intro n; simp only [p]
    by_cases e : n = x <;> by_cases e2 : n = y <;> by_cases e3 : y = x <;> simp_all
  have cells : ∀ n, Function.update (Function.update a.cells x (some ky)) y (some kx) n =
      a.cells (p n) := by
    intro n
    by_cases e : n = y <;> by_cases e2 : n = x
    · subst e; subst e2; simp [hx, p]
    · have e3 : ¬ y = x := fun h => e2 (e.trans h)
      subst e; simp [hx, e3, p]
    · subst e2; simp [Function.update_apply, e, hy, p]
    · simp [Function.update_apply, e, e2, p]
  refine h.same rfl rfl ?_ ?_ ?_
  · rintro b ⟨n, hn⟩; exact ⟨p n, by simp only; rw [cells, pp]; exact hn⟩
  · intro n b hn; simp only [cells] at hn; exact ⟨_, hn⟩
  · intro n m b hn hm
    simp only [cells] at hn hm
    have := congrArg p (h.uniq _ _ _ hn hm)
    rwa [pp, pp] at this

theorem inv_step {a a' : State} {q : Qual} {op : Op} (h : Inv a) (hs : step q a op = .ok a') : Inv a' := by
  cases op with
  | recv b o =>
    simp only [step] at hs
    split at hs
    · next h1 h2 => cases hs; exact inv_recv h h1 h2
    · simp at hs
  | default o =>
    simp only [step] at hs
    split at hs
    · next h1 =>
      cases hs
      have hk : ∀ b, some Cell.empty ≠ some (Cell.holds b) := by intro b; simp
      refine h.same rfl rfl ?_ ?_ ?_
      · rintro b ⟨n, hn⟩
        exact ⟨n, (upd_holds hk _ _).2 ⟨hn, by rintro rfl; simp [h1] at hn⟩⟩
      · intro n b hn; exact ⟨n, ((upd_holds hk _ _).1 hn).1⟩
      · intro n m b hn hm
        exact h.uniq _ _ _ ((upd_holds hk _ _).1 hn).1 ((upd_holds hk _ _).1 hm).1
    · simp at hs
  | moveCtor d r =>
    simp only [step] at hs
    split at hs
    · next h1 h2 =>
      cases hs
      exact inv_move h (by rintro rfl; simp [h1] at h2) (by simp [h1]) h2
    · simp at hs
  | moveAssign d r =>
    simp only [step] at hs
    split at hs
    · next old k h1 h2 =>
      split at hs
      · next e =>
        split at hs
        · simp at hs
        · next hno =>
          cases hs
          have := inv_drop (k' := some .empty) h h1 (by intro b; simp)
          cases old with
          | holds b => exact absurd rfl (hno b)
          | empty => simpa [dropOf] using this
          | spent => simpa [dropOf] using this
      · next e =>
        cases hs
        have h3 := inv_drop (k' := some .empty) h h1 (by intro b; simp)
        have h4 := inv_move (d := d) (r := r) (k := k) h3 e (by intro b; simp)
          (by simp [Function.update_apply, Ne.symm e, h2])
        simpa using h4
    · simp at hs
  | swap x y =>
    simp only [step] at hs
    split at hs
    · next h1 h2 => cases hs; exact inv_swap h h1 h2
    · simp at hs
  | call o =>
    simp only [step] at hs
    split at hs
    · simp at hs
    · simp at hs
    · simp at hs
    · next b h1 =>
      cases hs
      refine h.release h1 (e := .consume b) rfl (fun _ _ => rfl) (upd_holds (by intro b; simp))
        (fun _ => rfl) ?_ ?_
      · intro b'; simp [Ev.releases]; exact eq_comm
      · intro b'; simp [Ev.touches, Ev.releases]; exact eq_comm
    · next b h1 h2 =>
      cases hs
      refine h.neutral (e := .call b) rfl rfl (fun _ _ => Iff.rfl) (fun _ => rfl) (fun _ => rfl) ?_
      intro b' hb; simp [Ev.touches, Ev.releases] at hb; subst hb; exact ⟨o, h1⟩
  | hasValue o =>
    simp only [step] at hs
    split at hs
    · simp at hs
    · cases hs
      refine h.neutral rfl rfl (fun _ _ => Iff.rfl) (fun _ => rfl) (fun _ => rfl) ?_
      intro b' hb; simp [Ev.touches, Ev.releases] at hb
  | toRust o =>
    simp only [step] at hs
    split at hs
    · simp at hs
    · cases hs
      refine h.neutral rfl rfl (fun _ _ => Iff.rfl) (fun _ => rfl) (fun _ => rfl) ?_
      intro b' hb; simp [Ev.touches, Ev.releases] at hb
    · next b h1 =>
      cases hs
      refine h.release h1 (e := .toRust (some b)) rfl ?_ (upd_holds (by intro b; simp))
        (fun _ => rfl) ?_ ?_
      · intro b' hb; simp [Function.update_apply, hb]
      · intro b'; simp [Ev.releases]; exact eq_comm
      · intro b'; simp [Ev.touches, Ev.releases]; exact eq_comm
    · simp at hs
  | toAny o =>
    simp only [step] at hs
    split at hs
    · simp at hs
    · next k h1 =>
      cases hs
      have hk : ∀ b, some Cell.empty ≠ some (Cell.holds b) := by intro b; simp
      cases k with
      | holds b =>
        refine h.release h1 (e := .toAny .closure (some b)) rfl (fun _ _ => rfl) (upd_holds hk)
          (fun _ => rfl) ?_ ?_
        · intro b'; simp [Ev.releases]; exact eq_comm
        · intro b'; simp [Ev.touches, Ev.releases]; exact eq_comm
      | empty =>
        refine h.neutral rfl rfl ?_ (fun _ => rfl) (fun _ => rfl) ?_
        · intro n b; rw [upd_holds hk]
          exact ⟨fun h => h.1, fun h => ⟨h, by rintro rfl; simp [h1] at h⟩⟩
        · intro b' hb; simp [Ev.touches, Ev.releases] at hb
      | spent =>
        refine h.neutral rfl rfl ?_ (fun _ => rfl) (fun _ => rfl) ?_
        · intro n b; rw [upd_holds hk]
          exact ⟨fun h => h.1, fun h => ⟨h, by rintro rfl; simp [h1] at h⟩⟩
        · intro b' hb; simp [Ev.touches, Ev.releases] at hb
  | destroy o =>
    simp only [step] at hs
    split at hs
    · simp at hs
    · next k h1 => cases hs; exact inv_drop h h1 (by intro b; simp)

theorem step_terminated {a : State} {q : Qual} {op : Op} {l : List Ev}
    (hs : step q a op = .terminated l) : l = a.log := by
  cases op <;> simp only [step] at hs <;> (repeat' split at hs) <;> simp_all

theorem inv_run {q : Qual} (p : List Op) : ∀ {a}, Inv a →
    (∀ a', runFrom q a p = .ok a' → Inv a') ∧
    (∀ l, runFrom q a p = .terminated l → WellOwned l) := by
  induction p with
  | nil => intro a h; simp [runFrom]; exact h
  | cons op p ih =>
    intro a h
    simp only [runFrom]
    cases hs : step q a op with
    | ok a' => exact ih (inv_step h hs)
    | terminated l => simp; rw [step_terminated hs]; exact h.log
    | ub => simp
    | ill => simp

end Spec
end Verif.DynCallable

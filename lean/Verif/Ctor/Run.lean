import Verif.Ctor.Lemmas
/-
C68-C70: running a `Ctor`.
-/
namespace Verif.Ctor
open Verif Classical

/-- What is at the destination afterwards. -/
def Out.at (q : List Nat) : Out Val → Option Nat
  | .ok v => v.at q
  | _ => none

def fieldsAt (q : List Nat) : Option Vals → Option Nat
  | some vs => match q with
    | [] => none
    | j :: q => vs.at j q
  | none => none

def Vals.length : Vals → Nat
  | .nil => 0
  | .cons _ vs => vs.length + 1

theorem snoc_length (vs : Vals) (v : Val) : (vs.snoc v).length = vs.length + 1 := match vs with
  | .nil => rfl
  | .cons _ vs => by simp only [Vals.snoc, Vals.length]; rw [snoc_length vs v]

theorem snoc_at (vs : Vals) (v : Val) (j : Nat) (q : List Nat) : (vs.snoc v).at j q = if j = vs.length then v.at q else vs.at j q := match vs with
  | .nil => by cases j <;> simp [Vals.snoc, Vals.at, Vals.length]
  | .cons u vs => by
    cases j with
    | zero => simp [Vals.snoc, Vals.at, Vals.length]
    | succ j => simp only [Vals.snoc, Vals.at, Vals.length]; rw [snoc_at vs v j q]; simp

theorem at_ge (vs : Vals) (j : Nat) (q : List Nat) (h : vs.length ≤ j) : vs.at j q = none := match vs with
  | .nil => by simp [Vals.at]
  | .cons u vs => by
    cases j with
    | zero => simp [Vals.length] at h
    | succ j => simp only [Vals.at]; exact at_ge vs j q (by simp [Vals.length] at h; omega)

theorem dropOwned_upd (M : Machine) (n own own' p f) (hn : own'.Nodup) (hd : ∀ e ∈ own', M.hand e ∧ e ∉ own) :
    Replay (M.upd n own p f) (dropOwned own') (M.upd n (own ++ own') p f) := by
  have := dropOwned_replay own' (M.upd n own p f) hn (fun e he => hd e he)
  refine Eq.mp ?_ this
  congr 1
  refine Machine.ext' rfl (fun x => ?_) (fun a => rfl)
  simp only [Machine.upd, List.mem_append]; tauto

theorem nodup_append_parts {a b : List Nat} (h : (a ++ b).Nodup) : a.Nodup ∧ b.Nodup ∧ ∀ e ∈ b, e ∉ a := by
  rw [List.nodup_append] at h
  exact ⟨h.1, h.2.1, fun e he ha => h.2.2 e ha e he rfl⟩

theorem not_prefix_self {p : List Nat} {i : Nat} : ¬ p ++ [i] <+: p := by
  intro h
  have := h.length_le
  simp only [List.length_append, List.length_cons, List.length_nil] at this
  omega

mutual
/-- Running a `Ctor` in uninitialized memory is allowed; afterwards the value is there if the result is `Ok`, and nothing otherwise; the values
it owned are used up. -/
theorem run_replay (c : Ctor) (hs : c.Safe) (p : List Nat) (M : Machine) (hm : ∀ q, M.mem (p ++ q) = none) (hn : c.owned.Nodup)
    (hh : ∀ e ∈ c.owned, M.hand e) : let r := c.run M.next p
    Replay M r.2.1 (M.upd r.1 c.owned p (fun q => r.2.2.at q)) := by
  cases c with
  | make =>
    refine ⟨_, ⟨rfl, by simpa using hm [], rfl⟩, ?_⟩
    simp only [Replay, Ctor.run, Ctor.owned]
    rw [upd_point M _ _ p _ (some M.next) (fun q hq => by rw [hm]; simp [Out.at, Val.at, hq]) (by simp [Out.at, Val.at])]
    exact Machine.ext' rfl (fun e => by simp) (fun a => rfl)
  | panics =>
    simp only [Replay, Ctor.run, Ctor.owned]
    exact upd_self M p _ (fun q => by simp [hm, Out.at])
  | error k =>
    simp only [Replay, Ctor.run, Ctor.owned]
    exact upd_self M p _ (fun q => by simp [hm, Out.at])
  | slotUninit =>
    simp only [Replay, Ctor.run, Ctor.owned]
    exact upd_self M p _ (fun q => by simp [hm, Out.at, Val.at])
  | move e =>
    refine ⟨_, ⟨hh e (by simp [Ctor.owned]), by simpa using hm [], rfl⟩, ?_⟩
    simp only [Replay, Ctor.run, Ctor.owned]
    rw [upd_point M _ _ p _ (some e) (fun q hq => by rw [hm]; simp [Out.at, Val.at, hq]) (by simp [Out.at, Val.at])]
    exact Machine.ext' rfl (fun e => by simp) (fun a => rfl)
  | andThen c f =>
    obtain ⟨hs, rfl⟩ := hs
    have ih := run_replay c hs p M hm hn hh
    simp only [Ctor.run, Ctor.owned] at ih ⊢
    rcases hr : c.run M.next p with ⟨n, l, v | k | -⟩ <;> rw [hr] at ih <;> exact ih
  | mapErr c f =>
    have ih := run_replay c hs p M hm hn hh
    simp only [Ctor.run, Ctor.owned] at ih ⊢
    rcases hr : c.run M.next p with ⟨n, l, v | k | -⟩ <;> rw [hr] at ih
    · exact ih
    · simp only
      cases hf : f k <;> exact ih
    · exact ih
  | expect c =>
    have ih := run_replay c hs p M hm hn hh
    simp only [Ctor.run, Ctor.owned] at ih ⊢
    rcases hr : c.run M.next p with ⟨n, l, v | k | -⟩ <;> rw [hr] at ih <;> exact ih
  | manuallyDrop c =>
    have ih := run_replay c hs p M hm hn hh
    simp only [Ctor.run, Ctor.owned] at ih ⊢
    rcases hr : c.run M.next p with ⟨n, l, v | k | -⟩ <;> rw [hr] at ih <;> exact ih
  | orElse c d =>
    simp only [Ctor.owned] at hn hh ⊢
    obtain ⟨n1, n2, n3⟩ := nodup_append_parts hn
    have ih := run_replay c hs.1 p M hm n1 (fun e he => hh e (List.mem_append_left _ he))
    simp only [Ctor.run] at ih ⊢
    rcases hr : c.run M.next p with ⟨n, l, v | k | -⟩ <;> rw [hr] at ih <;> simp only at ih ⊢
    · exact ih.trans (dropOwned_upd M n c.owned d.owned p _ n2 (fun e he => ⟨hh e (List.mem_append_right _ he), n3 e he⟩))
    · have ih2 := run_replay d hs.2 p (M.upd n c.owned p (fun q => Out.at q (.err k))) (fun q => by rw [upd_mem_under]; rfl) n2
        (fun e he => ⟨hh e (List.mem_append_right _ he), n3 e he⟩)
      simp only [upd_upd] at ih2
      exact ih.trans ih2
    · exact ih.trans (dropOwned_upd M n c.owned d.owned p _ n2 (fun e he => ⟨hh e (List.mem_append_right _ he), n3 e he⟩))
  | unwrapOrDefault c d =>
    simp only [Ctor.owned] at hn hh ⊢
    have ih := run_replay c hs.1 p M hm hn hh
    simp only [Ctor.run] at ih ⊢
    rcases hr : c.run M.next p with ⟨n, l, v | k | -⟩ <;> rw [hr] at ih <;> simp only at ih ⊢
    · exact ih
    · have ih2 := run_replay d hs.2.1 p (M.upd n c.owned p (fun q => Out.at q (.err k))) (fun q => by rw [upd_mem_under]; rfl) (by simp [hs.2.2])
        (by simp [hs.2.2])
      simp only [upd_upd, hs.2.2, List.append_nil] at ih2
      exact ih.trans ih2
    · exact ih
  | struct cs =>
    have ih := runs_replay cs hs p 0 .nil M (fun q => by rw [hm]; cases q <;> simp [fieldsAt, Vals.at]) rfl hn hh
    simp only [Ctor.run, Ctor.owned] at ih ⊢
    rcases hr : cs.run M.next p 0 .nil with ⟨n, l, - | vs⟩ <;> rw [hr] at ih <;> simp only at ih ⊢
    · exact ih
    · refine ih.trans ⟨_, ⟨rfl, ?_, rfl⟩, ?_⟩
      · have := upd_mem_under M n cs.owned p (fun q => fieldsAt q (some vs)) []
        simpa [fieldsAt] using this
      · simp only [Replay]
        refine Machine.ext' rfl (fun e => Iff.rfl) (fun a => ?_)
        simp only [Machine.upd]
        by_cases hp : p <+: a
        · obtain ⟨q, rfl⟩ := prefix_iff.1 hp
          rw [if_pos hp]
          cases q with
          | nil => simp [Out.at, Val.at]
          | cons j q => simp [Out.at, Val.at, fieldsAt]
        · rw [if_neg hp, if_neg hp, if_neg]
          rintro rfl
          exact hp (List.prefix_refl _)
  | slotNew c =>
    have ih := run_replay c hs (p ++ [0]) M (fun q => by rw [field_path, hm]) hn hh
    simp only [Ctor.run, Ctor.owned] at ih ⊢
    have key : ∀ (f g : List Nat → Option Nat) (n : Nat), g [] = none → (∀ q, g (0 :: q) = f q) → (∀ j q, g ((j + 1) :: q) = none) →
        M.upd n c.owned (p ++ [0]) f = M.upd n c.owned p g := by
      intro f g n g0 g1 g2
      refine Machine.ext' rfl (fun e => Iff.rfl) (fun a => ?_)
      simp only [Machine.upd]
      by_cases hp : p <+: a
      · obtain ⟨q, rfl⟩ := prefix_iff.1 hp
        rw [if_pos hp]
        rcases q with _ | ⟨_ | j, q⟩
        · rw [if_neg (by rw [List.append_nil]; exact not_prefix_self), hm]; simp [g0]
        · rw [if_pos prefix_field]; simp [g1]
        · rw [if_neg (not_prefix_of_lt (by omega)), hm]; simp [g2]
      · rw [if_neg hp, if_neg (fun h => hp (prefix_of_field h))]
    rcases hr : c.run M.next (p ++ [0]) with ⟨n, l, v | k | -⟩ <;> rw [hr] at ih <;> simp only at ih ⊢
    · rw [key _ (fun q => (Out.ok (Val.slotSome v)).at q) n (by simp [Out.at, Val.at]) (by simp [Out.at, Val.at]) (by simp [Out.at, Val.at])] at ih
      exact ih
    · rw [key _ (fun q => (Out.err k).at q) n (by simp [Out.at]) (by simp [Out.at]) (by simp [Out.at])] at ih
      exact ih
    · rw [key _ (fun q => Out.panic.at q) n (by simp [Out.at]) (by simp [Out.at]) (by simp [Out.at])] at ih
      exact ih
theorem runs_replay (cs : Ctors) (hs : cs.Safe) (p : List Nat) (i : Nat) (done : Vals) (M : Machine)
    (hm : ∀ q, M.mem (p ++ q) = fieldsAt q (some done)) (hi : done.length = i) (hn : cs.owned.Nodup) (hh : ∀ e ∈ cs.owned, M.hand e) :
    let r := cs.run M.next p i done
    Replay M r.2.1 (M.upd r.1 cs.owned p (fun q => fieldsAt q r.2.2)) := by
  cases cs with
  | nil =>
    simp only [Replay, Ctors.run, Ctors.owned]
    exact upd_self M p _ hm
  | cons c cs =>
    simp only [Ctors.owned] at hn hh ⊢
    obtain ⟨n1, n2, n3⟩ := nodup_append_parts hn
    have ih := run_replay c hs.1 (p ++ [i]) M (fun q => by rw [field_path, hm]; simp [fieldsAt, at_ge done i q (by omega)]) n1
      (fun e he => hh e (List.mem_append_left _ he))
    have over : ∀ (n n' own f g), (M.upd n c.owned (p ++ [i]) f).upd n' own p g = M.upd n' (c.owned ++ own) p g := by
      intro n n' own f g
      refine Machine.ext' rfl (fun e => ?_) (fun a => ?_)
      · simp only [Machine.upd, List.mem_append]; tauto
      · simp only [Machine.upd]
        split
        · rfl
        · next h => rw [if_neg (fun hc => h (prefix_of_field hc))]
    have fail : ∀ n, Replay (M.upd n c.owned (p ++ [i]) (fun _ => none)) (dropOwned cs.owned ++ done.drop p 0)
        (M.upd n (c.owned ++ cs.owned) p (fun _ => none)) := by
      intro n
      have h1 := dropOwned_upd M n c.owned cs.owned (p ++ [i]) (fun _ => none) n2 (fun e he => ⟨hh e (List.mem_append_right _ he), n3 e he⟩)
      refine h1.trans ?_
      have h2 := drops_replay done p 0 (M.upd n (c.owned ++ cs.owned) (p ++ [i]) (fun _ => none)) (fun j q _ => by
        by_cases hj : j = i
        · subst hj
          have := upd_mem_under M n (c.owned ++ cs.owned) (p ++ [j]) (fun _ => none) q
          rw [field_path] at this
          rw [this]
          simp [at_ge done j q (by omega)]
        · rw [upd_mem_not M (not_prefix_of_lt (fun h => hj h.symm)), hm]; simp [fieldsAt])
      rw [clearFields_struct _ _ (by rw [upd_mem_not M not_prefix_self]; have := hm []; simpa [fieldsAt] using this)] at h2
      refine Eq.mp ?_ h2
      congr 1
      refine Machine.ext' rfl (fun e => by simp [Machine.upd]) (fun a => ?_)
      simp only [Machine.upd]
      split
      · rfl
      · next h => rw [if_neg (fun hc => h (prefix_of_field hc))]
    simp only [Ctors.run] at ih ⊢
    rcases hr : c.run M.next (p ++ [i]) with ⟨n, l, v | k | -⟩ <;> rw [hr] at ih <;> simp only at ih ⊢
    · have ih2 := runs_replay cs hs.2 p (i + 1) (done.snoc v) (M.upd n c.owned (p ++ [i]) (fun q => Out.at q (.ok v))) (fun q => by
        cases q with
        | nil =>
          rw [List.append_nil, upd_mem_not M not_prefix_self]
          have := hm []; simpa [fieldsAt] using this
        | cons j q =>
          simp only [fieldsAt, snoc_at]
          split
          · next hj =>
            have hji : j = i := by omega
            subst hji
            have := upd_mem_under M n c.owned (p ++ [j]) (fun q => Out.at q (.ok v)) q
            rw [field_path] at this
            exact this
          · next hj =>
            rw [upd_mem_not M (not_prefix_of_lt (by omega)), hm]; rfl) (by rw [snoc_length, hi]) n2
        (fun e he => ⟨hh e (List.mem_append_right _ he), n3 e he⟩)
      simp only [over] at ih2
      exact ih.trans ih2
    · exact ih.trans (fail n)
    · exact ih.trans (fail n)
end

def Vals.append : Vals → Vals → Vals
  | .nil, us => us
  | .cons v vs, us => .cons v (vs.append us)

theorem append_nil (vs : Vals) : vs.append .nil = vs := match vs with
  | .nil => rfl
  | .cons v vs => by simp only [Vals.append]; rw [append_nil vs]

theorem snoc_append (vs : Vals) (v : Val) (us : Vals) : (vs.snoc v).append us = vs.append (.cons v us) := match vs with
  | .nil => rfl
  | .cons u vs => by simp only [Vals.append, Vals.snoc]; rw [snoc_append vs v us]

mutual
/-- The result is the documented one, and a value has the right type. -/
theorem run_eval (c : Ctor) (n : Nat) (p : List Nat) : match (c.run n p).2.2 with
    | .ok v => c.eval = .ok () ∧ v.fits c
    | .err k => c.eval = .err k
    | .panic => c.eval = .panic := by
  cases c with
  | make | panics | move | error | slotUninit => simp [Ctor.run, Ctor.eval, Val.fits]
  | andThen c f =>
    have ih := run_eval c n p
    simp only [Ctor.run, Ctor.eval]
    rcases hr : c.run n p with ⟨n', l, v | k | -⟩ <;> rw [hr] at ih <;> simp only at ih ⊢
    · rw [ih.1]; cases f <;> simp [Val.fits, ih.2]
    · rw [ih]
    · rw [ih]
  | mapErr c f =>
    have ih := run_eval c n p
    simp only [Ctor.run, Ctor.eval]
    rcases hr : c.run n p with ⟨n', l, v | k | -⟩ <;> rw [hr] at ih <;> simp only at ih ⊢
    · rw [ih.1]; simp [Val.fits, ih.2]
    · rw [ih]; cases hf : f k <;> simp [hf]
    · rw [ih]
  | orElse c d =>
    have ih := run_eval c n p
    simp only [Ctor.run, Ctor.eval]
    rcases hr : c.run n p with ⟨n', l, v | k | -⟩ <;> rw [hr] at ih <;> simp only at ih ⊢
    · rw [ih.1]; simp [Val.fits, ih.2]
    · rw [ih]
      have ih2 := run_eval d n' p
      rcases hd : d.run n' p with ⟨n2, l2, v | k | -⟩ <;> rw [hd] at ih2 <;> simp only at ih2 ⊢
      · exact ⟨ih2.1, by simp [Val.fits, ih2.2]⟩
      · exact ih2
      · exact ih2
    · rw [ih]
  | unwrapOrDefault c d =>
    have ih := run_eval c n p
    simp only [Ctor.run, Ctor.eval]
    rcases hr : c.run n p with ⟨n', l, v | k | -⟩ <;> rw [hr] at ih <;> simp only at ih ⊢
    · rw [ih.1]; simp [Val.fits, ih.2]
    · rw [ih]
      have ih2 := run_eval d n' p
      rcases hd : d.run n' p with ⟨n2, l2, v | k | -⟩ <;> rw [hd] at ih2 <;> simp only at ih2 ⊢
      · exact ⟨ih2.1, by simp [Val.fits, ih2.2]⟩
      · exact ih2
      · exact ih2
    · rw [ih]
  | expect c =>
    have ih := run_eval c n p
    simp only [Ctor.run, Ctor.eval]
    rcases hr : c.run n p with ⟨n', l, v | k | -⟩ <;> rw [hr] at ih <;> simp only at ih ⊢
    · rw [ih.1]; simp [Val.fits, ih.2]
    · rw [ih]
    · rw [ih]
  | struct cs =>
    have ih := runs_eval cs n p 0 .nil
    simp only [Ctor.run, Ctor.eval]
    rcases hr : cs.run n p 0 .nil with ⟨n', l, - | vs⟩ <;> rw [hr] at ih <;> simp only at ih ⊢
    · simp [ih]
    · obtain ⟨h1, us, rfl, h2⟩ := ih
      exact ⟨by simp [h1], by simpa [Val.fits, Vals.append] using h2⟩
  | slotNew c =>
    have ih := run_eval c n (p ++ [0])
    simp only [Ctor.run, Ctor.eval]
    rcases hr : c.run n (p ++ [0]) with ⟨n', l, v | k | -⟩ <;> rw [hr] at ih <;> simp only at ih ⊢
    · exact ⟨ih.1, by simp [Val.fits, ih.2]⟩
    · exact ih
    · exact ih
  | manuallyDrop c =>
    have ih := run_eval c n p
    simp only [Ctor.run, Ctor.eval]
    rcases hr : c.run n p with ⟨n', l, v | k | -⟩ <;> rw [hr] at ih <;> simp only at ih ⊢
    · exact ⟨ih.1, by simp [Val.fits, ih.2]⟩
    · exact ih
    · exact ih
theorem runs_eval (cs : Ctors) (n : Nat) (p : List Nat) (i : Nat) (done : Vals) : match (cs.run n p i done).2.2 with
    | some vs => cs.eval = true ∧ ∃ us, vs = done.append us ∧ us.fits cs
    | none => cs.eval = false := by
  cases cs with
  | nil => exact ⟨by simp [Ctors.eval], .nil, by simp [append_nil], by simp [Vals.fits]⟩
  | cons c cs =>
    have ih := run_eval c n (p ++ [i])
    simp only [Ctors.run, Ctors.eval]
    rcases hr : c.run n (p ++ [i]) with ⟨n', l, v | k | -⟩ <;> rw [hr] at ih <;> simp only at ih ⊢
    · have ih2 := runs_eval cs n' p (i + 1) (done.snoc v)
      rcases hc : cs.run n' p (i + 1) (done.snoc v) with ⟨n2, l2, - | vs⟩ <;> rw [hc] at ih2 <;> simp only at ih2 ⊢
      · simp [ih2]
      · obtain ⟨h1, us, rfl, h2⟩ := ih2
        exact ⟨by simp [ih.1, h1], .cons v us, by rw [snoc_append], by simp [Vals.fits, ih.2, h2]⟩
    · simp [ih]
    · simp [ih]
end

end Verif.Ctor

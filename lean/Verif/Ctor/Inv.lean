import Verif.Ctor.Run
/-
C68-C70: the state of a program and of memory.
-/
namespace Verif.Ctor
open Verif Classical

/-- What is in memory: exactly the values of the program. -/
structure Inv (s : State) (M : Machine) : Prop where
  next : M.next = s.next
  hand : ∀ e, M.hand e ↔ e ∈ s.hand
  nodup : s.hand.Nodup
  mem : ∀ x q, M.mem (x :: q) = (AMap.get? s.roots x).bind (·.at q)
  nil : M.mem [] = none
  keys : (AMap.keys s.roots).Nodup
  lt : ∀ x v, AMap.get? s.roots x = some v → x < s.nextRoot

theorem takeAll_some (es : List Nat) : ∀ {hand hand' : List Nat}, takeAll hand es = some hand' → hand.Nodup →
    es.Nodup ∧ (∀ e ∈ es, e ∈ hand) ∧ hand'.Nodup ∧ ∀ e, e ∈ hand' ↔ e ∈ hand ∧ e ∉ es := by
  induction es with
  | nil => intro hand hand' h hn; simp only [takeAll, Option.some.injEq] at h; subst h; simp [hn]
  | cons e es ih =>
    intro hand hand' h hn
    simp only [takeAll] at h
    split at h
    · next he =>
      obtain ⟨h1, h2, h3, h4⟩ := ih h (hn.erase e)
      refine ⟨List.nodup_cons.2 ⟨fun hc => ?_, h1⟩, ?_, h3, fun x => ?_⟩
      · exact (hn.mem_erase_iff.1 (h2 e hc)).1 rfl
      · intro x hx
        rcases List.mem_cons.1 hx with rfl | hx
        · exact he
        · exact List.mem_of_mem_erase (h2 x hx)
      · rw [h4, hn.mem_erase_iff]; simp only [List.mem_cons, not_or]; tauto
    · simp at h

theorem prefix_root {x y : Nat} {q : List Nat} : [x] <+: y :: q ↔ x = y := by
  constructor
  · rintro ⟨t, ht⟩; simp at ht; exact ht.1
  · rintro rfl; exact ⟨q, rfl⟩

theorem prefix_slot {x y : Nat} {q : List Nat} : [x, 0] <+: y :: q ↔ x = y ∧ ∃ r, q = 0 :: r := by
  constructor
  · rintro ⟨t, ht⟩; simp at ht; exact ⟨ht.1, t, ht.2.symm⟩
  · rintro ⟨rfl, r, rfl⟩; exact ⟨r, rfl⟩

/-- A change of what is at the root of one allocation. -/
theorem Inv.root {s s' : State} {M : Machine} (h : Inv s M) (n : Nat) (own : List Nat) (x : Nat) (o : Option Val) (f : List Nat → Option Nat)
    (hf : ∀ q, f q = o.bind (·.at q)) (hn : n = s'.next) (hh : ∀ e, e ∈ s'.hand ↔ e ∈ s.hand ∧ e ∉ own) (hd : s'.hand.Nodup)
    (hr : ∀ y, AMap.get? s'.roots y = if y = x then o else AMap.get? s.roots y) (hk : (AMap.keys s'.roots).Nodup)
    (hl : s.nextRoot ≤ s'.nextRoot ∧ (o ≠ none → x < s'.nextRoot)) : Inv s' (M.upd n own [x] f) := by
  refine ⟨hn, fun e => by rw [hh, ← h.hand]; rfl, hd, fun y q => ?_, ?_, hk, fun y v hy => ?_⟩
  · rw [hr]
    by_cases hyx : y = x
    · subst hyx
      rw [if_pos rfl, ← hf]
      exact upd_mem_under M n own [y] f q
    · rw [if_neg hyx, upd_mem_not M (fun hc => hyx (prefix_root.1 hc).symm), h.mem]
  · rw [upd_mem_not M (by simp)]; exact h.nil
  · rw [hr] at hy
    split at hy
    · next e => subst e; exact hl.2 (by simp [hy])
    · have := h.lt y v hy; omega

/-- A change of what is in a slot at the root. -/
theorem Inv.slot {s s' : State} {M : Machine} (h : Inv s M) (n : Nat) (own : List Nat) (x : Nat) (o : Option Val) (f : List Nat → Option Nat)
    (hx : ∀ q, (∀ r, q ≠ 0 :: r) → M.mem (x :: q) = none)
    (hf : ∀ q, o.bind (·.at (0 :: q)) = f q) (hf' : ∀ q, (∀ r, q ≠ 0 :: r) → o.bind (·.at q) = none)
    (hn : n = s'.next) (hh : ∀ e, e ∈ s'.hand ↔ e ∈ s.hand ∧ e ∉ own) (hd : s'.hand.Nodup)
    (hr : ∀ y, AMap.get? s'.roots y = if y = x then o else AMap.get? s.roots y) (hk : (AMap.keys s'.roots).Nodup)
    (hl : s.nextRoot ≤ s'.nextRoot ∧ (o ≠ none → x < s'.nextRoot)) : Inv s' (M.upd n own [x, 0] f) := by
  refine ⟨hn, fun e => by rw [hh, ← h.hand]; rfl, hd, fun y q => ?_, ?_, hk, fun y v hy => ?_⟩
  · rw [hr]
    by_cases hyx : y = x
    · subst hyx
      rw [if_pos rfl]
      by_cases hq : ∃ r, q = 0 :: r
      · obtain ⟨r, rfl⟩ := hq
        rw [hf]
        exact upd_mem_under M n own [y, 0] f r
      · have hq' : ∀ r, q ≠ 0 :: r := fun r e => hq ⟨r, e⟩
        rw [hf' q hq', upd_mem_not M (fun hc => hq (prefix_slot.1 hc).2), hx q hq']
    · rw [if_neg hyx, upd_mem_not M (fun hc => hyx (prefix_slot.1 hc).1.symm), h.mem]
  · rw [upd_mem_not M (by simp)]; exact h.nil
  · rw [hr] at hy
    split at hy
    · next e => subst e; exact hl.2 (by simp [hy])
    · have := h.lt y v hy; omega

theorem Inv.fresh {s : State} {M : Machine} (h : Inv s M) : AMap.get? s.roots s.nextRoot = none := by
  cases hg : AMap.get? s.roots s.nextRoot with
  | none => rfl
  | some v => have := h.lt _ _ hg; omega

theorem get?_cons' {V : Type} (m : List (Nat × V)) (x y : Nat) (v : V) : AMap.get? ((x, v) :: m) y = if y = x then some v else AMap.get? m y := by
  simp only [AMap.get?]
  by_cases h : y = x
  · subst h; simp
  · have : ¬ x = y := fun e => h e.symm
    simp [h, this]

theorem keys_cons' {V : Type} {m : List (Nat × V)} {x : Nat} (v : V) (h : (AMap.keys m).Nodup) (hx : AMap.get? m x = none) :
    (AMap.keys ((x, v) :: m)).Nodup := by
  simp only [AMap.keys, List.map_cons, List.nodup_cons]
  exact ⟨(AMap.get?_eq_none_iff m x).1 hx, h⟩

theorem Inv.log {s : State} {M : Machine} (h : Inv s M) (l : List Ev) : Inv { s with log := l } M := ⟨h.1, h.2, h.3, h.4, h.5, h.6, h.7⟩

theorem slot_at_other {v : Val} {q : List Nat} (hq : ∀ r, q ≠ 0 :: r) : (Val.slotSome v).at q = none := by
  rcases q with _ | ⟨_ | j, q⟩
  · simp [Val.at]
  · exact absurd rfl (hq q)
  · simp [Val.at]

theorem free_replay {M : Machine} {x : Nat} (h : ∀ q, M.mem (x :: q) = none) : Replay M [.free x] M := ⟨M, ⟨h, rfl⟩, rfl⟩

/-- Each operation is allowed by memory. -/
theorem exec_inv {s s' : State} {M : Machine} {op : Op} (h : Inv s M) (hw : ∀ e, M.hand e → e < M.next) (hs : op.Safe) (he : exec s op = some s') :
    ∃ l M', s'.log = s.log ++ l ∧ Replay M l M' ∧ Inv s' M' := by
  simp only [exec] at he
  split at he
  · simp at he
  cases op with
  | make =>
    simp only [Option.some.injEq] at he; subst he
    refine ⟨_, _, rfl, ⟨_, ⟨h.next.symm, rfl⟩, rfl⟩, ⟨rfl, ?_, ?_, h.mem, h.nil, h.keys, h.lt⟩⟩
    · intro e; simp [h.hand]
    · simp only [List.nodup_cons]
      refine ⟨?_, h.nodup⟩
      intro hc
      have := hw _ ((h.hand _).2 hc)
      rw [h.next] at this
      omega
  | dropHand e =>
    simp only at he
    split at he
    · next hm =>
      simp only [Option.some.injEq] at he; subst he
      refine ⟨_, _, rfl, ⟨_, ⟨(h.hand e).2 hm, rfl⟩, rfl⟩, ⟨h.next, ?_, h.nodup.erase e, h.mem, h.nil, h.keys, h.lt⟩⟩
      intro x; simp only [h.hand, h.nodup.mem_erase_iff]; tauto
    · simp at he
  | box c =>
    simp only [Option.bind_eq_bind, Option.bind_eq_some_iff, Option.pure_def, Option.some.injEq] at he
    obtain ⟨hand, ht, rfl⟩ := he
    obtain ⟨t1, t2, t3, t4⟩ := takeAll_some _ ht h.nodup
    have hr := run_replay c hs [s.nextRoot] M (fun q => by
      have := h.mem s.nextRoot q; rw [h.fresh] at this; exact this) t1 (fun e he => (h.hand e).2 (t2 e he))
    simp only [h.next] at hr
    unfold execBox
    rcases hc : c.run s.next [s.nextRoot] with ⟨n, l, v | k | -⟩ <;> rw [hc] at hr <;> simp only at hr ⊢
    · refine ⟨_, _, rfl, hr, h.root n _ _ (some v) _ (fun q => by simp [Out.at]) rfl t4 t3 (get?_cons' _ _ · _) (keys_cons' _ h.keys h.fresh)
        ⟨by simp, by simp⟩⟩
    all_goals
      refine ⟨_, _, rfl, hr.trans (free_replay fun q => ?_), h.root n _ _ none _ (fun q => by simp [Out.at]) rfl t4 t3 (fun y => ?_) h.keys
        ⟨by simp, by simp⟩⟩
      · exact upd_mem_under M n c.owned [s.nextRoot] _ q
      · split
        · next e => subst e; exact h.fresh
        · rfl
  | emplace c =>
    simp only [Option.bind_eq_bind, Option.bind_eq_some_iff, Option.pure_def, Option.some.injEq] at he
    obtain ⟨hand, ht, rfl⟩ := he
    obtain ⟨t1, t2, t3, t4⟩ := takeAll_some _ ht h.nodup
    have hz : ∀ q, M.mem (s.nextRoot :: q) = none := fun q => by
      have := h.mem s.nextRoot q; rw [h.fresh] at this; exact this
    have hr := run_replay c hs [s.nextRoot, 0] M (fun q => hz _) t1 (fun e he => (h.hand e).2 (t2 e he))
    simp only [h.next] at hr
    unfold execEmplace
    rcases hc : c.run s.next [s.nextRoot, 0] with ⟨n, l, v | k | -⟩ <;> rw [hc] at hr <;> simp only at hr ⊢
    · refine ⟨_, _, rfl, hr, h.slot n _ _ (some (.slotSome v)) _ (fun q _ => hz q) (fun q => by simp [Out.at, Val.at]) (fun q hq => slot_at_other hq) rfl t4 t3
        (get?_cons' _ _ · _) (keys_cons' _ h.keys h.fresh) ⟨by simp, by simp⟩⟩
    all_goals
      refine ⟨_, _, rfl, hr.trans (free_replay fun q => ?_), h.slot n _ _ none _ (fun q _ => hz q) (fun q => by simp [Out.at]) (fun q _ => by simp) rfl t4 t3
        (fun y => ?_) h.keys ⟨by simp, by simp⟩⟩
      · by_cases hq : ∃ r, q = 0 :: r
        · obtain ⟨r, rfl⟩ := hq
          exact upd_mem_under M n c.owned [s.nextRoot, 0] _ r
        · rw [upd_mem_not M (fun hc => hq (prefix_slot.1 hc).2)]; exact hz q
      · split
        · next e => subst e; exact h.fresh
        · rfl
  | replace x c =>
    simp only [Option.bind_eq_bind, Option.bind_eq_some_iff, Option.pure_def] at he
    obtain ⟨hand, ht, w, hw, he⟩ := he
    obtain ⟨t1, t2, t3, t4⟩ := takeAll_some _ ht h.nodup
    have hlt := h.lt _ _ hw
    have fin : ∀ l0, Replay M l0 (M.upd M.next [] [x, 0] (fun _ => none)) → (∀ q, (∀ r, q ≠ 0 :: r) → M.mem (x :: q) = none) →
        ∃ l M', (execReplace s hand x l0 c).log = s.log ++ l ∧ Replay M l M' ∧ Inv (execReplace s hand x l0 c) M' := by
      intro l0 h0 hz
      have hr := run_replay c hs [x, 0] _ (fun q => upd_mem_under M M.next [] [x, 0] (fun _ => none) q) t1
        (fun e he => ⟨(h.hand e).2 (t2 e he), by simp⟩)
      rw [show (M.upd M.next [] [x, 0] fun _ => none).next = s.next from h.next] at hr
      simp only [upd_upd, List.nil_append] at hr
      unfold execReplace
      rcases hc : c.run s.next [x, 0] with ⟨n, l, v | k | -⟩ <;> rw [hc] at hr <;> simp only at hr ⊢
      · exact ⟨_, _, rfl, h0.trans hr, h.slot n _ x (some (.slotSome v)) _ hz (fun q => by simp [Out.at, Val.at]) (fun q hq => slot_at_other hq) rfl t4 t3
          (fun y => by rw [AMap.get?_insert]; simp only [eq_comm]) (AMap.nodup_insert _ _ _ h.keys) ⟨Nat.le_refl _, fun _ => hlt⟩⟩
      all_goals
        exact ⟨_, _, rfl, h0.trans hr, h.slot n _ x (some .slotNone) _ hz (fun q => by simp [Out.at, Val.at]) (fun q hq => by simp [Val.at]) rfl t4 t3
          (fun y => by rw [AMap.get?_insert]; simp only [eq_comm]) (AMap.nodup_insert _ _ _ h.keys) ⟨Nat.le_refl _, fun _ => hlt⟩⟩
    cases w with
    | slotNone =>
      simp only [Option.some.injEq] at he; subst he
      have hz : ∀ q, M.mem (x :: q) = none := fun q => by rw [h.mem, hw]; simp [Val.at]
      exact fin [] (upd_self M [x, 0] _ (fun q => hz _)) (fun q _ => hz q)
    | slotSome v =>
      simp only [Option.some.injEq] at he; subst he
      refine fin _ (drop_replay v [x, 0] M (fun q => ?_)) (fun q hq => ?_)
      · have := h.mem x (0 :: q); rw [hw] at this; simpa [Val.at] using this
      · rw [h.mem, hw]; exact slot_at_other hq
    | leaf | struct | manual => simp at he
  | clear x panics =>
    simp only [Op.Safe] at hs
    subst hs
    simp only [Option.bind_eq_bind, Option.bind_eq_some_iff, Option.pure_def] at he
    obtain ⟨w, hw, he⟩ := he
    cases w with
    | slotNone =>
      simp only [Option.some.injEq] at he; subst he
      exact ⟨[], M, by simp, rfl, h⟩
    | slotSome v =>
      simp only [Option.some.injEq, Bool.false_eq_true, if_false] at he; subst he
      refine ⟨_, _, rfl, drop_replay v [x, 0] M (fun q => ?_), h.slot M.next [] x (some .slotNone) _ (fun q hq => ?_) (fun q => by simp [Val.at])
        (fun q _ => by simp [Val.at]) h.next (by simp) h.nodup (fun y => by rw [AMap.get?_insert]; simp only [eq_comm]) (AMap.nodup_insert _ _ _ h.keys)
        ⟨Nat.le_refl _, fun _ => h.lt _ _ hw⟩⟩
      · have := h.mem x (0 :: q); rw [hw] at this; simpa [Val.at] using this
      · rw [h.mem, hw]; exact slot_at_other hq
    | leaf | struct | manual => simp at he
  | reconstruct x c =>
    simp only [Option.bind_eq_bind, Option.bind_eq_some_iff, Option.pure_def] at he
    obtain ⟨hand, ht, w, hw, he⟩ := he
    obtain ⟨t1, t2, t3, t4⟩ := takeAll_some _ ht h.nodup
    have hlt := h.lt _ _ hw
    have main : ∀ u, AMap.get? s.roots x = some u → ∃ l M', (execReconstruct s hand x [x] u id c).log = s.log ++ l ∧ Replay M l M' ∧
        Inv (execReconstruct s hand x [x] u id c) M' := by
      intro u hu
      have h0 := drop_replay u [x] M (fun q => by have := h.mem x q; rw [hu] at this; simpa using this)
      have hr := run_replay c hs [x] _ (fun q => upd_mem_under M M.next [] [x] (fun _ => none) q) t1
        (fun e he => ⟨(h.hand e).2 (t2 e he), by simp⟩)
      rw [show (M.upd M.next [] [x] fun _ => none).next = s.next from h.next] at hr
      simp only [upd_upd, List.nil_append] at hr
      unfold execReconstruct
      rcases hc : c.run s.next [x] with ⟨n, l, v | k | -⟩ <;> rw [hc] at hr <;> simp only at hr ⊢
      · exact ⟨_, _, rfl, h0.trans hr, h.root n _ x (some v) _ (fun q => by simp [Out.at]) rfl t4 t3
          (fun y => by rw [AMap.get?_insert]; simp only [eq_comm, id]) (AMap.nodup_insert _ _ _ h.keys) ⟨Nat.le_refl _, fun _ => hlt⟩⟩
      all_goals
        exact ⟨_, _, rfl, h0.trans hr, h.root n _ x none _ (fun q => by simp [Out.at]) rfl t4 t3
          (fun y => by rw [AMap.get?_erase _ _ _ h.keys]; simp only [eq_comm]) (AMap.nodup_erase _ _ h.keys) ⟨Nat.le_refl _, by simp⟩⟩
    cases w with
    | slotSome v =>
      simp only [Option.some.injEq] at he; subst he
      have h0 := drop_replay v [x, 0] M (fun q => by have := h.mem x (0 :: q); rw [hw] at this; simpa [Val.at] using this)
      have hz : ∀ q, (∀ r, q ≠ 0 :: r) → M.mem (x :: q) = none := fun q hq => by rw [h.mem, hw]; exact slot_at_other hq
      have hr := run_replay c hs [x, 0] _ (fun q => upd_mem_under M M.next [] [x, 0] (fun _ => none) q) t1
        (fun e he => ⟨(h.hand e).2 (t2 e he), by simp⟩)
      rw [show (M.upd M.next [] [x, 0] fun _ => none).next = s.next from h.next] at hr
      simp only [upd_upd, List.nil_append] at hr
      unfold execReconstruct
      rcases hc : c.run s.next [x, 0] with ⟨n, l, v' | k | -⟩ <;> rw [hc] at hr <;> simp only at hr ⊢
      · exact ⟨_, _, rfl, h0.trans hr, h.slot n _ x (some (.slotSome v')) _ hz (fun q => by simp [Out.at, Val.at]) (fun q hq => slot_at_other hq) rfl t4 t3
          (fun y => by rw [AMap.get?_insert]; simp only [eq_comm]) (AMap.nodup_insert _ _ _ h.keys) ⟨Nat.le_refl _, fun _ => hlt⟩⟩
      all_goals
        exact ⟨_, _, rfl, h0.trans hr, h.slot n _ x none _ hz (fun q => by simp [Out.at]) (fun q hq => by simp) rfl t4 t3
          (fun y => by rw [AMap.get?_erase _ _ _ h.keys]; simp only [eq_comm]) (AMap.nodup_erase _ _ h.keys) ⟨Nat.le_refl _, by simp⟩⟩
    | leaf | struct | manual | slotNone =>
      simp only [Option.some.injEq] at he; subst he
      exact main _ hw
  | drop x =>
    simp only [Option.bind_eq_bind, Option.bind_eq_some_iff, Option.pure_def, Option.some.injEq] at he
    obtain ⟨w, hw, rfl⟩ := he
    have h0 := drop_replay w [x] M (fun q => by have := h.mem x q; rw [hw] at this; simpa using this)
    exact ⟨_, _, rfl, h0.trans (free_replay fun q => upd_mem_under M M.next [] [x] (fun _ => none) q),
      h.root M.next [] x none _ (fun q => rfl) h.next (by simp) h.nodup
          (fun y => by rw [AMap.get?_erase _ _ _ h.keys]; simp only [eq_comm]) (AMap.nodup_erase _ _ h.keys) ⟨Nat.le_refl _, by simp⟩⟩

end Verif.Ctor

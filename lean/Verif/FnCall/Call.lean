import Verif.FnCall.Returns

/-! # The whole call -/

namespace Verif.FnCall

/-- The names of parameter `j` or later. -/
def PElem (i : Nat) (n : Name) : Prop := ∃ j, i ≤ j ∧ Below [.param j] n

theorem below_head {s s' : Seg} {n : Name} (h : Below [s] n) (h' : n = [s'] ∨ Below [s'] n) :
    s = s' := below_idx_inj (Or.inr h) h'

theorem root_not_below (m : Bool) (i : Nat) (s : Seg) : ¬ Below [s] (rootOf m i) := by
  rintro ⟨pre, hp, h⟩
  have hl := congrArg List.length h
  have : (rootOf m i).length = 1 := by unfold rootOf; split <;> rfl
  simp only [List.length_append, List.length_singleton, this] at hl
  exact hp (List.length_eq_zero_iff.mp (by omega))

theorem root_inj (m : Bool) {i j : Nat} (h : rootOf m i = rootOf m j) : i = j := by
  unfold rootOf at h
  split at h <;> split at h <;> simp_all

structure ParamsDone (K : Convs) (lct m : Bool) (i : Nat) (ts : List Ty) (vs : List Val)
    (σ σ' : CState) : Prop where
  run : execAll K (cParams lct i ts).1 σ = some σ'
  env : ∀ n, ¬ PElem i n → σ'.env n = σ.env n
  mem : ∀ n, ¬ PElem i n → (∀ k, k < ts.length → n ≠ rootOf m (i + k)) → σ'.mem n = σ.mem n
  exits : σ'.exits = σ.exits
  left : ∀ k v, vs[k]? = some v → σ'.mem (rootOf m (i + k)) = some (.val v.moved)
  delivers : ∀ σ'' : CState,
    (∀ n, PElem i n → σ''.env n = σ'.env n ∧ σ''.mem n = σ'.mem n) →
    (∀ k, k < ts.length → σ''.env [.param (i + k)] = some ⟨rootOf m (i + k), []⟩) →
    (∀ k v, vs[k]? = some v → σ''.mem (rootOf m (i + k)) = some (.val v.moved)) →
    ∃ avs, allSome ((cParams lct i ts).2.map σ''.pass) = some avs ∧
      rEvals K lct σ'' ts avs = some (rustOfs K ts vs)

theorem params_ok (K : Convs) (lct m : Bool) : ∀ (ts : List Ty) (vs : List Val) (i : Nat)
    (σ : CState), (∀ t ∈ ts, ScalarsTrivial t ∧ TuplesOk lct t) → HasTys ts vs →
    (∀ n, PElem i n → σ.env n = none) →
    (∀ k, k < ts.length → σ.env [.param (i + k)] = some ⟨rootOf m (i + k), []⟩) →
    (∀ k v, vs[k]? = some v → σ.mem (rootOf m (i + k)) = some (.val v)) →
    ∃ σ', ParamsDone K lct m i ts vs σ σ'
  | [], vs, i, σ, _, hv, _, _, _ => by
      have : vs = [] := by cases vs with
        | nil => rfl
        | cons a b => simp [HasTys] at hv
      subst this
      exact ⟨σ, by simp [cParams, execAll], fun _ _ => rfl, fun _ _ _ => rfl, rfl, by simp,
        fun σ'' _ _ _ => ⟨[], by simp [cParams, allSome], by simp [rEvals, rustOfs]⟩⟩
  | t :: ts, [], i, σ, _, hv, _, _, _ => by simp [HasTys] at hv
  | t :: ts, v :: vs, i, σ, hok, hv, fresh, henv, hmem => by
      simp only [HasTys] at hv
      have ht := hok t (by simp)
      have h0 := henv 0 (by simp)
      have m0 := hmem 0 v (by simp)
      simp only [Nat.add_zero] at h0 m0
      obtain ⟨σ1, h1⟩ := param_ok K lct t ht.1 ht.2 [.param i] (rootOf m i) [] v v σ
        ⟨h0, m0, by simp [Val.at],
          fun n hn => fresh n ⟨i, Nat.le_refl _, hn⟩, root_not_below m i _⟩ hv.1
      have pne : ∀ j k, Below [.param j] ([.param k] : Name) → False := by
        rintro j k ⟨pre, hp, h⟩
        have hl := congrArg List.length h
        simp only [List.length_append, List.length_singleton] at hl
        exact hp (List.length_eq_zero_iff.mp (by omega))
      have hdisj : ∀ n, Below [.param i] n → ¬ PElem (i + 1) n := by
        rintro n hn ⟨j, hj, h⟩
        have := below_head hn (Or.inr h)
        simp only [Seg.param.injEq] at this
        omega
      obtain ⟨σ2, h2⟩ := params_ok K lct m ts vs (i + 1) σ1 (fun t' h => hok t' (by simp [h])) hv.2
        (by
          intro n hn
          rw [h1.env n (fun h => hdisj n h hn)]
          obtain ⟨j, hj, hb⟩ := hn
          exact fresh n ⟨j, by omega, hb⟩)
        (by
          intro k hk
          rw [h1.env _ (pne _ _)]
          have := henv (k + 1) (by simpa using hk)
          rw [show i + 1 + k = i + (k + 1) by omega]
          exact this)
        (by
          intro k w hw
          rw [h1.mem _ (root_not_below m _ _) (fun h => by have := root_inj m h; omega)]
          have := hmem (k + 1) w (by simpa using hw)
          rw [show i + 1 + k = i + (k + 1) by omega]
          exact this)
      have hleft1 : σ1.mem (rootOf m i) = some (.val v.moved) := by
        rw [h1.left]; cases v <;> simp [Val.put]
      have hroot2 : σ2.mem (rootOf m i) = some (.val v.moved) := by
        rw [h2.mem _ (by rintro ⟨j, _, h⟩; exact root_not_below m i _ h)
          (fun k _ h => by have := root_inj m h; omega)]
        exact hleft1
      refine ⟨σ2, ?_, ?_, ?_, ?_, ?_, ?_⟩
      · simp only [cParams, execAll_append, h1.run, Option.bind_some, h2.run]
      · intro n hn
        rw [h2.env n (fun ⟨j, hj, h⟩ => hn ⟨j, by omega, h⟩),
          h1.env n (fun h => hn ⟨i, Nat.le_refl _, h⟩)]
      · intro n hn hr
        rw [h2.mem n (fun ⟨j, hj, h⟩ => hn ⟨j, by omega, h⟩) (by
            intro k hk
            have := hr (k + 1) (by simpa using hk)
            rw [show i + 1 + k = i + (k + 1) by omega]
            exact this),
          h1.mem n (fun h => hn ⟨i, Nat.le_refl _, h⟩) (by simpa using hr 0 (by simp))]
      · rw [h2.exits, h1.exits]
      · intro k w hw
        cases k with
        | zero =>
          simp only [List.getElem?_cons_zero, Option.some.injEq] at hw
          subst hw
          simpa using hroot2
        | succ k =>
          have := h2.left k w (by simpa using hw)
          rw [show i + (k + 1) = i + 1 + k by omega]
          exact this
      · intro σ'' hag he hm
        obtain ⟨a, ha, hev⟩ := h1.delivers σ'' ⟨by
            intro n hn
            rw [(hag n ⟨i, Nat.le_refl _, hn⟩).1, h2.env n (hdisj n hn)], by
            intro n hn
            rw [(hag n ⟨i, Nat.le_refl _, hn⟩).2, h2.mem n (hdisj n hn)
              (fun k _ h => root_not_below m _ _ (h ▸ hn))],
          by simpa using he 0 (by simp),
          ⟨v.moved, by simpa using hm 0 v (by simp), by simp [Val.at]⟩⟩
        obtain ⟨avs, hall, hevs⟩ := h2.delivers σ''
          (fun n ⟨j, hj, h⟩ => hag n ⟨j, by omega, h⟩)
          (by
            intro k hk
            have := he (k + 1) (by simpa using hk)
            rw [show i + 1 + k = i + (k + 1) by omega]
            exact this)
          (by
            intro k w hw
            have := hm (k + 1) w (by simpa using hw)
            rw [show i + 1 + k = i + (k + 1) by omega]
            exact this)
        exact ⟨a :: avs, by simp [cParams, allSome, ha, hall],
          by simp [rEvals, hev, hevs, rustOfs]⟩

theorem entry_env (m : Bool) (args : List Val) (k : Nat) (h : k < args.length) :
    (entry m args).env [.param k] = some ⟨rootOf m k, []⟩ := by
  simp [entry, h]

theorem entry_mem (m : Bool) (args : List Val) (k : Nat) (v : Val) (h : args[k]? = some v) :
    (entry m args).mem (rootOf m k) = some (.val v) := by
  unfold rootOf
  split
  · next hc =>
    simp only [Bool.and_eq_true, beq_iff_eq] at hc
    obtain ⟨rfl, rfl⟩ := hc
    simp [entry, h]
  · next hc =>
    cases hmk : (m && k == 0) with
    | true => exact (hc hmk).elim
    | false =>
      simp only [entry, hmk, h, Option.map_some]
      rfl

theorem entry_fresh (m : Bool) (args : List Val) (s : Seg) (n : Name) (h : Below [s] n) :
    (entry m args).env n = none := by
  obtain ⟨pre, hp, rfl⟩ := h
  cases pre with
  | nil => exact (hp rfl).elim
  | cons a pre => cases pre <;> simp [entry]

theorem entry_exits (m : Bool) (args : List Val) (n : Name) (h : n ∈ (entry m args).exits) :
    ∃ k, k < args.length ∧ n = rootOf m k := by
  simp only [entry, List.mem_map, List.mem_filter, List.mem_range] at h
  obtain ⟨k, ⟨hk, hc⟩, rfl⟩ := h
  refine ⟨k, hk, ?_⟩
  unfold rootOf
  have : (m && k == 0) = false := by
    cases hmk : (m && k == 0) with
    | true => rw [hmk] at hc; cases hc
    | false => rfl
  simp [this]

theorem releases_nil {σ : CState} (h : ∀ n ∈ σ.exits, ∃ w, σ.mem n = some (.val w) ∧ w.owns = []) :
    releases σ = [] := by
  unfold releases
  rw [List.flatMap_eq_nil_iff]
  intro n hn
  obtain ⟨w, hw, ho⟩ := h n hn
  simp [hw, ho]

theorem range_map_getElem? {α β : Type} (l : List α) (f : Nat → Option β) (g : α → Option β)
    (h : ∀ k a, l[k]? = some a → f k = g a) : (List.range l.length).map f = l.map g := by
  apply List.ext_getElem
  · simp
  · intro k h1 h2
    simp only [List.length_map] at h2
    simp only [List.getElem_map, List.getElem_range]
    exact h k _ (List.getElem?_eq_getElem h2)

theorem cppOf_direct (K : Convs) (t : Ty) (v : Val) (hv : HasTy t v) (h : returnsDirectly t = true) :
    cppOf K t v = v ∧ originals t v = [] := by
  apply cppOf_sameBytes K t v hv
  cases t with
  | scalar d => simp [SameBytes]
  | tup ts => cases ts with
    | nil => simp [SameBytes, SameBytesAll]
    | cons a b => simp [returnsDirectly, Ty.isCAbi] at h
  | adt _ => simp [returnsDirectly, Ty.isCAbi] at h
  | legacyPtr _ => simp [returnsDirectly, Ty.isCAbi] at h
  | legacyVal _ _ => simp [returnsDirectly, Ty.isCAbi] at h
  | composable _ => simp [returnsDirectly, Ty.isCAbi] at h

/-- **The call theorem.** -/
theorem run_call (K : Convs) (lct m : Bool) (params : List Ty) (ret : Ty) (f : List Val → Val)
    (args : List Val) (hp : ∀ t ∈ params, ScalarsTrivial t ∧ TuplesOk lct t)
    (hret : lct = true → TuplesOk lct ret)
    (ha : HasTys params args) (hf : HasTy ret (f (rustOfs K params args))) :
    ∃ o, runCall K lct m params ret f args = some o ∧
      o.seen = rustOfs K params args ∧
      o.result = cppOf K ret (f (rustOfs K params args)) ∧
      o.rustDrops = originals ret (f (rustOfs K params args)) ∧
      o.cppReleases = [] ∧
      o.after = args.map fun v => some (.val v.moved) := by
  have hlen := HasTys_length params args ha
  have hd : returnsDirectly ret = true → cppOf K ret (f (rustOfs K params args))
      = f (rustOfs K params args) ∧ originals ret (f (rustOfs K params args)) = [] := fun h =>
    cppOf_direct K ret _ hf h
  obtain ⟨σ1, h1⟩ := params_ok K lct m params args 0 (entry m args) hp ha
    (fun n ⟨j, _, h⟩ => entry_fresh m args _ n h)
    (by intro k hk; simpa using entry_env m args k (by omega))
    (by intro k v hk; simpa using entry_mem m args k v hk)
  have henv1 : ∀ k, k < params.length → σ1.env [.param k] = some ⟨rootOf m k, []⟩ := by
    intro k hk
    rw [h1.env _ (by
      rintro ⟨j, _, pre, hpre, h⟩
      have hl := congrArg List.length h
      simp only [List.length_append, List.length_singleton] at hl
      exact hpre (List.length_eq_zero_iff.mp (by omega)))]
    exact entry_env m args k (by omega)
  have hleft1 : ∀ k v, args[k]? = some v → σ1.mem (rootOf m k) = some (.val v.moved) := by
    intro k v hk; simpa using h1.left k v hk
  have hexits1 : ∀ n ∈ σ1.exits, ∃ k v, args[k]? = some v ∧ n = rootOf m k := by
    intro n hn
    rw [h1.exits] at hn
    obtain ⟨k, hk, rfl⟩ := entry_exits m args n hn
    exact ⟨k, args[k], List.getElem?_eq_getElem hk, rfl⟩
  by_cases hdir : returnsDirectly ret = true
  · obtain ⟨avs, hall, hev⟩ := h1.delivers σ1 (fun _ _ => ⟨rfl, rfl⟩)
      (by intro k hk; simpa using henv1 k hk) h1.left
    refine ⟨{ seen := rustOfs K params args
              result := f (rustOfs K params args)
              rustDrops := []
              cppReleases := releases σ1
              after := (List.range args.length).map fun i => σ1.mem (rootOf m i) },
      ?_, rfl, (hd hdir).1.symm, (hd hdir).2.symm, ?_, ?_⟩
    · simp only [runCall, h1.run, Option.bind_some, hdir, if_true, hall, hev]
    · apply releases_nil
      intro n hn
      obtain ⟨k, v, hk, rfl⟩ := hexits1 n hn
      exact ⟨v.moved, hleft1 k v hk, moved_owns v⟩
    · exact range_map_getElem? args _ _ hleft1
  · have retdisj : ∀ n, Below [.ret] n → ¬ PElem 0 n := by
      rintro n hn ⟨j, _, h⟩
      have := below_head hn (Or.inr h)
      cases this
    obtain ⟨σ2, E, l, h2⟩ := ret_ok K lct ret hret [.ret] σ1 (by
      intro n hn
      rw [h1.env n (retdisj n hn)]
      exact entry_fresh m args _ n hn)
    have hpnr : ∀ k, ¬ Below [.ret] ([.param k] : Name) := by
      rintro k ⟨pre, hpre, h⟩
      have hl := congrArg List.length h
      simp only [List.length_append, List.length_singleton] at hl
      exact hpre (List.length_eq_zero_iff.mp (by omega))
    obtain ⟨avs, hall, hev⟩ := h1.delivers σ2
      (by
        intro n hn
        have : ¬ Below [.ret] n := fun h => retdisj n h hn
        exact ⟨h2.env n this, h2.mem n this⟩)
      (by
        intro k hk
        rw [h2.env _ (hpnr _)]
        simpa using henv1 k hk)
      (by
        intro k v hk
        rw [h2.mem _ (root_not_below m _ _)]
        exact h1.left k v hk)
    obtain ⟨ρ, hw⟩ := h2.write ⟨σ2, []⟩ _ hf (fun _ _ => ⟨rfl, rfl⟩)
    obtain ⟨σ3, e1, e2, e3, e4, e5⟩ := hw.unpack ρ.cs (fun _ _ => rfl)
    have hroot3 : ∀ k v, args[k]? = some v → σ3.mem (rootOf m k) = some (.val v.moved) := by
      intro k v hk
      rw [e4 _ (root_not_below m _ _), hw.mem _ (root_not_below m _ _),
        h2.mem _ (root_not_below m _ _)]
      exact hleft1 k v hk
    refine ⟨{ seen := rustOfs K params args
              result := cppOf K ret (f (rustOfs K params args))
              rustDrops := ρ.drops
              cppReleases := releases σ3
              after := (List.range args.length).map fun i => σ3.mem (rootOf m i) },
      ?_, rfl, rfl, ?_, ?_, ?_⟩
    · simp only [runCall, h1.run, Option.bind_some, hdir, h2.run, hall,
        h2.ptr σ2 (fun _ _ => ⟨rfl, rfl⟩), hev, hw.run, e1]
      simp
    · simp [hw.drops]
    · apply releases_nil
      intro n hn
      rw [e3, hw.exits] at hn
      have : n ∈ E ++ σ1.exits := by rw [← h2.exits]; exact hn
      rcases List.mem_append.mp this with h | h
      · exact e5 n h
      · obtain ⟨k, v, hk, rfl⟩ := hexits1 n h
        exact ⟨v.moved, hroot3 k v hk, moved_owns v⟩
    · exact range_map_getElem? args _ _ hroot3

end Verif.FnCall

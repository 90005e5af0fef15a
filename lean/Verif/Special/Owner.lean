import Verif.Special.Props

/-!
# C++ special members of Rust types: ownership
-/

namespace Verif.Special

/-- The invariant: values have one owner each, are initialised, and those that have no owner have been
dropped once. -/
structure OInv (s : St) : Prop where
  ub : s.ub = false
  tmp : s.objs .tmp = none
  full : ∀ l c, s.objs l = some c → ∃ v, c = some v ∧ v.id < s.next
  inj : ∀ l l' v v', s.objs l = some (some v) → s.objs l' = some (some v') → v.id = v'.id → l = l'
  nodup : s.drops.Nodup
  old : ∀ d ∈ s.drops, d < s.next ∧ ∀ l v, s.objs l = some (some v) → v.id ≠ d
  all : ∀ n, n < s.next → n ∈ s.drops ∨ ∃ l v, s.objs l = some (some v) ∧ v.id = n

theorem oinv_init : OInv St.init := by
  constructor <;> simp [St.init]

theorem OInv.make {s : St} (h : OInv s) {x : Nat} (hx : s.objs (.var x) = none) (c : Nat) :
    OInv (s.make (.var x) c) := by
  have get : ∀ {l v}, (s.make (.var x) c).objs l = some (some v) →
      (l = .var x ∧ v = ⟨s.next, c⟩) ∨ (l ≠ .var x ∧ s.objs l = some (some v)) := by
    intro l v hl
    simp only [St.make, St.put] at hl
    by_cases e : l = .var x
    · subst e
      rw [upd_same] at hl
      injection hl with hl
      injection hl with hl
      exact .inl ⟨rfl, hl.symm⟩
    · rw [upd_ne _ _ e] at hl
      exact .inr ⟨e, hl⟩
  have lt : ∀ {l v}, s.objs l = some (some v) → v.id < s.next := by
    intro l v hl
    obtain ⟨w, e, hw⟩ := h.full l _ hl
    injection e with e
    exact e ▸ hw
  constructor
  · exact h.ub
  · simp only [St.make, St.put]; rw [upd_ne _ _ (by simp)]; exact h.tmp
  · intro l c' hl
    simp only [St.make, St.put] at hl ⊢
    by_cases e : l = .var x
    · subst e
      rw [upd_same] at hl
      injection hl with hl
      exact ⟨_, hl.symm, Nat.lt_succ_self _⟩
    · rw [upd_ne _ _ e] at hl
      obtain ⟨v, hv, hlt⟩ := h.full l c' hl
      exact ⟨v, hv, Nat.lt_succ_of_lt hlt⟩
  · intro l l' v v' hl hl' hid
    rcases get hl with ⟨rfl, rfl⟩ | ⟨e, hl⟩ <;> rcases get hl' with ⟨rfl, rfl⟩ | ⟨e', hl'⟩
    · rfl
    · have := lt hl'
      simp only at hid
      omega
    · have := lt hl
      simp only at hid
      omega
    · exact h.inj l l' v v' hl hl' hid
  · exact h.nodup
  · intro d hd
    have hd' := h.old d hd
    refine ⟨Nat.lt_succ_of_lt hd'.1, ?_⟩
    intro l v hl
    rcases get hl with ⟨rfl, rfl⟩ | ⟨e, hl⟩
    · have := hd'.1
      simp only
      omega
    · exact hd'.2 l v hl
  · intro n hn
    simp only [St.make] at hn
    by_cases e : n = s.next
    · subst e
      exact .inr ⟨.var x, _, by simp only [St.make, St.put]; rw [upd_same], rfl⟩
    · rcases h.all n (by omega) with hd | ⟨l, v, hl, hv⟩
      · exact .inl hd
      · refine .inr ⟨l, v, ?_, hv⟩
        simp only [St.make, St.put]
        rw [upd_ne _ _ ?_, hl]
        intro e'
        rw [e', hx] at hl; cases hl

theorem OInv.drop {s : St} (h : OInv s) {x : Nat} {v : Val} (hx : s.objs (.var x) = some (some v)) :
    OInv ((rsDrop (.var x) s).put (.var x) none) := by
  have e : (rsDrop (.var x) s).put (.var x) none =
      { s with objs := upd s.objs (.var x) none, drops := s.drops ++ [v.id] } := by
    simp [rsDrop, hx, St.put]
  rw [e]
  have get : ∀ {l w}, upd s.objs (.var x) none l = some w → l ≠ .var x ∧ s.objs l = some w := by
    intro l w hl
    by_cases e : l = .var x
    · rw [e, upd_same] at hl; cases hl
    · rw [upd_ne _ _ e] at hl; exact ⟨e, hl⟩
  constructor
  · exact h.ub
  · simp only; rw [upd_ne _ _ (by simp)]; exact h.tmp
  · intro l c hl
    exact h.full l c (get hl).2
  · intro l l' w w' hl hl' hid
    exact h.inj l l' w w' (get hl).2 (get hl').2 hid
  · refine List.nodup_append.mpr ⟨h.nodup, by simp, ?_⟩
    intro a ha b hb
    simp only [List.mem_singleton] at hb
    subst hb
    exact Ne.symm ((h.old a ha).2 (.var x) v hx)
  · intro d hd
    simp only [List.mem_append, List.mem_singleton] at hd
    rcases hd with hd | rfl
    · exact ⟨(h.old d hd).1, fun l w hl => (h.old d hd).2 l w (get hl).2⟩
    · obtain ⟨w, e, hw⟩ := h.full _ _ hx
      injection e with e
      subst e
      exact ⟨hw, fun l w' hl hid => (get hl).1 (h.inj l (.var x) w' v (get hl).2 hx hid)⟩
  · intro n hn
    rcases h.all n hn with hd | ⟨l, w, hl, hw⟩
    · exact .inl (by simp [hd])
    · by_cases e : l = .var x
      · subst e
        rw [hx] at hl
        injection hl with hl
        injection hl with hl
        subst hl
        exact .inl (by simp [hw])
      · exact .inr ⟨l, w, by simp only; rw [upd_ne _ _ e, hl], hw⟩

/-- Objects change places or contents; the values are the same. -/
theorem OInv.permute {s s' : St} (h : OInv s) (f : Loc → Loc) (hf : ∀ l l', f l = f l' → l = l')
    (h1 : ∀ l v, s'.objs l = some v → ∃ v0 w, s.objs (f l) = some (some v0) ∧ v = some w ∧ w.id = v0.id)
    (h2 : ∀ l v, s.objs l = some (some v) → ∃ l' v', s'.objs l' = some (some v') ∧ v'.id = v.id)
    (h3 : s'.next = s.next) (h4 : s'.drops = s.drops) (h5 : s'.ub = s.ub)
    (h6 : s'.objs .tmp = none) : OInv s' := by
  have get : ∀ {l v}, s'.objs l = some (some v) → ∃ v0, s.objs (f l) = some (some v0) ∧ v.id = v0.id := by
    intro l v hl
    obtain ⟨v0, w, h0, e, hid⟩ := h1 l _ hl
    injection e with e
    exact ⟨v0, h0, e ▸ hid⟩
  constructor
  · rw [h5]; exact h.ub
  · exact h6
  · intro l c hl
    obtain ⟨v0, w, h0, e, hid⟩ := h1 l c hl
    obtain ⟨v1, e1, hlt⟩ := h.full _ _ h0
    injection e1 with e1
    exact ⟨w, e, by rw [h3, hid, e1]; exact hlt⟩
  · intro l l' v v' hl hl' hid
    obtain ⟨v0, hv0, e0⟩ := get hl
    obtain ⟨v1, hv1, e1⟩ := get hl'
    exact hf _ _ (h.inj _ _ v0 v1 hv0 hv1 (by omega))
  · rw [h4]; exact h.nodup
  · intro d hd
    rw [h4] at hd
    rw [h3]
    refine ⟨(h.old d hd).1, ?_⟩
    intro l v hl
    obtain ⟨v0, hv0, e0⟩ := get hl
    rw [e0]
    exact (h.old d hd).2 _ v0 hv0
  · intro n hn
    rw [h3] at hn
    rw [h4]
    rcases h.all n hn with hd | ⟨l, v, hl, hv⟩
    · exact .inl hd
    · obtain ⟨l', v', hl', hid⟩ := h2 l v hl
      exact .inr ⟨l', v', hl', by rw [hid]; exact hv⟩

/-- Same identity, other contents. -/
theorem OInv.set {s : St} (h : OInv s) {x : Nat} {v : Val} (hx : s.objs (.var x) = some (some v)) (c : Nat) :
    OInv (s.put (.var x) (some (some ⟨v.id, c⟩))) := by
  refine h.permute id (fun _ _ e => e) ?_ ?_ rfl rfl rfl ?_
  · intro l w hl
    simp only [St.put] at hl
    by_cases e : l = .var x
    · subst e
      rw [upd_same] at hl
      injection hl with hl
      exact ⟨v, _, hx, hl.symm, rfl⟩
    · rw [upd_ne _ _ e] at hl
      obtain ⟨w', rfl, -⟩ := h.full l w hl
      exact ⟨w', w', hl, rfl, rfl⟩
  · intro l w hl
    by_cases e : l = .var x
    · subst e
      rw [hx] at hl
      injection hl with hl
      injection hl with hl
      subst hl
      exact ⟨.var x, ⟨v.id, c⟩, by simp only [St.put]; rw [upd_same], rfl⟩
    · exact ⟨l, w, by simp only [St.put]; rw [upd_ne _ _ e, hl], rfl⟩
  · simp only [St.put]; rw [upd_ne _ _ (by simp)]; exact h.tmp

/-- Swap two places. -/
def swapLoc (x y : Nat) (l : Loc) : Loc :=
  if l = .var x then .var y else if l = .var y then .var x else l

theorem swap_inj {x y : Nat} (l l' : Loc) (h : swapLoc x y l = swapLoc x y l') : l = l' := by
  unfold swapLoc at h
  split at h <;> split at h <;> (try split at h) <;> (try split at h) <;> simp_all

/-- Two objects are swapped. -/
theorem OInv.swap {s : St} (h : OInv s) {x y : Nat} {v w : Val} (hx : s.objs (.var x) = some (some v))
    (hy : s.objs (.var y) = some (some w)) : OInv (memSwap (.var x) (.var y) s) := by
  by_cases hxy : x = y
  · subst hxy; simp only [memSwap, if_true]; exact h
  have hne : Loc.var x ≠ Loc.var y := by simpa using hxy
  have e : ∀ l, (memSwap (.var x) (.var y) s).objs l =
      s.objs (swapLoc x y l) := by
    intro l
    simp only [memSwap, hne, if_false, St.put]
    unfold swapLoc
    by_cases h1 : l = .var x
    · subst h1
      rw [upd_ne _ _ hne, upd_same, if_pos rfl]
    · by_cases h2 : l = .var y
      · subst h2
        rw [upd_same, if_neg h1, if_pos rfl]
      · rw [upd_ne _ _ h2, upd_ne _ _ h1, if_neg h1, if_neg h2]
  refine h.permute (swapLoc x y) swap_inj ?_ ?_ ?_ ?_ ?_ ?_
  · intro l u hl
    rw [e] at hl
    obtain ⟨u', rfl, -⟩ := h.full _ _ hl
    exact ⟨u', u', hl, rfl, rfl⟩
  · intro l u hl
    refine ⟨swapLoc x y l, u, ?_, rfl⟩
    rw [e, ← hl]
    congr 1
    unfold swapLoc
    by_cases h1 : l = .var x
    · subst h1; simp [Ne.symm hxy]
    · by_cases h2 : l = .var y
      · subst h2; simp [Ne.symm hxy]
      · simp [h1, h2]
  all_goals simp only [memSwap, hne, if_false, St.put]
  · rw [upd_ne _ _ (by simp), upd_ne _ _ (by simp)]; exact h.tmp

/-- An object moves to new storage. -/
theorem OInv.relocate {s : St} (h : OInv s) {x y : Nat} {v : Val} (hx : s.objs (.var x) = none)
    (hy : s.objs (.var y) = some (some v)) : OInv (relocate (.var x) (.var y) s) := by
  have hxy : x ≠ y := by
    intro e
    rw [e, hy] at hx; cases hx
  have hne : Loc.var x ≠ Loc.var y := by simpa using hxy
  have e : ∀ l c, (Special.relocate (.var x) (.var y) s).objs l = some c →
      s.objs (swapLoc x y l) = some c := by
    intro l c hl
    simp only [Special.relocate, copyBytes, St.put] at hl
    unfold swapLoc
    by_cases h1 : l = .var x
    · subst h1
      rw [upd_ne _ _ hne, upd_same] at hl
      rw [if_pos rfl, hl]
    · by_cases h2 : l = .var y
      · subst h2; rw [upd_same] at hl; cases hl
      · rw [upd_ne _ _ h2, upd_ne _ _ h1] at hl
        rw [if_neg h1, if_neg h2, hl]
  refine h.permute (swapLoc x y) swap_inj ?_ ?_ rfl rfl rfl ?_
  · intro l u hl
    have := e l u hl
    obtain ⟨u', rfl, -⟩ := h.full _ _ this
    exact ⟨u', u', this, rfl, rfl⟩
  · intro l u hl
    by_cases h2 : l = .var y
    · subst h2
      refine ⟨.var x, u, ?_, rfl⟩
      simp only [Special.relocate, copyBytes, St.put]
      rw [upd_ne _ _ hne, upd_same, hl]
    · have h1 : l ≠ .var x := by
        intro e1
        rw [e1, hx] at hl; cases hl
      refine ⟨l, u, ?_, rfl⟩
      simp only [Special.relocate, copyBytes, St.put]
      rw [upd_ne _ _ h2, upd_ne _ _ h1, hl]
  · simp only [Special.relocate, copyBytes, St.put]
    rw [upd_ne _ _ (by simp), upd_ne _ _ (by simp)]; exact h.tmp

theorem OInv.some {s : St} (h : OInv s) {l : Loc} (hl : (s.objs l).isSome) :
    ∃ v, s.objs l = .some (.some v) := by
  obtain ⟨c, hc⟩ := Option.isSome_iff_exists.mp hl
  obtain ⟨v, rfl, -⟩ := h.full l c hc
  exact ⟨v, hc⟩

theorem OInv.cloneFrom {t : Traits} {i : Impl} {s s' : St} (h : OInv s) (hnd : t.needsDrop = true)
    (hcc : t.copy = false) {inPlace : Bool} {x y : Nat} (hx : (s.objs (.var x)).isSome)
    (hy : (s.objs (.var y)).isSome)
    (ho : copyAssignOp t i inPlace (.var x) (.var y) s = Option.some s') : OInv s' := by
  obtain ⟨v, hv⟩ := h.some hx
  obtain ⟨w, hw⟩ := h.some hy
  simp only [copyAssignOp, copyStyle, hcc, Bool.false_eq_true, if_false] at ho
  split at ho
  · rename_i hs; split at hs <;> cases hs
  · injection ho with ho
    subst ho
    split
    · exact h
    · simp only [rsCloneFrom, hv, hw, hnd, if_true]
      split
      · exact h.set hv _
      · rw [← put_make _ _ none]
        refine (h.drop hv).make ?_ _
        simp only [St.put, upd_same]
  · cases ho

/-- What a C++ program does with a Rust type that has a destructor, one step. -/
theorem OInv.step {t : Traits} {i : Impl} {cabi : Bool} {s s' : St} {o : Op} (h : OInv s)
    (hl : t.Legal) (hnd : t.needsDrop = true) (hc : cabi = false)
    (ho : step t i cabi s o = Option.some s') : OInv s' := by
  have hcc : t.copy = false := by
    cases hcc : t.copy with
    | false => rfl
    | true => have := (hl hcc).2; rw [hnd] at this; cases this
  have hc' : cabi = true → t.needsDrop = false := by rw [hc]; simp
  have copyC : ∀ {x y : Nat} {s'}, (s.objs (.var x)).isNone → (s.objs (.var y)).isSome →
      copyCtor t i cabi (.var x) (.var y) s = Option.some s' → OInv s' := by
    intro x y s' hx hy ho
    obtain ⟨v, hv⟩ := h.some hy
    have hx' : s.objs (.var x) = none := by simpa using hx
    have hyx : y ≠ x := by
      intro e
      rw [e, hx'] at hv; cases hv
    cases hcl : t.clone with
    | false => simp [copyCtor, copyStyle, hcc, hcl] at ho
    | true =>
        rw [copyCtor_clone_eq hc' h.tmp (by simp [copyStyle, hcc, hcl]) hyx hv] at ho
        injection ho with ho
        subst ho
        exact h.make hx' _
  have dfl : ∀ {x : Nat} {s'}, (s.objs (.var x)).isNone →
      defaultCtor t i cabi (.var x) s = Option.some s' → OInv s' ∧
        s' = s.make (.var x) i.dflt := by
    intro x s' hx ho
    have hx' : s.objs (.var x) = none := by simpa using hx
    cases hd : t.dflt with
    | false => simp [defaultCtor, hd] at ho
    | true =>
        rw [defaultCtor_eq hc' h.tmp hd] at ho
        injection ho with ho
        subst ho
        exact ⟨h.make hx' _, rfl⟩
  cases o with
  | defaultCtor x =>
      simp only [Special.step] at ho
      split at ho
      · rename_i hx; exact (dfl hx ho).1
      · cases ho
  | copyCtor x y =>
      simp only [Special.step] at ho
      split at ho
      · rename_i hxy
        simp only [Bool.and_eq_true] at hxy
        exact copyC hxy.1 hxy.2 ho
      · cases ho
  | moveCtor x y =>
      simp only [Special.step] at ho
      split at ho
      · rename_i hxy
        simp only [Bool.and_eq_true] at hxy
        unfold moveCtor at ho
        split at ho
        · rename_i hm
          simp only [moveStyle, hnd, Bool.not_true, Bool.false_eq_true, if_false] at hm
          split at hm
          · cases hm
          · split at hm <;> cases hm
        · rename_i hm
          cases hd : defaultCtor t i cabi (.var x) s with
          | none => rw [hd] at ho; cases ho
          | some s1 =>
              rw [hd] at ho
              obtain ⟨hi, e⟩ := dfl hxy.1 hd
              simp only [Option.bind_some, moveAssignOp, hm, Option.some.injEq] at ho
              subst ho
              obtain ⟨v, hv⟩ := h.some hxy.2
              have hx' : s.objs (.var x) = none := by simpa using hxy.1
              have hyx : y ≠ x := by
                intro e
                rw [e, hx'] at hv; cases hv
              refine hi.swap (v := ⟨s.next, i.dflt⟩) (w := v) ?_ ?_
              · rw [e]; simp only [St.make, St.put, upd_same]
              · rw [e]; simp only [St.make, St.put]; rw [upd_ne _ _ (by simpa using hyx), hv]
        · exact copyC hxy.1 hxy.2 ho
        · cases ho
      · cases ho
  | copyAssign x y inPlace =>
      simp only [Special.step] at ho
      split at ho
      · rename_i hxy
        simp only [Bool.and_eq_true] at hxy
        exact h.cloneFrom hnd hcc hxy.1 hxy.2 ho
      · cases ho
  | moveAssign x y inPlace =>
      simp only [Special.step] at ho
      split at ho
      · rename_i hxy
        simp only [Bool.and_eq_true] at hxy
        unfold moveAssignOp at ho
        split at ho
        · rename_i hm
          simp only [moveStyle, hnd, Bool.not_true, Bool.false_eq_true, if_false] at hm
          split at hm
          · cases hm
          · split at hm <;> cases hm
        · injection ho with ho
          subst ho
          obtain ⟨v, hv⟩ := h.some hxy.1
          obtain ⟨w, hw⟩ := h.some hxy.2
          exact h.swap hv hw
        · exact h.cloneFrom hnd hcc hxy.1 hxy.2 ho
        · cases ho
      · cases ho
  | destroy x =>
      simp only [Special.step] at ho
      split at ho
      · rename_i hx
        injection ho with ho
        subst ho
        obtain ⟨v, hv⟩ := h.some hx
        simp only [destroy, hnd, if_true]
        exact h.drop hv
      · cases ho
  | relocate x y =>
      simp only [Special.step] at ho
      split at ho
      · rename_i hxy
        simp only [Bool.and_eq_true] at hxy
        injection ho with ho
        subst ho
        obtain ⟨v, hv⟩ := h.some hxy.2
        exact h.relocate (by simpa using hxy.1) hv
      · cases ho
  | fromRust x c =>
      simp only [Special.step] at ho
      split at ho
      · rename_i hx
        rw [fromRust_eq h.tmp] at ho
        injection ho with ho
        subst ho
        exact h.make (by simpa using hx) _
      · cases ho
  | mutate x c =>
      simp only [Special.step] at ho
      split at ho
      · rename_i v hv
        injection ho with ho
        subst ho
        exact h.set hv c
      · cases ho

theorem OInv.run {t : Traits} {i : Impl} {cabi : Bool} {s s' : St} {os : List Op} (h : OInv s)
    (hl : t.Legal) (hnd : t.needsDrop = true) (hc : cabi = false)
    (ho : run t i cabi s os = Option.some s') : OInv s' := by
  induction os generalizing s with
  | nil => simp only [Special.run, Option.some.injEq] at ho; exact ho ▸ h
  | cons o os ih =>
      simp only [Special.run] at ho
      cases h1 : Special.step t i cabi s o with
      | none => rw [h1] at ho; cases ho
      | some s1 => rw [h1] at ho; exact ih (h.step hl hnd hc h1) ho

/-- C89: whatever a C++ program does with a Rust type that has a destructor (and is not passed in
registers): no destructor ever sees uninitialised bytes; each Rust value that came to be is owned by
exactly one C++ object, or has been dropped exactly once. -/
theorem one_owner (t : Traits) (i : Impl) (hl : t.Legal) (hnd : t.needsDrop = true) (os : List Op)
    (s : St) (h : run t i false St.init os = some s) :
    s.ub = false ∧ s.drops.Nodup ∧
    (∀ x c, s.objs (.var x) = some c → ∃ v, c = some v ∧ v.id < s.next) ∧
    (∀ n, n < s.next → (n ∈ s.drops ↔ ¬ ∃ x v, s.objs (.var x) = some (some v) ∧ v.id = n)) ∧
    (∀ x y v w, s.objs (.var x) = some (some v) → s.objs (.var y) = some (some w) → v.id = w.id →
      x = y) := by
  have hi := oinv_init.run (i := i) hl hnd rfl h
  refine ⟨hi.ub, hi.nodup, fun x c hx => hi.full _ c hx, ?_, ?_⟩
  · intro n hn
    constructor
    · rintro hd ⟨x, v, hx, hv⟩
      exact (hi.old n hd).2 _ v hx hv
    · intro hno
      rcases hi.all n hn with hd | ⟨l, v, hl', hv⟩
      · exact hd
      · cases l with
        | tmp => rw [hi.tmp] at hl'; cases hl'
        | var x => exact absurd ⟨x, v, hl', hv⟩ hno
  · intro x y v w hx hy hid
    simpa using hi.inj _ _ v w hx hy hid

/-- C89: once all objects are gone, exactly the values that came to be have been dropped, once each. -/
theorem all_dropped (t : Traits) (i : Impl) (hl : t.Legal) (hnd : t.needsDrop = true) (os : List Op)
    (s : St) (h : run t i false St.init os = some s) (hgone : ∀ x, s.objs (.var x) = none) :
    s.drops.Nodup ∧ ∀ n, n ∈ s.drops ↔ n < s.next := by
  have hi := oinv_init.run (i := i) hl hnd rfl h
  obtain ⟨-, h2, -, h4, -⟩ := one_owner t i hl hnd os s h
  refine ⟨h2, fun n => ⟨fun hd => (hi.old n hd).1, fun hn => (h4 n hn).mpr ?_⟩⟩
  rintro ⟨x, v, hx, -⟩
  rw [hgone x] at hx; cases hx

/-- C88: which operations exist: `none` is a deleted (or ill-formed) member. -/
theorem available (t : Traits) (i : Impl) (cabi : Bool) (hc : cabi = true → t.needsDrop = false)
    (b : Bool) (l o : Loc) (s : St) :
    ((defaultCtor t i cabi l s).isSome ↔ t.dflt = true) ∧
    ((copyCtor t i cabi l o s).isSome ↔ t.copy = true ∨ t.clone = true) ∧
    ((copyAssignOp t i b l o s).isSome ↔ t.copy = true ∨ t.clone = true) ∧
    ((moveCtor t i cabi l o s).isSome ↔ t.needsDrop = false ∨ (t.dflt = true ∧ t.unpin = true) ∨
      t.copy = true ∨ t.clone = true) ∧
    ((moveAssignOp t i b l o s).isSome ↔ t.needsDrop = false ∨ (t.dflt = true ∧ t.unpin = true) ∨
      t.copy = true ∨ t.clone = true) := by
  obtain ⟨a, b, c, d, e⟩ := t
  cases a <;> cases b <;> cases c <;> cases d <;> cases e <;> cases cabi <;>
    simp_all [copyStyle, moveStyle, defaultCtor, copyCtor, copyAssignOp, moveCtor, moveAssignOp, ctorBody]

/-! ## A disagreement -/

/-- A `#[repr(transparent)]` type that is passed in registers, has a destructor and implements `Default`:
default construction runs the destructor on uninitialised bytes.  (So it is in the checked-in
`cc_bindings_from_rs/test/pass_by_value_unmovable/pass_by_value_unmovable_cc_api.h:113–134`.) -/
theorem transparent_default_drops_garbage (t : Traits) (i : Impl) (hnd : t.needsDrop = true)
    (hd : t.dflt = true) (hu : t.unpin = true) :
    ∃ s, run t i true St.init [.defaultCtor 0] = some s ∧ s.ub = true := by
  refine ⟨_, by
    simp only [run, step, St.init, Option.isNone_none, if_true, defaultCtor, hd, ctorBody, moveAssignOp,
      moveStyle, hnd, Bool.not_true, Bool.false_eq_true, if_false, hu, Bool.and_self, Option.map_some,
      Option.bind_some]
    rfl, ?_⟩
  simp [destroy, hnd, memSwap, St.put, St.make, rsDrop, upd]

/-- Likewise copy construction, when the type implements `Clone`: `clone_from` gets an uninitialised
`self`. -/
theorem transparent_clone_sees_garbage (t : Traits) (i : Impl) (hl : t.Legal) (hnd : t.needsDrop = true)
    (hc : t.clone = true) (c : Nat) :
    ∃ s, run t i true St.init [.fromRust 0 c, .copyCtor 1 0] = some s ∧ s.ub = true := by
  have hcc : t.copy = false := by
    cases hcc : t.copy with
    | false => rfl
    | true => have := (hl hcc).2; rw [hnd] at this; cases this
  by_cases hdu : (t.dflt && t.unpin) = true
  · simp [run, step, St.init, fromRust_eq, copyCtor, copyStyle, hcc, hc, ctorBody, moveAssignOp, moveStyle,
      hnd, hdu, St.make, St.put, upd, rsClone, memSwap, destroy, rsDrop, relocate, copyBytes]
  · simp [run, step, St.init, fromRust_eq, copyCtor, copyStyle, hcc, hc, ctorBody, moveAssignOp, moveStyle,
      hnd, hdu, St.make, St.put, upd, rsClone, memSwap, destroy, rsDrop, relocate, copyBytes, copyAssignOp,
      rsCloneFrom]

/-! ## Concrete cases -/

/-- A type with a destructor, `Clone` and `Default`: `mem::take` on move construction, swap on move
assignment. -/
def boxed : Traits := ⟨false, true, true, true, true⟩

/-- Contents double when cloned; the default is 0. -/
def impl : Impl := ⟨0, fun c => 2 * c⟩

example : boxed.Legal := by simp [boxed, Traits.Legal]

/-- The program of the next examples. -/
def story : List Op :=
  [.fromRust 0 5, .moveCtor 1 0, .copyCtor 2 1, .copyAssign 2 2 false, .copyAssign 0 2 true,
   .copyAssign 0 1 false, .moveAssign 1 0 false, .moveAssign 1 1 true, .relocate 3 1, .mutate 2 9,
   .destroy 0, .destroy 2, .destroy 3]

example : (specRun boxed impl (fun _ => none) (story.take 5)).map (fun s => [s 0, s 1, s 2]) =
    some [some (.val 20), some (.val 5), some (.val 10)] := by decide +kernel
example : (run boxed impl false St.init story).map (fun s => (s.next, s.drops, s.ub)) =
    some (4, [1, 0, 2, 3], false) := by decide +kernel
example : (specRun boxed impl (fun _ => none) story).isSome := by decide +kernel

/-- Without `Default`, a move is a clone; without both, there is none. -/
example : (run ⟨false, true, false, true, true⟩ impl false St.init [.fromRust 0 5, .moveCtor 1 0]).map
    (fun s => (s.objs (.var 0), s.objs (.var 1))) = some (some (some ⟨0, 5⟩), some (some ⟨1, 10⟩)) := by
  decide +kernel
example : (run ⟨false, false, false, true, true⟩ impl false St.init
    [.fromRust 0 5, .moveCtor 1 0]).isNone := by decide +kernel

/-- A plain type that is passed in registers. -/
example : (run ⟨false, true, true, true, false⟩ impl true St.init
    [.defaultCtor 0, .mutate 0 7, .copyCtor 1 0, .moveCtor 2 1]).map
    (fun s => (s.objs (.var 0), s.objs (.var 1), s.objs (.var 2), s.ub)) =
      some (some (some ⟨0, 7⟩), some (some ⟨1, 14⟩), some (some ⟨1, 14⟩), false) := by decide +kernel

end Verif.Special

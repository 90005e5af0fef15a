import Verif.FnCall.Tuples

/-! # Results: whatever Rust returns, C++ gets -/

namespace Verif.FnCall

mutual
theorem cppOf_sameBytes (K : Convs) : ∀ (t : Ty) (v : Val), HasTy t v → SameBytes t →
    cppOf K t v = v ∧ originals t v = []
  | .scalar _, .leaf _, _, _ => by simp [cppOf, originals]
  | .adt _, .leaf _, _, _ => by simp [cppOf, originals]
  | .legacyPtr c, .leaf _, _, h => by simp only [SameBytes] at h; subst h; simp [cppOf, originals]
  | .legacyVal c _, .leaf _, _, h => by simp only [SameBytes] at h; subst h; simp [cppOf, originals]
  | .composable _, _, _, h => by simp [SameBytes] at h
  | .tup ts, .tup vs, hv, h => by
      simp only [SameBytes, HasTy] at h hv
      have := cppOfs_sameBytes K ts vs hv h
      simp [cppOf, originals, this.1, this.2]
  | .scalar _, .tup _, h, _ => by simp [HasTy] at h
  | .adt _, .tup _, h, _ => by simp [HasTy] at h
  | .legacyPtr _, .tup _, h, _ => by simp [HasTy] at h
  | .legacyVal _ _, .tup _, h, _ => by simp [HasTy] at h
  | .tup _, .leaf _, h, _ => by simp [HasTy] at h
theorem cppOfs_sameBytes (K : Convs) : ∀ (ts : List Ty) (vs : List Val), HasTys ts vs →
    SameBytesAll ts → cppOfs K ts vs = vs ∧ originalsAll ts vs = []
  | [], [], _, _ => by simp [cppOfs, originalsAll]
  | t :: ts, v :: vs, hv, h => by
      simp only [SameBytesAll, HasTys] at h hv
      have h1 := cppOf_sameBytes K t v hv.1 h.1
      have h2 := cppOfs_sameBytes K ts vs hv.2 h.2
      simp [cppOfs, originalsAll, h1.1, h1.2, h2.1, h2.2]
  | [], _ :: _, h, _ => by simp [HasTys] at h
  | _ :: _, [], h, _ => by simp [HasTys] at h
end

/-- `σ''` agrees with `σ'` on the names satisfying `P`. -/
def AgreeOn (P : Name → Prop) (σ' σ'' : CState) : Prop :=
  ∀ n, P n → σ''.env n = σ'.env n ∧ σ''.mem n = σ'.mem n

/-- Writing `v` through `l` and unpacking it again, touching only names in `P`. -/
structure WriteDone (K : Convs) (P : Name → Prop) (E : List Name) (w : RWrite) (u : UExpr)
    (v out : Val) (drops : List Nat) (l : Loc) (ρ ρ' : RState) : Prop where
  run : w.exec K v l ρ = some ρ'
  env : ρ'.cs.env = ρ.cs.env
  exits : ρ'.cs.exits = ρ.cs.exits
  mem : ∀ n, ¬ P n → ρ'.cs.mem n = ρ.cs.mem n
  drops : ρ'.drops = ρ.drops ++ drops
  unpack : ∀ σ'' : CState, (∀ n, P n → σ''.mem n = ρ'.cs.mem n) →
    ∃ σ3, u.eval K σ'' = some (out, σ3) ∧ σ3.env = σ''.env ∧ σ3.exits = σ''.exits ∧
      (∀ n, ¬ P n → σ3.mem n = σ''.mem n) ∧
      ∀ n ∈ E, ∃ w, σ3.mem n = some (.val w) ∧ w.owns = []

/-- Making room for a result of type `t` named `x`. `E` are the destructors it registers. -/
structure RetDone (K : Convs) (lct : Bool) (x : Name) (t : Ty) (σ σ' : CState) (E : List Name)
    (l : Loc) : Prop where
  run : execAll K (cReturn lct x t).1 σ = some σ'
  env : ∀ n, ¬ Below x n → σ'.env n = σ.env n
  mem : ∀ n, ¬ Below x n → σ'.mem n = σ.mem n
  exits : σ'.exits = E ++ σ.exits
  below : ∀ n ∈ E, Below x n
  ptr : ∀ σ'', AgreeOn (Below x) σ' σ'' → σ''.ptrOf (.storage :: x) = some l
  write : ∀ (ρ : RState) (v : Val), HasTy t v → AgreeOn (Below x) σ' ρ.cs →
    ∃ ρ', WriteDone K (Below x) E (rWrite lct t) (cReturn lct x t).2 v (cppOf K t v)
      (originals t v) l ρ ρ'

theorem holder_ne_storage (x : Name) : (Seg.holder :: x : Name) ≠ .storage :: x := by simp

/-- The state with an uninitialised holder and a pointer to it. -/
def roomState (σ : CState) (x : Name) (E : List Name) : CState where
  env := fun m => if m = .storage :: x then some ⟨.storage :: x, []⟩
    else if m = .holder :: x then some ⟨.holder :: x, []⟩ else σ.env m
  mem := fun m => if m = .storage :: x then some (.ptr ⟨.holder :: x, []⟩)
    else if m = .holder :: x then some .hole else σ.mem m
  exits := E ++ σ.exits

theorem fill_holder {σ : CState} {n : Name} (v : Val) (h : σ.mem n = some .hole) :
    σ.fill ⟨n, []⟩ v = some (σ.setMem n (.val v)) := by
  simp [CState.fill, h]

/-- A result held in one variable (slot, union or plain), written by `ptr::write` or a converter. -/
theorem ret_one {K : Convs} {lct : Bool} {x : Name} {t : Ty} {σ : CState} (E : List Name)
    (fresh : ∀ n, Below x n → σ.env n = none)
    (hrun : execAll K (cReturn lct x t).1 σ = some (roomState σ x E))
    (hE : E = [] ∨ (E = [.holder :: x] ∧ (cReturn lct x t).2 = .moveVal (.holder :: x)))
    (hu : (cReturn lct x t).2 = .moveVal (.holder :: x) ∨ (cReturn lct x t).2 = .take (.holder :: x)
      ∨ (cReturn lct x t).2 = .deref (.storage :: x))
    (hw : ∀ v, HasTy t v → ∀ ρ : RState, ρ.cs.mem (.holder :: x) = some .hole →
      (rWrite lct t).exec K v ⟨.holder :: x, []⟩ ρ
        = some ⟨ρ.cs.setMem (.holder :: x) (.val (cppOf K t v)), ρ.drops ++ originals t v⟩) :
    RetDone K lct x t σ (roomState σ x E) E ⟨.holder :: x, []⟩ := by
  have hbs : Below x (.storage :: x) := below_cons _ _
  have hbh : Below x (.holder :: x) := below_cons _ _
  refine ⟨hrun, ?_, ?_, rfl, ?_, ?_, ?_⟩
  · intro n hn
    have h1 : n ≠ .storage :: x := fun h => hn (h ▸ hbs)
    have h2 : n ≠ .holder :: x := fun h => hn (h ▸ hbh)
    simp [roomState, h1, h2]
  · intro n hn
    have h1 : n ≠ .storage :: x := fun h => hn (h ▸ hbs)
    have h2 : n ≠ .holder :: x := fun h => hn (h ▸ hbh)
    simp [roomState, h1, h2]
  · intro n hn
    rcases hE with rfl | ⟨rfl, _⟩
    · simp at hn
    · simp only [List.mem_singleton] at hn; subst hn; exact hbh
  · intro σ'' hag
    have h := hag _ hbs
    simp only [roomState, if_true] at h
    simp [CState.ptrOf, h.1, h.2]
  · intro ρ v hv hag
    have hh := (hag _ hbh).2
    have hs := (hag _ hbs).2
    simp only [roomState, holder_ne_storage, if_true, if_false] at hh hs
    refine ⟨⟨ρ.cs.setMem (.holder :: x) (.val (cppOf K t v)), ρ.drops ++ originals t v⟩,
      hw v hv ρ hh, rfl, rfl, ?_, rfl, ?_⟩
    · intro n hn
      have h2 : n ≠ .holder :: x := fun h => hn (h ▸ hbh)
      simp [CState.setMem, h2]
    · intro σ'' hm
      have hmh := hm _ hbh
      have hms := hm _ hbs
      have hne : (Seg.storage :: x : Name) ≠ .holder :: x := by simp
      simp only [CState.setMem, if_true, hne, if_false, hs] at hmh hms
      rcases hu with hu | hu | hu
      · refine ⟨σ''.setMem (.holder :: x) (.val (cppOf K t v).moved), ?_, rfl, rfl, ?_, ?_⟩
        · simp [hu, UExpr.eval, hmh]
        · intro n hn
          have h2 : n ≠ .holder :: x := fun h => hn (h ▸ hbh)
          simp [CState.setMem, h2]
        · intro n hn
          rcases hE with rfl | ⟨rfl, _⟩
          · simp at hn
          · simp only [List.mem_singleton] at hn; subst hn
            exact ⟨(cppOf K t v).moved, by simp [CState.setMem], moved_owns _⟩
      · have hE0 : E = [] := by
          rcases hE with h | ⟨_, h⟩
          · exact h
          · rw [hu] at h; cases h
        refine ⟨σ''.setMem (.holder :: x) .hole, ?_, rfl, rfl, ?_, ?_⟩
        · simp [hu, UExpr.eval, hmh]
        · intro n hn
          have h2 : n ≠ .holder :: x := fun h => hn (h ▸ hbh)
          simp [CState.setMem, h2]
        · intro n hn; simp [hE0] at hn
      · have hE0 : E = [] := by
          rcases hE with h | ⟨_, h⟩
          · exact h
          · rw [hu] at h; cases h
        refine ⟨σ'', ?_, rfl, rfl, fun _ _ => rfl, ?_⟩
        · simp [hu, UExpr.eval, hms, CState.valAt, hmh, Val.at]
        · intro n hn; simp [hE0] at hn

theorem room_run {K : Convs} {x : Name} {σ : CState} (fresh : ∀ n, Below x n → σ.env n = none) :
    CStmt.exec K σ (.retSlot (.holder :: x) (.storage :: x)) = some (roomState σ x []) ∧
    CStmt.exec K σ (.retPlain (.holder :: x) (.storage :: x)) = some (roomState σ x []) ∧
    CStmt.exec K σ (.retUnion (.holder :: x) (.storage :: x))
      = some (roomState σ x [.holder :: x]) := by
  have h1 : σ.env (.holder :: x) = none := fresh _ (below_cons _ _)
  have h2 : σ.env (.storage :: x) = none := fresh _ (below_cons _ _)
  refine ⟨?_, ?_, ?_⟩ <;>
  simp [CStmt.exec, CState.declare, h1, h2, roomState]

/-- A result in a buffer. -/
theorem ret_composable (K : Convs) (lct : Bool) (k : Nat) {x : Name} {σ : CState}
    (fresh : ∀ n, Below x n → σ.env n = none) :
    RetDone K lct x (.composable k) σ (σ.withVar (.storage :: x) .emptyBuf) []
      ⟨.storage :: x, []⟩ := by
  have hbs : Below x (.storage :: x) := below_cons _ _
  refine ⟨?_, ?_, ?_, rfl, by simp, ?_, ?_⟩
  · simp [cReturn, execAll, CStmt.exec, declare_fresh _ (fresh _ hbs)]
  · intro n hn
    have h1 : n ≠ .storage :: x := fun h => hn (h ▸ hbs)
    simp [CState.withVar, h1]
  · intro n hn
    have h1 : n ≠ .storage :: x := fun h => hn (h ▸ hbs)
    simp [CState.withVar, h1]
  · intro σ'' hag
    have h := hag _ hbs
    simp only [CState.withVar, if_true] at h
    simp [CState.ptrOf, h.1, h.2]
  · intro ρ v hv hag
    have h := hag _ hbs
    simp only [CState.withVar, if_true] at h
    cases v with
    | tup vs => simp [HasTy] at hv
    | leaf a =>
      refine ⟨⟨ρ.cs.setMem (.storage :: x) (.buf { a with val := K.rEnc k a.val }), ρ.drops⟩,
        ?_, rfl, rfl, ?_, by simp [originals], ?_⟩
      · simp [rWrite, RWrite.exec, h.2]
      · intro n hn
        have h1 : n ≠ .storage :: x := fun h => hn (h ▸ hbs)
        simp [CState.setMem, h1]
      · intro σ'' hm
        have hmb := hm _ hbs
        simp only [CState.setMem, if_true] at hmb
        refine ⟨σ''.setMem (.storage :: x) .emptyBuf, ?_, rfl, rfl, ?_, by simp⟩
        · simp [cReturn, UExpr.eval, hmb, cppOf]
        · intro n hn
          have h1 : n ≠ .storage :: x := fun h => hn (h ▸ hbs)
          simp [CState.setMem, h1]

/-! ## Tuples -/

/-- The names of result element `j` of `x`. -/
def RElem (x : Name) (i : Nat) (n : Name) : Prop := ∃ j, i ≤ j ∧ Below (.idx j :: x) n

theorem relem_below {x : Name} {i : Nat} {n : Name} (h : RElem x i n) : Below x n := by
  obtain ⟨j, _, h⟩ := h; exact below_trans h

theorem relem_head {x : Name} {i : Nat} {n : Name} (h : Below (.idx i :: x) n) : RElem x i n :=
  ⟨i, Nat.le_refl _, h⟩

theorem relem_succ {x : Name} {i : Nat} {n : Name} (h : RElem x (i + 1) n) : RElem x i n := by
  obtain ⟨j, hj, h⟩ := h; exact ⟨j, by omega, h⟩

theorem relem_disj {x : Name} {i : Nat} {n : Name} (h : Below (.idx i :: x) n) :
    ¬ RElem x (i + 1) n := by
  rintro ⟨j, hj, h'⟩
  have := below_idx_inj (Or.inr h) (Or.inr h')
  simp only [Seg.idx.injEq] at this
  omega

theorem not_relem_storage (x : Name) (i : Nat) : ¬ RElem x i (.storage :: x) := by
  rintro ⟨j, _, h⟩
  have := below_idx_inj (Or.inr h) (Or.inl (rfl : Seg.storage :: x = .storage :: x))
  cases this

structure WritesDone (K : Convs) (P : Name → Prop) (E : List Name) (ws : List RWrite)
    (us : List UExpr) (vs outs : List Val) (drops : List Nat) (ls : List Loc) (ρ ρ' : RState) :
    Prop where
  run : RWrite.execs K ws vs ls ρ = some ρ'
  env : ρ'.cs.env = ρ.cs.env
  exits : ρ'.cs.exits = ρ.cs.exits
  mem : ∀ n, ¬ P n → ρ'.cs.mem n = ρ.cs.mem n
  drops : ρ'.drops = ρ.drops ++ drops
  unpack : ∀ σ'' : CState, (∀ n, P n → σ''.mem n = ρ'.cs.mem n) →
    ∃ σ3, UExpr.evals K us σ'' = some (outs, σ3) ∧ σ3.env = σ''.env ∧ σ3.exits = σ''.exits ∧
      (∀ n, ¬ P n → σ3.mem n = σ''.mem n) ∧
      ∀ n ∈ E, ∃ w, σ3.mem n = some (.val w) ∧ w.owns = []

structure RetsDone (K : Convs) (lct : Bool) (x : Name) (i : Nat) (ts : List Ty) (σ σ' : CState)
    (E : List Name) (ls : List Loc) : Prop where
  run : execAll K (cReturns lct x i ts).1 σ = some σ'
  env : ∀ n, ¬ RElem x i n → σ'.env n = σ.env n
  mem : ∀ n, ¬ RElem x i n → σ'.mem n = σ.mem n
  exits : σ'.exits = E ++ σ.exits
  below : ∀ n ∈ E, RElem x i n
  len : ls.length = ts.length
  ptr : ∀ σ'', AgreeOn (RElem x i) σ' σ'' → ∀ k, k < ts.length →
    σ''.ptrOf (.storage :: .idx (i + k) :: x) = ls[k]?
  write : ∀ (ρ : RState) (vs : List Val), HasTys ts vs → AgreeOn (RElem x i) σ' ρ.cs →
    ∃ ρ', WritesDone K (RElem x i) E (rWrites lct ts) (cReturns lct x i ts).2 vs (cppOfs K ts vs)
      (originalsAll ts vs) ls ρ ρ'

theorem rets_cons {K : Convs} {lct : Bool} {x : Name} {i : Nat} {t : Ty} {ts : List Ty}
    {σ σ1 σ2 : CState} {E1 E2 : List Name} {l : Loc} {ls : List Loc}
    (h1 : RetDone K lct (.idx i :: x) t σ σ1 E1 l)
    (h2 : RetsDone K lct x (i + 1) ts σ1 σ2 E2 ls) :
    RetsDone K lct x i (t :: ts) σ σ2 (E2 ++ E1) (l :: ls) := by
  have hd : ∀ n, Below (.idx i :: x) n → ¬ RElem x (i + 1) n := fun n h => relem_disj h
  have agree1 : ∀ σ'' : CState, AgreeOn (RElem x i) σ2 σ'' → AgreeOn (Below (.idx i :: x)) σ1 σ'' := by
    intro σ'' hag n hn
    have := hag n (relem_head hn)
    rw [h2.env n (hd n hn), h2.mem n (hd n hn)] at this
    exact this
  have agree2 : ∀ σ'' : CState, AgreeOn (RElem x i) σ2 σ'' → AgreeOn (RElem x (i + 1)) σ2 σ'' :=
    fun σ'' hag n hn => hag n (relem_succ hn)
  refine ⟨?_, ?_, ?_, ?_, ?_, ?_, ?_, ?_⟩
  · simp only [cReturns, execAll_append, h1.run, Option.bind_some, h2.run]
  · intro n hn
    rw [h2.env n (fun h => hn (relem_succ h)), h1.env n (fun h => hn (relem_head h))]
  · intro n hn
    rw [h2.mem n (fun h => hn (relem_succ h)), h1.mem n (fun h => hn (relem_head h))]
  · rw [h2.exits, h1.exits, List.append_assoc]
  · intro n hn
    rcases List.mem_append.mp hn with h | h
    · exact relem_succ (h2.below n h)
    · exact relem_head (h1.below n h)
  · simp [h2.len]
  · intro σ'' hag k hk
    cases k with
    | zero => simpa using h1.ptr σ'' (agree1 σ'' hag)
    | succ k =>
      have := h2.ptr σ'' (agree2 σ'' hag) k (by simpa using hk)
      rw [show i + (k + 1) = i + 1 + k by omega, this]
      simp
  · intro ρ vs hv hag
    cases vs with
    | nil => simp [HasTys] at hv
    | cons v vs =>
      simp only [HasTys] at hv
      obtain ⟨ρ1, w1⟩ := h1.write ρ v hv.1 (agree1 _ hag)
      obtain ⟨ρ2, w2⟩ := h2.write ρ1 vs hv.2 (by
        intro n hn
        have := agree2 _ hag n hn
        rw [w1.env, w1.mem n (fun h => hd n h hn)]
        exact this)
      refine ⟨ρ2, ?_, ?_, ?_, ?_, ?_, ?_⟩
      · simp [rWrites, RWrite.execs, w1.run, w2.run]
      · rw [w2.env, w1.env]
      · rw [w2.exits, w1.exits]
      · intro n hn
        rw [w2.mem n (fun h => hn (relem_succ h)), w1.mem n (fun h => hn (relem_head h))]
      · rw [w2.drops, w1.drops]; simp [originalsAll]
      · intro σ'' hm
        obtain ⟨σ3, e1, e2, e3, e4, e5⟩ := w1.unpack σ'' (by
          intro n hn
          rw [hm n (relem_head hn), w2.mem n (hd n hn)])
        obtain ⟨σ4, f1, f2, f3, f4, f5⟩ := w2.unpack σ3 (by
          intro n hn
          rw [e4 n (fun h => hd n h hn), hm n (relem_succ hn)])
        refine ⟨σ4, ?_, by rw [f2, e2], by rw [f3, e3], ?_, ?_⟩
        · simp [cReturns, UExpr.evals, e1, f1, cppOfs]
        · intro n hn
          rw [f4 n (fun h => hn (relem_succ h)), e4 n (fun h => hn (relem_head h))]
        · intro n hn
          rcases List.mem_append.mp hn with h | h
          · exact f5 n h
          · obtain ⟨w, hw, ho⟩ := e5 n h
            exact ⟨w, by rw [f4 n (hd n (h1.below n h))]; exact hw, ho⟩

mutual
/-- Every result arrives. -/
theorem ret_ok (K : Convs) (lct : Bool) : ∀ (t : Ty), (lct = true → TuplesOk lct t) →
    ∀ (x : Name) (σ : CState), (∀ n, Below x n → σ.env n = none) →
    ∃ σ' E l, RetDone K lct x t σ σ' E l
  | .scalar d, _, x, σ, fresh => by
      refine ⟨_, [], _, ret_one [] fresh ?_ (Or.inl rfl) (by simp [cReturn]) ?_⟩
      · simp [cReturn, execAll, (room_run (K := K) fresh).2.1]
      · intro v hv ρ h
        cases v with
        | tup vs => simp [HasTy] at hv
        | leaf a => simp [rWrite, RWrite.exec, fill_holder _ h, cppOf, originals]
  | .adt d, _, x, σ, fresh => by
      refine ⟨_, [], _, ret_one [] fresh ?_ (Or.inl rfl) (by simp [cReturn]) ?_⟩
      · simp [cReturn, execAll, (room_run (K := K) fresh).1]
      · intro v hv ρ h
        cases v with
        | tup vs => simp [HasTy] at hv
        | leaf a => simp [rWrite, RWrite.exec, fill_holder _ h, cppOf, originals]
  | .legacyPtr c, _, x, σ, fresh => by
      refine ⟨_, [.holder :: x], _, ret_one [.holder :: x] fresh ?_
        (Or.inr ⟨rfl, by simp [cReturn]⟩) (by simp [cReturn]) ?_⟩
      · simp [cReturn, execAll, (room_run (K := K) fresh).2.2]
      · intro v hv ρ h
        cases v with
        | tup vs => simp [HasTy] at hv
        | leaf a => cases c <;> simp [rWrite, RWrite.exec, fill_holder _ h, cppOf, originals]
  | .legacyVal c d, _, x, σ, fresh => by
      cases d with
      | false =>
        refine ⟨_, [.holder :: x], _, ret_one [.holder :: x] fresh ?_
          (Or.inr ⟨rfl, by simp [cReturn]⟩) (by simp [cReturn]) ?_⟩
        · simp [cReturn, execAll, (room_run (K := K) fresh).2.2]
        · intro v hv ρ h
          cases v with
          | tup vs => simp [HasTy] at hv
          | leaf a => cases c <;> simp [rWrite, RWrite.exec, fill_holder _ h, cppOf, originals]
      | true =>
        refine ⟨_, [], _, ret_one [] fresh ?_ (Or.inl rfl) (by simp [cReturn]) ?_⟩
        · simp [cReturn, execAll, (room_run (K := K) fresh).1]
        · intro v hv ρ h
          cases v with
          | tup vs => simp [HasTy] at hv
          | leaf a => cases c <;> simp [rWrite, RWrite.exec, fill_holder _ h, cppOf, originals]
  | .composable k, _, x, σ, fresh => ⟨_, _, _, ret_composable K lct k fresh⟩
  | .tup [], _, x, σ, fresh => by
      refine ⟨_, [], _, ret_one [] fresh ?_ (Or.inl rfl) (by simp [cReturn]) ?_⟩
      · simp [cReturn, execAll, (room_run (K := K) fresh).2.1]
      · intro v hv ρ h
        have h0 : v = .tup [] := by
          cases v with
          | leaf l => simp [HasTy] at hv
          | tup vs => cases vs with
            | nil => rfl
            | cons a b => simp [HasTy, HasTys] at hv
        subst h0
        simp [rWrite, RWrite.exec, fill_holder _ h, cppOf, cppOfs, originals, originalsAll]
  | .tup (t :: ts), hok, x, σ, fresh => by
      cases lct with
      | true =>
        refine ⟨_, [], _, ret_one [] fresh ?_ (Or.inl rfl) (by simp [cReturn]) ?_⟩
        · simp [cReturn, execAll, (room_run (K := K) fresh).1]
        · intro v hv ρ h
          have hb : SameBytes (.tup (t :: ts)) := by
            have := hok rfl
            simp only [TuplesOk] at this
            simpa [SameBytes] using this.1
          have hc := cppOf_sameBytes K _ v hv hb
          rw [hc.1, hc.2]
          simp [rWrite, RWrite.exec, fill_holder _ h]
      | false =>
        have hr := rets_ok K (t :: ts) x 0 σ (fun n hn => fresh n (relem_below hn))
        obtain ⟨σ1, E, ls, h1⟩ := hr
        have hbs : Below x (.storage :: x) := below_cons _ _
        have hsf : σ1.env (.storage :: x) = none := by
          rw [h1.env _ (not_relem_storage x 0)]; exact fresh _ hbs
        have hlen := h1.len
        have hall : allSome (((List.range (ts.length + 1)).map
            fun i => (Seg.storage :: .idx i :: x : Name)).map σ1.ptrOf) = some ls := by
          rw [List.map_map]
          apply allSome_names _ _ _ (by simpa using hlen)
          intro k hk
          have := h1.ptr σ1 (fun n _ => ⟨rfl, rfl⟩) k (by simpa using hk)
          simpa using this
        have hrun : execAll K ((cReturn false (.idx 0 :: x) t).1 ++ (cReturns false x 1 ts).1) σ
            = some σ1 := by
          have := h1.run
          simpa [cReturns] using this
        have hne : ∀ n, RElem x 0 n → n ≠ .storage :: x := fun n hn h =>
          not_relem_storage x 0 (h ▸ hn)
        refine ⟨σ1.withVar (.storage :: x) (.arr ls), E, ⟨.storage :: x, []⟩,
          ?_, ?_, ?_, ?_, ?_, ?_, ?_⟩
        · simp only [cReturn]
          rw [if_neg (by simp), execAll_append, hrun]
          simp only [Option.bind_some, execAll, CStmt.exec, hall]
          rw [declare_fresh _ hsf]
          simp
        · intro n hn
          have : n ≠ .storage :: x := fun h => hn (h ▸ hbs)
          simp only [CState.withVar, this, if_false]
          exact h1.env n (fun h => hn (relem_below h))
        · intro n hn
          have : n ≠ .storage :: x := fun h => hn (h ▸ hbs)
          simp only [CState.withVar, this, if_false]
          exact h1.mem n (fun h => hn (relem_below h))
        · simp [CState.withVar, h1.exits]
        · exact fun n hn => relem_below (h1.below n hn)
        · intro σ'' hag
          have h := hag _ hbs
          simp only [CState.withVar, if_true] at h
          simp [CState.ptrOf, h.1, h.2]
        · intro ρ v hv hag
          cases v with
          | leaf l => simp [HasTy] at hv
          | tup vs =>
            simp only [HasTy] at hv
            have hs := (hag _ hbs).2
            simp only [CState.withVar, if_true] at hs
            obtain ⟨ρ1, w⟩ := h1.write ρ vs hv (by
              intro n hn
              have := hag n (relem_below hn)
              simpa [CState.withVar, hne n hn] using this)
            refine ⟨ρ1, ?_, w.env, w.exits, ?_, ?_, ?_⟩
            · have := w.run
              simp only [rWrites] at this
              simp only [List.length_cons] at hlen
              simp [rWrite, RWrite.exec, hs, hlen, this]
            · exact fun n hn => w.mem n (fun h => hn (relem_below h))
            · rw [w.drops]; simp [originals]
            · intro σ'' hm
              obtain ⟨σ3, e1, e2, e3, e4, e5⟩ := w.unpack σ'' (fun n hn => hm n (relem_below hn))
              refine ⟨σ3, ?_, e2, e3, fun n hn => e4 n (fun h => hn (relem_below h)), e5⟩
              simp only [cReturns] at e1
              simp [cReturn, UExpr.eval, e1, cppOf]
/-- Every element of a result arrives. -/
theorem rets_ok (K : Convs) : ∀ (ts : List Ty) (x : Name) (i : Nat) (σ : CState),
    (∀ n, RElem x i n → σ.env n = none) → ∃ σ' E ls, RetsDone K false x i ts σ σ' E ls
  | [], x, i, σ, _ => by
      refine ⟨σ, [], [], by simp [cReturns, execAll], fun _ _ => rfl, fun _ _ => rfl, rfl, by simp,
        rfl, by simp, ?_⟩
      intro ρ vs hv _
      cases vs with
      | cons a b => simp [HasTys] at hv
      | nil =>
        refine ⟨ρ, by simp [rWrites, RWrite.execs], rfl, rfl, fun _ _ => rfl,
          by simp [originalsAll], ?_⟩
        intro σ'' _
        exact ⟨σ'', by simp [cReturns, UExpr.evals, cppOfs], rfl, rfl, fun _ _ => rfl, by simp⟩
  | t :: ts, x, i, σ, fresh => by
      obtain ⟨σ1, E1, l, h1⟩ := ret_ok K false t (by simp) (.idx i :: x) σ
        (fun n hn => fresh n (relem_head hn))
      obtain ⟨σ2, E2, ls, h2⟩ := rets_ok K ts x (i + 1) σ1 (by
        intro n hn
        rw [h1.env n (fun h => relem_disj h hn)]
        exact fresh n (relem_succ hn))
      exact ⟨σ2, _, _, rets_cons h1 h2⟩
end

end Verif.FnCall

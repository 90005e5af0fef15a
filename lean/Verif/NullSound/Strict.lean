import Verif.NullSound.Facts
/- Facts for C122: in a fully annotated program every null pointer comes from a source the annotations speak about. -/
namespace Verif.NullSound

/-- The same pointer; if it is null, its source is known. -/
structure SV (v v' : Val) : Prop where
  addr : v'.addr = v.addr
  known : v.addr = none → v'.known = true

/-- `SV` on every variable. -/
def SS (σ τ : State) : Prop := List.Forall₂ SV σ τ

theorem SV.lift (v : Val) : SV v ⟨v.addr, true⟩ := ⟨rfl, fun _ => rfl⟩

theorem SV.bad {v v' : Val} (h : SV v v') : KnownNull v' ↔ AnyNull v := by
  unfold KnownNull AnyNull
  rw [h.addr]
  exact ⟨fun h => h.1, fun hn => ⟨hn, h.known hn⟩⟩

theorem SS.get {σ τ : State} (h : SS σ τ) {x : Nat} {v : Val} (hx : σ[x]? = some v) : ∃ v', τ[x]? = some v' ∧ SV v v' := by
  unfold SS at h
  induction h generalizing x with
  | nil => simp at hx
  | cons h1 _ ih =>
    cases x with
    | zero => simp at hx; subst hx; exact ⟨_, by simp, h1⟩
    | succ x => simpa using ih (by simpa using hx)

theorem SS.set {σ τ : State} (h : SS σ τ) {v v' : Val} (hv : SV v v') (x : Nat) : SS (σ.set x v) (τ.set x v') := by
  unfold SS at *
  induction h generalizing x with
  | nil => exact .nil
  | cons h1 h2 ih =>
    cases x with
    | zero => exact .cons hv h2
    | succ x => exact .cons h1 (ih x)

theorem SV.usable {d : Decls} {x : Nat} {v v' : Val} (h : SV v v') : Usable KnownNull d x v' ↔ Usable AnyNull d x v := by
  unfold Usable
  rw [h.bad]

theorem SS.op {d : Decls} {σ τ : State} (h : SS σ τ) {o : Operand} {v : Val} (ho : OpVal AnyNull d σ o v) : ∃ v', OpVal KnownNull d τ o v' ∧ SV v v' := by
  cases ho with
  | var hx hu => obtain ⟨v', h1, h2⟩ := h.get hx; exact ⟨v', .var h1 (h2.usable.2 hu), h2⟩
  | null => exact ⟨_, .null, SV.lift _⟩
  | obj hv => exact ⟨⟨v.addr, true⟩, .obj hv, SV.lift _⟩

theorem SS.opFault {d : Decls} {σ τ : State} (h : SS σ τ) {o : Operand} (ho : OpFault AnyNull d σ o) : OpFault KnownNull d τ o := by
  cases ho with
  | var hx hu => obtain ⟨v', h1, h2⟩ := h.get hx; exact .var h1 (fun hc => hu (h2.usable.1 hc))

theorem SS.args {d : Decls} {σ τ : State} (h : SS σ τ) {as : List Arg} {vs : List (Val × Kind)} (ha : ArgVals AnyNull d σ as vs) :
    ∃ vs', ArgVals KnownNull d τ as vs' ∧ List.Forall₂ (fun a b => SV a.1 b.1 ∧ a.2 = b.2) vs vs' := by
  induction ha with
  | nil => exact ⟨[], .nil, .nil⟩
  | val ho _ ih =>
    obtain ⟨v', h1, h2⟩ := h.op ho
    obtain ⟨vs', h3, h4⟩ := ih
    exact ⟨_, .val h1 h3, .cons ⟨h2, rfl⟩ h4⟩
  | out _ ih => obtain ⟨vs', h3, h4⟩ := ih; exact ⟨_, .out h3, h4⟩

theorem forall2_fwd {vs vs' : List (Val × Kind)} (h : List.Forall₂ (fun a b => SV a.1 b.1 ∧ a.2 = b.2) vs vs') {v : Val} {k : Kind} (hv : (v, k) ∈ vs) :
    ∃ v', (v', k) ∈ vs' ∧ SV v v' := by
  induction h with
  | nil => cases hv
  | @cons a b _ _ h1 _ ih =>
    rcases List.mem_cons.1 hv with rfl | hv
    · exact ⟨b.1, by rw [show (b.1, k) = b from Prod.ext rfl h1.2]; simp, h1.1⟩
    · obtain ⟨v', h2, h3⟩ := ih hv; exact ⟨v', by simp [h2], h3⟩

theorem forall2_bwd {vs vs' : List (Val × Kind)} (h : List.Forall₂ (fun a b => SV a.1 b.1 ∧ a.2 = b.2) vs vs') {v' : Val} {k : Kind} (hv : (v', k) ∈ vs') :
    ∃ v, (v, k) ∈ vs ∧ SV v v' := by
  induction h with
  | nil => cases hv
  | @cons a b _ _ h1 _ ih =>
    rcases List.mem_cons.1 hv with rfl | hv
    · exact ⟨a.1, by rw [show a = (a.1, k) from Prod.ext rfl h1.2]; simp, h1.1⟩
    · obtain ⟨v', h2, h3⟩ := ih hv; exact ⟨v', by simp [h2], h3⟩

theorem fromKind_lift {k : Kind} {v : Val} (hk : k ≠ .unspecified) (h : FromKind k v) : FromKind k ⟨v.addr, true⟩ := by
  cases k with
  | nonnull => exact h
  | nullable => exact rfl
  | unspecified => exact absurd rfl hk

theorem SS.outs {as : List Arg} {σ σ' : State} (ho : Outs as σ σ') : ∀ {τ : State}, SS σ τ → (∀ x k, Arg.out x k ∈ as → k ≠ .unspecified) →
    ∃ τ', Outs as τ τ' ∧ SS σ' τ' := by
  induction ho with
  | nil => intro τ h _; exact ⟨τ, .nil, h⟩
  | val _ ih => intro τ h hk; obtain ⟨τ', h1, h2⟩ := ih h (fun x k hx => hk x k (by simp [hx])); exact ⟨τ', .val h1, h2⟩
  | @out x k as σ σ' v hv _ ih =>
    intro τ h hk
    obtain ⟨τ', h1, h2⟩ := ih (h.set (SV.lift v) x) (fun x k hx => hk x k (by simp [hx]))
    exact ⟨τ', .out (fromKind_lift (hk x k (by simp)) hv) h1, h2⟩

/-- The results correspond. -/
inductive SR' : Res → Res → Prop
  | ok {σ τ v v'} : SS σ τ → SV v v' → SR' (.ok σ v) (.ok τ v')
  | fault {w} : SR' (.fault w) (.fault w)

theorem SS.eval {d : Decls} {r : Rhs} {σ τ : State} {x : Res} (h : SS σ τ) (hr : r.annotated) (he : Eval AnyNull d r σ x) :
    ∃ x', Eval KnownNull d r τ x' ∧ SR' x x' := by
  cases he with
  | moved h1 h2 => exact ⟨_, .moved h1 (h.opFault h2), .fault⟩
  | use ho => obtain ⟨v', h1, h2⟩ := h.op ho; exact ⟨_, .use h1, .ok h h2⟩
  | callFault ha hm hb =>
    obtain ⟨vs', h1, h2⟩ := h.args ha
    obtain ⟨v', h3, h4⟩ := forall2_fwd h2 hm
    exact ⟨_, .callFault h1 h3 (h4.bad.2 hb), .fault⟩
  | call ha hg ho hk =>
    obtain ⟨vs', h1, h2⟩ := h.args ha
    obtain ⟨τ', h3, h4⟩ := SS.outs ho h hr.2
    refine ⟨_, .call h1 (fun v' hv' hb => ?_) h3 (fromKind_lift hr.1 hk), .ok h4 (SV.lift _)⟩
    obtain ⟨v, h5, h6⟩ := forall2_bwd h2 hv'
    exact hg v h5 (h6.bad.1 hb)
  | cast ho => obtain ⟨v', h1, h2⟩ := h.op ho; exact ⟨_, .cast h1, .ok h h2⟩
  | offsetFault ho hb => obtain ⟨v', h1, h2⟩ := h.op ho; exact ⟨_, .offsetFault h1 (h2.bad.2 hb), .fault⟩
  | @offset o _ v u ho hb hn => obtain ⟨v', h1, h2⟩ := h.op ho; exact ⟨_, .offset (v' := ⟨u.addr, true⟩) h1 (fun hc => hb (h2.bad.1 hc)) hn, .ok h (SV.lift _)⟩
  | offsetZero ho => obtain ⟨v', h1, h2⟩ := h.op ho; exact ⟨_, .offsetZero h1, .ok h h2⟩
  | release ho => obtain ⟨v', h1, h2⟩ := h.op ho; exact ⟨_, .release h1, .ok (h.set (SV.lift ⟨none, true⟩) _) h2⟩
  | spCast ho => obtain ⟨v', h1, h2⟩ := h.op ho; exact ⟨_, .spCast h1, .ok h h2⟩
  | spCastFails ho => obtain ⟨v', h1, h2⟩ := h.op ho; exact ⟨_, .spCastFails h1, .ok h (SV.lift ⟨none, true⟩)⟩
  | valueOrOk ho hk => obtain ⟨v', h1, h2⟩ := h.op ho; exact ⟨_, .valueOrOk h1 (fromKind_lift hr hk), .ok h (SV.lift _)⟩
  | valueOrElse ho => obtain ⟨v', h1, h2⟩ := h.op ho; exact ⟨_, .valueOrElse h1, .ok h h2⟩
  | @checkNe _ _ _ _ _ u ho1 ho2 hi =>
    obtain ⟨v1, h1, h2⟩ := h.op ho1
    obtain ⟨v2, h3, h4⟩ := h.op ho2
    exact ⟨_, .checkNe (v := ⟨u.addr, true⟩) h1 h3 (by rw [h2.addr, h4.addr]; exact hi), .ok h (SV.lift _)⟩

theorem SS.holds {d : Decls} {σ τ : State} (h : SS σ τ) {c : Cond} {b : Option Bool} (hh : Holds AnyNull d σ c b) : Holds KnownNull d τ c b := by
  induction hh with
  | nzFault ho => exact .nzFault (h.opFault ho)
  | nz ho => obtain ⟨v', h1, h2⟩ := h.op ho; rw [← h2.addr]; exact .nz h1
  | iszFault ho => exact .iszFault (h.opFault ho)
  | isz ho => obtain ⟨v', h1, h2⟩ := h.op ho; rw [← h2.addr]; exact .isz h1
  | eqFault hm ho => exact .eqFault hm (h.opFault ho)
  | eq ho1 ho2 => obtain ⟨v1, h1, h2⟩ := h.op ho1; obtain ⟨v2, h3, h4⟩ := h.op ho2; rw [← h2.addr, ← h4.addr]; exact .eq h1 h3
  | eqSmartFault hm ho => exact .eqSmartFault hm (h.opFault ho)
  | eqSmart ho1 ho2 => obtain ⟨v1, h1, h2⟩ := h.op ho1; obtain ⟨v2, h3, h4⟩ := h.op ho2; rw [← h2.addr, ← h4.addr]; exact .eqSmart h1 h3
  | other => exact .other
  | andFault _ ih => exact .andFault ih
  | andFalse _ ih => exact .andFalse ih
  | andTrue _ _ ih1 ih2 => exact .andTrue ih1 ih2
  | orFault _ ih => exact .orFault ih
  | orTrue _ ih => exact .orTrue ih
  | orFalse _ _ ih1 ih2 => exact .orFalse ih1 ih2

/-- The outcomes correspond. -/
inductive SO : Out → Out → Prop
  | norm {σ τ} : SS σ τ → SO (.norm σ) (.norm τ)
  | left : SO .left .left
  | fault {w} : SO (.fault w) (.fault w)

theorem SS.exec {d : Decls} {S : Stmt} {σ : State} {o : Out} (hx : Exec AnyNull d S σ o) : ∀ {τ : State}, SS σ τ → S.annotated →
    ∃ o', Exec KnownNull d S τ o' ∧ SO o o' := by
  induction hx with
  | skip => intro τ h _; exact ⟨_, .skip, .norm h⟩
  | seq _ _ ih1 ih2 =>
    intro τ h ha
    obtain ⟨o1, x1, s1⟩ := ih1 h ha.1
    cases s1 with
    | norm h1 => obtain ⟨o2, x2, s2⟩ := ih2 h1 ha.2; exact ⟨o2, .seq x1 x2, s2⟩
  | seqLeft _ ih => intro τ h ha; obtain ⟨o1, x1, s1⟩ := ih h ha.1; cases s1; exact ⟨_, .seqLeft x1, .left⟩
  | seqFault _ ih => intro τ h ha; obtain ⟨o1, x1, s1⟩ := ih h ha.1; cases s1; exact ⟨_, .seqFault x1, .fault⟩
  | assignFault he => intro τ h ha; obtain ⟨x', e, s⟩ := h.eval ha he; cases s; exact ⟨_, .assignFault e, .fault⟩
  | assignBad he hk hb =>
    intro τ h ha; obtain ⟨x', e, s⟩ := h.eval ha he
    cases s with
    | ok h1 h2 => exact ⟨_, .assignBad e hk (h2.bad.2 hb), .fault⟩
  | assign he hg =>
    intro τ h ha; obtain ⟨x', e, s⟩ := h.eval ha he
    cases s with
    | ok h1 h2 => exact ⟨_, .assign e (by rw [h2.bad]; exact hg), .norm (h1.set h2 _)⟩
  | derefMoved ho => intro τ h _; exact ⟨_, .derefMoved (h.opFault ho), .fault⟩
  | derefBad ho hb => intro τ h _; obtain ⟨v', h1, h2⟩ := h.op ho; exact ⟨_, .derefBad h1 (h2.bad.2 hb), .fault⟩
  | deref ho hb => intro τ h _; obtain ⟨v', h1, h2⟩ := h.op ho; exact ⟨_, .deref h1 (fun hc => hb (h2.bad.1 hc)), .norm h⟩
  | bumpBad hx hb => intro τ h _; obtain ⟨v', h1, h2⟩ := h.get hx; exact ⟨_, .bumpBad h1 (h2.bad.2 hb), .fault⟩
  | @bump _ _ _ u hx hb hn =>
    intro τ h _; obtain ⟨v', h1, h2⟩ := h.get hx
    exact ⟨_, .bump (v' := ⟨u.addr, true⟩) h1 (fun hc => hb (h2.bad.1 hc)) hn, .norm (h.set (SV.lift _) _)⟩
  | bumpZero => intro τ h _; exact ⟨_, .bumpZero, .norm h⟩
  | resetBad hk => intro τ h _; exact ⟨_, .resetBad hk, .fault⟩
  | reset hk => intro τ h _; exact ⟨_, .reset hk, .norm (h.set (SV.lift ⟨none, true⟩) _)⟩
  | moveMoved ho => intro τ h _; exact ⟨_, .moveMoved (h.opFault ho), .fault⟩
  | moveBad ho hk hb => intro τ h _; obtain ⟨v', h1, h2⟩ := h.op ho; exact ⟨_, .moveBad h1 hk (h2.bad.2 hb), .fault⟩
  | move hn ho hg =>
    intro τ h _; obtain ⟨v', h1, h2⟩ := h.op ho
    exact ⟨_, .move hn h1 (by rw [h2.bad]; exact hg), .norm ((h.set h2 _).set (SV.lift ⟨none, true⟩) _)⟩
  | moveSelf ho hg => intro τ h _; obtain ⟨v', h1, h2⟩ := h.op ho; exact ⟨_, .moveSelf h1 (by rw [h2.bad]; exact hg), .norm h⟩
  | swapMoved hm ho => intro τ h _; exact ⟨_, .swapMoved hm (h.opFault ho), .fault⟩
  | swap ho1 ho2 =>
    intro τ h _; obtain ⟨v1, h1, h2⟩ := h.op ho1; obtain ⟨v2, h3, h4⟩ := h.op ho2
    exact ⟨_, .swap h1 h3, .norm ((h.set h4 _).set h2 _)⟩
  | iteFault hh => intro τ h _; exact ⟨_, .iteFault (h.holds hh), .fault⟩
  | iteTrue hh _ ih => intro τ h ha; obtain ⟨o1, x1, s1⟩ := ih h ha.1; exact ⟨_, .iteTrue (h.holds hh) x1, s1⟩
  | iteFalse hh _ ih => intro τ h ha; obtain ⟨o1, x1, s1⟩ := ih h ha.2; exact ⟨_, .iteFalse (h.holds hh) x1, s1⟩
  | whileFault hh => intro τ h _; exact ⟨_, .whileFault (h.holds hh), .fault⟩
  | whileFalse hh => intro τ h _; exact ⟨_, .whileFalse (h.holds hh), .norm h⟩
  | whileLeft hh _ ih => intro τ h ha; obtain ⟨o1, x1, s1⟩ := ih h ha; cases s1; exact ⟨_, .whileLeft (h.holds hh) x1, .left⟩
  | whileBad hh _ ih => intro τ h ha; obtain ⟨o1, x1, s1⟩ := ih h ha; cases s1; exact ⟨_, .whileBad (h.holds hh) x1, .fault⟩
  | whileTrue hh _ _ ih1 ih2 =>
    intro τ h ha; obtain ⟨o1, x1, s1⟩ := ih1 h ha
    cases s1 with
    | norm h1 => obtain ⟨o2, x2, s2⟩ := ih2 h1 ha; exact ⟨o2, .whileTrue (h.holds hh) x1 x2, s2⟩
  | retMoved ho => intro τ h _; exact ⟨_, .retMoved (h.opFault ho), .fault⟩
  | retBad ho hk hb => intro τ h _; obtain ⟨v', h1, h2⟩ := h.op ho; exact ⟨_, .retBad h1 hk (h2.bad.2 hb), .fault⟩
  | ret ho hg => intro τ h _; obtain ⟨v', h1, h2⟩ := h.op ho; exact ⟨_, .ret h1 (by rw [h2.bad]; exact hg), .left⟩
  | abort => intro τ h _; exact ⟨_, .abort, .left⟩

/-- The source of what variable `x` holds at the start. -/
def markVal (d : Decls) (x : Nat) (v : Val) : Val := ⟨v.addr, decide (d.kind x ≠ .unspecified)⟩

def markFrom (d : Decls) : Nat → State → State
  | _, [] => []
  | x, v :: vs => markVal d x v :: markFrom d (x + 1) vs

theorem markFrom_get (d : Decls) : ∀ (σ : State) (x i : Nat), (markFrom d x σ)[i]? = σ[i]?.map (markVal d (x + i))
  | [], _, _ => by simp [markFrom]
  | v :: vs, x, 0 => by simp [markFrom]
  | v :: vs, x, i + 1 => by
    simp only [markFrom, List.getElem?_cons_succ]
    rw [markFrom_get d vs (x + 1) i, show x + 1 + i = x + (i + 1) by omega]

theorem markFrom_len (d : Decls) : ∀ (σ : State) (x : Nat), (markFrom d x σ).length = σ.length
  | [], _ => rfl
  | _ :: vs, x => by simp [markFrom, markFrom_len d vs (x + 1)]

theorem markFrom_ss (d : Decls) : ∀ (σ : State) (x : Nat), (∀ i v, σ[i]? = some v → d.kind (x + i) = .unspecified → v.addr ≠ none) → SS σ (markFrom d x σ)
  | [], _, _ => .nil
  | v :: vs, x, h => by
    refine .cons ⟨rfl, fun hn => ?_⟩ (markFrom_ss d vs (x + 1) fun i u hu hk => h (i + 1) u (by simpa using hu) (by rwa [show x + (i + 1) = x + 1 + i by omega]))
    have := h 0 v rfl
    simp only [markVal, decide_eq_true_eq]
    exact fun hk => this hk hn

theorem markFrom_starts {d : Decls} {σ : State} (h : StartsAnnotated d σ) : Starts d (markFrom d 0 σ) ∧ SS σ (markFrom d 0 σ) := by
  refine ⟨fun x v hv => ?_, markFrom_ss d σ 0 fun i v hv hk => (h i v hv).2 (by simpa using hk)⟩
  rw [markFrom_get] at hv
  simp only [Nat.zero_add] at hv
  cases hx : σ[x]? with
  | none => simp [hx] at hv
  | some u =>
    simp only [hx, Option.map_some, Option.some.injEq] at hv
    subst hv
    have := h x u hx
    unfold FromKind markVal
    cases hk : d.kind x with
    | nonnull => exact this.1 hk
    | nullable => simp
    | unspecified => simp

end Verif.NullSound

import Verif.RsStd.OptionLemmas
namespace Verif.RsStd

variable {e : Endian} {L : Layout}

/-- Concrete and abstract states side by side. -/
structure Sim (e : Endian) (L : Layout) (s : St) (a : AState) : Prop where
  opts : ∀ k, match s.opts k, a.opts k with
    | none, none => True
    | some o, some ov => Good e L o ov
    | _, _ => False
  stds : ∀ j, match s.stds j, a.stds j with
    | none, none => True
    | some o, some ov => GoodStd L o ov
    | _, _ => False

theorem Sim.opt_none {s : St} {a : AState} (h : Sim e L s a) {k : Nat} (hk : s.opts k = none) :
    a.opts k = none := by
  have := h.opts k
  rw [hk] at this
  cases ha : a.opts k with
  | none => rfl
  | some ov => rw [ha] at this; exact this.elim

theorem Sim.opt_some {s : St} {a : AState} (h : Sim e L s a) {k : Nat} {o : Obj}
    (hk : s.opts k = some o) : ∃ ov, a.opts k = some ov ∧ Good e L o ov := by
  have := h.opts k
  rw [hk] at this
  cases ha : a.opts k with
  | none => rw [ha] at this; exact this.elim
  | some ov => rw [ha] at this; exact ⟨ov, rfl, this⟩

theorem Sim.std_none {s : St} {a : AState} (h : Sim e L s a) {k : Nat} (hk : s.stds k = none) :
    a.stds k = none := by
  have := h.stds k
  rw [hk] at this
  cases ha : a.stds k with
  | none => rfl
  | some ov => rw [ha] at this; exact this.elim

theorem Sim.std_some {s : St} {a : AState} (h : Sim e L s a) {k : Nat} {o : SObj}
    (hk : s.stds k = some o) : ∃ ov, a.stds k = some ov ∧ GoodStd L o ov := by
  have := h.stds k
  rw [hk] at this
  cases ha : a.stds k with
  | none => rw [ha] at this; exact this.elim
  | some ov => rw [ha] at this; exact ⟨ov, rfl, this⟩

theorem Sim.setOpt {s : St} {a : AState} (h : Sim e L s a) (k : Nat) {o : Obj} {ov : Option Val}
    (hg : Good e L o ov) : Sim e L (s.setOpt k (some o)) (a.setOpt k (some ov)) := by
  refine ⟨fun i => ?_, h.stds⟩
  have := h.opts i
  simp only [St.setOpt, AState.setOpt, upd]
  by_cases hi : i = k
  · simpa only [hi, if_true] using hg
  · simp only [hi, if_false]
    exact this

theorem Sim.dropOpt {s : St} {a : AState} (h : Sim e L s a) (k : Nat) :
    Sim e L (s.setOpt k none) (a.setOpt k none) := by
  refine ⟨fun i => ?_, h.stds⟩
  have := h.opts i
  simp only [St.setOpt, AState.setOpt, upd]
  by_cases hi : i = k
  · simp [hi]
  · simp only [hi, if_false]
    exact this

theorem Sim.setStd {s : St} {a : AState} (h : Sim e L s a) (k : Nat) {o : SObj} {ov : Option Val}
    (hg : GoodStd L o ov) : Sim e L (s.setStd k (some o)) (a.setStd k (some ov)) := by
  refine ⟨h.opts, fun i => ?_⟩
  have := h.stds i
  simp only [St.setStd, AState.setStd, upd]
  by_cases hi : i = k
  · simpa only [hi, if_true] using hg
  · simp only [hi, if_false]
    exact this

theorem Sim.dropStd {s : St} {a : AState} (h : Sim e L s a) (k : Nat) :
    Sim e L (s.setStd k none) (a.setStd k none) := by
  refine ⟨h.opts, fun i => ?_⟩
  have := h.stds i
  simp only [St.setStd, AState.setStd, upd]
  by_cases hi : i = k
  · simp [hi]
  · simp only [hi, if_false]
    exact this

theorem clone_good {o : Obj} {ov : Option Val} (hg : Good e L o ov) :
    cloneOf L o = ov.map (L.ty someIdx).clone := by
  unfold cloneOf
  rw [hg.1]
  cases ov <;> rfl

theorem memcpy_good {o : Obj} {ov : Option Val} (hg : Good e L o ov)
    (hd : (L.ty someIdx).hasDtor = false) : Good e L (memcpyObj L o) ov := by
  refine ⟨?_, hg.2⟩
  simp [memcpyObj, hd, hg.1]

section
variable (w : OptionWF e L) (hle : e = .little ∨ L.tagSize = 1)
include w hle

/-- One step follows the specification, or the caller broke a precondition. -/
theorem step_sim {s : St} {a : AState} (h : Sim e L s a) (op : Op) :
    (∃ s' a', step e L s op = .ok s' ∧ aStep (L.ty someIdx) a op = some a' ∧ Sim e L s' a') ∨
    step e L s op = .error .misuse := by
  cases op with
  | ctorNone k m =>
    cases hk : s.opts k with
    | some o => right; simp [step, need, hk, bind, Except.bind]
    | none =>
      left
      have ha := h.opt_none hk
      simp only [step, aStep, need, hk, ha, Option.isNone_none, if_true, bind, Except.bind, ctorNone]
      exact ⟨_, _, rfl, rfl, h.setOpt k ⟨rfl, setNone_holds w hle _⟩⟩
  | ctorValue k m x =>
    cases hk : s.opts k with
    | some o => right; simp [step, need, hk, bind, Except.bind]
    | none =>
      by_cases hx : (L.ty someIdx).valid x = true
      · left
        have ha := h.opt_none hk
        obtain ⟨o', h1, h2⟩ := construct_holds w hle { mem := m, live := none } rfl x hx
        simp only [step, aStep, need, hk, ha, hx, Option.isNone_none, Bool.and_self, if_true, bind,
          Except.bind, ctorValue, h1]
        exact ⟨_, _, rfl, rfl, h.setOpt k h2⟩
      · right; simp [step, need, hk, hx, bind, Except.bind]
  | ctorFromStd k m j =>
    cases hk : s.opts k with
    | some o => right; simp [step, need, hk, bind, Except.bind]
    | none =>
      have ha := h.opt_none hk
      cases hj : s.stds j with
      | none => right; simp [step, need, hk, hj, getStd, bind, Except.bind]
      | some so =>
        obtain ⟨ov, hov, hgs⟩ := h.std_some hj
        rcases ctorFromStd_good w hle m hgs with ⟨o', s', h1, h2, h3⟩ | h1
        · left
          simp only [step, aStep, need, hk, ha, hj, hov, h1, getStd, Option.isNone_none, if_true,
            bind, Except.bind, Option.map_some]
          exact ⟨_, _, rfl, rfl, (h.setOpt k h2).setStd j h3⟩
        · right; simp [step, need, hk, hj, getStd, bind, Except.bind, h1]
  | assignNullopt k junk =>
    by_cases hjk : junk.length = (L.ty someIdx).size
    · cases hk : s.opts k with
      | none => right; simp [step, need, hk, hjk, getOpt, bind, Except.bind]
      | some o =>
        obtain ⟨ov, hov, hg⟩ := h.opt_some hk
        obtain ⟨o', h1, h2⟩ := assignNullopt_good w hle hg junk hjk
        left
        simp only [step, aStep, need, hk, hov, hjk, h1, getOpt, beq_self_eq_true, if_true, bind,
          Except.bind, Option.map_some]
        exact ⟨_, _, rfl, rfl, h.setOpt k h2⟩
    · right; simp [step, need, hjk, bind, Except.bind]
  | assignValue k x junk =>
    by_cases hjk : junk.length = (L.ty someIdx).size
    · by_cases hx : (L.ty someIdx).valid x = true
      · cases hk : s.opts k with
        | none => right; simp [step, need, hk, hjk, hx, getOpt, bind, Except.bind]
        | some o =>
          obtain ⟨ov, hov, hg⟩ := h.opt_some hk
          obtain ⟨o', h1, h2⟩ := assignValue_good w hle hg x junk hjk hx
          left
          simp only [step, aStep, need, hk, hov, hjk, hx, h1, getOpt, beq_self_eq_true,
            Bool.and_self, if_true, bind, Except.bind, Option.map_some]
          exact ⟨_, _, rfl, rfl, h.setOpt k h2⟩
      · right; simp [step, need, hx, bind, Except.bind]
    · right; simp [step, need, hjk, bind, Except.bind]
  | assignFromStd k j junk =>
    by_cases hjk : junk.length = (L.ty someIdx).size
    · cases hk : s.opts k with
      | none => right; simp [step, need, hk, hjk, getOpt, bind, Except.bind]
      | some o =>
        obtain ⟨ow, how, hg⟩ := h.opt_some hk
        cases hj : s.stds j with
        | none => right; simp [step, need, hk, hj, hjk, getOpt, getStd, bind, Except.bind]
        | some so =>
          obtain ⟨ov, hov, hgs⟩ := h.std_some hj
          rcases assignFromStd_good w hle hg junk hjk hgs with ⟨o', s', h1, h2, h3⟩ | h1
          · left
            simp only [step, aStep, need, hk, how, hj, hov, hjk, h1, getStd, getOpt,
              beq_self_eq_true, if_true, bind, Except.bind, Option.map_some, Option.bind_some]
            exact ⟨_, _, rfl, rfl, (h.setOpt k h2).setStd j h3⟩
          · right; simp [step, need, hk, hj, hjk, getStd, getOpt, bind, Except.bind, h1]
    · right; simp [step, need, hjk, bind, Except.bind]
  | toStd k j junk =>
    by_cases hjk : junk.length = (L.ty someIdx).size
    · cases hj : s.stds j with
      | some so => right; simp [step, need, hj, bind, Except.bind]
      | none =>
        have ha := h.std_none hj
        cases hk : s.opts k with
        | none => right; simp [step, need, hk, hj, hjk, getOpt, bind, Except.bind]
        | some o =>
          obtain ⟨ov, hov, hg⟩ := h.opt_some hk
          rcases toStd_good w hle hg junk hjk with ⟨o', s', h1, h2, h3⟩ | h1
          · left
            simp only [step, aStep, need, hk, hov, hj, ha, hjk, h1, getOpt, beq_self_eq_true,
              Option.isNone_none, Bool.and_self, if_true, bind, Except.bind, Option.map_some]
            exact ⟨_, _, rfl, rfl, (h.setOpt k h2).setStd j h3⟩
          · right; simp [step, need, hk, hj, hjk, getOpt, bind, Except.bind, h1]
    · right; simp [step, need, hjk, bind, Except.bind]
  | dtor k junk =>
    by_cases hjk : junk.length = (L.ty someIdx).size
    · cases hk : s.opts k with
      | none => right; simp [step, need, hk, hjk, getOpt, bind, Except.bind]
      | some o =>
        obtain ⟨ov, hov, hg⟩ := h.opt_some hk
        have h1 := dtor_ok w hle hg junk hjk
        left
        simp only [step, aStep, need, hk, hov, hjk, h1, getOpt, beq_self_eq_true, if_true, bind,
          Except.bind, Option.map_some]
        exact ⟨_, _, rfl, rfl, h.dropOpt k⟩
    · right; simp [step, need, hjk, bind, Except.bind]
  | moveCtor k k' m =>
    cases hk : s.opts k with
    | some o => right; simp [step, need, hk, bind, Except.bind]
    | none =>
      have ha := h.opt_none hk
      cases hk' : s.opts k' with
      | none => right; simp [step, need, hk, hk', getOpt, bind, Except.bind]
      | some src =>
        obtain ⟨ov, hov, hg⟩ := h.opt_some hk'
        cases hd : (L.ty someIdx).hasDtor with
        | false =>
          left
          have hst : optionMoveStyle L = some .trivial := by simp [optionMoveStyle, moveStyle, hd]
          simp only [step, aStep, need, hk, ha, hk', hov, getOpt, hst, hd, Option.isNone_none,
            if_true, bind, Except.bind, Option.map_some, Bool.false_eq_true, if_false]
          exact ⟨_, _, rfl, rfl, h.setOpt k (memcpy_good hg hd)⟩
        | true =>
          cases hu : (L.ty someIdx).unpin with
          | true =>
            left
            have hst : optionMoveStyle L = some .memSwap := by
              simp [optionMoveStyle, moveStyle, hd, hu]
            simp only [step, aStep, need, hk, ha, hk', hov, getOpt, hst, hd, Option.isNone_none,
              if_true, bind, Except.bind, Option.map_some, ctorNone]
            exact ⟨_, _, rfl, rfl, (h.setOpt k hg).setOpt k' ⟨rfl, setNone_holds w hle _⟩⟩
          | false =>
            right
            cases hc : (L.ty someIdx).copyable <;>
              simp [step, need, hk, hk', getOpt, bind, Except.bind, optionMoveStyle, moveStyle, hd,
                hu, hc]
  | moveAssign k k' =>
    cases hk : s.opts k with
    | none => right; simp [step, hk, getOpt, bind, Except.bind]
    | some dst =>
      obtain ⟨ow, how, hgd⟩ := h.opt_some hk
      cases hk' : s.opts k' with
      | none => right; simp [step, hk, hk', getOpt, bind, Except.bind]
      | some src =>
        obtain ⟨ov, hov, hg⟩ := h.opt_some hk'
        cases hd : (L.ty someIdx).hasDtor with
        | false =>
          left
          have hst : optionMoveStyle L = some .trivial := by simp [optionMoveStyle, moveStyle, hd]
          simp only [step, aStep, hk, how, hk', hov, getOpt, hst, hd, bind, Except.bind,
            Option.map_some, Option.bind_some, Bool.false_eq_true, if_false]
          exact ⟨_, _, rfl, rfl, h.setOpt k (memcpy_good hg hd)⟩
        | true =>
          cases hu : (L.ty someIdx).unpin with
          | true =>
            left
            have hst : optionMoveStyle L = some .memSwap := by
              simp [optionMoveStyle, moveStyle, hd, hu]
            simp only [step, aStep, hk, how, hk', hov, getOpt, hst, hd, bind, Except.bind,
              Option.map_some, Option.bind_some, if_true]
            exact ⟨_, _, rfl, rfl, (h.setOpt k hg).setOpt k' hgd⟩
          | false =>
            right
            cases hc : (L.ty someIdx).copyable <;>
              simp [step, hk, hk', getOpt, bind, Except.bind, optionMoveStyle, moveStyle, hd,
                hu, hc]
  | relocate k k' =>
    cases hk : s.opts k with
    | some o => right; simp [step, need, hk, bind, Except.bind]
    | none =>
      have ha := h.opt_none hk
      cases hk' : s.opts k' with
      | none => right; simp [step, need, hk, hk', getOpt, bind, Except.bind]
      | some src =>
        obtain ⟨ov, hov, hg⟩ := h.opt_some hk'
        left
        simp only [step, aStep, need, hk, ha, hk', hov, getOpt, Option.isNone_none, if_true, bind,
          Except.bind, Option.map_some]
        exact ⟨_, _, rfl, rfl, (h.setOpt k hg).dropOpt k'⟩
  | copyCtor k k' rm =>
    cases hk : s.opts k with
    | some o => right; simp [step, need, hk, bind, Except.bind]
    | none =>
      have ha := h.opt_none hk
      cases hk' : s.opts k' with
      | none => right; simp [step, need, hk, hk', getOpt, bind, Except.bind]
      | some src =>
        obtain ⟨ov, hov, hg⟩ := h.opt_some hk'
        have hc := clone_good hg
        by_cases hn : ((L.ty someIdx).copyable && rustHolds e L rm (cloneOf L src)) = true
        · left
          simp only [step, aStep, need, hk, ha, hk', hov, getOpt, hn, Option.isNone_none, if_true,
            bind, Except.bind, Option.map_some]
          rw [Bool.and_eq_true] at hn
          rw [← hc]
          exact ⟨_, _, rfl, rfl, h.setOpt k ⟨rfl, hn.2⟩⟩
        · right; simp only [step, need, hk, hk', getOpt, bind, Except.bind, hn,
            Option.isNone_none, if_true, Bool.false_eq_true, if_false]
  | copyAssign k k' rm =>
    cases hk : s.opts k with
    | none => right; simp [step, hk, getOpt, bind, Except.bind]
    | some dst =>
      obtain ⟨ow, how, hgd⟩ := h.opt_some hk
      cases hk' : s.opts k' with
      | none => right; simp [step, hk, hk', getOpt, bind, Except.bind]
      | some src =>
        obtain ⟨ov, hov, hg⟩ := h.opt_some hk'
        have hc := clone_good hg
        by_cases hkk : k = k'
        · left
          subst hkk
          simp only [step, aStep, hk', hov, getOpt, bind, Except.bind, Option.map_some,
            Option.bind_some, if_true]
          exact ⟨s, a, rfl, rfl, h⟩
        · by_cases hn : ((L.ty someIdx).copyable && rustHolds e L rm (cloneOf L src)) = true
          · left
            simp only [step, aStep, hk, how, hk', hov, getOpt, bind, Except.bind, Option.map_some,
              Option.bind_some, hkk, if_false, need, hn, if_true]
            rw [Bool.and_eq_true] at hn
            rw [← hc]
            exact ⟨_, _, rfl, rfl, h.setOpt k ⟨rfl, hn.2⟩⟩
          · right
            simp only [step, hk, hk', getOpt, bind, Except.bind, hkk, if_false, need, hn,
              Bool.false_eq_true]
  | rustSet k ov rm =>
    cases hk : s.opts k with
    | none => right; simp [step, hk, getOpt, bind, Except.bind]
    | some o =>
      obtain ⟨ow, how, -⟩ := h.opt_some hk
      by_cases hn : rustHolds e L rm ov = true
      · left
        simp only [step, aStep, hk, how, getOpt, need, hn, if_true, bind, Except.bind,
          Option.map_some]
        exact ⟨_, _, rfl, rfl, h.setOpt k ⟨rfl, hn⟩⟩
      · right; simp [step, hk, getOpt, need, hn, bind, Except.bind]
  | stdNew j ov =>
    cases hj : s.stds j with
    | some o => right; simp [step, need, hj, bind, Except.bind]
    | none =>
      have ha := h.std_none hj
      by_cases hv : (ov.all fun x => (L.ty someIdx).valid x) = true
      · left
        simp only [step, aStep, need, hj, ha, hv, Option.isNone_none, Bool.and_self, if_true, bind,
          Except.bind]
        refine ⟨_, _, rfl, rfl, h.setStd j ⟨rfl, ?_⟩⟩
        rintro x rfl
        simpa using hv
      · right
        simp only [step, need, hj, hv, Option.isNone_none, Bool.true_and, Bool.false_eq_true,
          if_false, bind, Except.bind]
  | stdDtor j =>
    cases hj : s.stds j with
    | none => right; simp [step, hj, getStd, bind, Except.bind]
    | some so =>
      obtain ⟨ov, hov, rfl, hv⟩ := h.std_some hj
      left
      have h1 : stdDtor L (stdOf ov) = .ok () := by cases ov <;> rfl
      simp only [step, aStep, hj, hov, getStd, h1, bind, Except.bind, Option.map_some]
      exact ⟨_, _, rfl, rfl, h.dropStd j⟩

theorem run_sim (ops : List Op) : ∀ {s : St} {a : AState}, Sim e L s a →
    (∃ s' a', run e L s ops = .ok s' ∧ aRun (L.ty someIdx) a ops = some a' ∧ Sim e L s' a') ∨
    run e L s ops = .error .misuse := by
  induction ops with
  | nil => intro s a h; exact .inl ⟨s, a, rfl, rfl, h⟩
  | cons op ops ih =>
    intro s a h
    rcases step_sim w hle h op with ⟨s1, a1, h1, h2, h3⟩ | h1
    · rcases ih h3 with ⟨s2, a2, h4, h5, h6⟩ | h4
      · left
        exact ⟨s2, a2, by simp [run, h1, bind, Except.bind, h4], by simp [aRun, h2, h5], h6⟩
      · right
        simp [run, h1, bind, Except.bind, h4]
    · right
      simp [run, h1, bind, Except.bind]

theorem good_agrees {o : Obj} {ov : Option Val} (h : Good e L o ov) : Agrees e L o ov := by
  have hn := isNone_of_holds w hle h.2
  refine ⟨?_, ?_, ?_, ?_⟩
  · unfold hasValue
    rw [hn]
    cases ov <;> rfl
  · unfold deref hasValue
    rw [hn]
    cases ov with
    | none => rfl
    | some x => simpa using read_ok w h
  · rintro rfl
    simpa [rustHolds, encOpt] using h.2
  · rintro x rfl
    exact holds_some h.2

end

theorem init_sim : Sim e L St.init AState.init := ⟨fun _ => trivial, fun _ => trivial⟩

/-! ## C71 -/

/-- **C71.** Whatever sequence of constructors, assignments, conversions, moves, copies and Rust
writes a program performs, as long as it respects their preconditions the options hold the values
of the byte-free specification, C++ and Rust both see them, and `std::optional`s hold theirs. -/
theorem option_agrees_with_rust (w : OptionWF e L) (hle : e = .little ∨ L.tagSize = 1)
    (ops : List Op) (s : St) (h : run e L St.init ops = .ok s) :
    ∃ a, aRun (L.ty someIdx) AState.init ops = some a ∧
      (∀ k, (s.opts k).isSome = (a.opts k).isSome) ∧
      (∀ k o ov, s.opts k = some o → a.opts k = some ov → Agrees e L o ov) ∧
      (∀ j, (s.stds j).isSome = (a.stds j).isSome) ∧
      (∀ j o ov, s.stds j = some o → a.stds j = some ov → o.has = ov.isSome ∧ o.live = ov) := by
  rcases run_sim w hle ops (init_sim (e := e) (L := L)) with ⟨s', a, h1, h2, h3⟩ | h1
  · rw [h1] at h
    injection h with h
    subst h
    refine ⟨a, h2, fun k => ?_, fun k o ov ho ha => ?_, fun j => ?_, fun j o ov ho ha => ?_⟩
    · cases hk : s'.opts k with
      | none => rw [h3.opt_none hk]; rfl
      | some o =>
        obtain ⟨ov, hov, -⟩ := h3.opt_some hk
        rw [hov]; rfl
    · obtain ⟨ov', hov, hg⟩ := h3.opt_some ho
      rw [ha] at hov
      injection hov with hov
      subst hov
      exact good_agrees w hle hg
    · cases hk : s'.stds j with
      | none => rw [h3.std_none hk]; rfl
      | some o =>
        obtain ⟨ov, hov, -⟩ := h3.std_some hk
        rw [hov]; rfl
    · obtain ⟨ov', hov, rfl, -⟩ := h3.std_some ho
      rw [ha] at hov
      injection hov with hov
      subst hov
      exact ⟨rfl, rfl⟩
  · rw [h1] at h
    cases h

/-! ## C72 -/

/-- **C72.** No sequence of operations constructs over a live payload, destroys or uses a dead one,
touches bytes outside the storage, or releases storage with a live payload: the only possible
error is a broken precondition of the caller. -/
theorem option_lifetimes (w : OptionWF e L) (hle : e = .little ∨ L.tagSize = 1)
    (ops : List Op) (f : Fault) (h : run e L St.init ops = .error f) : f = .misuse := by
  rcases run_sim w hle ops (init_sim (e := e) (L := L)) with ⟨s', a, h1, h2, h3⟩ | h1
  · rw [h1] at h; cases h
  · rw [h1] at h
    injection h with h
    exact h.symm

/-- A payload is live in an option exactly when the option holds a value, so destroying every
option leaves none behind. -/
theorem option_live_iff (w : OptionWF e L) (hle : e = .little ∨ L.tagSize = 1)
    (ops : List Op) (s : St) (h : run e L St.init ops = .ok s) (k : Nat) (o : Obj)
    (hk : s.opts k = some o) :
    o.live.isSome = hasValue e L o ∧ ∀ v x, o.live = some (v, x) → v = someIdx ∧ deref e L o = .ok x := by
  rcases run_sim w hle ops (init_sim (e := e) (L := L)) with ⟨s', a, h1, h2, h3⟩ | h1
  · rw [h1] at h
    injection h with h
    subst h
    obtain ⟨ov, -, hg⟩ := h3.opt_some hk
    have hag := good_agrees w hle hg
    refine ⟨?_, ?_⟩
    · rw [hag.cppHas, hg.1]; cases ov <;> rfl
    · intro v x hl
      rw [hg.1] at hl
      cases ov with
      | none => simp [liveOf] at hl
      | some y =>
        simp [liveOf] at hl
        obtain ⟨rfl, rfl⟩ := hl
        exact ⟨rfl, hag.cppDeref⟩
  · rw [h1] at h; cases h

end Verif.RsStd

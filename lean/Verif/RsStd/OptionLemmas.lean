import Verif.RsStd.Tag
import Verif.RsStd.OptionSpec
namespace Verif.RsStd

variable {e : Endian} {L : Layout}

/-- The layout of `Option<T>`: `None` has no payload. -/
structure OptionWF (e : Endian) (L : Layout) : Prop extends L.WF e where
  noneSize : (L.ty noneIdx).size = 0

theorem OptionWF.niche' (w : OptionWF e L) {s f l u : Nat} (he : L.enc = .niche s f l u) :
    f = 0 ∧ l = 0 ∧ u = 1 := by
  obtain ⟨hfl, hf, hu, hne, -, hin, -⟩ := w.niche s f l u he
  have hp := w.tagPos
  have h0 := w.noneSize
  have : u ≠ 0 := by
    rintro rfl
    unfold noneIdx at h0
    omega
  omega

theorem somePtr_eq (w : OptionWF e L) : (specializeOption L).somePtr = L.off someIdx := by
  unfold specializeOption
  split
  · rfl
  · rename_i he
    obtain ⟨-, -, hu⟩ := w.niche' he
    obtain ⟨-, -, -, -, h, -⟩ := w.niche _ _ _ _ he
    subst hu
    exact h.symm

variable (w : OptionWF e L) (hle : e = .little ∨ L.tagSize = 1)
include w hle

theorem isNone_of_holds {o : Obj} {ov : Option Val} (h : rustHolds e L o.mem ov = true) :
    isNone e L o = ov.isNone := by
  have hv : rustVariant e L o.mem = some (encOpt ov).1 := by
    simp only [rustHolds, Bool.and_eq_true, beq_iff_eq] at h
    exact h.1
  have h2 := two_le_pow w.tagPos
  unfold isNone
  rw [cppTag_eq e _ _ _ hle]
  cases hE : L.enc with
  | direct =>
    unfold rustVariant at hv
    rw [hE] at hv
    simp only at hv
    split at hv
    · rename_i hlt
      simp only [specializeOption, hE, literalOfTagTy, noneIdx, Nat.zero_mod]
      cases ov with
      | none => simp [encOpt, noneIdx] at hv; simp [hv]
      | some x => simp [encOpt, someIdx] at hv; simp [hv]
    · simp at hv
  | niche s f l u =>
    rw [niche_variant w.toWF hE] at hv
    obtain ⟨hf, hl, hu⟩ := w.niche' hE
    subst hf hl hu
    simp only [specializeOption, hE, literalOfTagTy, noneIdx, Nat.sub_self, Nat.add_zero]
    cases ov with
    | none =>
      simp only [encOpt, noneIdx, Option.some.injEq] at hv
      split at hv
      · rename_i h0; simp [h0]
      · omega
    | some x =>
      simp only [encOpt, someIdx, Option.some.injEq] at hv
      split at hv
      · omega
      · rename_i h0; simp [h0]

theorem setNone_holds (o : Obj) : rustHolds e L (setNoneTag e L o).mem none = true := by
  simp only [rustHolds, encOpt, Bool.and_true, beq_iff_eq]
  simp only [setNoneTag, setTag]
  cases hE : L.enc with
  | direct =>
    have := direct_setTag w.toWF hle hE o.mem noneIdx (by decide)
    simpa [specializeOption, hE] using this
  | niche s f l u =>
    obtain ⟨hf, hl, hu⟩ := w.niche' hE
    subst hf hl hu
    have := niche_setTag w.toWF hle hE o.mem
    simpa [specializeOption, hE, noneIdx] using this

/-- Writing a value's bytes over a payload whose tag (if direct) says `Some`. -/
theorem write_holds (m : Mem) (x : Val) (hx : (L.ty someIdx).valid x = true)
    (hd : L.enc = .direct → rustVariant e L m = some someIdx) :
    rustHolds e L (wr m (L.off someIdx) x) (some x) = true := by
  have hl := w.len someIdx (by decide) x hx
  simp only [rustHolds, encOpt, Bool.and_eq_true, beq_iff_eq, hx, and_true]
  constructor
  · cases hE : L.enc with
    | direct => rw [direct_payload w.toWF hE m someIdx (by decide) x hl, hd hE]
    | niche s f l u =>
      obtain ⟨hf, hl', hu⟩ := w.niche' hE
      subst hf hl' hu
      obtain ⟨-, -, -, -, h, -⟩ := w.niche _ _ _ _ hE
      have := niche_payload_untagged w.toWF hE m x hx
      unfold someIdx
      rw [h, this]
  · rw [← hl, rd_wr_same]

theorem setSome_direct (o : Obj) (hE : L.enc = .direct) :
    rustVariant e L (setSomeTag e L o).mem = some someIdx := by
  have := direct_setTag w.toWF hle hE o.mem someIdx (by decide)
  simpa [setSomeTag, setTag, specializeOption, hE] using this

omit w hle in
theorem setSome_live (o : Obj) : (setSomeTag e L o).live = o.live := by
  unfold setSomeTag
  split <;> rfl

omit hle in
theorem construct_ok (o : Obj) (hlive : o.live = none) (x : Val)
    (hx : (L.ty someIdx).valid x = true) :
    constructAt L someIdx (specializeOption L).somePtr x o =
      .ok { mem := wr o.mem (L.off someIdx) x, live := some (someIdx, x) } := by
  have hl := w.len someIdx (by decide) x hx
  have hin := w.payIn someIdx (by decide)
  unfold constructAt
  rw [hlive, somePtr_eq w]
  simp only
  rw [if_pos (by omega)]

/-- A constructed value: fresh storage or emptied option, tag set, value written. -/
theorem construct_holds (o : Obj) (hlive : o.live = none) (x : Val)
    (hx : (L.ty someIdx).valid x = true) :
    ∃ o', constructAt L someIdx (specializeOption L).somePtr x (setSomeTag e L o) = .ok o' ∧
      o'.live = liveOf (some x) ∧ rustHolds e L o'.mem (some x) = true := by
  refine ⟨_, construct_ok w _ (by rw [setSome_live]; exact hlive) x hx, rfl, ?_⟩
  exact write_holds w hle _ x hx fun hE => setSome_direct w hle o hE

/-- An object and the view that it has. -/
def Good (e : Endian) (L : Layout) (o : Obj) (ov : Option Val) : Prop :=
  o.live = liveOf ov ∧ rustHolds e L o.mem ov = true

omit w hle in
theorem holds_some {m : Mem} {x : Val} (h : rustHolds e L m (some x) = true) :
    rustVariant e L m = some someIdx ∧ rd m (L.off someIdx) (L.ty someIdx).size = x ∧
      (L.ty someIdx).valid x = true := by
  simpa [rustHolds, encOpt, and_assoc] using h

theorem reset_ok {o : Obj} {ov : Option Val} (h : Good e L o ov) (junk : Val)
    (hj : junk.length = (L.ty someIdx).size) :
    ∃ o', reset e L junk o = .ok o' ∧ o'.live = none := by
  unfold reset hasValue
  rw [isNone_of_holds w hle h.2]
  cases ov with
  | none => exact ⟨o, by simp, h.1⟩
  | some x =>
    have hin := w.payIn someIdx (by decide)
    refine ⟨{ mem := wr o.mem (L.off someIdx) junk, live := none }, ?_, rfl⟩
    simp only [Option.isNone_some, Bool.not_false, if_true]
    unfold destroyAt
    rw [h.1, somePtr_eq w]
    simp only [liveOf, if_true]
    rw [if_pos (by omega)]

theorem assignNullopt_good {o : Obj} {ov : Option Val} (h : Good e L o ov) (junk : Val)
    (hj : junk.length = (L.ty someIdx).size) :
    ∃ o', assignNullopt e L junk o = .ok o' ∧ Good e L o' none := by
  obtain ⟨o', h1, h2⟩ := reset_ok w hle h junk hj
  refine ⟨setNoneTag e L o', ?_, h2, setNone_holds w hle o'⟩
  simp only [assignNullopt, h1, bind, Except.bind]

theorem assignValue_good {o : Obj} {ov : Option Val} (h : Good e L o ov) (x junk : Val)
    (hj : junk.length = (L.ty someIdx).size) (hx : (L.ty someIdx).valid x = true) :
    ∃ o', assignValue e L x junk o = .ok o' ∧ Good e L o' (some x) := by
  unfold assignValue hasValue
  rw [isNone_of_holds w hle h.2]
  cases ov with
  | none =>
    obtain ⟨o', h1, h2, h3⟩ := construct_holds w hle o h.1 x hx
    exact ⟨o', by simpa using h1, h2, h3⟩
  | some y =>
    have hin := w.payIn someIdx (by decide)
    have hl := w.len someIdx (by decide) x hx
    obtain ⟨hv, hr, hy⟩ := holds_some h.2
    simp only [Option.isNone_some, Bool.not_false, if_true, moveAssignOrDestroyAndConstruct]
    split
    · refine ⟨{ mem := wr o.mem (L.off someIdx) x, live := some (someIdx, x) }, ?_, rfl, ?_⟩
      · unfold assignAt
        rw [h.1, somePtr_eq w]
        simp only [liveOf, if_true]
        rw [if_pos (by omega)]
      · exact write_holds w hle _ x hx fun _ => hv
    · have hd : destroyAt L someIdx (specializeOption L).somePtr junk o
          = .ok { mem := wr o.mem (L.off someIdx) junk, live := none } := by
        unfold destroyAt
        rw [h.1, somePtr_eq w]
        simp only [liveOf, if_true]
        rw [if_pos (by omega)]
      refine ⟨{ mem := wr (wr o.mem (L.off someIdx) junk) (L.off someIdx) x,
                live := some (someIdx, x) }, ?_, rfl, ?_⟩
      · rw [hd]
        simp only [bind, Except.bind]
        rw [construct_ok w _ rfl x hx]
      · refine write_holds w hle _ x hx fun hE => ?_
        rw [direct_payload w.toWF hE _ someIdx (by decide) junk hj, hv]

/-- A `std::optional` and its view. -/
def GoodStd (L : Layout) (s : SObj) (ov : Option Val) : Prop :=
  s = stdOf ov ∧ ∀ x, ov = some x → (L.ty someIdx).valid x = true

theorem takeFromStd_good {o : Obj} (hlive : o.live = none) {s : SObj} {x : Val}
    (hs : GoodStd L s (some x)) :
    (∃ o' s', takeFromStd e L s o = .ok (o', s') ∧
      Good e L o' (moveOut (L.ty someIdx) (some x)).1 ∧
      GoodStd L s' (moveOut (L.ty someIdx) (some x)).2) ∨
    takeFromStd e L s o = .error .misuse := by
  obtain ⟨rfl, hv⟩ := hs
  have hx := hv x rfl
  have hm := w.mvOk someIdx (by decide) x hx
  have hc := w.cloneOk someIdx (by decide) x hx
  simp only [takeFromStd, stdOf, moveOut]
  by_cases h1 : (L.ty someIdx).relocatable = true
  · obtain ⟨o', ho, hg⟩ := construct_holds w hle o hlive x hx
    left
    simp only [h1, if_true, ho, bind, Except.bind]
    exact ⟨o', _, rfl, hg, rfl, by simp⟩
  · simp only [h1]
    by_cases h2 : (L.ty someIdx).moveConstructible = true
    · obtain ⟨o', ho, hg⟩ := construct_holds w hle o hlive _ hm.1
      left
      simp only [h2, if_true, ho, bind, Except.bind]
      refine ⟨o', _, rfl, hg, rfl, ?_⟩
      intro y hy
      simp at hy
      rw [← hy]
      exact hm.2
    · simp only [h2]
      by_cases h3 : (L.ty someIdx).copyable = true
      · obtain ⟨o', ho, hg⟩ := construct_holds w hle o hlive _ hc
        left
        simp only [h3, if_true, ho, bind, Except.bind]
        refine ⟨o', _, rfl, hg, rfl, ?_⟩
        intro y hy
        simp at hy
        rw [← hy]
        exact hx
      · right
        simp [h3]

theorem ctorFromStd_good (m : Mem) {s : SObj} {ov : Option Val} (hs : GoodStd L s ov) :
    (∃ o' s', ctorFromStd e L m s = .ok (o', s') ∧
      Good e L o' (moveOut (L.ty someIdx) ov).1 ∧ GoodStd L s' (moveOut (L.ty someIdx) ov).2) ∨
    ctorFromStd e L m s = .error .misuse := by
  unfold ctorFromStd
  cases ov with
  | none =>
    left
    obtain ⟨rfl, hv⟩ := hs
    simp only [stdOf, Option.isSome_none, Bool.not_false, if_true]
    exact ⟨_, _, rfl, ⟨rfl, setNone_holds w hle _⟩, rfl, by simp [moveOut]⟩
  | some x =>
    have := takeFromStd_good w hle (o := { mem := m, live := none }) rfl hs
    obtain ⟨rfl, hv⟩ := hs
    simpa [stdOf] using this

theorem assignFromStd_good {o : Obj} {ow : Option Val} (h : Good e L o ow) (junk : Val)
    (hj : junk.length = (L.ty someIdx).size) {s : SObj} {ov : Option Val} (hs : GoodStd L s ov) :
    (∃ o' s', assignFromStd e L junk s o = .ok (o', s') ∧
      Good e L o' (moveOut (L.ty someIdx) ov).1 ∧ GoodStd L s' (moveOut (L.ty someIdx) ov).2) ∨
    assignFromStd e L junk s o = .error .misuse := by
  obtain ⟨o1, h1, h2⟩ := reset_ok w hle h junk hj
  unfold assignFromStd
  rw [h1]
  simp only [bind, Except.bind]
  cases ov with
  | none =>
    left
    obtain ⟨rfl, hv⟩ := hs
    simp only [stdOf, Option.isSome_none, Bool.not_false, if_true]
    exact ⟨_, _, rfl, ⟨h2, setNone_holds w hle _⟩, rfl, by simp [moveOut]⟩
  | some x =>
    have := takeFromStd_good w hle h2 hs
    obtain ⟨rfl, hv⟩ := hs
    simpa [stdOf] using this

omit hle in
theorem read_ok {o : Obj} {x : Val} (h : Good e L o (some x)) :
    readAt L someIdx (specializeOption L).somePtr o = .ok x := by
  have hin := w.payIn someIdx (by decide)
  obtain ⟨hv, hr, hx⟩ := holds_some h.2
  unfold readAt
  rw [h.1, somePtr_eq w]
  simp only [liveOf, if_true]
  rw [if_pos hin, hr]

theorem toStd_good {o : Obj} {ov : Option Val} (h : Good e L o ov) (junk : Val)
    (hj : junk.length = (L.ty someIdx).size) :
    (∃ o' s', toStd e L junk o = .ok (o', s') ∧ Good e L o' none ∧
      GoodStd L s' (moveOut (L.ty someIdx) ov).1) ∨
    toStd e L junk o = .error .misuse := by
  unfold toStd hasValue
  rw [isNone_of_holds w hle h.2]
  cases ov with
  | none =>
    left
    exact ⟨o, _, by simp; rfl, h, rfl, by simp [moveOut]⟩
  | some x =>
    obtain ⟨hv, hr, hx⟩ := holds_some h.2
    have hin := w.payIn someIdx (by decide)
    have hm := w.mvOk someIdx (by decide) x hx
    have hc := w.cloneOk someIdx (by decide) x hx
    have hl2 := w.len someIdx (by decide) _ hm.2
    simp only [Option.isNone_some, Bool.not_false, Bool.not_true, Bool.false_eq_true, if_false,
      read_ok w h, bind, Except.bind, moveOut]
    by_cases h1 : (L.ty someIdx).relocatable = true
    · left
      simp only [h1, if_true]
      refine ⟨_, _, rfl, ⟨rfl, setNone_holds w hle _⟩, rfl, ?_⟩
      intro y hy
      simp at hy
      exact hy ▸ hx
    · simp only [h1, Bool.false_eq_true, if_false]
      by_cases h2 : (L.ty someIdx).moveConstructible = true
      · left
        simp only [h2, if_true]
        have ha : assignAt L someIdx (specializeOption L).somePtr ((L.ty someIdx).mv x).2 o
            = .ok { mem := wr o.mem (L.off someIdx) ((L.ty someIdx).mv x).2,
                    live := some (someIdx, ((L.ty someIdx).mv x).2) } := by
          unfold assignAt
          rw [h.1, somePtr_eq w]
          simp only [liveOf, if_true]
          rw [if_pos (by omega)]
        have hd : ∀ m y, destroyAt L someIdx (specializeOption L).somePtr junk
            { mem := m, live := some (someIdx, y) }
              = .ok { mem := wr m (L.off someIdx) junk, live := none } := by
          intro m y
          unfold destroyAt
          rw [somePtr_eq w]
          simp only [if_true]
          rw [if_pos (by omega)]
        rw [ha]
        simp only [hd]
        refine ⟨_, _, rfl, ⟨rfl, setNone_holds w hle _⟩, rfl, ?_⟩
        intro y hy
        simp at hy
        exact hy ▸ hm.1
      · simp only [h2, Bool.false_eq_true, if_false]
        by_cases h3 : (L.ty someIdx).copyable = true
        · left
          simp only [h3, if_true]
          have hd : destroyAt L someIdx (specializeOption L).somePtr junk o
                = .ok { mem := wr o.mem (L.off someIdx) junk, live := none } := by
            unfold destroyAt
            rw [h.1, somePtr_eq w]
            simp only [liveOf, if_true]
            rw [if_pos (by omega)]
          rw [hd]
          refine ⟨_, _, rfl, ⟨rfl, setNone_holds w hle _⟩, rfl, ?_⟩
          intro y hy
          simp at hy
          exact hy ▸ hc
        · right
          simp [h3]

omit w hle in
theorem live_hasDtor {ov : Option Val} {v : Nat} {x : Val} (h : liveOf ov = some (v, x)) :
    v = someIdx := by
  cases ov <;> simp [liveOf] at h
  exact h.1.symm

theorem dtor_ok {o : Obj} {ov : Option Val} (h : Good e L o ov) (junk : Val)
    (hj : junk.length = (L.ty someIdx).size) : dtor e L junk o = .ok () := by
  have hnd : (specializeOption L).needsDrop = (L.ty someIdx).hasDtor := by
    unfold specializeOption
    split <;> rfl
  unfold dtor
  rw [hnd]
  split
  · obtain ⟨o1, h1, h2⟩ := reset_ok w hle h junk hj
    rw [h1]
    simp only [bind, Except.bind, h2]
  · rename_i hd
    simp only [bind, Except.bind, h.1]
    cases ov with
    | none => rfl
    | some x => simp [liveOf, hd]

end Verif.RsStd

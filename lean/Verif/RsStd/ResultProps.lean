import Verif.RsStd.Tag
import Verif.RsStd.Result
namespace Verif.RsStd

variable {e : Endian} {L : Layout}

theorem niche_fu (w : L.WF e) {s f l u : Nat} (he : L.enc = .niche s f l u) :
    (f = 0 ∧ l = 0 ∧ u = 1) ∨ (f = 1 ∧ l = 1 ∧ u = 0) := by
  obtain ⟨hfl, hf, hu, hne, -⟩ := w.niche s f l u he
  omega

theorem okPtr_eq (w : L.WF e) : (specializeResult L).okPtr = L.off okIdx := by
  unfold specializeResult
  split
  · rfl
  · rename_i he
    obtain ⟨-, -, -, -, h, -⟩ := w.niche _ _ _ _ he
    rcases niche_fu w he with ⟨rfl, rfl, rfl⟩ | ⟨rfl, rfl, rfl⟩
    · simp [okIdx]
    · simp [okIdx, h]

theorem errPtr_eq (w : L.WF e) : (specializeResult L).errPtr = L.off errIdx := by
  unfold specializeResult
  split
  · rfl
  · rename_i he
    obtain ⟨-, -, -, -, h, -⟩ := w.niche _ _ _ _ he
    rcases niche_fu w he with ⟨rfl, rfl, rfl⟩ | ⟨rfl, rfl, rfl⟩
    · simp [errIdx, h]
    · simp [errIdx]

/-- `set_ok_tag` or `set_err_tag`. -/
def setVTag (e : Endian) (L : Layout) (v : Nat) (o : Obj) : Obj :=
  if v = 0 then setOkTag e L o else setErrTag e L o

theorem setVTag_live (v : Nat) (o : Obj) : (setVTag e L v o).live = o.live := by
  unfold setVTag setOkTag setErrTag
  split <;> split <;> rfl

section
variable (w : L.WF e) (hle : e = .little ∨ L.tagSize = 1)
include w hle

theorem setVTag_direct (hE : L.enc = .direct) (v : Nat) (hv : v < 2) (o : Obj) :
    rustVariant e L (setVTag e L v o).mem = some v := by
  have := direct_setTag w hle hE o.mem v hv
  rcases (show v = 0 ∨ v = 1 by omega) with rfl | rfl
  · simpa [setVTag, setOkTag, setTag, specializeResult, hE, okIdx] using this
  · simpa [setVTag, setErrTag, setTag, specializeResult, hE, errIdx] using this

theorem setVTag_tagged {s f l u : Nat} (hE : L.enc = .niche s f l u) (o : Obj) :
    rustVariant e L (setVTag e L f o).mem = some f := by
  have := niche_setTag w hle hE o.mem
  rcases niche_fu w hE with ⟨rfl, rfl, rfl⟩ | ⟨rfl, rfl, rfl⟩
  · simpa [setVTag, setOkTag, setTag, specializeResult, hE, okIdx] using this
  · simpa [setVTag, setErrTag, setTag, specializeResult, hE, errIdx] using this

/-- Setting the tag of variant `v`, writing any bytes of the right length over the payload (a
destructor's leftovers), then a value `x`: rustc reads variant `v`. -/
theorem tag_junk_write (v : Nat) (hv : v < 2) (o : Obj) (x : Val) (hx : (L.ty v).valid x = true)
    (junk : Val) (hj : junk.length = (L.ty v).size) :
    rustVariant e L (wr (wr (setVTag e L v o).mem (L.off v) junk) (L.off v) x) = some v := by
  have hl := w.len v hv x hx
  cases hE : L.enc with
  | direct =>
    rw [direct_payload w hE _ v hv x hl, direct_payload w hE _ v hv junk hj,
      setVTag_direct w hle hE v hv]
  | niche s f l u =>
    have hvu : v = f ∨ v = u := by
      rcases niche_fu w hE with ⟨rfl, rfl, rfl⟩ | ⟨rfl, rfl, rfl⟩ <;> omega
    rcases hvu with rfl | rfl
    · rw [niche_payload_tagged w hE _ x hl, niche_payload_tagged w hE _ junk hj,
        setVTag_tagged w hle hE]
    · obtain ⟨-, -, -, -, h0, -⟩ := w.niche _ _ _ _ hE
      rw [h0]
      exact niche_payload_untagged w hE _ x hx

theorem tag_write (v : Nat) (hv : v < 2) (o : Obj) (x : Val) (hx : (L.ty v).valid x = true) :
    rustVariant e L (wr (setVTag e L v o).mem (L.off v) x) = some v := by
  have hl := w.len v hv x hx
  cases hE : L.enc with
  | direct => rw [direct_payload w hE _ v hv x hl, setVTag_direct w hle hE v hv]
  | niche s f l u =>
    have hvu : v = f ∨ v = u := by
      rcases niche_fu w hE with ⟨rfl, rfl, rfl⟩ | ⟨rfl, rfl, rfl⟩ <;> omega
    rcases hvu with rfl | rfl
    · rw [niche_payload_tagged w hE _ x hl, setVTag_tagged w hle hE]
    · obtain ⟨-, -, -, -, h0, -⟩ := w.niche _ _ _ _ hE
      rw [h0]
      exact niche_payload_untagged w hE _ x hx

theorem hasValue_of {o : Obj} {v : Nat} (hv : v < 2) (h : rustVariant e L o.mem = some v) :
    resHasValue e L o = .ok (v == 0) := by
  have h2 := two_le_pow w.tagPos
  unfold resHasValue
  cases hE : L.enc with
  | direct =>
    unfold rustVariant at h
    rw [hE] at h
    simp only at h
    split at h
    · injection h with h
      simp only [specializeResult, hE, literalOfTagTy, okIdx, Nat.zero_mod,
        cppTag_eq e _ _ _ hle, h]
    · cases h
  | niche s f l u =>
    rw [niche_variant w hE] at h
    injection h with h
    rcases niche_fu w hE with ⟨rfl, rfl, rfl⟩ | ⟨rfl, rfl, rfl⟩
    · simp only [specializeResult, hE, okIdx, errIdx, literalOfTagTy, cppTag_eq e _ _ _ hle,
        if_neg (show ¬((1 : Nat) = 0) by decide), if_true, Nat.sub_self, Nat.add_zero]
      split at h
      · rename_i h0
        rw [h0, ← h]
        simp
      · rename_i h0
        rw [← h]
        simp [h0]
    · simp only [specializeResult, hE, okIdx, errIdx, literalOfTagTy, cppTag_eq e _ _ _ hle,
        if_neg (show ¬((0 : Nat) = 1) by decide), if_true, Nat.sub_self, Nat.add_zero]
      split at h
      · rename_i h0
        rw [h0, ← h]
        simp
      · rename_i h0
        rw [← h]
        simp [h0]

end

/-- An object that holds `rv`. -/
def RGood (e : Endian) (L : Layout) (o : Obj) (rv : RVal) : Prop :=
  o.live = some (encRes rv) ∧ rustHoldsRes e L o.mem rv = true

theorem encRes_lt (rv : RVal) : (encRes rv).1 < 2 := by
  cases rv <;> simp [encRes, okIdx, errIdx]

theorem rholds {m : Mem} {rv : RVal} (h : rustHoldsRes e L m rv = true) :
    rustVariant e L m = some (encRes rv).1 ∧
      rd m (L.off (encRes rv).1) (L.ty (encRes rv).1).size = (encRes rv).2 ∧
      (L.ty (encRes rv).1).valid (encRes rv).2 = true := by
  simpa [rustHoldsRes, and_assoc] using h

theorem rgood_mk {m : Mem} {rv : RVal} (h1 : rustVariant e L m = some (encRes rv).1)
    (h2 : rd m (L.off (encRes rv).1) (L.ty (encRes rv).1).size = (encRes rv).2)
    (h3 : (L.ty (encRes rv).1).valid (encRes rv).2 = true) :
    RGood e L { mem := m, live := some (encRes rv) } rv :=
  ⟨rfl, by simp [rustHoldsRes, h1, h2, h3]⟩

theorem constructAt_ok (w : L.WF e) (v : Nat) (hv : v < 2) (o : Obj) (hlive : o.live = none)
    (x : Val) (hx : (L.ty v).valid x = true) :
    constructAt L v (L.off v) x o = .ok { mem := wr o.mem (L.off v) x, live := some (v, x) } := by
  have hl := w.len v hv x hx
  have hin := w.payIn v hv
  unfold constructAt
  rw [hlive]
  simp only
  rw [if_pos (by omega)]

theorem destroyAt_ok (w : L.WF e) (v : Nat) (hv : v < 2) (o : Obj) (y : Val)
    (hlive : o.live = some (v, y)) (junk : Val) (hj : junk.length = (L.ty v).size) :
    destroyAt L v (L.off v) junk o = .ok { mem := wr o.mem (L.off v) junk, live := none } := by
  have hin := w.payIn v hv
  unfold destroyAt
  rw [hlive]
  simp only [if_true]
  rw [if_pos (by omega)]

theorem assignAt_ok (w : L.WF e) (v : Nat) (hv : v < 2) (o : Obj) (y : Val)
    (hlive : o.live = some (v, y)) (x : Val) (hx : (L.ty v).valid x = true) :
    assignAt L v (L.off v) x o = .ok { mem := wr o.mem (L.off v) x, live := some (v, x) } := by
  have hl := w.len v hv x hx
  have hin := w.payIn v hv
  unfold assignAt
  rw [hlive]
  simp only [if_true]
  rw [if_pos (by omega)]

section
variable (w : L.WF e) (hle : e = .little ∨ L.tagSize = 1)
include w hle

/-- Tag, then construct. -/
theorem construct_good (rv : RVal) (o : Obj) (hlive : o.live = none)
    (hx : (L.ty (encRes rv).1).valid (encRes rv).2 = true) :
    ∃ o', constructAt L (encRes rv).1 (L.off (encRes rv).1) (encRes rv).2
        (setVTag e L (encRes rv).1 o) = .ok o' ∧ RGood e L o' rv := by
  refine ⟨_, constructAt_ok w _ (encRes_lt rv) _ (by rw [setVTag_live]; exact hlive) _ hx, ?_⟩
  refine rgood_mk (tag_write w hle _ (encRes_lt rv) o _ hx) ?_ hx
  rw [← w.len _ (encRes_lt rv) _ hx, rd_wr_same]

/-- Tag (again), then assign over the same variant. -/
theorem reassign_good (rv : RVal) (o : Obj) (y junk : Val)
    (hlive : o.live = some ((encRes rv).1, y))
    (hx : (L.ty (encRes rv).1).valid (encRes rv).2 = true)
    (hj : junk.length = (L.ty (encRes rv).1).size) :
    ∃ o', moveAssignOrDestroyAndConstruct L (encRes rv).1 (L.off (encRes rv).1) (encRes rv).2 junk
        (setVTag e L (encRes rv).1 o) = .ok o' ∧ RGood e L o' rv := by
  have hv := encRes_lt rv
  have hl' : (setVTag e L (encRes rv).1 o).live = some ((encRes rv).1, y) := by
    rw [setVTag_live]; exact hlive
  unfold moveAssignOrDestroyAndConstruct
  split
  · refine ⟨_, assignAt_ok w _ hv _ y hl' _ hx, ?_⟩
    refine rgood_mk (tag_write w hle _ hv o _ hx) ?_ hx
    rw [← w.len _ hv _ hx, rd_wr_same]
  · rw [destroyAt_ok w _ hv _ y hl' junk hj]
    simp only [bind, Except.bind]
    refine ⟨_, constructAt_ok w _ hv _ rfl _ hx, ?_⟩
    refine rgood_mk (tag_junk_write w hle _ hv o _ hx junk hj) ?_ hx
    rw [← w.len _ hv _ hx, rd_wr_same]

theorem resAssignOk_good {o : Obj} {rv : RVal} (h : RGood e L o rv) (x junk : Val)
    (hj : junk.length = (L.ty (encRes rv).1).size) (hx : (L.ty okIdx).valid x = true) :
    ∃ o', resAssignOk e L x junk o = .ok o' ∧ RGood e L o' (.inl x) := by
  have hhv := hasValue_of w hle (encRes_lt rv) (rholds h.2).1
  unfold resAssignOk
  rw [hhv, okPtr_eq w, errPtr_eq w]
  simp only [bind, Except.bind]
  cases rv with
  | inl y =>
    exact reassign_good w hle (.inl x) o y junk h.1 hx hj
  | inr y =>
    have hd := destroyAt_ok w errIdx (by decide) o y h.1 junk hj
    simp only [encRes, errIdx] at hd ⊢
    simp only [hd]
    exact construct_good w hle (.inl x) { mem := wr o.mem (L.off 1) junk, live := none } rfl hx

theorem resAssignErr_good {o : Obj} {rv : RVal} (h : RGood e L o rv) (x junk : Val)
    (hj : junk.length = (L.ty (encRes rv).1).size) (hx : (L.ty errIdx).valid x = true) :
    ∃ o', resAssignErr e L x junk o = .ok o' ∧ RGood e L o' (.inr x) := by
  have hhv := hasValue_of w hle (encRes_lt rv) (rholds h.2).1
  unfold resAssignErr
  rw [hhv, okPtr_eq w, errPtr_eq w]
  simp only [bind, Except.bind]
  cases rv with
  | inr y =>
    exact reassign_good w hle (.inr x) o y junk h.1 hx hj
  | inl y =>
    have hd := destroyAt_ok w okIdx (by decide) o y h.1 junk hj
    simp only [encRes, okIdx] at hd ⊢
    simp only [hd]
    exact construct_good w hle (.inr x) { mem := wr o.mem (L.off 0) junk, live := none } rfl hx

theorem resDtor_ok {o : Obj} {rv : RVal} (h : RGood e L o rv) (junk : Val)
    (hj : junk.length = (L.ty (encRes rv).1).size) : resDtor e L junk o = .ok () := by
  have hhv := hasValue_of w hle (encRes_lt rv) (rholds h.2).1
  have hnd : (specializeResult L).needsDrop = resultNeedsDrop L := by
    unfold specializeResult
    split <;> rfl
  unfold resDtor
  rw [hnd]
  by_cases hd : resultNeedsDrop L = true
  · have : resReset e L junk o
        = .ok { mem := wr o.mem (L.off (encRes rv).1) junk, live := none } := by
      unfold resReset
      rw [hhv, okPtr_eq w, errPtr_eq w]
      simp only [bind, Except.bind]
      have hda := destroyAt_ok w _ (encRes_lt rv) o _ h.1 junk hj
      cases rv with
      | inl y => exact hda
      | inr y => exact hda
    simp only [hd, if_true, this, bind, Except.bind]
  · have hd' := hd
    simp only [resultNeedsDrop, Bool.or_eq_true, not_or, Bool.not_eq_true] at hd'
    simp only [hd, bind, Except.bind, h.1]
    cases rv with
    | inl y => simp [encRes, hd'.1]
    | inr y => simp [encRes, hd'.2]

omit hle in
theorem readAt_ok {o : Obj} {rv : RVal} (h : RGood e L o rv) :
    readAt L (encRes rv).1 (L.off (encRes rv).1) o = .ok (encRes rv).2 := by
  have hin := w.payIn _ (encRes_lt rv)
  obtain ⟨-, hr, -⟩ := rholds h.2
  unfold readAt
  rw [h.1]
  simp only [if_true]
  rw [if_pos hin, hr]

theorem rgood_agrees {o : Obj} {rv : RVal} (h : RGood e L o rv) : RAgrees e L o rv := by
  have hhv := hasValue_of w hle (encRes_lt rv) (rholds h.2).1
  have hr := readAt_ok w h
  refine ⟨?_, ?_, ?_, rholds h.2⟩
  · rw [hhv]; cases rv <;> rfl
  · unfold resValue
    rw [hhv, okPtr_eq w]
    cases rv with
    | inl x => exact hr
    | inr x => rfl
  · unfold resError
    rw [hhv, errPtr_eq w]
    cases rv with
    | inl x => rfl
    | inr x => exact hr

end

theorem junkFits_good {o : Obj} {rv : RVal} (h : RGood e L o rv) (junk : Val)
    (hj : junkFits L o junk = true) : junk.length = (L.ty (encRes rv).1).size := by
  unfold junkFits at hj
  rw [h.1] at hj
  simpa using hj

theorem liveRes_good {o : Obj} {rv : RVal} (h : RGood e L o rv) : liveRes o = some rv := by
  unfold liveRes
  rw [h.1]
  cases rv <;> rfl

theorem rmemcpy_good {o : Obj} {rv : RVal} (h : RGood e L o rv)
    (hd : resultNeedsDrop L = false) : RGood e L (resMemcpyObj L o) rv := by
  refine ⟨?_, h.2⟩
  simp only [resultNeedsDrop, Bool.or_eq_false_iff] at hd
  unfold resMemcpyObj
  rw [h.1]
  cases rv with
  | inl y => simp [encRes, hd.1]
  | inr y => simp [encRes, hd.2]

/-- Concrete and abstract states side by side. -/
def RSim (e : Endian) (L : Layout) (s : RSt) (a : Nat → Option RVal) : Prop :=
  ∀ k, match s k, a k with
    | none, none => True
    | some o, some rv => RGood e L o rv
    | _, _ => False

theorem RSim.none {s : RSt} {a : Nat → Option RVal} (h : RSim e L s a) {k : Nat}
    (hk : s k = .none) : a k = .none := by
  have := h k
  rw [hk] at this
  cases ha : a k with
  | none => rfl
  | some ov => rw [ha] at this; exact this.elim

theorem RSim.some {s : RSt} {a : Nat → Option RVal} (h : RSim e L s a) {k : Nat} {o : Obj}
    (hk : s k = .some o) : ∃ rv, a k = .some rv ∧ RGood e L o rv := by
  have := h k
  rw [hk] at this
  cases ha : a k with
  | none => rw [ha] at this; exact this.elim
  | some rv => rw [ha] at this; exact ⟨rv, rfl, this⟩

theorem RSim.set {s : RSt} {a : Nat → Option RVal} (h : RSim e L s a) (k : Nat) {o : Obj}
    {rv : RVal} (hg : RGood e L o rv) : RSim e L (upd s k (.some o)) (upd a k (.some rv)) := by
  intro i
  have := h i
  simp only [upd]
  by_cases hi : i = k
  · simpa only [hi, if_true] using hg
  · simp only [hi, if_false]
    exact this

theorem RSim.drop {s : RSt} {a : Nat → Option RVal} (h : RSim e L s a) (k : Nat) :
    RSim e L (upd s k .none) (upd a k .none) := by
  intro i
  have := h i
  simp only [upd]
  by_cases hi : i = k
  · simp [hi]
  · simp only [hi, if_false]
    exact this

theorem resultMoveStyle_cases (L : Layout) :
    (resultMoveStyle L = .some .trivial ∧ resultNeedsDrop L = false) ∨
    (resultMoveStyle L = .some .copy) ∨ (resultMoveStyle L = .none) := by
  unfold resultMoveStyle moveStyle
  cases resultNeedsDrop L <;> simp

section
variable (w : L.WF e) (hle : e = .little ∨ L.tagSize = 1)
include w hle

theorem rstep_sim {s : RSt} {a : Nat → Option RVal} (h : RSim e L s a) (op : ROp) :
    (∃ s' a', rstep e L s op = .ok s' ∧ arStep L a op = some a' ∧ RSim e L s' a') ∨
    rstep e L s op = .error .misuse := by
  cases op with
  | ctorOk k m x =>
    cases hk : s k with
    | some o => right; simp [rstep, need, hk, bind, Except.bind]
    | none =>
      by_cases hx : (L.ty okIdx).valid x = true
      · left
        have ha := h.none hk
        obtain ⟨o', h1, h2⟩ := construct_good w hle (.inl x) { mem := m, live := none } rfl hx
        have h1' : resCtorOk e L m x = .ok o' := by
          unfold resCtorOk; rw [okPtr_eq w]; exact h1
        simp only [rstep, arStep, need, hk, ha, hx, Option.isNone_none, Bool.and_self, if_true, bind,
          Except.bind, h1']
        exact ⟨_, _, rfl, rfl, h.set k h2⟩
      · right; simp [rstep, need, hk, hx, bind, Except.bind]
  | ctorErr k m x =>
    cases hk : s k with
    | some o => right; simp [rstep, need, hk, bind, Except.bind]
    | none =>
      by_cases hx : (L.ty errIdx).valid x = true
      · left
        have ha := h.none hk
        obtain ⟨o', h1, h2⟩ := construct_good w hle (.inr x) { mem := m, live := none } rfl hx
        have h1' : resCtorErr e L m x = .ok o' := by
          unfold resCtorErr; rw [errPtr_eq w]; exact h1
        simp only [rstep, arStep, need, hk, ha, hx, Option.isNone_none, Bool.and_self, if_true, bind,
          Except.bind, h1']
        exact ⟨_, _, rfl, rfl, h.set k h2⟩
      · right; simp [rstep, need, hk, hx, bind, Except.bind]
  | assignOk k x junk =>
    cases hk : s k with
    | none => right; simp [rstep, hk, getRes, bind, Except.bind]
    | some o =>
      obtain ⟨rv, hrv, hg⟩ := h.some hk
      by_cases hn : (junkFits L o junk && (L.ty okIdx).valid x) = true
      · left
        have hn' := hn
        rw [Bool.and_eq_true] at hn'
        obtain ⟨o', h1, h2⟩ := resAssignOk_good w hle hg x junk (junkFits_good hg junk hn'.1) hn'.2
        simp only [rstep, arStep, need, hk, hrv, getRes, hn, h1, if_true, bind, Except.bind,
          Option.map_some]
        exact ⟨_, _, rfl, rfl, h.set k h2⟩
      · right
        simp only [rstep, need, hk, getRes, hn, bind, Except.bind, Bool.false_eq_true, if_false]
  | assignErr k x junk =>
    cases hk : s k with
    | none => right; simp [rstep, hk, getRes, bind, Except.bind]
    | some o =>
      obtain ⟨rv, hrv, hg⟩ := h.some hk
      by_cases hn : (junkFits L o junk && (L.ty errIdx).valid x) = true
      · left
        have hn' := hn
        rw [Bool.and_eq_true] at hn'
        obtain ⟨o', h1, h2⟩ := resAssignErr_good w hle hg x junk (junkFits_good hg junk hn'.1) hn'.2
        simp only [rstep, arStep, need, hk, hrv, getRes, hn, h1, if_true, bind, Except.bind,
          Option.map_some]
        exact ⟨_, _, rfl, rfl, h.set k h2⟩
      · right
        simp only [rstep, need, hk, getRes, hn, bind, Except.bind, Bool.false_eq_true, if_false]
  | dtor k junk =>
    cases hk : s k with
    | none => right; simp [rstep, hk, getRes, bind, Except.bind]
    | some o =>
      obtain ⟨rv, hrv, hg⟩ := h.some hk
      by_cases hn : junkFits L o junk = true
      · left
        have h1 := resDtor_ok w hle hg junk (junkFits_good hg junk hn)
        simp only [rstep, arStep, need, hk, hrv, getRes, hn, h1, if_true, bind, Except.bind,
          Option.map_some]
        exact ⟨_, _, rfl, rfl, h.drop k⟩
      · right
        simp only [rstep, need, hk, getRes, hn, bind, Except.bind, Bool.false_eq_true, if_false]
  | moveCtor k k' =>
    cases hk : s k with
    | some o => right; simp [rstep, need, hk, bind, Except.bind]
    | none =>
      have ha := h.none hk
      cases hk' : s k' with
      | none => right; simp [rstep, need, hk, hk', getRes, bind, Except.bind]
      | some src =>
        obtain ⟨rv, hrv, hg⟩ := h.some hk'
        rcases resultMoveStyle_cases L with ⟨hst, hd⟩ | hst | hst
        · left
          simp only [rstep, arStep, need, hk, ha, hk', hrv, getRes, hst, Option.isNone_none,
            if_true, bind, Except.bind, Option.map_some]
          exact ⟨_, _, rfl, rfl, h.set k (rmemcpy_good hg hd)⟩
        · right; simp [rstep, need, hk, hk', getRes, bind, Except.bind, hst]
        · right; simp [rstep, need, hk, hk', getRes, bind, Except.bind, hst]
  | moveAssign k k' =>
    cases hk : s k with
    | none => right; simp [rstep, hk, getRes, bind, Except.bind]
    | some dst =>
      obtain ⟨rw', hrw, hgd⟩ := h.some hk
      cases hk' : s k' with
      | none => right; simp [rstep, hk, hk', getRes, bind, Except.bind]
      | some src =>
        obtain ⟨rv, hrv, hg⟩ := h.some hk'
        rcases resultMoveStyle_cases L with ⟨hst, hd⟩ | hst | hst
        · left
          simp only [rstep, arStep, hk, hrw, hk', hrv, getRes, hst, bind, Except.bind,
            Option.map_some, Option.bind_some]
          exact ⟨_, _, rfl, rfl, h.set k (rmemcpy_good hg hd)⟩
        · right; simp [rstep, hk, hk', getRes, bind, Except.bind, hst]
        · right; simp [rstep, hk, hk', getRes, bind, Except.bind, hst]
  | relocate k k' =>
    cases hk : s k with
    | some o => right; simp [rstep, need, hk, bind, Except.bind]
    | none =>
      have ha := h.none hk
      cases hk' : s k' with
      | none => right; simp [rstep, need, hk, hk', getRes, bind, Except.bind]
      | some src =>
        obtain ⟨rv, hrv, hg⟩ := h.some hk'
        left
        simp only [rstep, arStep, need, hk, ha, hk', hrv, getRes, Option.isNone_none, if_true, bind,
          Except.bind, Option.map_some]
        exact ⟨_, _, rfl, rfl, (h.set k hg).drop k'⟩
  | copyCtor k k' rm =>
    cases hk : s k with
    | some o => right; simp [rstep, need, hk, bind, Except.bind]
    | none =>
      have ha := h.none hk
      cases hk' : s k' with
      | none => right; simp [rstep, need, hk, hk', getRes, bind, Except.bind]
      | some src =>
        obtain ⟨rv, hrv, hg⟩ := h.some hk'
        by_cases hn : ((L.ty okIdx).copyable && (L.ty errIdx).copyable &&
            rustHoldsRes e L rm (cloneRes L rv)) = true
        · left
          simp only [rstep, arStep, need, hk, ha, hk', hrv, getRes, rustClone, liveRes_good hg, hn,
            Option.isNone_none, if_true, bind, Except.bind, Option.map_some]
          rw [Bool.and_eq_true] at hn
          exact ⟨_, _, rfl, rfl, h.set k ⟨rfl, hn.2⟩⟩
        · right
          simp only [rstep, need, hk, hk', getRes, rustClone, liveRes_good hg, hn, bind,
            Except.bind, Option.isNone_none, if_true, Bool.false_eq_true, if_false]
  | copyAssign k k' rm =>
    cases hk : s k with
    | none => right; simp [rstep, hk, getRes, bind, Except.bind]
    | some dst =>
      obtain ⟨rw', hrw, hgd⟩ := h.some hk
      cases hk' : s k' with
      | none => right; simp [rstep, hk, hk', getRes, bind, Except.bind]
      | some src =>
        obtain ⟨rv, hrv, hg⟩ := h.some hk'
        by_cases hkk : k = k'
        · left
          subst hkk
          simp only [rstep, arStep, hk, hrw, getRes, bind, Except.bind, Option.map_some,
            Option.bind_some, if_true]
          exact ⟨s, a, rfl, rfl, h⟩
        · by_cases hn : ((L.ty okIdx).copyable && (L.ty errIdx).copyable &&
              rustHoldsRes e L rm (cloneRes L rv)) = true
          · left
            simp only [rstep, arStep, hk, hrw, hk', hrv, getRes, rustClone, liveRes_good hg, hn,
              hkk, if_false, if_true, bind, Except.bind, Option.map_some, Option.bind_some]
            rw [Bool.and_eq_true] at hn
            exact ⟨_, _, rfl, rfl, h.set k ⟨rfl, hn.2⟩⟩
          · right
            simp only [rstep, hk, hk', getRes, rustClone, liveRes_good hg, hn, hkk, bind,
              Except.bind, if_false, Bool.false_eq_true]
  | rustSet k rv rm =>
    cases hk : s k with
    | none => right; simp [rstep, hk, getRes, bind, Except.bind]
    | some o =>
      obtain ⟨rw', hrw, -⟩ := h.some hk
      by_cases hn : rustHoldsRes e L rm rv = true
      · left
        simp only [rstep, arStep, hk, hrw, getRes, need, hn, if_true, bind, Except.bind,
          Option.map_some]
        exact ⟨_, _, rfl, rfl, h.set k ⟨rfl, hn⟩⟩
      · right; simp [rstep, hk, getRes, need, hn, bind, Except.bind]

theorem rrun_sim (ops : List ROp) : ∀ {s : RSt} {a : Nat → Option RVal}, RSim e L s a →
    (∃ s' a', rrun e L s ops = .ok s' ∧ arRun L a ops = some a' ∧ RSim e L s' a') ∨
    rrun e L s ops = .error .misuse := by
  induction ops with
  | nil => intro s a h; exact .inl ⟨s, a, rfl, rfl, h⟩
  | cons op ops ih =>
    intro s a h
    rcases rstep_sim w hle h op with ⟨s1, a1, h1, h2, h3⟩ | h1
    · rcases ih h3 with ⟨s2, a2, h4, h5, h6⟩ | h4
      · left
        exact ⟨s2, a2, by simp [rrun, h1, bind, Except.bind, h4], by simp [arRun, h2, h5], h6⟩
      · right
        simp [rrun, h1, bind, Except.bind, h4]
    · right
      simp [rrun, h1, bind, Except.bind]

end

theorem rinit_sim : RSim e L (fun _ => none) (fun _ => none) := fun _ => trivial

/-- **C73.** After any sequence of operations that respects preconditions, every result holds what
the byte-free specification says, and C++ (`has_value`, `value`, `error`) and Rust both see it. -/
theorem result_agrees_with_rust (w : L.WF e) (hle : e = .little ∨ L.tagSize = 1)
    (ops : List ROp) (s : RSt) (h : rrun e L (fun _ => none) ops = .ok s) :
    ∃ a, arRun L (fun _ => none) ops = some a ∧
      (∀ k, (s k).isSome = (a k).isSome) ∧
      (∀ k o rv, s k = some o → a k = some rv → RAgrees e L o rv) := by
  rcases rrun_sim w hle ops (rinit_sim (e := e) (L := L)) with ⟨s', a, h1, h2, h3⟩ | h1
  · rw [h1] at h
    injection h with h
    subst h
    refine ⟨a, h2, fun k => ?_, fun k o rv ho ha => ?_⟩
    · cases hk : s' k with
      | none => rw [h3.none hk]; rfl
      | some o =>
        obtain ⟨ov, hov, -⟩ := h3.some hk
        rw [hov]; rfl
    · obtain ⟨rv', hrv, hg⟩ := h3.some ho
      rw [ha] at hrv
      injection hrv with hrv
      subst hrv
      exact rgood_agrees w hle hg
  · rw [h1] at h
    cases h

/-- **C74.** No sequence of operations constructs over a live payload, destroys or uses a dead one
or one of the other variant, touches bytes outside the storage, or releases storage with a live
payload. -/
theorem result_lifetimes (w : L.WF e) (hle : e = .little ∨ L.tagSize = 1)
    (ops : List ROp) (f : Fault) (h : rrun e L (fun _ => none) ops = .error f) : f = .misuse := by
  rcases rrun_sim w hle ops (rinit_sim (e := e) (L := L)) with ⟨s', a, h1, h2, h3⟩ | h1
  · rw [h1] at h; cases h
  · rw [h1] at h
    injection h with h
    exact h.symm

/-- In every reachable result exactly one payload is live, and it is the one that the tag selects. -/
theorem result_live (w : L.WF e) (hle : e = .little ∨ L.tagSize = 1)
    (ops : List ROp) (s : RSt) (h : rrun e L (fun _ => none) ops = .ok s) (k : Nat) (o : Obj)
    (hk : s k = some o) :
    (∃ x, o.live = some (okIdx, x) ∧ resHasValue e L o = .ok true ∧ resValue e L o = .ok x) ∨
    (∃ x, o.live = some (errIdx, x) ∧ resHasValue e L o = .ok false ∧ resError e L o = .ok x) := by
  rcases rrun_sim w hle ops (rinit_sim (e := e) (L := L)) with ⟨s', a, h1, h2, h3⟩ | h1
  · rw [h1] at h
    injection h with h
    subst h
    obtain ⟨rv, -, hg⟩ := h3.some hk
    have hag := rgood_agrees w hle hg
    cases rv with
    | inl x => exact .inl ⟨x, hg.1, hag.cppHas, hag.cppValue⟩
    | inr x => exact .inr ⟨x, hg.1, hag.cppHas, hag.cppError⟩
  · rw [h1] at h; cases h

end Verif.RsStd

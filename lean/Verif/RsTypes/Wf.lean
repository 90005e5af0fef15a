import Verif.RsTypes.Exact

/-
C164: the generated C++ types are well formed.
-/

namespace Verif.RsTypes

theorem wf_pointee : ∀ c : CTy, Wf c → WfPointee c
  | .prim _, _ => by rw [WfPointee]; trivial
  | .cls _, _ => by rw [WfPointee]; trivial
  | .ptr .ptr _ t, h => by rw [Wf] at h; rw [WfPointee]; exact h
  | .ptr .lref _ _, h => by rw [Wf] at h; exact h.elim; nofun
  | .ptr .rref _ _, h => by rw [Wf] at h; exact h.elim; nofun
  | .tmpl _ as, h => by rw [Wf] at h; rw [WfPointee]; exact h
  | .fn _ _, h => by rw [Wf] at h; exact h.elim

theorem wf_top : ∀ c : CTy, Wf c → WfTop c
  | .prim _, _ => by rw [WfTop]; trivial
  | .cls _, _ => by rw [WfTop]; trivial
  | .ptr .ptr _ t, h => by rw [Wf] at h; rw [WfTop]; exact h
  | .ptr .lref _ _, h => by rw [Wf] at h; exact h.elim; nofun
  | .ptr .rref _ _, h => by rw [Wf] at h; exact h.elim; nofun
  | .tmpl _ as, h => by rw [Wf] at h; rw [WfTop]; exact h
  | .fn _ _, h => by rw [Wf] at h; exact h.elim

variable {E : Env}

mutual
theorem Corr.wf : ∀ {t : RTy} {c : CTy}, Corr E t c → Wf c
  | _, _, .prim p => by cases p <;> simp [primTy, Wf]
  | _, _, .int s w n hn => by
      rw [Wf]
      rintro rfl
      have := (Corr.int (E := E) s w _ hn).plain.2.2
      cases this
  | _, _, .adt n => by rw [Wf]; trivial
  | _, _, .array t n t' h => by simp only [Wf, WfArgs, and_true]; exact h.wf
  | _, _, .tuple n ts as _ h => by rw [Wf]; exact h.wf
  | _, _, .gen g n ts as _ h => by rw [Wf]; exact h.wf
  | _, _, .raw m t t' h => by rw [Wf]; exact h.wf
  | _, _, .rawSlice m t t' h => by simp only [Wf, WfArgs, and_true]; exact h.wf
  | _, _, .ref l m t t' h => by rw [Wf]; exact h.wf
  | _, _, .refSlice l m t t' h => by simp only [Wf, WfArgs, and_true]; exact h.wf
  | _, _, .str l => by rw [Wf]; trivial
  | _, _, .rvref b l t t' h => by rw [Wf]; exact h.wf
  | _, _, .fn u abi ret ps r as _ hr hp => by rw [Wf, WfPointee]; exact ⟨hr.wf, hp.wf⟩
theorem Pointee.wf : ∀ {t : RTy} {c : CTy}, Pointee E t c → WfPointee c
  | _, _, .same t t' h => wf_pointee _ h.wf
  | _, _, .void => by rw [WfPointee]; trivial
  | _, _, .uninit t t' h => wf_pointee _ h.wf
  | _, _, .uninitVoid => by rw [WfPointee]; trivial
theorem CorrTop.wf : ∀ {t : RTy} {c : CTy}, CorrTop E t c → WfTop c ∧ c.isVoid = false
  | _, _, .same t t' h => ⟨wf_top _ h.wf, h.plain.2.2⟩
  | _, _, .lref l m t t' h => ⟨by rw [WfTop]; exact h.wf, rfl⟩
  | _, _, .shared l k t t' _ _ h => ⟨by rw [WfTop]; exact h.wf, rfl⟩
  | _, _, .rref b l t t' h => ⟨by rw [WfTop]; exact h.wf, rfl⟩
  | _, _, .fnref u abi ret ps r as _ hr hp => ⟨by rw [WfTop, WfPointee]; exact ⟨hr.wf, hp.wf⟩, rfl⟩
theorem CorrRet.wf : ∀ {t : RTy} {c : CTy}, CorrRet E t c → WfTop c
  | _, _, .same t t' h => h.wf.1
  | _, _, .unit => by rw [WfTop]; trivial
  | _, _, .never => by rw [WfTop]; trivial
theorem CorrL.wf : ∀ {ts : RTys} {as : CArgs}, CorrL E ts as → WfArgs as
  | _, _, .nil => by rw [WfArgs]; trivial
  | _, _, .cons t ts t' as h hs => by rw [WfArgs]; exact ⟨h.wf, hs.wf⟩
  | _, _, .unit ts as hs => by rw [WfArgs, Wf]; exact ⟨trivial, hs.wf⟩
theorem CorrPs.wf : ∀ {ts : RTys} {as : CArgs}, CorrPs E ts as → WfPs as
  | _, _, .nil => by rw [WfPs]; trivial
  | _, _, .cons t ts t' as h hs => by rw [WfPs]; exact ⟨rfl, h.wf.2, h.wf.1, hs.wf⟩
end

/-- C164: the C++ type that is read from the spelling of a Rust type is well formed in its place. -/
theorem cc_type_well_formed {D : Db} (t : RTy) (loc : Loc) (l : List Tok) (hx : All exactNode t)
    (h : fmt D loc t = some l) : ∃ c, typeOf l = some (false, c) ∧ WfAt loc c := by
  obtain ⟨c, h1, h2⟩ := cc_type_corresponds t loc l hx h
  refine ⟨c, h1, ?_⟩
  cases loc <;> simp only [CorrAt] at h2 <;> simp only [WfAt]
  · exact h2.wf
  · exact h2.wf
  · exact h2.wf
  all_goals exact h2.wf

end Verif.RsTypes

import Verif.NullTy.Scoped

/-!
# Nullability vectors: the theorems
-/

namespace Verif.NullTy

mutual
/-- Canonical types need no condition. -/
theorem canon_scoped (given : Given) (file : Nat) : (t : Ty) → Scoped given .nil file t.canon
  | .leaf _ => by simp [Ty.canon, Scoped]
  | .ptr t => by simpa only [Ty.canon, Scoped] using canon_scoped given file t
  | .ref t => by simpa only [Ty.canon, Scoped] using canon_scoped given file t
  | .arr t => by simpa only [Ty.canon, Scoped] using canon_scoped given file t
  | .fn r ps => by
      simp only [Ty.canon, Scoped]
      exact ⟨canon_scoped given file r, canon_scopedTys given file ps⟩
  | .cls _ d s p as => by
      simp only [Ty.canon, Scoped, ScopedQ, bindFrom, findRec]
      exact ⟨trivial, canon_scopedPar given file p, canon_scopedArgs given file as, by simp⟩
  | .tst _ _ d s p as => by
      simp only [Ty.canon, Scoped, ScopedQ, bindFrom, findRec]
      exact ⟨trivial, canon_scopedPar given file p, canon_scopedArgs given file as, by simp⟩
  | .attr _ t => by simpa only [Ty.canon] using canon_scoped given file t
  | .paren t => by simpa only [Ty.canon] using canon_scoped given file t
  | .typedef _ _ t => by simpa only [Ty.canon] using canon_scoped given file t
  | .alias_ _ _ _ _ _ _ t => by simpa only [Ty.canon] using canon_scoped given file t
  | .subst _ _ t => by simpa only [Ty.canon] using canon_scoped given file t
  | .sugar _ t => by simpa only [Ty.canon] using canon_scoped given file t
theorem canon_scopedTys (given : Given) (file : Nat) : (t : Tys) → ScopedTys given .nil file t.canon
  | .nil => by simp [Tys.canon, ScopedTys]
  | .cons t l => by
      simp only [Tys.canon, ScopedTys]
      exact ⟨canon_scoped given file t, canon_scopedTys given file l⟩
theorem canon_scopedPar (given : Given) (file : Nat) : (t : Par) → ScopedPar given .nil file t.canon
  | .none => by simp [Par.canon, ScopedPar]
  | .some t => by simpa only [Par.canon, ScopedPar] using canon_scoped given file t
theorem canon_scopedArg (given : Given) (file : Nat) : (t : Arg) → ScopedArg given .nil file t.canon
  | .ty t => by simpa only [Arg.canon, ScopedArg] using canon_scoped given file t
  | .pack l => by simpa only [Arg.canon, ScopedArg] using canon_scopedArgs given file l
  | .other _ => by simp [Arg.canon, ScopedArg]
theorem canon_scopedArgs (given : Given) (file : Nat) : (t : Args) → ScopedArgs given .nil file t.canon
  | .nil => by simp [Args.canon, ScopedArgs]
  | .cons t l => by
      simp only [Args.canon, ScopedArgs]
      exact ⟨canon_scopedArg given file t, canon_scopedArgs given file l⟩
end

/-! ## C99 -/

/-- The pointers reported for a type are those of its canonical type, in preorder. -/
theorem reports_are_the_slots {given : Given} {file : Nat} {t : Ty} (h : Scoped given .nil file t) :
    ∃ N r, (∀ n, N ≤ n → walk given n .nil file none t = some r) ∧ tys r = t.canon.slots := by
  obtain ⟨N, hN⟩ := h.nil_ok
  obtain ⟨r, hr, hs⟩ := (walk_slots given N).1 _ _ _ (hN N (Nat.le_refl _)) none
  exact ⟨N, r, fun n hn => walk_mono hn hr, hs⟩

/-- The vector has one entry for each pointer of the canonical type. -/
theorem vector_length {given : Given} {file : Nat} {t : Ty} (h : Scoped given .nil file t) (df : Defaults) :
    ∃ N v, (∀ n, N ≤ n → getTypeNullability given df n file t = some v) ∧ v.length = t.canon.slots.length := by
  obtain ⟨N, r, hr, hs⟩ := reports_are_the_slots h
  refine ⟨N, r.map fun r => r.nk.getD (.concrete (df.get r.file)), fun n hn => ?_, ?_⟩
  · unfold getTypeNullability
    rw [hr n hn]
    rfl
  · rw [← hs, tys, List.length_map, List.length_map]

/-- Two spellings of the same type have vectors of the same length, and reports of corresponding pointers. -/
theorem spellings_correspond {given given' : Given} {file file' : Nat} {t t' : Ty} (h : Scoped given .nil file t)
    (h' : Scoped given' .nil file' t') (he : t.canon = t'.canon) :
    ∃ N r r', (∀ n, N ≤ n → walk given n .nil file none t = some r ∧ walk given' n .nil file' none t' = some r') ∧
      tys r = tys r' := by
  obtain ⟨N, r, hr, hs⟩ := reports_are_the_slots h
  obtain ⟨M, r', hr', hs'⟩ := reports_are_the_slots h'
  exact ⟨N + M, r, r', fun n hn => ⟨hr n (by omega), hr' n (by omega)⟩, by rw [hs, hs', he]⟩

/-- Any answer is the answer: the result does not depend on how far the walk was allowed to go. -/
theorem vector_unique {given : Given} {df : Defaults} {file : Nat} {t : Ty} {n m : Nat} {v w : List PN}
    (h : getTypeNullability given df n file t = some v) (h' : getTypeNullability given df m file t = some w) :
    v = w := by
  unfold getTypeNullability at h h'
  simp only [Option.map_eq_some_iff] at h h'
  obtain ⟨r, hr, rfl⟩ := h
  obtain ⟨r', hr', rfl⟩ := h'
  have := walk_mono (Nat.le_add_right n m) hr
  rw [walk_mono (Nat.le_add_left m n) hr'] at this
  simp_all

/-- `countPointersInType`. -/
theorem count_is_slots {t : Ty} (h : Scoped (fun _ _ => none) .nil 0 t) :
    ∃ N, ∀ n, N ≤ n → countPointers n t = some t.canon.slots.length := by
  obtain ⟨N, r, hr, hs⟩ := reports_are_the_slots h
  refine ⟨N, fun n hn => ?_⟩
  unfold countPointers
  rw [hr n hn, ← hs, tys, List.length_map]
  rfl

/-- `getTypeNullabilityLocs` has an entry for each slot of the vector. -/
theorem locs_correspond {df df' : Defaults} {file : Nat} {t : Ty} (h : Scoped (fun _ _ => none) .nil file t) :
    ∃ N l v, (∀ n, N ≤ n → getTypeNullabilityLocs df n file t = some l ∧
        getTypeNullability (fun _ _ => none) df' n file t = some v) ∧
      l.map (fun e => e.1.canon) = t.canon.slots ∧ v.length = l.length := by
  obtain ⟨N, r, hr, hs⟩ := reports_are_the_slots h
  refine ⟨N, r.map fun r => (r.ty, r.nk.or ((df.pragma r.file).map .concrete)),
    r.map fun r => r.nk.getD (.concrete (df'.get r.file)), fun n hn => ⟨?_, ?_⟩, ?_, ?_⟩
  · unfold getTypeNullabilityLocs
    rw [hr n hn]
    rfl
  · unfold getTypeNullability
    rw [hr n hn]
    rfl
  · rw [← hs, tys, List.map_map]
    rfl
  · simp

/-! ## C100 -/

/-- The first report with another nullability. -/
def setHead (nk : NK) : List Rep → List Rep
  | [] => []
  | e :: l => ⟨e.ty, e.file, some (.concrete nk)⟩ :: l

theorem setHead_setHead (nk nk' : NK) (r : List Rep) : setHead nk (setHead nk' r) = setHead nk r := by
  cases r <;> rfl

/-- The same reports, except for the nullability of the first. -/
inductive SameTail : Option (List Rep) → Option (List Rep) → Prop where
  | same (x) : SameTail x x
  | head (t f nk nk' l) : SameTail (some (⟨t, f, nk⟩ :: l)) (some (⟨t, f, nk'⟩ :: l))

theorem useGiven_tail (p q : Option NK) (file : Nat) (t : Ty) (v : List PN) :
    SameTail (some (givenReps file t (useGiven p v))) (some (givenReps file t (useGiven q v))) := by
  unfold givenReps
  cases v with
  | nil => exact .same _
  | cons x l =>
      have : ∀ p, ∃ y, useGiven p (x :: l) = y :: l := by
        intro p
        cases x with
        | symbolic a => exact ⟨_, rfl⟩
        | concrete nk => cases nk <;> exact ⟨_, rfl⟩
      obtain ⟨y, hy⟩ := this p
      obtain ⟨z, hz⟩ := this q
      rw [hy, hz]
      cases t.canon.slots with
      | nil => exact .same _
      | cons s ss => exact .head _ _ _ _ _

/-- An annotation around a type can only change the nullability of the first pointer of the type. -/
theorem annotation_changes_only_the_head (given : Given) : ∀ n,
    (∀ ctx file t p q, SameTail (walk given n ctx file p t) (walk given n ctx file q t)) ∧
    (∀ ctx file a p q, SameTail (walkArg given n ctx file p a) (walkArg given n ctx file q a)) := by
  intro n
  induction n with
  | zero => exact ⟨fun _ _ _ _ _ => by simp only [walk]; exact .same _, fun _ _ _ _ _ => by simp only [walkArg]; exact .same _⟩
  | succ n ih =>
      obtain ⟨i1, i4⟩ := ih
      constructor
      · intro ctx file t p q
        cases t with
        | leaf k => simp only [walk]; exact .same _
        | ptr t =>
            simp only [walk]
            cases walk given n ctx file none t with
            | none => exact .same _
            | some r => exact .head _ _ _ _ _
        | ref t => simp only [walk]; exact .same _
        | arr t => simp only [walk]; exact .same _
        | fn ret ps => simp only [walk]; exact .same _
        | cls qs d s pa as =>
            simp only [walk]
            cases walkPar given n (bindFrom file ctx qs) file pa with
            | none => exact .same _
            | some rp =>
                cases findRec d (bindFrom file ctx qs) with
                | none =>
                    cases hr : walkArgs given n (bindFrom file ctx qs) file as with
                    | none => simp only [bind, Option.bind]; exact .same _
                    | some r =>
                        cases s
                        · exact .same _
                        · exact .head _ _ _ _ _
                | some x =>
                    obtain ⟨w, f, c⟩ := x
                    cases hr : walkArgs given n c f w with
                    | none => simp only [bind, Option.bind, hr]; exact .same _
                    | some r =>
                        cases hr' : walkArgs given n (bindFrom file ctx qs) file (as.drop w.length) with
                        | none => simp only [bind, Option.bind, hr, hr']; exact .same _
                        | some r' =>
                            simp only [bind, Option.bind, hr, hr']
                            cases s
                            · exact .same _
                            · exact .head _ _ _ _ _
        | tst qs w d s pa as =>
            simp only [walk]
            cases walkPar given n (bindFrom file ctx qs) file pa with
            | none => exact .same _
            | some rp =>
                cases walkArgs given n (bindFrom file ctx qs) file w with
                | none => exact .same _
                | some r =>
                    cases walkArgs given n (bindFrom file ctx qs) file (as.drop w.length) with
                    | none => exact .same _
                    | some r' =>
                        cases s
                        · exact .same _
                        · exact .head _ _ _ _ _
        | attr nk t => simp only [walk]; exact i1 _ _ _ _ _
        | paren t => simp only [walk]; exact i1 _ _ _ _ _
        | typedef qs f t => simp only [walk]; exact i1 _ _ _ _ _
        | alias_ qs templ f ann tr w t => simp only [walk]; exact i1 _ _ _ _ _
        | subst d ix t =>
            simp only [walk]
            cases given d ix with
            | some v => exact useGiven_tail _ _ _ _ _
            | none =>
                simp only
                cases findArg d ix ctx with
                | none => exact i1 _ _ _ _ _
                | some x => exact i4 _ _ _ _ _
        | sugar qs t => simp only [walk]; exact i1 _ _ _ _ _
      · intro ctx file a p q
        cases a with
        | ty t => simp only [walkArg]; exact i1 _ _ _ _ _
        | pack l => simp only [walkArg]; exact .same _
        | other k => simp only [walkArg]; exact .same _

/-- No nullability is given for template parameters from outside. -/
def noneGiven : Given := fun _ _ => none

/-- The effect of an annotation waiting for a pointer. -/
def effect (nk : NK) (ptr : Bool) (r : List Rep) : List Rep := if ptr then setHead nk r else r

theorem effect_effect (nk nk' : NK) (b : Bool) (r : List Rep) : effect nk b (effect nk' b r) = effect nk b r := by
  cases b <;> simp [effect, setHead_setHead]

def Arg.isPtr : Arg → Bool
  | .ty t => t.isPtr
  | _ => false

theorem walk_pend : ∀ n,
    (∀ ctx file t nk, ok noneGiven n ctx file t →
      walk noneGiven n ctx file (some nk) t = (walk noneGiven n ctx file none t).map (effect nk t.canon.isPtr)) ∧
    (∀ ctx file a nk, okArg noneGiven n ctx file a →
      walkArg noneGiven n ctx file (some nk) a = (walkArg noneGiven n ctx file none a).map (effect nk a.canon.isPtr)) := by
  intro n
  induction n with
  | zero => exact ⟨fun _ _ _ _ _ => by simp [walk], fun _ _ _ _ _ => by simp [walkArg]⟩
  | succ n ih =>
      obtain ⟨i1, i4⟩ := ih
      have id_map : ∀ (nk : NK) (x : Option (List Rep)), x = x.map (effect nk false) := by
        intro nk x; cases x <;> simp [effect]
      have step : ∀ ctx file t nk ann, ok noneGiven n ctx file t →
          walk noneGiven n ctx file (saw (some nk) ann) t =
            (walk noneGiven n ctx file (saw none ann) t).map (effect nk t.canon.isPtr) := by
        intro ctx file t nk ann h
        cases ann with
        | none => exact i1 ctx file t nk h
        | some nk' =>
            show walk noneGiven n ctx file (some nk) t = (walk noneGiven n ctx file (some nk') t).map _
            rw [i1 ctx file t nk h, i1 ctx file t nk' h, Option.map_map]
            congr 1
            funext r
            exact (effect_effect _ _ _ _).symm
      constructor
      · intro ctx file t nk h
        cases t with
        | leaf k => simp only [walk]; exact id_map _ _
        | ptr t =>
            simp only [walk, Ty.canon, Ty.isPtr]
            cases walk noneGiven n ctx file none t <;> rfl
        | ref t => simp only [walk]; exact id_map _ _
        | arr t => simp only [walk]; exact id_map _ _
        | fn ret ps => simp only [walk]; exact id_map _ _
        | cls qs d s pa as =>
            simp only [walk, Ty.canon, Ty.isPtr]
            cases s
            · exact id_map _ _
            · cases walkPar noneGiven n (bindFrom file ctx qs) file pa with
              | none => rfl
              | some rp =>
                  cases findRec d (bindFrom file ctx qs) with
                  | none =>
                      cases hr : walkArgs noneGiven n (bindFrom file ctx qs) file as with
                      | none => simp only [bind, Option.bind]; rfl
                      | some r => rfl
                  | some x =>
                      obtain ⟨w, f, c⟩ := x
                      cases hr : walkArgs noneGiven n c f w with
                      | none => simp only [bind, Option.bind, hr]; rfl
                      | some r =>
                          cases hr' : walkArgs noneGiven n (bindFrom file ctx qs) file (as.drop w.length) with
                          | none => simp only [bind, Option.bind, hr, hr']; rfl
                          | some r' => simp only [bind, Option.bind, hr, hr']; rfl
        | tst qs w d s pa as =>
            simp only [walk, Ty.canon, Ty.isPtr]
            cases s
            · exact id_map _ _
            · cases walkPar noneGiven n (bindFrom file ctx qs) file pa with
              | none => rfl
              | some rp =>
                  cases walkArgs noneGiven n (bindFrom file ctx qs) file w with
                  | none => rfl
                  | some r =>
                      cases walkArgs noneGiven n (bindFrom file ctx qs) file (as.drop w.length) <;> rfl
        | attr nk t => simp only [ok] at h; simp only [walk]; exact step _ _ _ _ _ h
        | paren t => simp only [ok] at h; simp only [walk]; exact i1 _ _ _ _ h
        | typedef qs f t => simp only [ok] at h; simp only [walk]; exact i1 _ _ _ _ h
        | alias_ qs templ f ann tr w t => simp only [ok] at h; simp only [walk]; exact step _ _ _ _ _ h
        | subst d ix t =>
            simp only [ok, noneGiven] at h
            simp only [walk, noneGiven]
            cases hf : findArg d ix ctx with
            | none =>
                rw [hf] at h
                exact i1 _ _ _ _ h
            | some x =>
                obtain ⟨f, a⟩ := x
                rw [hf] at h
                simp only
                rw [show (Ty.subst d ix t).canon.isPtr = a.canon.isPtr by rw [h.1]; rfl]
                exact i4 _ _ _ _ h.2
        | sugar qs t => simp only [ok] at h; simp only [walk]; exact i1 _ _ _ _ h
      · intro ctx file a nk h
        cases a with
        | ty t => simp only [okArg] at h; simp only [walkArg]; exact i1 _ _ _ _ h
        | pack l => simp only [walkArg]; exact id_map _ _
        | other k => simp only [walkArg]; exact id_map _ _

/-- A vector with another first entry. -/
def setFirst (nk : NK) : List PN → List PN
  | [] => []
  | _ :: v => .concrete nk :: v

/-- The vector of a type, with an annotation around it that takes effect. -/
def annotated (nk : NK) (ptr : Bool) (v : List PN) : List PN := if ptr then setFirst nk v else v

theorem effect_vector (df : Defaults) (nk : NK) (b : Bool) (r : List Rep) :
    (effect nk b r).map (fun r => r.nk.getD (.concrete (df.get r.file))) =
      annotated nk b (r.map fun r => r.nk.getD (.concrete (df.get r.file))) := by
  cases b
  · rfl
  · cases r <;> rfl

/-- Does the annotation on the type take effect: it must be a pointer; and "unspecified" must be on a spelled-out
pointer without another annotation. -/
def takesEffect (nk : NK) (t : Ty) : Bool := if nk = .unspecified then isUnknownValidOn t else t.canon.isPtr

theorem strip_canon : ∀ t, (strip t).canon = t.canon
  | .paren t => by simp only [strip, Ty.canon]; exact strip_canon t
  | .alias_ qs d f a tr w t => by
      simp only [strip]
      split
      · simp only [Ty.canon]; exact strip_canon t
      · rfl
  | .leaf _ => rfl
  | .ptr _ => rfl
  | .ref _ => rfl
  | .arr _ => rfl
  | .fn _ _ => rfl
  | .cls _ _ _ _ _ => rfl
  | .tst _ _ _ _ _ _ => rfl
  | .attr _ _ => rfl
  | .typedef _ _ _ => rfl
  | .subst _ _ _ => rfl
  | .sugar _ _ => rfl

theorem unknownValid_ptr {t : Ty} (h : isUnknownValidOn t = true) : t.canon.isPtr = true := by
  unfold isUnknownValidOn isSupportedPointerType at h
  rw [strip_canon] at h
  simp only [Bool.and_eq_true] at h
  exact h.1

/-- An annotation around a type: the first entry of its vector is the annotation if it takes effect, and everything
else stays. -/
theorem annotation {file : Nat} {t : Ty} (h : Scoped noneGiven .nil file t) (df : Defaults) (nk : NK) :
    ∃ N v, ∀ n, N ≤ n → getTypeNullability noneGiven df n file t = some v ∧
      getTypeNullability noneGiven df n file (.attr (some nk) t) = some (annotated nk (takesEffect nk t) v) := by
  obtain ⟨N, hN⟩ := h.nil_ok
  obtain ⟨M, r, hr, hs⟩ := reports_are_the_slots h
  refine ⟨N + M + 1, r.map fun r => r.nk.getD (.concrete (df.get r.file)), fun n hn => ⟨?_, ?_⟩⟩
  · unfold getTypeNullability
    rw [hr n (by omega)]
    rfl
  · obtain ⟨m, rfl⟩ : ∃ m, n = m + 1 := ⟨n - 1, by omega⟩
    unfold getTypeNullability
    simp only [walk, saw, Option.none_or]
    have hok := hN m (by omega)
    unfold takesEffect attrNK
    by_cases hu : nk = .unspecified
    · subst hu
      by_cases hv : isUnknownValidOn t = true
      · rw [if_neg (by simp [hv]), (walk_pend m).1 _ _ _ _ hok, hr m (by omega), unknownValid_ptr hv]
        simp only [Option.map_some, Option.some.injEq, if_true, hv]
        exact effect_vector _ _ _ _
      · rw [if_pos (by simpa using hv), hr m (by omega)]
        simp only [if_true, Bool.not_eq_true] at hv ⊢
        rw [hv]
        rfl
    · rw [if_neg (by simp [hu]), (walk_pend m).1 _ _ _ _ hok, hr m (by omega), if_neg hu]
      simp only [Option.map_some, Option.some.injEq]
      exact effect_vector _ _ _ _

/-- The outer of two annotations wins. -/
theorem outer_wins {file : Nat} {t : Ty} (h : Scoped noneGiven .nil file t) (df : Defaults) (nk nk' : NK)
    (hnk : nk ≠ .unspecified) :
    ∃ N v, ∀ n, N ≤ n → getTypeNullability noneGiven df n file (.attr (some nk) t) = some v ∧
      getTypeNullability noneGiven df n file (.attr (some nk) (.attr (some nk') t)) = some v := by
  obtain ⟨N, v, hv⟩ := annotation h df nk
  obtain ⟨M, w, hw⟩ := annotation (show Scoped noneGiven .nil file (.attr (some nk') t) by simpa only [Scoped] using h) df nk
  obtain ⟨L, u, hu⟩ := annotation h df nk'
  refine ⟨N + M + L, annotated nk (takesEffect nk t) v, fun n hn => ⟨(hv n (by omega)).2, ?_⟩⟩
  rw [(hw n (by omega)).2]
  have h1 := (hv n (by omega)).1
  rw [(hu n (by omega)).1] at h1
  have h2 := (hw n (by omega)).1
  rw [(hu n (by omega)).2] at h2
  simp only [Option.some.injEq] at h1 h2
  subst h1; subst h2
  have hpc : (Ty.attr (some nk') t).canon = t.canon := rfl
  congr 1
  simp only [takesEffect, if_neg hnk, hpc]
  unfold annotated
  split
  · rename_i hp
    by_cases hq : (if nk' = NK.unspecified then isUnknownValidOn t else t.canon.isPtr) = true
    · rw [if_pos hq]; cases u <;> rfl
    · rw [if_neg hq]
  · rename_i hp
    rw [if_neg]
    intro hq
    split at hq
    · exact hp (unknownValid_ptr hq)
    · exact hp hq

/-- "Unspecified" around an annotation does nothing. -/
theorem unspecified_around_annotation {file : Nat} {t : Ty} (h : Scoped noneGiven .nil file t) (df : Defaults)
    (nk : NK) :
    ∃ N v, ∀ n, N ≤ n → getTypeNullability noneGiven df n file (.attr (some nk) t) = some v ∧
      getTypeNullability noneGiven df n file (.attr (some .unspecified) (.attr (some nk) t)) = some v := by
  obtain ⟨N, v, hv⟩ := annotation (show Scoped noneGiven .nil file (.attr (some nk) t) by simpa only [Scoped] using h) df .unspecified
  refine ⟨N, v, fun n hn => ⟨(hv n hn).1, ?_⟩⟩
  rw [(hv n hn).2]
  have : isUnknownValidOn (.attr (some nk) t) = false := by
    simp [isUnknownValidOn, strip, lexical]
  simp [takesEffect, this, annotated]

/-- The alias templates `Nonnull<T>`, `Nullable<T>`, `NullabilityUnknown<T>` are the same as the annotation on `T`. -/
theorem alias_is_annotation {file : Nat} {t t' : Ty} (h : Scoped noneGiven .nil file t) (hc : t.canon = t'.canon)
    (df : Defaults) (templ f : Nat) (nk : NK) (tr : Bool) :
    ∃ N v, ∀ n, N ≤ n → getTypeNullability noneGiven df n file (.attr (some nk) t) = some v ∧
      getTypeNullability noneGiven df n file
        (.alias_ .nil templ f (some nk) tr (.cons (.ty t) .nil) (.subst templ (.at_ 0) t')) = some v := by
  obtain ⟨N, v, hv⟩ := annotation h df nk
  refine ⟨N + 3, annotated nk (takesEffect nk t) v, fun n hn => ⟨(hv n (by omega)).2, ?_⟩⟩
  obtain ⟨m, rfl⟩ : ∃ m, n = m + 3 := ⟨n - 3, by omega⟩
  rw [← (hv (m + 1) (by omega)).2]
  unfold getTypeNullability
  have : aliasNK (some nk) templ (.cons (.ty t) .nil) (.subst templ (.at_ 0) t') = attrNK (some nk) t := by
    unfold aliasNK attrNK unwrapAlias
    simp only [expandsTo, BEq.rfl, Bool.and_self, Bool.true_or, if_true]
    by_cases hu : nk = .unspecified
    · subst hu
      by_cases hv : isUnknownValidOn t = true <;> simp [hv]
    · simp [hu]
  simp only [walk, saw, Option.none_or, this, bindFrom, noneGiven, findArg, argAt, Args.get?, if_true, Ctx.argCtx,
    walkArg]

mutual
/-- Nothing is annotated in a canonical type. -/
theorem canon_unannotated (given : Given) (file : Nat) : (t : Ty) → ∀ n r,
    walk given n .nil file none t.canon = some r → ∀ e ∈ r, e.nk = none ∧ e.file = file
  | .leaf k => by
      intro n r h
      cases n <;> simp [Ty.canon, walk] at h
      subst h; simp
  | .ptr t => by
      intro n r h
      cases n with
      | zero => simp [walk] at h
      | succ n =>
          simp only [Ty.canon, walk, Option.bind_eq_bind, Option.bind_eq_some_iff] at h
          obtain ⟨x, hx, h⟩ := h
          simp only [pure, Option.some.injEq] at h
          subst h
          intro e he
          simp only [List.mem_cons] at he
          rcases he with rfl | he
          · exact ⟨rfl, rfl⟩
          · exact canon_unannotated given file t n x hx e he
  | .ref t => by
      intro n r h
      cases n with
      | zero => simp [walk] at h
      | succ n => simp only [Ty.canon, walk] at h; exact canon_unannotated given file t n r h
  | .arr t => by
      intro n r h
      cases n with
      | zero => simp [walk] at h
      | succ n => simp only [Ty.canon, walk] at h; exact canon_unannotated given file t n r h
  | .fn t ps => by
      intro n r h
      cases n with
      | zero => simp [walk] at h
      | succ n =>
          simp only [Ty.canon, walk, Option.bind_eq_bind, Option.bind_eq_some_iff] at h
          obtain ⟨x, hx, y, hy, h⟩ := h
          simp only [pure, Option.some.injEq] at h
          subst h
          intro e he
          simp only [List.mem_append] at he
          rcases he with he | he
          · exact canon_unannotated given file t n x hx e he
          · exact canon_unannotatedTys given file ps n y hy e he
  | .cls qs d s p as => by
      intro n r h
      cases n with
      | zero => simp [walk] at h
      | succ n =>
          simp only [Ty.canon, walk, Option.bind_eq_bind, Option.bind_eq_some_iff, bindFrom, findRec] at h
          obtain ⟨x, hx, y, hy, h⟩ := h
          simp only [pure, Option.some.injEq] at h
          subst h
          intro e he
          simp only [List.mem_append] at he
          rcases he with (he | he) | he
          · cases s <;> simp at he
            subst he; exact ⟨rfl, rfl⟩
          · exact canon_unannotatedPar given file p n x hx e he
          · exact canon_unannotatedArgs given file as n y hy e he
  | .tst qs w d s p as => by
      intro n r h
      cases n with
      | zero => simp [walk] at h
      | succ n =>
          simp only [Ty.canon, walk, Option.bind_eq_bind, Option.bind_eq_some_iff, bindFrom, findRec] at h
          obtain ⟨x, hx, y, hy, h⟩ := h
          simp only [pure, Option.some.injEq] at h
          subst h
          intro e he
          simp only [List.mem_append] at he
          rcases he with (he | he) | he
          · cases s <;> simp at he
            subst he; exact ⟨rfl, rfl⟩
          · exact canon_unannotatedPar given file p n x hx e he
          · exact canon_unannotatedArgs given file as n y hy e he
  | .attr _ t => by simpa only [Ty.canon] using canon_unannotated given file t
  | .paren t => by simpa only [Ty.canon] using canon_unannotated given file t
  | .typedef _ _ t => by simpa only [Ty.canon] using canon_unannotated given file t
  | .alias_ _ _ _ _ _ _ t => by simpa only [Ty.canon] using canon_unannotated given file t
  | .subst _ _ t => by simpa only [Ty.canon] using canon_unannotated given file t
  | .sugar _ t => by simpa only [Ty.canon] using canon_unannotated given file t
theorem canon_unannotatedTys (given : Given) (file : Nat) : (t : Tys) → ∀ n r,
    walkTys given n .nil file t.canon = some r → ∀ e ∈ r, e.nk = none ∧ e.file = file
  | .nil => by
      intro n r h
      cases n <;> simp [Tys.canon, walkTys] at h
      subst h; simp
  | .cons t l => by
      intro n r h
      cases n with
      | zero => simp [walkTys] at h
      | succ n =>
          simp only [Tys.canon, walkTys, Option.bind_eq_bind, Option.bind_eq_some_iff] at h
          obtain ⟨x, hx, y, hy, h⟩ := h
          simp only [pure, Option.some.injEq] at h
          subst h
          intro e he
          simp only [List.mem_append] at he
          rcases he with he | he
          · exact canon_unannotated given file t n x hx e he
          · exact canon_unannotatedTys given file l n y hy e he
theorem canon_unannotatedPar (given : Given) (file : Nat) : (t : Par) → ∀ n r,
    walkPar given n .nil file t.canon = some r → ∀ e ∈ r, e.nk = none ∧ e.file = file
  | .none => by
      intro n r h
      cases n <;> simp [Par.canon, walkPar] at h
      subst h; simp
  | .some t => by
      intro n r h
      cases n with
      | zero => simp [walkPar] at h
      | succ n => simp only [Par.canon, walkPar] at h; exact canon_unannotated given file t n r h
theorem canon_unannotatedArg (given : Given) (file : Nat) : (t : Arg) → ∀ n r,
    walkArg given n .nil file none t.canon = some r → ∀ e ∈ r, e.nk = none ∧ e.file = file
  | .ty t => by
      intro n r h
      cases n with
      | zero => simp [walkArg] at h
      | succ n => simp only [Arg.canon, walkArg] at h; exact canon_unannotated given file t n r h
  | .pack l => by
      intro n r h
      cases n with
      | zero => simp [walkArg] at h
      | succ n => simp only [Arg.canon, walkArg] at h; exact canon_unannotatedArgs given file l n r h
  | .other k => by
      intro n r h
      cases n <;> simp [Arg.canon, walkArg] at h
      subst h; simp
theorem canon_unannotatedArgs (given : Given) (file : Nat) : (t : Args) → ∀ n r,
    walkArgs given n .nil file t.canon = some r → ∀ e ∈ r, e.nk = none ∧ e.file = file
  | .nil => by
      intro n r h
      cases n <;> simp [Args.canon, walkArgs] at h
      subst h; simp
  | .cons t l => by
      intro n r h
      cases n with
      | zero => simp [walkArgs] at h
      | succ n =>
          simp only [Args.canon, walkArgs, Option.bind_eq_bind, Option.bind_eq_some_iff] at h
          obtain ⟨x, hx, y, hy, h⟩ := h
          simp only [pure, Option.some.injEq] at h
          subst h
          intro e he
          simp only [List.mem_append] at he
          rcases he with he | he
          · exact canon_unannotatedArg given file t n x hx e he
          · exact canon_unannotatedArgs given file l n y hy e he
end

/-- A type without sugar: every pointer has the default of the file. -/
theorem unannotated_default (given : Given) (df : Defaults) (file : Nat) (t : Ty) :
    ∃ N, ∀ n, N ≤ n → getTypeNullability given df n file t.canon =
      some (List.replicate t.canon.slots.length (.concrete (df.get file))) := by
  obtain ⟨N, r, hr, hs⟩ := reports_are_the_slots (canon_scoped given file t)
  refine ⟨N, fun n hn => ?_⟩
  have hu := canon_unannotated given file t n r (hr n hn)
  unfold getTypeNullability
  rw [hr n hn]
  simp only [Option.map_some, Option.some.injEq]
  rw [Ty.canon_canon] at hs
  rw [← hs, tys, List.length_map]
  clear hs hr
  induction r with
  | nil => rfl
  | cons e r ih =>
      simp only [List.map_cons, List.length_cons, List.replicate_succ]
      rw [ih fun e h => hu e (List.mem_cons_of_mem _ h), (hu e (by simp)).1, (hu e (by simp)).2]
      rfl

end Verif.NullTy

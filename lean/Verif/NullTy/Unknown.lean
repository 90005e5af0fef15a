import Verif.NullTy.All

/-!
# Where "unspecified" counts
-/

namespace Verif.NullTy

/-- A pointer, raw or smart, that is written out: not named by a typedef or alias, and without an annotation. -/
inductive WrittenPtr : Ty → Prop where
  | ptr (t) : WrittenPtr (.ptr t)
  | cls (qs d p as) : WrittenPtr (.cls qs d true p as)
  | tst (qs w d p as) : WrittenPtr (.tst qs w d true p as)
  | attr (t) : WrittenPtr t → WrittenPtr (.attr none t)
  | paren (t) : WrittenPtr t → WrittenPtr (.paren t)
  | sugar (qs t) : WrittenPtr t → WrittenPtr (.sugar qs t)
  | subst (d ix t) : WrittenPtr t → WrittenPtr (.subst d ix t)

/-- Or a written-out pointer inside of aliases that only rename a template. -/
inductive UnknownOk : Ty → Prop where
  | written (t) : WrittenPtr t → UnknownOk t
  | paren (t) : UnknownOk t → UnknownOk (.paren t)
  | transparent (qs d f a w t) : UnknownOk t → UnknownOk (.alias_ qs d f a true w t)

theorem lexical_iff : ∀ t : Ty, (t.canon.isPtr && lexical t) = true ↔ WrittenPtr t
  | .leaf k => by simp only [Ty.canon, Ty.isPtr, lexical]; exact ⟨by simp, nofun⟩
  | .ptr t => by simp only [Ty.canon, Ty.isPtr, lexical]; exact ⟨fun _ => .ptr t, by simp⟩
  | .ref t => by simp only [Ty.canon, Ty.isPtr, lexical]; exact ⟨by simp, nofun⟩
  | .arr t => by simp only [Ty.canon, Ty.isPtr, lexical]; exact ⟨by simp, nofun⟩
  | .fn t ps => by simp only [Ty.canon, Ty.isPtr, lexical]; exact ⟨by simp, nofun⟩
  | .cls qs d s p as => by
      simp only [Ty.canon, Ty.isPtr, lexical, Bool.and_true]
      exact ⟨by rintro rfl; exact .cls _ _ _ _, by rintro ⟨⟩; rfl⟩
  | .tst qs w d s p as => by
      simp only [Ty.canon, Ty.isPtr, lexical, Bool.and_true]
      exact ⟨by rintro rfl; exact .tst _ _ _ _ _, by rintro ⟨⟩; rfl⟩
  | .attr nk t => by
      simp only [Ty.canon, lexical]
      cases nk with
      | some nk => exact ⟨by simp, nofun⟩
      | none => exact ⟨fun h => .attr _ ((lexical_iff t).1 (by simpa using h)),
          by rintro (_ | _ | _ | ⟨_, h⟩); simpa using (lexical_iff t).2 h⟩
  | .paren t => by
      simp only [Ty.canon, lexical]
      exact ⟨fun h => .paren _ ((lexical_iff t).1 h), by rintro (_ | _ | _ | _ | ⟨_, h⟩); exact (lexical_iff t).2 h⟩
  | .typedef qs f t => by simp only [lexical]; exact ⟨by simp, nofun⟩
  | .alias_ qs d f a tr w t => by simp only [lexical]; exact ⟨by simp, nofun⟩
  | .subst d ix t => by
      simp only [Ty.canon, lexical]
      exact ⟨fun h => .subst _ _ _ ((lexical_iff t).1 h),
        by rintro (_ | _ | _ | _ | _ | _ | ⟨_, _, _, h⟩); exact (lexical_iff t).2 h⟩
  | .sugar qs t => by
      simp only [Ty.canon, lexical]
      exact ⟨fun h => .sugar _ _ ((lexical_iff t).1 h),
        by rintro (_ | _ | _ | _ | _ | ⟨_, _, h⟩); exact (lexical_iff t).2 h⟩

/-- "Unspecified" counts exactly on written-out pointers, also within aliases that only rename a template. -/
theorem unknown_valid_iff (t : Ty) : isUnknownValidOn t = true ↔ UnknownOk t := by
  have base : ∀ t, strip t = t → (isUnknownValidOn t = true ↔ WrittenPtr t) := by
    intro t h
    unfold isUnknownValidOn isSupportedPointerType
    rw [h]
    exact lexical_iff t
  have plain : ∀ t, strip t = t → (∀ s, t ≠ .paren s) → (∀ qs d f a w s, t ≠ .alias_ qs d f a true w s) →
      (isUnknownValidOn t = true ↔ UnknownOk t) := by
    intro t h hp ha
    rw [base t h]
    refine ⟨.written _, fun h => ?_⟩
    cases h with
    | written _ h => exact h
    | paren s _ => exact absurd rfl (hp s)
    | transparent qs d f a w s _ => exact absurd rfl (ha qs d f a w s)
  match t with
  | .paren t =>
      have ih := unknown_valid_iff t
      have : isUnknownValidOn (.paren t) = isUnknownValidOn t := by simp only [isUnknownValidOn, strip]
      rw [this, ih]
      refine ⟨.paren _, fun h => ?_⟩
      cases h with
      | written _ h => cases h with | paren _ h => exact .written _ h
      | paren _ h => exact h
  | .alias_ qs d f a true w t =>
      have ih := unknown_valid_iff t
      have : isUnknownValidOn (.alias_ qs d f a true w t) = isUnknownValidOn t := by
        simp only [isUnknownValidOn, strip, if_true]
      rw [this, ih]
      refine ⟨.transparent _ _ _ _ _ _, fun h => ?_⟩
      cases h with
      | written _ h => cases h
      | transparent _ _ _ _ _ _ h => exact h
  | .alias_ qs d f a false w t => exact plain _ (by simp [strip]) (by simp) (by simp)
  | .leaf _ => exact plain _ rfl (by simp) (by simp)
  | .ptr _ => exact plain _ rfl (by simp) (by simp)
  | .ref _ => exact plain _ rfl (by simp) (by simp)
  | .arr _ => exact plain _ rfl (by simp) (by simp)
  | .fn _ _ => exact plain _ rfl (by simp) (by simp)
  | .cls _ _ _ _ _ => exact plain _ rfl (by simp) (by simp)
  | .tst _ _ _ _ _ _ => exact plain _ rfl (by simp) (by simp)
  | .attr _ _ => exact plain _ rfl (by simp) (by simp)
  | .typedef _ _ _ => exact plain _ rfl (by simp) (by simp)
  | .subst _ _ _ => exact plain _ rfl (by simp) (by simp)
  | .sugar _ _ => exact plain _ rfl (by simp) (by simp)

/-- Both cases arise. -/
example : UnknownOk (.alias_ .nil 1 0 none true .nil (.paren (.ptr (.leaf 0)))) :=
  .transparent _ _ _ _ _ _ (.paren _ (.written _ (.ptr _)))
example : ¬ UnknownOk (.alias_ .nil 1 0 none false .nil (.ptr (.leaf 0))) := by
  rw [← unknown_valid_iff]
  decide

end Verif.NullTy

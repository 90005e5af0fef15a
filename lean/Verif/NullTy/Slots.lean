import Verif.NullTy.Model

/-!
# One slot per pointer of the canonical type
-/

namespace Verif.NullTy

/-- The context in which the argument found by `findArg` was written. -/
def findCtx (d : Nat) (ix : Ix) : Ctx → Option Ctx
  | .nil => none
  | .frame d' as _ ext c =>
      if d' = d then
        match as with
        | none => none
        | some as => match argAt as ix with
            | some _ => some c
            | none => findCtx d ix ext
      else findCtx d ix ext

mutual
/-- Lookups of template parameters find what the parameters were replaced with: at every parameter that the walk comes
to, the argument it finds has the canonical type of the parameter; and written arguments have the same pointers as
the arguments of the declaration. -/
def ok (given : Given) : Nat → Ctx → Nat → Ty → Prop
  | 0, _, _, _ => False
  | n + 1, ctx, file, t => match t with
      | .leaf _ => True
      | .ptr t' => ok given n ctx file t'
      | .ref t' => ok given n ctx file t'
      | .arr t' => ok given n ctx file t'
      | .fn ret ps => ok given n ctx file ret ∧ okTys given n ctx file ps
      | .cls qs d _ p as =>
          okPar given n (bindFrom file ctx qs) file p ∧
          match findRec d (bindFrom file ctx qs) with
          | some (w, f, c) =>
              okArgs given n c f w ∧ okArgs given n (bindFrom file ctx qs) file (as.drop w.length) ∧
              w.canon.slots ++ (as.drop w.length).canon.slots = as.canon.slots
          | none => okArgs given n (bindFrom file ctx qs) file as
      | .tst qs w _ _ p as =>
          okPar given n (bindFrom file ctx qs) file p ∧ okArgs given n (bindFrom file ctx qs) file w ∧
          okArgs given n (bindFrom file ctx qs) file (as.drop w.length) ∧
          w.canon.slots ++ (as.drop w.length).canon.slots = as.canon.slots
      | .attr _ t' => ok given n ctx file t'
      | .paren t' => ok given n ctx file t'
      | .typedef qs f t' => ok given n (bindFrom file ctx qs) f t'
      | .alias_ qs templ f _ tr w t' =>
          ok given n (.frame templ (some w) file (bindFrom file ctx qs) (bindFrom file ctx qs)) (if tr then file else f) t'
      | .subst d ix t' => match given d ix with
          | some v => v.length = t'.canon.slots.length
          | none => match findArg d ix ctx with
              | some (f, a) => a.canon = .ty t'.canon ∧ okArg given n ctx.argCtx f a
              | none => ok given n ctx file t'
      | .sugar qs t' => ok given n (bindFrom file ctx qs) file t'
def okTys (given : Given) : Nat → Ctx → Nat → Tys → Prop
  | 0, _, _, _ => False
  | n + 1, ctx, file, l => match l with
      | .nil => True
      | .cons t l => ok given n ctx file t ∧ okTys given n ctx file l
def okPar (given : Given) : Nat → Ctx → Nat → Par → Prop
  | 0, _, _, _ => False
  | n + 1, ctx, file, p => match p with
      | .none => True
      | .some t => ok given n ctx file t
def okArg (given : Given) : Nat → Ctx → Nat → Arg → Prop
  | 0, _, _, _ => False
  | n + 1, ctx, file, a => match a with
      | .ty t => ok given n ctx file t
      | .pack l => okArgs given n ctx file l
      | .other _ => True
def okArgs (given : Given) : Nat → Ctx → Nat → Args → Prop
  | 0, _, _, _ => False
  | n + 1, ctx, file, l => match l with
      | .nil => True
      | .cons a l => okArg given n ctx file a ∧ okArgs given n ctx file l
end

/-- The canonical types of the reported pointers. -/
def tys (r : List Rep) : List Ty := r.map fun e => e.ty.canon

theorem tys_append (a b : List Rep) : tys (a ++ b) = tys a ++ tys b := List.map_append

mutual
theorem Ty.canon_canon : (t : Ty) → t.canon.canon = t.canon
  | .leaf _ => rfl
  | .ptr t => by simp only [Ty.canon, Ty.canon_canon t]
  | .ref t => by simp only [Ty.canon, Ty.canon_canon t]
  | .arr t => by simp only [Ty.canon, Ty.canon_canon t]
  | .fn r ps => by simp only [Ty.canon, Ty.canon_canon r, Tys.canon_canon ps]
  | .cls _ _ _ p as => by simp only [Ty.canon, Par.canon_canon p, Args.canon_canon as]
  | .tst _ _ _ _ p as => by simp only [Ty.canon, Par.canon_canon p, Args.canon_canon as]
  | .attr _ t => by simp only [Ty.canon, Ty.canon_canon t]
  | .paren t => by simp only [Ty.canon, Ty.canon_canon t]
  | .typedef _ _ t => by simp only [Ty.canon, Ty.canon_canon t]
  | .alias_ _ _ _ _ _ _ t => by simp only [Ty.canon, Ty.canon_canon t]
  | .subst _ _ t => by simp only [Ty.canon, Ty.canon_canon t]
  | .sugar _ t => by simp only [Ty.canon, Ty.canon_canon t]
theorem Tys.canon_canon : (t : Tys) → t.canon.canon = t.canon
  | .nil => rfl
  | .cons t l => by simp only [Tys.canon, Ty.canon_canon t, Tys.canon_canon l]
theorem Par.canon_canon : (t : Par) → t.canon.canon = t.canon
  | .none => rfl
  | .some t => by simp only [Par.canon, Ty.canon_canon t]
theorem Arg.canon_canon : (t : Arg) → t.canon.canon = t.canon
  | .ty t => by simp only [Arg.canon, Ty.canon_canon t]
  | .pack l => by simp only [Arg.canon, Args.canon_canon l]
  | .other _ => rfl
theorem Args.canon_canon : (t : Args) → t.canon.canon = t.canon
  | .nil => rfl
  | .cons a l => by simp only [Args.canon, Arg.canon_canon a, Args.canon_canon l]
end

mutual
/-- Every pointer of a canonical type is canonical. -/
theorem Ty.slots_canon : (t : Ty) → ∀ s ∈ t.canon.slots, s.canon = s
  | .leaf _ => by simp [Ty.canon, Ty.slots]
  | .ptr t => by
      simp only [Ty.canon, Ty.slots, List.mem_cons]
      rintro s (rfl | h)
      · simp [Ty.canon, Ty.canon_canon]
      · exact Ty.slots_canon t s h
  | .ref t => by simpa only [Ty.canon, Ty.slots] using Ty.slots_canon t
  | .arr t => by simpa only [Ty.canon, Ty.slots] using Ty.slots_canon t
  | .fn r ps => by
      simp only [Ty.canon, Ty.slots, List.mem_append]
      rintro s (h | h)
      · exact Ty.slots_canon r s h
      · exact Tys.slots_canon ps s h
  | .cls _ d sm p as => by
      simp only [Ty.canon, Ty.slots, List.mem_append]
      rintro s ((h | h) | h)
      · split at h
        · simp only [List.mem_singleton] at h
          subst h
          simp [Ty.canon, Par.canon_canon, Args.canon_canon]
        · simp at h
      · exact Par.slots_canon p s h
      · exact Args.slots_canon as s h
  | .tst _ _ d sm p as => by
      simp only [Ty.canon, Ty.slots, List.mem_append]
      rintro s ((h | h) | h)
      · split at h
        · simp only [List.mem_singleton] at h
          subst h
          simp [Ty.canon, Par.canon_canon, Args.canon_canon]
        · simp at h
      · exact Par.slots_canon p s h
      · exact Args.slots_canon as s h
  | .attr _ t => by simpa only [Ty.canon, Ty.slots] using Ty.slots_canon t
  | .paren t => by simpa only [Ty.canon, Ty.slots] using Ty.slots_canon t
  | .typedef _ _ t => by simpa only [Ty.canon, Ty.slots] using Ty.slots_canon t
  | .alias_ _ _ _ _ _ _ t => by simpa only [Ty.canon, Ty.slots] using Ty.slots_canon t
  | .subst _ _ t => by simpa only [Ty.canon, Ty.slots] using Ty.slots_canon t
  | .sugar _ t => by simpa only [Ty.canon, Ty.slots] using Ty.slots_canon t
theorem Tys.slots_canon : (t : Tys) → ∀ s ∈ t.canon.slots, s.canon = s
  | .nil => by simp [Tys.canon, Tys.slots]
  | .cons t l => by
      simp only [Tys.canon, Tys.slots, List.mem_append]
      rintro s (h | h)
      · exact Ty.slots_canon t s h
      · exact Tys.slots_canon l s h
theorem Par.slots_canon : (t : Par) → ∀ s ∈ t.canon.slots, s.canon = s
  | .none => by simp [Par.canon, Par.slots]
  | .some t => by simpa only [Par.canon, Par.slots] using Ty.slots_canon t
theorem Arg.slots_canon : (t : Arg) → ∀ s ∈ t.canon.slots, s.canon = s
  | .ty t => by simpa only [Arg.canon, Arg.slots] using Ty.slots_canon t
  | .pack l => by simpa only [Arg.canon, Arg.slots] using Args.slots_canon l
  | .other _ => by simp [Arg.canon, Arg.slots]
theorem Args.slots_canon : (t : Args) → ∀ s ∈ t.canon.slots, s.canon = s
  | .nil => by simp [Args.canon, Args.slots]
  | .cons a l => by
      simp only [Args.canon, Args.slots, List.mem_append]
      rintro s (h | h)
      · exact Arg.slots_canon a s h
      · exact Args.slots_canon l s h
end

theorem useGiven_length (pend : Option NK) (v : List PN) : (useGiven pend v).length = v.length := by
  cases v with
  | nil => rfl
  | cons x l => cases x with
    | symbolic a => rfl
    | concrete nk => cases nk <;> rfl

theorem tys_givenReps (file : Nat) (t : Ty) (v : List PN) (h : v.length = t.canon.slots.length) :
    tys (givenReps file t v) = t.canon.slots := by
  unfold tys givenReps
  rw [List.map_map]
  have : ∀ (l : List Ty) (v : List PN), (∀ s ∈ l, s.canon = s) → v.length = l.length →
      (l.zip v).map ((fun e : Rep => e.ty.canon) ∘ fun e : Ty × PN => (⟨e.1, file, some e.2⟩ : Rep)) = l := by
    intro l
    induction l with
    | nil => intro v _ _; simp
    | cons s l ih =>
        intro v hs hv
        cases v with
        | nil => simp at hv
        | cons x v =>
            simp only [List.zip_cons_cons, List.map_cons, Function.comp]
            rw [hs s (by simp)]
            have := ih v (fun s h => hs s (List.mem_cons_of_mem _ h)) (by simpa using hv)
            rw [this]
  exact this _ v (Ty.slots_canon t) h

/-- The walk of a type for which lookups are ok reports the pointers of the canonical type, in order. -/
theorem walk_slots (given : Given) : ∀ n,
    (∀ ctx file t, ok given n ctx file t → ∀ pend, ∃ r, walk given n ctx file pend t = some r ∧ tys r = t.canon.slots) ∧
    (∀ ctx file t, okTys given n ctx file t → ∃ r, walkTys given n ctx file t = some r ∧ tys r = t.canon.slots) ∧
    (∀ ctx file t, okPar given n ctx file t → ∃ r, walkPar given n ctx file t = some r ∧ tys r = t.canon.slots) ∧
    (∀ ctx file t, okArg given n ctx file t → ∀ pend, ∃ r, walkArg given n ctx file pend t = some r ∧ tys r = t.canon.slots) ∧
    (∀ ctx file t, okArgs given n ctx file t → ∃ r, walkArgs given n ctx file t = some r ∧ tys r = t.canon.slots) := by
  intro n
  induction n with
  | zero =>
      refine ⟨?_, ?_, ?_, ?_, ?_⟩ <;> intro _ _ _ h <;>
        simp only [ok, okTys, okPar, okArg, okArgs] at h
  | succ n ih =>
      obtain ⟨i1, i2, i3, i4, i5⟩ := ih
      refine ⟨?_, ?_, ?_, ?_, ?_⟩
      · intro ctx file t h pend
        cases t with
        | leaf k => exact ⟨[], by simp [walk], by simp [tys, Ty.canon, Ty.slots]⟩
        | ptr t =>
            simp only [ok] at h
            obtain ⟨r, hr, hs⟩ := i1 ctx file t h none
            exact ⟨_, by simp only [walk, hr]; rfl, by simpa [tys, Ty.canon, Ty.slots] using hs⟩
        | ref t =>
            simp only [ok] at h
            obtain ⟨r, hr, hs⟩ := i1 ctx file t h none
            exact ⟨r, by simp only [walk, hr], by simpa [Ty.canon, Ty.slots] using hs⟩
        | arr t =>
            simp only [ok] at h
            obtain ⟨r, hr, hs⟩ := i1 ctx file t h none
            exact ⟨r, by simp only [walk, hr], by simpa [Ty.canon, Ty.slots] using hs⟩
        | fn ret ps =>
            simp only [ok] at h
            obtain ⟨r, hr, hs⟩ := i1 ctx file ret h.1 none
            obtain ⟨q, hq, hs'⟩ := i2 ctx file ps h.2
            exact ⟨r ++ q, by simp only [walk, hr, hq]; rfl, by simp [Ty.canon, Ty.slots, tys_append, hs, hs']⟩
        | cls qs d s p as =>
            simp only [ok] at h
            obtain ⟨hp, h⟩ := h
            obtain ⟨rp, hrp, hsp⟩ := i3 _ _ _ hp
            cases hf : findRec d (bindFrom file ctx qs) with
            | none =>
                rw [hf] at h
                obtain ⟨r, hr, hs⟩ := i5 _ _ _ h
                refine ⟨_, by simp only [walk, hrp, hf, hr]; rfl, ?_⟩
                cases s <;> simp [Ty.canon, Ty.slots, tys_append, hs, hsp, tys] <;>
                  simp_all [tys]
            | some x =>
                obtain ⟨w, f, c⟩ := x
                rw [hf] at h
                obtain ⟨h1, h2, h3⟩ := h
                obtain ⟨r1, hr1, hs1⟩ := i5 _ _ _ h1
                obtain ⟨r2, hr2, hs2⟩ := i5 _ _ _ h2
                refine ⟨_, by simp only [walk, hrp, hf, hr1, hr2]; rfl, ?_⟩
                rw [show (Ty.cls qs d s p as).canon = .cls .nil d s p.canon as.canon from rfl, Ty.slots, ← h3, ← hs1, ← hs2, ← hsp]
                cases s <;> simp [tys, Ty.canon]
        | tst qs w d s p as =>
            simp only [ok] at h
            obtain ⟨hp, h1, h2, h3⟩ := h
            obtain ⟨rp, hrp, hsp⟩ := i3 _ _ _ hp
            obtain ⟨r1, hr1, hs1⟩ := i5 _ _ _ h1
            obtain ⟨r2, hr2, hs2⟩ := i5 _ _ _ h2
            refine ⟨_, by simp only [walk, hrp, hr1, hr2]; rfl, ?_⟩
            rw [show (Ty.tst qs w d s p as).canon = .cls .nil d s p.canon as.canon from rfl, Ty.slots, ← h3, ← hs1, ← hs2, ← hsp]
            cases s <;> simp [tys, Ty.canon]
        | attr nk t =>
            simp only [ok] at h
            obtain ⟨r, hr, hs⟩ := i1 ctx file t h (saw pend (attrNK nk t))
            exact ⟨r, by simp only [walk, hr], by simpa [Ty.canon] using hs⟩
        | paren t =>
            simp only [ok] at h
            obtain ⟨r, hr, hs⟩ := i1 ctx file t h pend
            exact ⟨r, by simp only [walk, hr], by simpa [Ty.canon] using hs⟩
        | typedef qs f t =>
            simp only [ok] at h
            obtain ⟨r, hr, hs⟩ := i1 _ _ t h pend
            exact ⟨r, by simp only [walk, hr], by simpa [Ty.canon] using hs⟩
        | alias_ qs templ f ann tr w t =>
            simp only [ok] at h
            obtain ⟨r, hr, hs⟩ := i1 _ _ t h (saw pend (aliasNK ann templ w t))
            exact ⟨r, by simp only [walk, hr], by simpa [Ty.canon] using hs⟩
        | subst d ix t =>
            simp only [ok] at h
            simp only [walk, Ty.canon]
            cases hg : given d ix with
            | some v =>
                rw [hg] at h
                exact ⟨_, rfl, tys_givenReps _ _ _ (by rw [useGiven_length]; exact h)⟩
            | none =>
                rw [hg] at h
                simp only at h ⊢
                cases hf : findArg d ix ctx with
                | none =>
                    rw [hf] at h
                    exact i1 _ _ t h pend
                | some x =>
                    obtain ⟨f, a⟩ := x
                    rw [hf] at h
                    obtain ⟨r, hr, hs⟩ := i4 _ _ _ h.2 pend
                    refine ⟨r, hr, ?_⟩
                    rw [hs, h.1, Arg.slots]
        | sugar qs t =>
            simp only [ok] at h
            obtain ⟨r, hr, hs⟩ := i1 _ _ t h pend
            exact ⟨r, by simp only [walk, hr], by simpa [Ty.canon] using hs⟩
      · intro ctx file t h
        cases t with
        | nil => exact ⟨[], by simp [walkTys], by simp [tys, Tys.canon, Tys.slots]⟩
        | cons t l =>
            simp only [okTys] at h
            obtain ⟨r, hr, hs⟩ := i1 ctx file t h.1 none
            obtain ⟨q, hq, hs'⟩ := i2 ctx file l h.2
            exact ⟨r ++ q, by simp only [walkTys, hr, hq]; rfl, by simp [Tys.canon, Tys.slots, tys_append, hs, hs']⟩
      · intro ctx file t h
        cases t with
        | none => exact ⟨[], by simp [walkPar], by simp [tys, Par.canon, Par.slots]⟩
        | some t =>
            simp only [okPar] at h
            obtain ⟨r, hr, hs⟩ := i1 ctx file t h none
            exact ⟨r, by simp only [walkPar, hr], by simpa [Par.canon, Par.slots] using hs⟩
      · intro ctx file t h pend
        cases t with
        | ty t =>
            simp only [okArg] at h
            obtain ⟨r, hr, hs⟩ := i1 ctx file t h pend
            exact ⟨r, by simp only [walkArg, hr], by simpa [Arg.canon, Arg.slots] using hs⟩
        | pack l =>
            simp only [okArg] at h
            obtain ⟨r, hr, hs⟩ := i5 ctx file l h
            exact ⟨r, by simp only [walkArg, hr], by simpa [Arg.canon, Arg.slots] using hs⟩
        | other k => exact ⟨[], by simp [walkArg], by simp [tys, Arg.canon, Arg.slots]⟩
      · intro ctx file t h
        cases t with
        | nil => exact ⟨[], by simp [walkArgs], by simp [tys, Args.canon, Args.slots]⟩
        | cons t l =>
            simp only [okArgs] at h
            obtain ⟨r, hr, hs⟩ := i4 ctx file t h.1 none
            obtain ⟨q, hq, hs'⟩ := i5 ctx file l h.2
            exact ⟨r ++ q, by simp only [walkArgs, hr, hq]; rfl, by simp [Args.canon, Args.slots, tys_append, hs, hs']⟩

/-- More fuel does not change the result. -/
theorem walk_succ (given : Given) : ∀ n,
    (∀ ctx file pend t r, walk given n ctx file pend t = some r → walk given (n + 1) ctx file pend t = some r) ∧
    (∀ ctx file t r, walkTys given n ctx file t = some r → walkTys given (n + 1) ctx file t = some r) ∧
    (∀ ctx file t r, walkPar given n ctx file t = some r → walkPar given (n + 1) ctx file t = some r) ∧
    (∀ ctx file pend t r, walkArg given n ctx file pend t = some r → walkArg given (n + 1) ctx file pend t = some r) ∧
    (∀ ctx file t r, walkArgs given n ctx file t = some r → walkArgs given (n + 1) ctx file t = some r) := by
  intro n
  induction n with
  | zero =>
      refine ⟨?_, ?_, ?_, ?_, ?_⟩ <;> intros <;>
        simp_all only [walk, walkTys, walkPar, walkArg, walkArgs, reduceCtorEq]
  | succ n ih =>
      obtain ⟨i1, i2, i3, i4, i5⟩ := ih
      refine ⟨?_, ?_, ?_, ?_, ?_⟩
      · intro ctx file pend t r h
        cases t with
        | leaf k => simpa [walk] using h
        | ptr t =>
            rw [walk] at h ⊢
            simp only [Option.bind_eq_bind, Option.bind_eq_some_iff] at h ⊢
            obtain ⟨x, hx, h⟩ := h
            exact ⟨x, i1 _ _ _ _ _ hx, h⟩
        | ref t => rw [walk] at h ⊢; exact i1 _ _ _ _ _ h
        | arr t => rw [walk] at h ⊢; exact i1 _ _ _ _ _ h
        | fn ret ps =>
            rw [walk] at h ⊢
            simp only [Option.bind_eq_bind, Option.bind_eq_some_iff] at h ⊢
            obtain ⟨x, hx, y, hy, h⟩ := h
            exact ⟨x, i1 _ _ _ _ _ hx, y, i2 _ _ _ _ hy, h⟩
        | cls qs d s p as =>
            rw [walk] at h ⊢
            simp only [Option.bind_eq_bind, Option.bind_eq_some_iff] at h ⊢
            obtain ⟨x, hx, h⟩ := h
            refine ⟨x, i3 _ _ _ _ hx, ?_⟩
            cases hf : findRec d (bindFrom file ctx qs) with
            | none =>
                rw [hf] at h
                simp only [Option.bind_eq_some_iff] at h ⊢
                obtain ⟨y, hy, h⟩ := h
                exact ⟨y, i5 _ _ _ _ hy, h⟩
            | some e =>
                obtain ⟨w, f, c⟩ := e
                rw [hf] at h
                simp only [Option.bind_eq_some_iff] at h ⊢
                obtain ⟨y, hy, z, hz, h⟩ := h
                exact ⟨y, i5 _ _ _ _ hy, z, i5 _ _ _ _ hz, h⟩
        | tst qs w d s p as =>
            rw [walk] at h ⊢
            simp only [Option.bind_eq_bind, Option.bind_eq_some_iff] at h ⊢
            obtain ⟨x, hx, y, hy, z, hz, h⟩ := h
            exact ⟨x, i3 _ _ _ _ hx, y, i5 _ _ _ _ hy, z, i5 _ _ _ _ hz, h⟩
        | attr nk t => rw [walk] at h ⊢; exact i1 _ _ _ _ _ h
        | paren t => rw [walk] at h ⊢; exact i1 _ _ _ _ _ h
        | typedef qs f t => rw [walk] at h ⊢; exact i1 _ _ _ _ _ h
        | alias_ qs templ f ann tr w t => rw [walk] at h ⊢; exact i1 _ _ _ _ _ h
        | subst d ix t =>
            rw [walk] at h ⊢
            cases hg : given d ix with
            | some v => rw [hg] at h; exact h
            | none =>
                rw [hg] at h
                simp only at h ⊢
                cases hf : findArg d ix ctx with
                | none => rw [hf] at h; exact i1 _ _ _ _ _ h
                | some e => rw [hf] at h; exact i4 _ _ _ _ _ h
        | sugar qs t => rw [walk] at h ⊢; exact i1 _ _ _ _ _ h
      · intro ctx file t r h
        cases t with
        | nil => simpa [walkTys] using h
        | cons t l =>
            rw [walkTys] at h ⊢
            simp only [Option.bind_eq_bind, Option.bind_eq_some_iff] at h ⊢
            obtain ⟨x, hx, y, hy, h⟩ := h
            exact ⟨x, i1 _ _ _ _ _ hx, y, i2 _ _ _ _ hy, h⟩
      · intro ctx file t r h
        cases t with
        | none => simpa [walkPar] using h
        | some t => rw [walkPar] at h ⊢; exact i1 _ _ _ _ _ h
      · intro ctx file pend t r h
        cases t with
        | ty t => rw [walkArg] at h ⊢; exact i1 _ _ _ _ _ h
        | pack l => rw [walkArg] at h ⊢; exact i5 _ _ _ _ h
        | other k => simpa [walkArg] using h
      · intro ctx file t r h
        cases t with
        | nil => simpa [walkArgs] using h
        | cons t l =>
            rw [walkArgs] at h ⊢
            simp only [Option.bind_eq_bind, Option.bind_eq_some_iff] at h ⊢
            obtain ⟨x, hx, y, hy, h⟩ := h
            exact ⟨x, i4 _ _ _ _ _ hx, y, i5 _ _ _ _ hy, h⟩

theorem walk_mono {given : Given} {n m : Nat} (h : n ≤ m) {ctx file pend t r}
    (hw : walk given n ctx file pend t = some r) : walk given m ctx file pend t = some r := by
  induction h with
  | refl => exact hw
  | step _ ih => exact (walk_succ given _).1 _ _ _ _ _ ih

end Verif.NullTy

import Verif.ExprNull.Walk
/-
The vector of an expression is that of its type (C141, C142).
-/
namespace Verif.ExprNull
open Verif.NullTy (NK PN Ty Tys Arg Args Par Quals Ix Given)

/-! ### What is known about template arguments -/

theorem fits_none (P : Prog) : Fits P noBinding := fun _ _ _ h => by simp [noBinding] at h

theorem matches_none : Matches noGiven noBinding := fun _ _ => rfl

theorem Fits.or {P : Prog} {σ τ : Binding} (h1 : Fits P σ) (h2 : Fits P τ) : Fits P (σ.or τ) := by
  intro o i A h
  unfold Binding.or at h
  cases hs : σ o i with
  | none => rw [hs] at h; exact h2 o i A (by simpa using h)
  | some B => rw [hs] at h; simp at h; subst h; exact h1 o i _ hs

theorem firstGiven_append (l l' : List Given) (o ix) : firstGiven (l ++ l') o ix = (firstGiven l o ix).or (firstGiven l' o ix) := by
  induction l with
  | nil => simp [firstGiven]
  | cons g l ih => simp [firstGiven, ih, Option.or_assoc]

theorem Matches.append {l l' : List Given} {σ τ : Binding} (h1 : Matches (firstGiven l) σ) (h2 : Matches (firstGiven l') τ) :
    Matches (firstGiven (l ++ l')) (σ.or τ) := by
  intro o i
  rw [firstGiven_append, h1 o i, h2 o i]
  unfold Binding.or
  cases σ o i <;> simp

theorem matches_nil : Matches (firstGiven []) noBinding := fun _ _ => rfl

/-- Types of the same shape: entry by entry. -/
theorem get_fill (x : PN) : (a : ATys) → ∀ i, (a.fill x).get? i = (a.get? i).map (ATy.fill x)
  | .nil, i => rfl
  | .cons t l, 0 => rfl
  | .cons t l, i + 1 => by simp only [ATys.fill, ATys.get?]; exact get_fill x l i

theorem get_shape {a b : ATys} (h : a.fill (.concrete .unspecified) = b.fill (.concrete .unspecified)) {i A} (ha : a.get? i = some A) :
    ∃ B, b.get? i = some B ∧ SameShape A B := by
  have := congrArg (fun l : ATys => l.get? i) h
  simp only [get_fill, ha, Option.map_some] at this
  cases hb : b.get? i with
  | none => rw [hb] at this; simp at this
  | some B => rw [hb] at this; exact ⟨B, rfl, by unfold SameShape ATy.unspec; simpa using this⟩

theorem get_none {a b : ATys} (h : a.fill (.concrete .unspecified) = b.fill (.concrete .unspecified)) {i} (ha : a.get? i = none) :
    b.get? i = none := by
  have := congrArg (fun l : ATys => l.get? i) h
  simp only [get_fill, ha, Option.map_none] at this
  cases hb : b.get? i with
  | none => rfl
  | some B => rw [hb] at this; simp at this

theorem SameShape.length {A B : ATy} (h : SameShape A B) : A.vec.length = B.vec.length := by
  rw [← slots_erase, h.erase, slots_erase]

/-- The part of the vector of the arguments that belongs to one argument. -/
theorem slice_args : (a b : ATys) → a.fill (.concrete .unspecified) = b.fill (.concrete .unspecified) → ∀ (i : Nat) (A B : ATy),
    a.get? i = some A → b.get? i = some B → ∀ rest, ((a.vec ++ rest).drop (countBefore b i)).take (count B.erase) = A.vec
  | .nil, b, _, i, A, B, ha, _, _ => by simp [ATys.get?] at ha
  | .cons t l, .nil, _, i, A, B, _, hb, _ => by simp [ATys.get?] at hb
  | .cons t l, .cons u k, h, 0, A, B, ha, hb, rest => by
    simp only [ATys.get?, Option.some.injEq] at ha hb
    subst ha hb
    simp only [ATys.fill, ATys.cons.injEq] at h
    have hs : SameShape t u := h.1
    simp only [countBefore, List.drop_zero, ATys.vec, List.append_assoc]
    rw [count_erase, ← hs.length]
    simp
  | .cons t l, .cons u k, h, i + 1, A, B, ha, hb, rest => by
    simp only [ATys.get?] at ha hb
    simp only [ATys.fill, ATys.cons.injEq] at h
    have hs : SameShape t u := h.1
    simp only [countBefore, ATys.vec, List.append_assoc]
    rw [count_erase u, ← hs.length, ← List.drop_drop, List.drop_left]
    exact slice_args l k h.2 i A B ha hb rest

theorem countParent_vec {p q : APar} (h : p.fill (.concrete .unspecified) = q.fill (.concrete .unspecified)) : countParent q = p.vec.length := by
  have e := congrArg (fun p : APar => p.vec.length) h
  simp only [vecPar_fill, List.length_replicate] at e
  rw [e]
  cases q with
  | none => rfl
  | some t => simp [countParent, count_erase, APar.vec]

theorem fits_class {P : Prog} {d : Nat} {p : APar} {as : ATys} (hs : Spells P d p as) : Fits P (classBinding P d as) := by
  intro o i A h
  unfold classBinding at h
  split at h
  · rename_i hc
    obtain ⟨rfl, _, hpart⟩ := hc
    obtain ⟨B, hB, hAB⟩ := get_shape hs.args h
    rw [hAB.erase]
    exact (hs.repl hpart i B hB).erase
  · cases h

theorem matches_class {P : Prog} {d : Nat} {p : APar} {as : ATys} (hs : Spells P d p as) :
    Matches (firstGiven (classGivens P (some (ATy.erase (.cls d none p as))) (p.vec ++ as.vec))) (classBinding P d as) := by
  intro o i
  have hcd : classDecl (ATy.erase (.cls d none p as)) = some d := rfl
  simp only [classGivens, Option.bind_some, hcd]
  unfold classBinding
  by_cases hsp : P.isSpec d = true
  · rw [if_pos hsp]
    simp only [firstGiven, Option.or_none]
    unfold fromEnclosing
    by_cases ho : o = d
    · subst ho
      simp only [ne_eq, not_true_eq_false, if_false]
      cases hpart : P.fromPartial o with
      | true => simp
      | false =>
        simp only [Bool.false_eq_true, if_false, hsp, and_self, if_true]
        cases hA : as.get? i with
        | none => rw [get_none hs.args hA]; rfl
        | some A =>
          obtain ⟨B, hB, _⟩ := get_shape hs.args hA
          simp only [hB, Option.map_some]
          rw [countParent_vec hs.parent, ← List.drop_drop, List.drop_left]
          have := slice_args as (P.args o) hs.args i A B hA hB []
          rw [List.append_nil] at this
          rw [this]
    · rw [if_pos (fun h => ho h.symm), if_neg (by simp [ho])]
      rfl
  · rw [if_neg hsp, if_neg (by simp [hsp])]
    rfl

theorem fits_args {P : Prog} {f : Nat} {as : List (Option Written)}
    (h : ∀ o i w, P.templ o = some f → as[i]? = some (some w) → SameShape (inst P w.file noBinding w.ty) (P.repl o i)) :
    Fits P (argsBinding P f as) := by
  intro o i A hA
  unfold argsBinding at hA
  split at hA
  · rename_i ht
    split at hA
    · rename_i w hw
      cases hA
      exact (h o i w ht hw).erase
    · cases hA
  · cases hA

theorem written_eq (P : Prog) (w : Written) : typeNullability P noGiven w.file w.ty = (inst P w.file noBinding w.ty).vec :=
  typeNullability_eq P _ _ (fits_none P) matches_none _ _

theorem canon_written (P : Prog) (w : Written) (file : Nat) : (clangTy P w.ty).canon = (inst P file noBinding w.ty).erase :=
  canon_clangTy P file _ (fits_none P) _

theorem matches_args (P : Prog) (f : Nat) (as : List (Option Written)) : Matches (firstGiven [fromTemplateArgs P f as]) (argsBinding P f as) := by
  intro o i
  simp only [firstGiven, Option.or_none]
  unfold fromTemplateArgs argsBinding
  by_cases h : P.templ o = some f
  · simp only [h, ne_eq, not_true_eq_false, if_false, if_true]
    cases as[i]? with
    | none => rfl
    | some w => cases w with
      | none => rfl
      | some w => simp [written_eq]
  · simp [h]

theorem matches_written (P : Prog) (x f : Nat) (targs : Option (List (Option Written))) (hx : targs ≠ none → P.packInside x = false) :
    Matches (firstGiven (addTemplateArgs P x f targs)) (writtenBinding P f targs) := by
  cases targs with
  | none => exact matches_nil
  | some as =>
    unfold addTemplateArgs writtenBinding
    simp only [hx (by simp), Bool.false_eq_true, if_false]
    exact matches_args P f as

theorem fits_written {P : Prog} {f : Nat} {targs : Option (List (Option Written))}
    (h : ∀ as o i w, targs = some as → P.templ o = some f → as[i]? = some (some w) →
      SameShape (inst P w.file noBinding w.ty) (P.repl o i)) : Fits P (writtenBinding P f targs) := by
  cases targs with
  | none => exact fits_none P
  | some as => exact fits_args (fun o i w => h as o i w rfl)

theorem quals_ok (P : Prog) : (quals : List Written) →
    (∀ w ∈ quals, ∃ d p as, inst P w.file noBinding w.ty = .cls d none p as ∧ Spells P d p as) →
    Fits P (qualBinding P quals) ∧ Matches (firstGiven (qualGivens P quals)) (qualBinding P quals)
  | [], _ => ⟨fits_none P, matches_nil⟩
  | w :: l, h => by
    obtain ⟨d, p, as, he, hs⟩ := h w (by simp)
    obtain ⟨h1, h2⟩ := quals_ok P l (fun w hw => h w (by simp [hw]))
    have hb : qualBinding P (w :: l) = (classBinding P d as).or (qualBinding P l) := by rw [qualBinding, he]
    have hg : qualGivens P (w :: l) = classGivens P (some (ATy.erase (.cls d none p as))) (p.vec ++ as.vec) ++ qualGivens P l := by
      unfold qualGivens
      rw [List.filterMap_cons]
      have hv : typeNullability P noGiven w.file w.ty = p.vec ++ as.vec := by rw [written_eq, he]; simp [ATy.vec]
      simp only [canon_written P w w.file, he, hv, classGivens, Option.bind_some]
      have hcd : classDecl (ATy.erase (.cls d none p as)) = some d := rfl
      simp only [hcd]
      cases P.isSpec d <;> simp
    rw [hb, hg]
    exact ⟨(fits_class hs).or h1, (matches_class hs).append h2⟩

/-! ### Declarations -/

theorem override_outer (x : PN) (A : ATy) (h : A.isPtr = true) : override (some x) A.vec = (A.outer x).vec := by
  cases A with
  | ptr k t => rfl
  | cls d k p as => cases k with
    | none => simp [ATy.isPtr] at h
    | some y => rfl
  | _ => simp [ATy.isPtr] at h

theorem isPtr_outer (x : PN) (A : ATy) : (A.outer x).isPtr = A.isPtr := by
  cases A with
  | cls d k p as => cases k <;> rfl
  | _ => rfl

theorem decl_eq (P : Prog) (D : Decl) (given : Given) (σ : Binding) (hf : Fits P σ) (hm : Matches given σ)
    (ho : D.over = none ∨ (D.inst P σ).isPtr = true) :
    declNullability P D given = (D.inst P σ).vec ∧ noref (clangTy P D.ty).canon = (D.inst P σ).erase := by
  unfold declNullability
  rw [typeNullability_eq P given σ hf hm, canon_clangTy P D.file σ hf]
  unfold Decl.inst at ho ⊢
  simp only at ho ⊢
  cases hov : D.over with
  | none => exact ⟨by rw [vec_noref]; rfl, by rw [erase_noref]⟩
  | some x =>
    rw [hov] at ho
    simp only [reduceCtorEq, false_or, isPtr_outer] at ho
    refine ⟨?_, ?_⟩
    · rw [← override_outer x _ ho, vec_noref]
    · rw [erase_outer, erase_noref]

theorem compute_eq (A : ATy) (v : List PN) (h : v = A.vec) : compute (some A.erase) v = A.vec := by
  subst h
  simp [compute, count_erase]

theorem unspecified_eq (A : ATy) : unspecified (some A.erase) = A.unspec.vec := by
  show List.replicate (count A.erase) _ = _
  unfold ATy.unspec
  rw [vec_fill, count_erase]

theorem erase_unspec (A : ATy) : A.unspec.erase = A.erase := erase_fill _ A

theorem isPointer_erase_ptr (k : PN) (t : ATy) : isPointer (ATy.erase (.ptr k t)) = true := rfl

/-! ### Casts -/

theorem erase_preserve : (A B : ATy) → (A.preserve B).erase = B.erase
  | .ptr k t, .ptr k' t' => by simp only [ATy.preserve, ATy.erase, erase_preserve t t']
  | .ptr k t, .leaf _ => rfl
  | .ptr k t, .ref _ => rfl
  | .ptr k t, .arr _ => rfl
  | .ptr k t, .fn _ _ => rfl
  | .ptr k t, .cls _ _ _ _ => rfl
  | .leaf _, B => by simp only [ATy.preserve]
  | .ref _, B => by simp only [ATy.preserve]
  | .arr _, B => by simp only [ATy.preserve]
  | .fn _ _, B => by simp only [ATy.preserve]
  | .cls _ _ _ _, B => by simp only [ATy.preserve]

theorem preserveOuter_eq : (A B : ATy) → preserveOuter A.erase B.erase A.vec B.vec = (A.preserve B).vec
  | .ptr k t, .ptr k' t' => by simp only [ATy.preserve, ATy.erase, ATy.vec, preserveOuter, preserveOuter_eq t t']
  | .ptr k t, .leaf _ => by simp [ATy.preserve, ATy.erase, preserveOuter]
  | .ptr k t, .ref _ => by simp [ATy.preserve, ATy.erase, preserveOuter]
  | .ptr k t, .arr _ => by simp [ATy.preserve, ATy.erase, preserveOuter]
  | .ptr k t, .fn _ _ => by simp [ATy.preserve, ATy.erase, preserveOuter]
  | .ptr k t, .cls _ _ _ _ => by simp [ATy.preserve, ATy.erase, preserveOuter]
  | .leaf _, B => by simp [ATy.preserve, ATy.erase, preserveOuter]
  | .ref _, B => by simp [ATy.preserve, ATy.erase, preserveOuter]
  | .arr _, B => by simp [ATy.preserve, ATy.erase, preserveOuter]
  | .fn _ _, B => by simp [ATy.preserve, ATy.erase, preserveOuter]
  | .cls _ _ _ _, B => by simp [ATy.preserve, ATy.erase, preserveOuter]

theorem replaceFrom_all (v w : List PN) (h : v.length = w.length) : replaceFrom 0 v w = w := by
  unfold replaceFrom
  rw [h]
  simp [List.drop_eq_nil_of_le (Nat.le_of_eq h)]

theorem replaceFrom_one (a : PN) (v w : List PN) (h : v.length = w.length) : replaceFrom 1 (a :: v) w = a :: w := by
  simp only [replaceFrom, List.take_succ_cons, List.take_zero, List.length_cons, Nat.add_sub_cancel, h, List.take_length]
  rw [show 1 + w.length = w.length + 1 by omega, List.drop_succ_cons, ← h]
  simp

theorem setFront_ptr (x k : PN) (t : ATy) : setFront x (ATy.vec (.ptr k t)) = ATy.vec (.ptr x t) := rfl

/-- A conversion of objects of a class to its base. -/
theorem castToBase_class (P : Prog) (d : Nat) (p : APar) (as : ATys) (b : Nat) (hs : Spells P d p as) (v : List PN) (hv : v = p.vec ++ as.vec) :
    castToBase P false (some (ATy.erase (.cls d none p as))) (some (inst P (P.bases b).file (classBinding P d as) (P.bases b).ty).erase) v b =
      (inst P (P.bases b).file (classBinding P d as) (P.bases b).ty).vec := by
  subst hv
  have h1 : outerPointers (ATy.erase (.cls d none p as)) = (0, ATy.erase (.cls d none p as)) := rfl
  have hlen : ∀ A : ATy, (unspecified (some A.erase)).length = A.vec.length := fun A => by
    rw [unspecified_eq]; simp [ATy.unspec, vec_fill]
  have h2 : ∀ (t : Ty) (arg w : List PN), preserveOuter (ATy.erase (.cls d none p as)) t arg w = w := fun t arg w => by
    simp [ATy.erase, preserveOuter]
  simp only [castToBase, Bool.false_eq_true, if_false, h1, h2, List.drop_zero]
  rw [typeNullability_eq P _ _ (fits_class hs) (matches_class hs)]
  split
  · exact replaceFrom_all _ _ (hlen _)
  · rename_i h0
    rw [hlen] at h0
    have h3 := List.eq_nil_of_length_eq_zero (Nat.eq_zero_of_not_pos h0)
    rw [h3]
    apply List.eq_nil_of_length_eq_zero
    rw [hlen, h3]
    rfl

/-- A conversion of pointers. -/
theorem castToBase_ptr (P : Prog) (k : PN) (d : Nat) (p : APar) (as : ATys) (b : Nat) (hs : Spells P d p as) :
    castToBase P false (some (ATy.erase (.ptr k (.cls d none p as))))
      (some (ATy.erase (.ptr k (inst P (P.bases b).file (classBinding P d as) (P.bases b).ty)))) (ATy.vec (.ptr k (.cls d none p as))) b =
      ATy.vec (.ptr k (inst P (P.bases b).file (classBinding P d as) (P.bases b).ty)) := by
  generalize hB : inst P (P.bases b).file (classBinding P d as) (P.bases b).ty = B
  have h1 : outerPointers (ATy.erase (.ptr k (.cls d none p as))) = (1, ATy.erase (.cls d none p as)) := rfl
  have hv : (ATy.vec (.ptr k (.cls d none p as))).drop 1 = p.vec ++ as.vec := by simp [ATy.vec]
  have hu := preserveOuter_eq (.ptr k (.cls d none p as)) (ATy.unspec (.ptr k B))
  rw [erase_unspec] at hu
  simp only [castToBase, Bool.false_eq_true, if_false, unspecified_eq, hu, h1, hv]
  have hw : ((ATy.ptr k (.cls d none p as)).preserve (ATy.unspec (.ptr k B))).vec = k :: B.unspec.vec := rfl
  rw [hw, typeNullability_eq P _ _ (fits_class hs) (matches_class hs), hB]
  have hlen : B.unspec.vec.length = B.vec.length := by simp [ATy.unspec, vec_fill]
  split
  · exact replaceFrom_one _ _ _ hlen
  · rename_i h0
    have h3 : B.vec = [] := List.eq_nil_of_length_eq_zero (by rw [← hlen]; simp at h0; simp [h0])
    have h4 : B.unspec.vec = [] := List.eq_nil_of_length_eq_zero (by rw [hlen, h3]; rfl)
    simp [ATy.vec, h3, h4]

/-- C141: the vector of an expression is that of its type, and the type is a spelling of the one that Clang has. -/
theorem typed_vector (P : Prog) {e : Expr} {A : ATy} (h : HasType P e A) : nul P e = A.vec ∧ ty P e = some A.erase := by
  induction h with
  | name x quals targs A hq hx hargs hA hov =>
    obtain ⟨f1, m1⟩ := quals_ok P quals hq
    have hd := decl_eq P (P.vars x) _ _ (f1.or (fits_written hargs)) (m1.append (matches_written P x (P.varTempl x) targs hx)) (hA ▸ hov)
    rw [← hA] at hd
    refine ⟨?_, by simp only [ty, hd.2]⟩
    simp only [nul, ty, hd.1, hd.2]
    exact compute_eq A _ rfl
  | member e d p as m targs A he hs hx hargs hA hov ih =>
    obtain ⟨iv, it⟩ := ih
    have hv : nul P e = p.vec ++ as.vec := by rw [iv]; simp [ATy.vec]
    have hd := decl_eq P (P.members d m) _ _ ((fits_class hs).or (fits_written hargs))
      ((matches_class hs).append (matches_written P (P.memberTempl d m) (P.memberTempl d m) targs hx)) (hA ▸ hov)
    rw [← hA] at hd
    have hcd : classDecl (ATy.erase (.cls d none p as)) = some d := rfl
    have ht : ty P (.member false e m targs) = some A.erase := by
      simp [ty, it, hcd, hd.2]
    refine ⟨?_, ht⟩
    simp only [nul, Bool.false_and, Bool.false_eq_true, if_false, it, Option.bind_some, hcd, hv, ht, hd.1]
    exact compute_eq A _ rfl
  | arrow e k d p as m targs A he hm ihe ihm =>
    obtain ⟨iv, it⟩ := ihe
    have hd : ty P (.deref e) = some (ATy.erase (.cls d none p as)) := by simp [ty, it, ATy.erase, pointee]
    have hdn : nul P (.deref e) = (nul P e).drop 1 := by
      simp only [nul, hd, iv, ATy.vec, List.drop_succ_cons, List.drop_zero]
      exact compute_eq (.cls d none p as) _ (by simp [ATy.vec])
    have ht : ty P (.member true e m targs) = ty P (.member false (.deref e) m targs) := by
      simp [ty, it]
    have hp : (ty P e).any isPointer = true := by rw [it]; rfl
    have hb : (ty P e).bind pointee = ty P (.deref e) := by rw [hd, it]; rfl
    have hn : nul P (.member true e m targs) = nul P (.member false (.deref e) m targs) := by
      rw [nul, nul]
      simp only [hp, Bool.and_self, if_true, Bool.false_and, Bool.false_eq_true, if_false, hb, hdn, ht]
    rw [hn, ht]
    exact ihm
  | same e A he ih =>
    have ht : ty P (.same e) = some A.erase := by rw [ty]; exact ih.2
    refine ⟨?_, ht⟩
    rw [nul, ht]
    exact compute_eq A _ ih.1
  | decayArr e t he ih =>
    have ht : ty P (.decay e) = some (ATy.erase (.ptr (.concrete .nonnull) t)) := by simp [ty, ih.2, ATy.erase]
    refine ⟨?_, ht⟩
    rw [nul, ht]
    exact compute_eq (.ptr (.concrete .nonnull) t) _ (by rw [ih.1]; simp [ATy.vec])
  | decayFn e r ps he ih =>
    have ht : ty P (.decay e) = some (ATy.erase (.ptr (.concrete .nonnull) (.fn r ps))) := by simp [ty, ih.2, ATy.erase]
    refine ⟨?_, ht⟩
    rw [nul, ht]
    exact compute_eq (.ptr (.concrete .nonnull) (.fn r ps)) _ (by rw [ih.1]; simp [ATy.vec])
  | addrOf e t he ih =>
    have ht : ty P (.addrOf e) = some (ATy.erase (.ptr (.concrete .nonnull) t)) := by simp [ty, ih.2, ATy.erase]
    refine ⟨?_, ht⟩
    rw [nul, ht]
    exact compute_eq (.ptr (.concrete .nonnull) t) _ (by rw [ih.1]; simp [ATy.vec])
  | deref e k t he ih =>
    have ht : ty P (.deref e) = some t.erase := by simp [ty, ih.2, ATy.erase, pointee]
    refine ⟨?_, ht⟩
    rw [nul, ht]
    exact compute_eq t _ (by rw [ih.1]; simp [ATy.vec])
  | preIncPtr e k t he ih =>
    have ht : ty P (.preInc e) = some (ATy.erase (.ptr (.concrete .nonnull) t)) := by simp [ty, ih.2, ATy.erase]
    refine ⟨?_, ht⟩
    rw [nul, ht]
    exact compute_eq (.ptr (.concrete .nonnull) t) _ (by rw [ih.1, ih.2]; rfl)
  | preInc e k he ih =>
    have ht : ty P (.preInc e) = some (ATy.erase (.leaf k)) := by simp [ty, ih.2]
    refine ⟨?_, ht⟩
    rw [nul, ht]
    exact compute_eq (.leaf k) _ (by rw [ih.1, ih.2]; rfl)
  | addL s a b k t l ha hb iha ihb =>
    have ht : ty P (.add s a b) = some (ATy.erase (.ptr (.concrete .nonnull) t)) := by simp [ty, iha.2, ihb.2, ATy.erase, isPointer]
    refine ⟨?_, ht⟩
    rw [nul, ht]
    exact compute_eq (.ptr (.concrete .nonnull) t) _ (by rw [iha.1, iha.2, ihb.2]; rfl)
  | addR a b k t l ha hb iha ihb =>
    have ht : ty P (.add false a b) = some (ATy.erase (.ptr (.concrete .nonnull) t)) := by simp [ty, iha.2, ihb.2, ATy.erase, isPointer]
    refine ⟨?_, ht⟩
    rw [nul, ht]
    exact compute_eq (.ptr (.concrete .nonnull) t) _ (by rw [ihb.1, iha.2, ihb.2]; rfl)
  | diff a b k k' t t' ha hb iha ihb =>
    have ht : ty P (.add true a b) = some (ATy.erase (.leaf 0)) := by simp [ty, iha.2, ihb.2, ATy.erase, isPointer]
    refine ⟨?_, ht⟩
    rw [nul, ht]
    exact compute_eq (.leaf 0) _ (by rw [iha.2, ihb.2]; rfl)
  | addInt s a b k k' ha hb iha ihb =>
    have ht : ty P (.add s a b) = some (ATy.erase (.leaf 0)) := by simp [ty, iha.2, ihb.2, ATy.erase, isPointer]
    refine ⟨?_, ht⟩
    rw [nul, ht]
    exact compute_eq (.leaf 0) _ (by rw [iha.2, ihb.2]; rfl)
  | assign a b A B ha hb hs iha ihb =>
    have ht : ty P (.assign a b) = some B.erase := by simp [ty, iha.2, hs.erase]
    refine ⟨?_, ht⟩
    rw [nul, ht]
    exact compute_eq B _ ihb.1
  | comma a b B hb ih =>
    have ht : ty P (.comma a b) = some B.erase := by rw [ty]; exact ih.2
    refine ⟨?_, ht⟩
    rw [nul, ht]
    exact compute_eq B _ ih.1
  | subscript a i k t ha ih =>
    have ht : ty P (.subscript a i) = some t.erase := by simp [ty, ih.2, ATy.erase, pointee]
    refine ⟨?_, ht⟩
    rw [nul, ht]
    exact compute_eq t _ (by rw [ih.1]; simp [ATy.vec])
  | new n w =>
    have ht : ty P (.new n w) =
        some (ATy.erase (.ptr (.concrete (if n then .nullable else .nonnull)) (inst P w.file noBinding w.ty))) := by
      simp [ty, ATy.erase, canon_written P w w.file]
    refine ⟨?_, ht⟩
    rw [nul, ht]
    exact compute_eq (.ptr (.concrete (if n then .nullable else .nonnull)) (inst P w.file noBinding w.ty)) _ (by rw [written_eq]; rfl)
  | this d =>
    have ht : ty P (.this d) = some (ATy.erase (.ptr (.concrete .nonnull) (.cls d none (P.parent d) (P.args d)))) := by
      simp [ty, ATy.erase]
    have he : ATy.erase (.ptr (.concrete .nonnull) (ATy.unspec (.cls d none (P.parent d) (P.args d)))) =
        ATy.erase (.ptr (.concrete .nonnull) (.cls d none (P.parent d) (P.args d))) := by
      simp only [ATy.erase, erase_unspec]
    refine ⟨?_, by rw [he]; exact ht⟩
    rw [nul, ht, unspecified_eq, ← he]
    exact compute_eq _ _ rfl
  | call f r ps hf ih =>
    have ht : ty P (.call f) = some r.noref.erase := by simp [ty, ih.2, ATy.erase, returnType, erase_noref]
    refine ⟨?_, ht⟩
    rw [nul, ht]
    refine compute_eq r.noref _ ?_
    rw [ih.1, ih.2]
    simp only [Option.elim_some, count_erase, vec_noref]
    simp [ATy.erase, isPointer, ATy.vec]
  | callPtr f k r ps hf ih =>
    have ht : ty P (.call f) = some r.noref.erase := by simp [ty, ih.2, ATy.erase, returnType, erase_noref]
    refine ⟨?_, ht⟩
    rw [nul, ht]
    refine compute_eq r.noref _ ?_
    rw [ih.1, ih.2]
    simp only [Option.elim_some, count_erase, vec_noref]
    simp [ATy.erase, isPointer, ATy.vec]
  | opCall e d p as m r ps he hs hov hfn ih =>
    obtain ⟨iv, it⟩ := ih
    have hv : nul P e = p.vec ++ as.vec := by rw [iv]; simp [ATy.vec]
    have hcd : classDecl (ATy.erase (.cls d none p as)) = some d := rfl
    have hc := canon_clangTy P (P.members d m).file _ (fits_class hs) (P.members d m).ty
    rw [hfn] at hc
    have ht : ty P (.opCall e m) = some r.noref.erase := by
      show (ty P e).bind (fun t => (classDecl t).bind fun d => returnType (clangTy P (P.members d m).ty).canon) = _
      rw [it, Option.bind_some, hcd, Option.bind_some, hc, erase_noref]
      rfl
    refine ⟨?_, ht⟩
    simp only [nul, it, Option.bind_some, hcd, hv, ht, declNullability, hov]
    refine compute_eq r.noref _ ?_
    rw [typeNullability_eq P _ _ (fits_class hs) (matches_class hs), hfn]
    simp only [Option.elim_some, count_erase, vec_noref, override, ATy.vec, List.take_left]
  | toBase e d p as b he hs ih =>
    obtain ⟨iv, it⟩ := ih
    have hv : nul P e = p.vec ++ as.vec := by rw [iv]; simp [ATy.vec]
    have hc := canon_clangTy P (P.bases b).file _ (fits_class hs) (P.bases b).ty
    have ht : ty P (.toBase false e b) = some (inst P (P.bases b).file (classBinding P d as) (P.bases b).ty).erase := by
      simp [ty, it, ATy.erase, isPointer, hc]
    refine ⟨?_, ht⟩
    rw [nul, ht]
    refine compute_eq _ _ ?_
    rw [it, castToBase_class P d p as b hs _ hv]
  | toBasePtr e k d p as b he hs ih =>
    obtain ⟨iv, it⟩ := ih
    have hc := canon_clangTy P (P.bases b).file _ (fits_class hs) (P.bases b).ty
    have ht : ty P (.toBase false e b) = some (ATy.erase (.ptr k (inst P (P.bases b).file (classBinding P d as) (P.bases b).ty))) := by
      simp [ty, it, ATy.erase, isPointer, hc]
    refine ⟨?_, ht⟩
    rw [nul, ht]
    refine compute_eq _ _ ?_
    rw [it, iv, castToBase_ptr P k d p as b hs]
  | toBaseX e d p as b he ih =>
    obtain ⟨iv, it⟩ := ih
    have ht : ty P (.toBase true e b) = some (inst P 0 noBinding (P.bases b).ty).unspec.erase := by
      simp [ty, it, ATy.erase, isPointer, erase_unspec, canon_written P (P.bases b) 0]
    refine ⟨?_, ht⟩
    rw [nul, ht]
    refine compute_eq _ _ ?_
    rw [it, iv]
    have h2 := preserveOuter_eq (.cls d none p as) (inst P 0 noBinding (P.bases b).ty).unspec
    simp only [castToBase, if_true]
    rw [erase_unspec, unspecified_eq]
    rw [erase_unspec] at h2
    exact h2
  | toBasePtrX e k d p as b he ih =>
    obtain ⟨iv, it⟩ := ih
    have ht : ty P (.toBase true e b) = some (ATy.erase (.ptr k (inst P 0 noBinding (P.bases b).ty).unspec)) := by
      simp [ty, it, ATy.erase, isPointer, erase_unspec, canon_written P (P.bases b) 0]
    refine ⟨?_, ht⟩
    rw [nul, ht]
    refine compute_eq _ _ ?_
    rw [it, iv]
    simp only [castToBase, if_true]
    rw [unspecified_eq]
    have h2 := preserveOuter_eq (.ptr k (.cls d none p as)) (ATy.unspec (.ptr k (inst P 0 noBinding (P.bases b).ty).unspec))
    rw [erase_unspec] at h2
    rw [h2]
    simp only [ATy.unspec, ATy.fill, ATy.preserve, ATy.vec, vec_fill, List.length_replicate]
  | bitCast e A t he ih =>
    have ht : ty P (.bitCast e t) = some (A.preserve t.unspec).erase := by rw [ty, erase_preserve, erase_unspec]
    refine ⟨?_, ht⟩
    rw [nul, ih.2]
    simp only [unspecified_eq, ih.1]
    have := preserveOuter_eq A t.unspec
    rw [erase_unspec] at this
    rw [this]
    have h2 : t.erase = (A.preserve t.unspec).erase := by rw [erase_preserve, erase_unspec]
    rw [h2]
    exact compute_eq _ _ rfl
  | null k t =>
    have he : ATy.erase (.ptr k t) = ATy.erase (.ptr (.concrete .nullable) t.unspec) := by simp only [ATy.erase, erase_unspec]
    refine ⟨?_, by rw [ty, he]⟩
    simp only [nul, unspecified_eq]
    rw [he]
    exact compute_eq _ _ rfl
  | nullptr k => exact ⟨rfl, rfl⟩
  | nullAs w k t hw =>
    have ht : ty P (.nullAs w) = some (ATy.erase (.ptr (.concrete .nullable) t)) := by
      rw [ty, canon_written P w w.file, hw]; rfl
    refine ⟨?_, ht⟩
    rw [nul, ht, written_eq, hw]
    exact compute_eq (.ptr (.concrete .nullable) t) _ rfl
  | dynCast e k t =>
    have he : ATy.erase (.ptr k t) = ATy.erase (.ptr (.concrete .nullable) t.unspec) := by simp only [ATy.erase, erase_unspec]
    refine ⟨?_, by rw [ty, he]⟩
    rw [nul, ty, unspecified_eq, isPointer_erase_ptr, if_pos rfl, he]
    exact compute_eq _ _ rfl
  | int => exact ⟨rfl, rfl⟩
  | other t => exact ⟨by rw [nul, unspecified_eq], by rw [ty, erase_unspec]⟩

/-- C142: whatever the expression, the vector has one entry for each pointer of the type. -/
theorem vector_length (P : Prog) (e : Expr) (t : Ty) (h : ty P e = some t) : (nul P e).length = count t := by
  have hc : ∀ v, (compute (some t) v).length = count t := by
    intro v
    unfold compute
    simp only
    split
    · simp
    · rename_i hv
      exact (Classical.not_not.mp hv).symm
  cases e with
  | member arrow e m targs =>
    rw [nul]
    simp only [h]
    split
    · rename_i hn
      exfalso
      have h' : ((ty P e).bind fun t => (if arrow then pointee t else some t).bind fun t => (classDecl t).bind fun d =>
          some (noref (clangTy P (P.members d m).ty).canon)) = some t := by
        cases arrow <;> exact h
      cases hs : ty P e with
      | none => rw [hs] at h'; simp at h'
      | some s =>
        rw [hs] at h' hn
        cases arrow with
        | false =>
          simp only [Option.bind_some, Bool.false_eq_true, if_false, Bool.false_and] at h' hn
          rw [hn] at h'
          simp at h'
        | true =>
          cases s with
          | ptr u =>
            have e1 : isPointer (.ptr u) = true := rfl
            have e2 : pointee (.ptr u) = some u := rfl
            simp only [Option.bind_some, if_true, Bool.true_and, Option.any_some, e1, e2] at h' hn
            rw [hn] at h'
            simp at h'
          | _ => simp [pointee] at h'
    · exact hc _
  | opCall e m =>
    rw [nul]
    simp only [h]
    split
    · rename_i hn
      exfalso
      have h' : ((ty P e).bind fun t => (classDecl t).bind fun d => returnType (clangTy P (P.members d m).ty).canon) = some t := h
      cases hs : ty P e with
      | none => rw [hs] at h'; simp at h'
      | some s =>
        rw [hs] at h' hn
        simp only [Option.bind_some] at h' hn
        rw [hn] at h'
        simp at h'
    · exact hc _
  | bitCast e u => rw [ty] at h; rw [nul, h]; exact hc _
  | null u => rw [ty] at h; simp only [nul, h]; exact hc _
  | int => rw [ty] at h; cases h; rfl
  | other u =>
    rw [ty] at h
    cases h
    simp [nul, unspecified]
  | _ => rw [nul, h]; exact hc _

/-- C143: `v.front()`, where `front` is declared as `T& front()` and `T` is the `i`-th parameter of the class template: the vector is that of
the `i`-th template argument of `v`, as written where `v` is declared. -/
theorem element_access (P : Prog) (e : Expr) (d : Nat) (p : APar) (as : ATys) (m i : Nat) (ps : PTys) (file : Nat) (A : ATy)
    (he : HasType P e (.cls d none p as)) (hs : Spells P d p as) (hspec : P.isSpec d = true) (hpart : P.fromPartial d = false)
    (hm : P.members d m = { file := file, ty := .fn (.ref (.param none d i)) ps }) (hA : as.get? i = some A) :
    nul P (.call (.member false e m none)) = A.vec := by
  have hb : ((classBinding P d as).or noBinding) d i = some A := by
    simp [Binding.or, classBinding, hspec, hpart, hA]
  have hinst : (P.members d m).inst P ((classBinding P d as).or (writtenBinding P (P.memberTempl d m) none)) =
      .fn (.ref A) (insts P file ((classBinding P d as).or noBinding) ps) := by
    simp [hm, Decl.inst, inst, ATy.noref, writtenBinding, hb]
  have h1 : HasType P (.member false e m none) (.fn (.ref A) (insts P file ((classBinding P d as).or noBinding) ps)) :=
    .member e d p as m none _ he hs (by simp) (by simp) hinst.symm (.inl (by rw [hm]))
  exact (typed_vector P (HasType.call _ _ _ h1)).1

/-- C143: the same for `p->x` where `x` is a field declared as `T x;`. -/
theorem element_field (P : Prog) (e : Expr) (k : PN) (d : Nat) (p : APar) (as : ATys) (m i : Nat) (file : Nat) (A : ATy)
    (he : HasType P e (.ptr k (.cls d none p as))) (hs : Spells P d p as) (hspec : P.isSpec d = true) (hpart : P.fromPartial d = false)
    (hm : P.members d m = { file := file, ty := .param none d i }) (hA : as.get? i = some A) :
    nul P (.member true e m none) = A.vec := by
  have hb : ((classBinding P d as).or noBinding) d i = some A := by
    simp [Binding.or, classBinding, hspec, hpart, hA]
  have hinst : (P.members d m).inst P ((classBinding P d as).or (writtenBinding P (P.memberTempl d m) none)) = A.noref := by
    simp [hm, Decl.inst, inst, writtenBinding, hb]
  have h1 : HasType P (.member false (.deref e) m none) A.noref :=
    .member _ d p as m none _ (.deref e k _ he) hs (by simp) (by simp) hinst.symm (.inl (by rw [hm]))
  rw [(typed_vector P (HasType.arrow e k d p as m none _ he h1)).1, vec_noref]

/-- C143: a call `f<A, B>(…)` of a function template whose result is declared as `T`, the `i`-th parameter: the vector is that of the argument
that is written. -/
theorem explicit_argument (P : Prog) (x o i : Nat) (ws : List (Option Written)) (w : Written) (ps : PTys) (file : Nat)
    (hx : P.packInside x = false) (ho : P.templ o = some (P.varTempl x)) (hw : ws[i]? = some (some w))
    (hrepl : ∀ o i w, P.templ o = some (P.varTempl x) → ws[i]? = some (some w) → SameShape (inst P w.file noBinding w.ty) (P.repl o i))
    (hf : P.vars x = { file := file, ty := .fn (.param none o i) ps }) :
    nul P (.call (.name x [] (some ws))) = (inst P w.file noBinding w.ty).vec := by
  have hb : ((qualBinding P []).or (argsBinding P (P.varTempl x) ws)) o i = some (inst P w.file noBinding w.ty) := by
    simp [Binding.or, qualBinding, noBinding, argsBinding, ho, hw]
  have hinst : (P.vars x).inst P ((qualBinding P []).or (writtenBinding P (P.varTempl x) (some ws))) =
      .fn (inst P w.file noBinding w.ty) (insts P file ((qualBinding P []).or (argsBinding P (P.varTempl x) ws)) ps) := by
    simp [hf, Decl.inst, inst, ATy.noref, writtenBinding, hb]
  have h1 : HasType P (.name x [] (some ws)) (.fn (inst P w.file noBinding w.ty)
      (insts P file ((qualBinding P []).or (argsBinding P (P.varTempl x) ws)) ps)) :=
    .name x [] (some ws) _ (by simp) (fun _ => hx) (by intro as o i w h; cases h; exact hrepl o i w) hinst.symm (.inl (by rw [hf]))
  rw [(typed_vector P (HasType.call _ _ _ h1)).1, vec_noref]

end Verif.ExprNull

import Verif.NullTy.Spec

/-!
# Nullability of types: the code

Source: `nullability/type_nullability.cc` (lines given at each definition).  Not modelled: source locations
(`TypeLoc`s), cv-qualifiers (they carry no nullability), the search for smart pointer base classes, dependent types.
-/

namespace Verif.NullTy

/-- `isSupportedPointerType` (`:42–50`): looks at the canonical type. -/
def isSupportedPointerType (t : Ty) : Bool := t.canon.isPtr

/-- The loop of `isUnknownValidOn` (`:1040–1045`) through parentheses and transparent aliases. -/
def strip : Ty → Ty
  | .paren t => strip t
  | .alias_ qs d f a tr w t => if tr then strip t else .alias_ qs d f a tr w t
  | t => t

/-- `isLexicalPointerTypeWithoutNullability` (`:1024–1036`), after the test for a pointer: no alias and no
annotation on the way to the canonical type. -/
def lexical : Ty → Bool
  | .typedef _ _ _ => false
  | .alias_ _ _ _ _ _ _ _ => false
  | .attr nk t => nk.isNone && lexical t
  | .paren t => lexical t
  | .sugar _ t => lexical t
  | .subst _ _ t => lexical t
  | _ => true

/-- `isUnknownValidOn` (`:1040–1048`). -/
def isUnknownValidOn (t : Ty) : Bool := isSupportedPointerType (strip t) && lexical (strip t)

/-- The loop of `unwrapAlias` (`:323–348`): the alias expands to its first parameter. -/
def expandsTo (templ : Nat) : Ty → Bool
  | .subst d ix t => (d == templ && ix == .at_ 0) || expandsTo templ t
  | .attr _ t => expandsTo templ t
  | .paren t => expandsTo templ t
  | .typedef _ _ t => expandsTo templ t
  | .alias_ _ _ _ _ _ _ t => expandsTo templ t
  | .sugar _ t => expandsTo templ t
  | _ => false

/-- `unwrapAlias`: "If T is Foo<U> which expands to U, return U". -/
def unwrapAlias (templ : Nat) (written : Args) (t : Ty) : Option Ty :=
  match written with
  | .cons (.ty u) _ => if expandsTo templ t then some u else none
  | _ => none

/-- `TemplateContext` (`:440–513`): the template whose arguments are known, the arguments, the file they are written
in, the contexts of further templates, and the context in which the arguments are written. -/
inductive Ctx where
  | nil
  | frame (d : Nat) (args : Option Args) (file : Nat) (ext : Ctx) (argCtx : Ctx)

/-- `CurrentTemplateContext->ArgContext`. -/
def Ctx.argCtx : Ctx → Ctx
  | .nil => .nil
  | .frame _ _ _ _ c => c

/-- `getBoundTemplateArgsFromQualifiedType` (`:573–640`), after the first qualifier. -/
def bindFrom (file : Nat) (cur : Ctx) : Quals → Ctx
  | .nil => cur
  | .cons d p w l => .frame d (if p then none else some w) file (bindFrom file cur l) cur

/-- The argument that `ix` refers to, `:889–898`. -/
def argAt (as : Args) : Ix → Option Arg
  | .at_ i => as.get? i
  | .fromEnd k => if k < as.length then as.get? (as.length - 1 - k) else none

/-- The search of `visitSubstTemplateTypeParmType` (`:884–898`): the argument and the file in which it is written. -/
def findArg (d : Nat) (ix : Ix) : Ctx → Option (Nat × Arg)
  | .nil => none
  | .frame d' as file ext _ =>
      if d' = d then
        match as with
        | none => none
        | some as => match argAt as ix with
            | some a => some (file, a)
            | none => findArg d ix ext
      else findArg d ix ext

/-- The search of `visitRecordType` (`:960–976`): the known arguments of `d`, their file, and the context in which
they are written. -/
def findRec (d : Nat) : Ctx → Option (Args × Nat × Ctx)
  | .nil => none
  | .frame d' as file ext argCtx => if d' = d then as.map fun as => (as, file, argCtx) else findRec d ext

/-- `PointerTypeNullability`: concrete, or symbolic. -/
inductive PN where
  | concrete (nk : NK)
  | symbolic (atom : Nat)
deriving DecidableEq, Repr

/-- A call of `report`, or an entry given by `SubstituteTypeParam`: the pointer type, the governing file and what is
known of its nullability. -/
structure Rep where
  ty : Ty
  file : Nat
  nk : Option PN

/-- `sawNullability`, `:405–412`: the outer annotation wins. -/
def saw (pend : Option NK) (nk : Option NK) : Option NK := pend.or nk

/-- The annotation of an `AttributedType`, `:990–995`. -/
def attrNK (nk : Option NK) (t : Ty) : Option NK :=
  if nk = some .unspecified ∧ isUnknownValidOn t = false then none else nk

/-- The annotation of an alias template, `:791–796`. -/
def aliasNK (ann : Option NK) (templ : Nat) (written : Args) (t : Ty) : Option NK :=
  if ann = some .unspecified then
    match unwrapAlias templ written t with
    | some inner => if isUnknownValidOn inner then ann else none
    | none => none
  else ann

/-- The nullability that a caller knows for a template parameter, `:1110–1125`. -/
def useGiven (pend : Option NK) : List PN → List PN
  | [] => []
  | .concrete .unspecified :: l => (match pend with | some nk => .concrete nk | none => .concrete .unspecified) :: l
  | .symbolic a :: l => (match pend with | some nk => .concrete nk | none => .symbolic a) :: l
  | x :: l => x :: l

/-- The reports for a vector given by the caller. -/
def givenReps (file : Nat) (t : Ty) (v : List PN) : List Rep :=
  (t.canon.slots.zip v).map fun e => ⟨e.1, file, some e.2⟩

/-- `SubstituteTypeParam`. -/
abbrev Given := Nat → Ix → Option (List PN)

mutual
/-- `NullabilityWalker::visit` on a type (`:655–1010`); `none`: out of fuel. -/
def walk (given : Given) : Nat → Ctx → Nat → Option NK → Ty → Option (List Rep)
  | 0, _, _, _, _ => none
  | n + 1, ctx, file, pend, t => match t with
      | .leaf _ => some []
      | .ptr t' => do
          let r ← walk given n ctx file none t'
          pure (⟨.ptr t', file, pend.map .concrete⟩ :: r)
      | .ref t' => walk given n ctx file none t'
      | .arr t' => walk given n ctx file none t'
      | .fn ret ps => do
          let r ← walk given n ctx file none ret
          let q ← walkTys given n ctx file ps
          pure (r ++ q)
      | .cls qs d s p as => do
          let cur := bindFrom file ctx qs
          let self := if s then [⟨.cls qs d s p as, file, pend.map PN.concrete⟩] else []
          let rp ← walkPar given n cur file p
          match findRec d cur with
          | some (w, f, c) => do
              let r1 ← walkArgs given n c f w
              let r2 ← walkArgs given n cur file (as.drop w.length)
              pure (self ++ rp ++ r1 ++ r2)
          | none => do
              let r ← walkArgs given n cur file as
              pure (self ++ rp ++ r)
      | .tst qs w d s p as => do
          let cur := bindFrom file ctx qs
          let self := if s then [⟨.tst qs w d s p as, file, pend.map PN.concrete⟩] else []
          let rp ← walkPar given n cur file p
          let r1 ← walkArgs given n cur file w
          let r2 ← walkArgs given n cur file (as.drop w.length)
          pure (self ++ rp ++ r1 ++ r2)
      | .attr nk t' => walk given n ctx file (saw pend (attrNK nk t')) t'
      | .paren t' => walk given n ctx file pend t'
      | .typedef qs f t' => walk given n (bindFrom file ctx qs) f pend t'
      | .alias_ qs templ f ann tr w t' =>
          let cur := bindFrom file ctx qs
          walk given n (.frame templ (some w) file cur cur) (if tr then file else f)
            (saw pend (aliasNK ann templ w t')) t'
      | .subst d ix t' => match given d ix with
          | some v => some (givenReps file t' (useGiven pend v))
          | none => match findArg d ix ctx with
              | some (f, a) => walkArg given n ctx.argCtx f pend a
              | none => walk given n ctx file pend t'
      | .sugar qs t' => walk given n (bindFrom file ctx qs) file pend t'
def walkTys (given : Given) : Nat → Ctx → Nat → Tys → Option (List Rep)
  | 0, _, _, _ => none
  | n + 1, ctx, file, l => match l with
      | .nil => some []
      | .cons t l => do
          let r ← walk given n ctx file none t
          let q ← walkTys given n ctx file l
          pure (r ++ q)
/-- `visit(const DeclContext *)`, `:690–697`. -/
def walkPar (given : Given) : Nat → Ctx → Nat → Par → Option (List Rep)
  | 0, _, _, _ => none
  | n + 1, ctx, file, p => match p with
      | .none => some []
      | .some t => walk given n ctx file none t
/-- `visit(const TemplateArgument &)`, `:661–689`. -/
def walkArg (given : Given) : Nat → Ctx → Nat → Option NK → Arg → Option (List Rep)
  | 0, _, _, _, _ => none
  | n + 1, ctx, file, pend, a => match a with
      | .ty t => walk given n ctx file pend t
      | .pack l => walkArgs given n ctx file l
      | .other _ => some []
def walkArgs (given : Given) : Nat → Ctx → Nat → Args → Option (List Rep)
  | 0, _, _, _ => none
  | n + 1, ctx, file, l => match l with
      | .nil => some []
      | .cons a l => do
          let r ← walkArg given n ctx file none a
          let q ← walkArgs given n ctx file l
          pure (r ++ q)
end

/-- `countPointersInType`, `:1050–1058`. -/
def countPointers (fuel : Nat) (t : Ty) : Option Nat :=
  (walk (fun _ _ => none) fuel .nil 0 none t).map (·.length)

/-- `TypeNullabilityDefaults`: file pragmas and the default. -/
structure Defaults where
  pragma : Nat → Option NK
  default : NK

/-- `TypeNullabilityDefaults::get`, `:1083–1089`. -/
def Defaults.get (d : Defaults) (file : Nat) : NK := (d.pragma file).getD d.default

/-- `getTypeNullability`, `:1091–1142`. -/
def getTypeNullability (given : Given) (df : Defaults) (fuel : Nat) (file : Nat) (t : Ty) : Option (List PN) :=
  (walk given fuel .nil file none t).map fun l => l.map fun r => r.nk.getD (.concrete (df.get r.file))

/-- `getTypeNullabilityLocs` (`:1325–1360`), without locations: the type and the existing annotation of each slot. -/
def getTypeNullabilityLocs (df : Defaults) (fuel : Nat) (file : Nat) (t : Ty) : Option (List (Ty × Option PN)) :=
  (walk (fun _ _ => none) fuel .nil file none t).map fun l =>
    l.map fun r => (r.ty, r.nk.or ((df.pragma r.file).map .concrete))

/-- `PointerTypeNullability::concrete`. -/
def PN.conc : PN → NK
  | .concrete nk => nk
  | .symbolic _ => .unspecified

mutual
/-- `Rebuilder` (`:1190–1300`), on a canonical type: the type with annotations and the rest of the vector; `none`:
the vector is too short. -/
def rebuild : Ty → List PN → Option (Ty × List PN)
  | .ptr t, v => match v with
      | [] => none
      | nk :: v => do
          let (t', v) ← rebuild t v
          if nk.conc = .unspecified then pure (.ptr t', v) else pure (.attr (some nk.conc) (.ptr t'), v)
  | .ref t, v => do
      let (t', v) ← rebuild t v
      pure (.ref t', v)
  | .arr t, v => do
      let (t', v) ← rebuild t v
      pure (.arr t', v)
  | .fn r ps, v => do
      let (r', v) ← rebuild r v
      let (ps', v) ← rebuildTys ps v
      pure (.fn r' ps', v)
  | .cls qs d s p as, v => match as with
      | .nil => some (.cls qs d s p as, v)
      | as => do
          let (as', v) ← rebuildArgs as v
          pure (.tst .nil as' d s p as, v)
  | t, v => some (t, v)
def rebuildTys : Tys → List PN → Option (Tys × List PN)
  | .nil, v => some (.nil, v)
  | .cons t l, v => do
      let (t', v) ← rebuild t v
      let (l', v) ← rebuildTys l v
      pure (.cons t' l', v)
/-- `Rebuilder::Visit(TemplateArgument)`: only types. -/
def rebuildArg : Arg → List PN → Option (Arg × List PN)
  | .ty t, v => do
      let (t', v) ← rebuild t v
      pure (.ty t', v)
  | a, v => some (a, v)
def rebuildArgs : Args → List PN → Option (Args × List PN)
  | .nil, v => some (.nil, v)
  | .cons a l, v => do
      let (a', v) ← rebuildArg a v
      let (l', v) ← rebuildArgs l v
      pure (.cons a' l', v)
end

/-- `rebuildWithNullability`, `:1303–1314`; `none`: the internal errors "Nullability vector too short", "too
long". -/
def rebuildWithNullability (t : Ty) (v : List PN) : Option Ty :=
  match rebuild t.canon v with
  | some (t', []) => some t'
  | _ => none

end Verif.NullTy

import Verif.ExprNull.Spec
/-
The model of `nullability/type_transferer.cc` (lines given at each definition), which computes the nullability vectors of expressions. The
vectors of declared types come from `NullTy.getTypeNullability`, the model of `nullability/type_nullability.cc`.

Not modelled: parameter packs, fields that may have been moved from (`:306-309`), local classes, Objective-C, member pointers.
-/
namespace Verif.ExprNull
open Verif.NullTy (NK PN Ty Tys Arg Args Par Quals Ix Given)

/-! ### Clang's types (Clang, not in /repo) -/

mutual
/-- The canonical type. -/
def ATy.erase : ATy → Ty
  | .leaf k => .leaf k
  | .ptr _ t => .ptr t.erase
  | .ref t => .ref t.erase
  | .arr t => .arr t.erase
  | .fn r ps => .fn r.erase ps.eraseTys
  | .cls d nk p as => .cls .nil d nk.isSome p.erase as.eraseArgs
def ATys.eraseTys : ATys → Tys
  | .nil => .nil
  | .cons t l => .cons t.erase l.eraseTys
def ATys.eraseArgs : ATys → Args
  | .nil => .nil
  | .cons t l => .cons (.ty t.erase) l.eraseArgs
def APar.erase : APar → Par
  | .none => .none
  | .some t => .some t.erase
end

/-- An annotated type. -/
def attrOf (ann : Option NK) (t : Ty) : Ty :=
  match ann with
  | some nk => .attr (some nk) t
  | none => t

mutual
/-- The type of a declaration as Clang has it: template parameters are replaced with canonical types. (An annotation on
something that is not a pointer is an error.) -/
def clangTy (P : Prog) : PTy → Ty
  | .leaf k => .leaf k
  | .ptr ann t => attrOf ann (.ptr (clangTy P t))
  | .ref t => .ref (clangTy P t)
  | .arr t => .arr (clangTy P t)
  | .fn r ps => .fn (clangTy P r) (clangTys P ps)
  | .cls d sm p as => attrOf (sm.getD none) (.tst .nil (clangArgs P as) d sm.isSome p.erase (clangArgs P as).canon)
  | .param ann o i => attrOf (if (P.repl o i).isPtr then ann else none) (.subst o (.at_ i) (P.repl o i).erase)
def clangTys (P : Prog) : PTys → Tys
  | .nil => .nil
  | .cons t l => .cons (clangTy P t) (clangTys P l)
def clangArgs (P : Prog) : PTys → Args
  | .nil => .nil
  | .cons t l => .cons (.ty (clangTy P t)) (clangArgs P l)
end

def noref : Ty → Ty
  | .ref t => t
  | t => t

def isPointer : Ty → Bool
  | .ptr _ => true
  | _ => false

def pointee : Ty → Option Ty
  | .ptr t => some t
  | _ => none

/-- The class declaration of a class type. -/
def classDecl : Ty → Option Nat
  | .cls _ d _ _ _ => some d
  | _ => none

def returnType : Ty → Option Ty
  | .fn r _ => some (noref r)
  | .ptr (.fn r _) => some (noref r)
  | _ => none

/-- The canonical type of an expression, as Clang computes it. -/
def ty (P : Prog) : Expr → Option Ty
  | .name x _ _ => some (noref (clangTy P (P.vars x).ty).canon)
  | .member arrow e m _ => do
    let t ← ty P e
    let t ← if arrow then pointee t else some t
    let d ← classDecl t
    some (noref (clangTy P (P.members d m).ty).canon)
  | .same e => ty P e
  | .decay e => do
    let t ← ty P e
    match t with
    | .arr t => some (.ptr t)
    | t => some (.ptr t)
  | .addrOf e => do
    let t ← ty P e
    some (.ptr t)
  | .deref e => do
    let t ← ty P e
    pointee t
  | .preInc e => ty P e
  | .add _ a b => do
    let s ← ty P a
    let t ← ty P b
    if isPointer s && isPointer t then some (.leaf 0) else if isPointer s then some s else if isPointer t then some t else some (.leaf 0)
  | .assign a _ => ty P a
  | .comma _ b => ty P b
  | .subscript a _ => do
    let t ← ty P a
    pointee t
  | .new _ w => some (.ptr (clangTy P w.ty).canon)
  | .this d => some (.ptr (.cls .nil d false (P.parent d).erase (P.args d).eraseArgs))
  | .call f => do
    let t ← ty P f
    returnType t
  | .opCall e m => do
    let t ← ty P e
    let d ← classDecl t
    returnType (clangTy P (P.members d m).ty).canon
  | .toBase _ e b => do
    let t ← ty P e
    if isPointer t then some (.ptr (clangTy P (P.bases b).ty).canon) else some (clangTy P (P.bases b).ty).canon
  | .bitCast _ t => some t.erase
  | .null t => some t.erase
  | .nullAs w => some (clangTy P w.ty).canon
  | .dynCast _ t => some t.erase
  | .int => some (.leaf 0)
  | .other t => some t.erase

/-! ### type_transferer.cc -/

/-- `countPointersInType`: one for each pointer of the canonical type (`NullTy.count_is_slots`). -/
def count (t : Ty) : Nat := t.canon.slots.length

/-- `unspecifiedNullability`. -/
def unspecified (t : Option Ty) : List PN :=
  match t with
  | some t => List.replicate (count t) (.concrete .unspecified)
  | none => []

/-- `computeNullability`, `:54-80`: a vector of the wrong length is discarded. -/
def compute (t : Option Ty) (v : List PN) : List PN :=
  match t with
  | some t => if count t ≠ v.length then List.replicate (count t) (.concrete .unspecified) else v
  | none => v

mutual
/-- Steps that suffice to walk through a canonical type. -/
def ATy.need : ATy → Nat
  | .leaf _ => 1
  | .ptr _ t => t.need + 1
  | .ref t => t.need + 1
  | .arr t => t.need + 1
  | .fn r ps => r.need + ps.need + 1
  | .cls _ _ p as => p.need + as.need + 1
def ATys.need : ATys → Nat
  | .nil => 1
  | .cons t l => t.need + l.need + 3
def APar.need : APar → Nat
  | .none => 1
  | .some t => t.need + 1
end

mutual
/-- Steps that suffice to walk through a declared type. -/
def need (P : Prog) : PTy → Nat
  | .leaf _ => 1
  | .ptr _ t => need P t + 2
  | .ref t => need P t + 1
  | .arr t => need P t + 1
  | .fn r ps => need P r + needs P ps + 1
  | .cls _ _ p as => p.need + needs P as + 3
  | .param _ o i => (P.repl o i).need + 2
def needs (P : Prog) : PTys → Nat
  | .nil => 1
  | .cons t l => need P t + needs P l + 3
end

/-- `getTypeNullability` of a type written in a file. -/
def typeNullability (P : Prog) (given : Given) (file : Nat) (t : PTy) : List PN :=
  (NullTy.getTypeNullability given P.defaults (need P t) file (clangTy P t)).getD []

def noGiven : Given := fun _ _ => none

/-- The lengths of the vectors of the arguments before the `i`-th. -/
def countBefore : ATys → Nat → Nat
  | .cons t l, i + 1 => count t.erase + countBefore l i
  | _, _ => 0

def countParent : APar → Nat
  | .none => 0
  | .some t => count t.erase

/-- `FromEnclosingClassNullability`, `:145-177`. -/
def fromEnclosing (P : Prog) (d : Nat) (v : List PN) : Given := fun o ix =>
  if d ≠ o then none
  else if P.fromPartial o then none
  else
    match ix with
    | .fromEnd _ => none
    | .at_ i =>
      match (P.args d).get? i with
      | none => none
      | some t => some ((v.drop (countParent (P.parent d) + countBefore (P.args d) i)).take (count t.erase))

/-- `FromTemplateArgs`, `:181-206`. -/
def fromTemplateArgs (P : Prog) (f : Nat) (as : List (Option Written)) : Given := fun o ix =>
  if P.templ o ≠ some f then none
  else
    match ix with
    | .fromEnd _ => none
    | .at_ i =>
      match as[i]? with
      | some (some w) => some (typeNullability P noGiven w.file w.ty)
      | _ => none

/-- The `Resugarer`: asks the enclosing classes, then the written template arguments, `:233-239`. -/
def firstGiven : List Given → Given
  | [], _, _ => none
  | g :: l, o, ix => (g o ix).or (firstGiven l o ix)

/-- `addTemplateArgs`, `:211-229`. `f`: the template, `x`: the function. -/
def addTemplateArgs (P : Prog) (x f : Nat) (targs : Option (List (Option Written))) : List Given :=
  match targs with
  | some as => if P.packInside x then [] else [fromTemplateArgs P f as]
  | none => []

/-- `overrideNullabilityFromDecl`, pointer_nullability_lattice.cc:62-70. -/
def override (x : Option PN) (v : List PN) : List PN :=
  match x, v with
  | some x, _ :: l => x :: l
  | _, v => v

/-- `getTypeNullabilityWithOverrides`, pointer_nullability_lattice.h:74-82. -/
def declNullability (P : Prog) (D : Decl) (given : Given) : List PN := override D.over (typeNullability P given D.file D.ty)

/-- The qualifiers of a name, `:252-268`. -/
def qualGivens (P : Prog) (quals : List Written) : List Given :=
  quals.filterMap fun w =>
    match classDecl (clangTy P w.ty).canon with
    | some d => if P.isSpec d then some (fromEnclosing P d (typeNullability P noGiven w.file w.ty)) else none
    | none => none

/-- The enclosing class of a member, `:292-298`. -/
def classGivens (P : Prog) (t : Option Ty) (v : List PN) : List Given :=
  match t.bind classDecl with
  | some d => if P.isSpec d then [fromEnclosing P d v] else []
  | none => []

/-- `PreserveOuterRawPointers`, `:323-334`. -/
def preserveOuter : Ty → Ty → List PN → List PN → List PN
  | .ptr s, .ptr t, a :: arg, _ :: v => a :: preserveOuter s t arg v
  | _, _, _, v => v

/-- The pointers around the class, `:364-370`. -/
def outerPointers : Ty → Nat × Ty
  | .ptr t => ((outerPointers t).1 + 1, (outerPointers t).2)
  | t => (0, t)

/-- Replacing the entries from `n` on, `:394-398`. -/
def replaceFrom (n : Nat) (v w : List PN) : List PN := v.take n ++ (w.take (v.length - n) ++ v.drop (n + w.length))

/-- `PreserveAndResugarFromBaseOrDerived`, `:345-401`. -/
def castToBase (P : Prog) (explicit : Bool) (sub : Option Ty) (t : Option Ty) (arg : List PN) (b : Nat) : List PN :=
  match sub, t with
  | some sub, some t =>
    let v := preserveOuter sub t arg (unspecified (some t))
    if explicit then v
    else
      let (n, under) := outerPointers sub
      if n < v.length then
        replaceFrom n v (typeNullability P (firstGiven (classGivens P (some under) (arg.drop n))) (P.bases b).file (P.bases b).ty)
      else v
  | _, _ => []

/-- Setting the first entry. -/
def setFront (x : PN) : List PN → List PN
  | [] => []
  | _ :: l => x :: l

/-- The vector of an expression. -/
def nul (P : Prog) : Expr → List PN
  | .name x quals targs =>
    -- `transferDeclRefExpr`, `:243-274`
    compute (ty P (.name x quals targs))
      (declNullability P (P.vars x) (firstGiven (qualGivens P quals ++ addTemplateArgs P x (P.varTempl x) targs)))
  | .member arrow e m targs =>
    -- `transferMemberExpr`, `:276-312`
    let base := if arrow && (ty P e).any isPointer then (ty P e).bind pointee else ty P e
    let v := if arrow && (ty P e).any isPointer then (nul P e).drop 1 else nul P e
    match base.bind classDecl with
    | none => []
    | some d =>
      compute (ty P (.member arrow e m targs))
        (declNullability P (P.members d m)
          (firstGiven (classGivens P base v ++ addTemplateArgs P (P.memberTempl d m) (P.memberTempl d m) targs)))
  | .same e => compute (ty P (.same e)) (nul P e)  -- `:413-419`, `:534-556`, `:576-580`, `:648-656`
  | .decay e => compute (ty P (.decay e)) (.concrete .nonnull :: nul P e)  -- `:492-495`
  | .addrOf e => compute (ty P (.addrOf e)) (.concrete .nonnull :: nul P e)  -- `:625-627`
  | .deref e => compute (ty P (.deref e)) ((nul P e).drop 1)  -- `:628-631`
  | .preInc e =>
    -- `:633-642`
    compute (ty P (.preInc e)) (if (ty P e).any isPointer then setFront (.concrete .nonnull) (nul P e) else nul P e)
  | .add s a b =>
    -- `:675-697`
    compute (ty P (.add s a b))
      (if (ty P a).any isPointer && (ty P b).any isPointer then []
       else if (ty P a).any isPointer then setFront (.concrete .nonnull) (nul P a)
       else if (ty P b).any isPointer then setFront (.concrete .nonnull) (nul P b)
       else unspecified (ty P (.add s a b)))
  | .assign a b => compute (ty P (.assign a b)) (nul P b)  -- `:672-674`
  | .comma a b => compute (ty P (.comma a b)) (nul P b)  -- `:672-674`
  | .subscript a i => compute (ty P (.subscript a i)) ((nul P a).drop 1)  -- `:717-732`
  | .new n w =>
    -- `:704-715`
    compute (ty P (.new n w)) (.concrete (if n then .nullable else .nonnull) :: typeNullability P noGiven w.file w.ty)
  | .this d => compute (ty P (.this d)) (setFront (.concrete .nonnull) (unspecified (ty P (.this d))))  -- `:734-744`
  | .call f =>
    -- `computeTypeNullabilityForCallExpr`, `:558-570`
    compute (ty P (.call f))
      ((if (ty P f).any isPointer then (nul P f).drop 1 else nul P f).take ((ty P (.call f)).elim 0 count))
  | .opCall e m =>
    -- `transferCXXOperatorCallExpr`, `:586-617`
    match (ty P e).bind classDecl with
    | none => []
    | some d =>
      compute (ty P (.opCall e m))
        ((declNullability P (P.members d m) (firstGiven (classGivens P (ty P e) (nul P e)))).take ((ty P (.opCall e m)).elim 0 count))
  | .toBase x e b => compute (ty P (.toBase x e b)) (castToBase P x (ty P e) (ty P (.toBase x e b)) (nul P e) b)  -- `:421-425`
  | .bitCast e t =>
    -- `:404-408`
    compute (some t.erase)
      (match ty P e with
       | some s => preserveOuter s t.erase (nul P e) (unspecified (some t.erase))
       | none => unspecified (some t.erase))
  | .null t =>
    -- `:470-486`
    compute (some t.erase)
      (match t with
       | .leaf _ => unspecified (some t.erase)
       | _ => setFront (.concrete .nullable) (unspecified (some t.erase)))
  | .nullAs w =>
    compute (ty P (.nullAs w)) (setFront (.concrete .nullable) (typeNullability P noGiven w.file w.ty))
  | .dynCast e t =>
    -- `:435-441`
    compute (ty P (.dynCast e t))
      (if isPointer t.erase then setFront (.concrete .nullable) (unspecified (some t.erase)) else unspecified (some t.erase))
  | .int => []
  | .other t => unspecified (some t.erase)  -- `getNullabilityForChild`, `:84-101`

end Verif.ExprNull

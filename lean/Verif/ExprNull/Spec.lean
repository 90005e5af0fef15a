import Verif.NullTy.Model
/-
Types in which every pointer has its nullability, and the types of expressions (C141-C143).

Nothing here is code of /repo: this is what a programmer who writes `std::vector<int* _Nullable>` expects, with types taken as trees
(`NullTy.Model` is only imported for the names `NK`, `PN` of the kinds of nullability, and for Clang's types `Ty`).
-/
namespace Verif.ExprNull
open Verif.NullTy (NK PN Ty)

mutual
/-- A type with nullability. -/
inductive ATy where
  /-- a type without parts -/
  | leaf (k : Nat)
  | ptr (nk : PN) (t : ATy)
  | ref (t : ATy)
  | arr (t : ATy)
  | fn (ret : ATy) (params : ATys)
  /-- a class (an instance of a template, if there are arguments): its declaration, its nullability if it is a smart pointer, the class
  it is in, if any, and the template arguments -/
  | cls (d : Nat) (nk : Option PN) (parent : APar) (args : ATys)
inductive ATys where
  | nil
  | cons (t : ATy) (l : ATys)
inductive APar where
  | none
  | some (t : ATy)
end

def ATys.get? : ATys → Nat → Option ATy
  | .nil, _ => none
  | .cons t _, 0 => some t
  | .cons _ l, n + 1 => l.get? n

mutual
/-- The nullability of the pointers of a type, outside in, left to right. -/
def ATy.vec : ATy → List PN
  | .leaf _ => []
  | .ptr nk t => nk :: t.vec
  | .ref t => t.vec
  | .arr t => t.vec
  | .fn r ps => r.vec ++ ps.vec
  | .cls _ nk p as => nk.toList ++ (p.vec ++ as.vec)
def ATys.vec : ATys → List PN
  | .nil => []
  | .cons t l => t.vec ++ l.vec
def APar.vec : APar → List PN
  | .none => []
  | .some t => t.vec
end

mutual
/-- The same type with another nullability everywhere. -/
def ATy.fill (x : PN) : ATy → ATy
  | .leaf k => .leaf k
  | .ptr _ t => .ptr x (t.fill x)
  | .ref t => .ref (t.fill x)
  | .arr t => .arr (t.fill x)
  | .fn r ps => .fn (r.fill x) (ps.fill x)
  | .cls d nk p as => .cls d (nk.map fun _ => x) (p.fill x) (as.fill x)
def ATys.fill (x : PN) : ATys → ATys
  | .nil => .nil
  | .cons t l => .cons (t.fill x) (l.fill x)
def APar.fill (x : PN) : APar → APar
  | .none => .none
  | .some t => .some (t.fill x)
end

/-- Nothing is known about the nullability. -/
def ATy.unspec (t : ATy) : ATy := t.fill (.concrete .unspecified)

/-- The type of the object that is referred to. -/
def ATy.noref : ATy → ATy
  | .ref t => t
  | t => t

/-- It is a pointer, raw or smart. -/
def ATy.isPtr : ATy → Bool
  | .ptr _ _ => true
  | .cls _ nk _ _ => nk.isSome
  | _ => false

/-- The type with another outermost nullability. -/
def ATy.outer (x : PN) : ATy → ATy
  | .ptr _ t => .ptr x t
  | .cls d (some _) p as => .cls d (some x) p as
  | t => t

/-- The annotation of `T _Nullable` where `T` is a parameter of a template: it counts if the argument does not say anything. -/
def ATy.refine (nk : NK) : ATy → ATy
  | .ptr x t => if x.conc = .unspecified then .ptr (.concrete nk) t else .ptr x t
  | .cls d (some x) p as => if x.conc = .unspecified then .cls d (some (.concrete nk)) p as else .cls d (some x) p as
  | t => t

mutual
/-- A type as declared: pointers may be annotated, template parameters may occur. -/
inductive PTy where
  | leaf (k : Nat)
  | ptr (ann : Option NK) (t : PTy)
  | ref (t : PTy)
  | arr (t : PTy)
  | fn (ret : PTy) (params : PTys)
  /-- a class; `sm`: it is a smart pointer, perhaps annotated; the class it is in is not spelled -/
  | cls (d : Nat) (sm : Option (Option NK)) (parent : APar) (args : PTys)
  /-- the `i`-th template parameter of the declaration `o`, perhaps annotated -/
  | param (ann : Option NK) (o i : Nat)
inductive PTys where
  | nil
  | cons (t : PTy) (l : PTys)
end

/-- What is known about template arguments. -/
abbrev Binding := Nat → Nat → Option ATy

def noBinding : Binding := fun _ _ => none

/-- The first of two bindings that knows something. -/
def Binding.or (σ τ : Binding) : Binding := fun o i => (σ o i).or (τ o i)

/-- A declaration with a type: what a pointer without annotation means in that file, the type, and a nullability inferred for it. -/
structure Decl where
  file : Nat
  ty : PTy
  over : Option PN := none

/-- A type written in some file. -/
structure Written where
  file : Nat
  ty : PTy

/-- The declarations of a program. -/
structure Prog where
  /-- the nullability of pointers without annotation -/
  defaults : NullTy.Defaults
  /-- the arguments of an instance of a class template or function template, and what its parameters are replaced with (which is the
  same thing, unless it is an instance of a partial specialization); the annotations in these types do not matter -/
  args : Nat → ATys
  repl : Nat → Nat → ATy
  /-- the class that the class is in -/
  parent : Nat → APar
  isSpec : Nat → Bool
  fromPartial : Nat → Bool
  /-- the template that it is an instance of -/
  templ : Nat → Option Nat
  /-- a function template with a parameter pack and further parameters -/
  packInside : Nat → Bool
  vars : Nat → Decl
  members : Nat → Nat → Decl
  /-- base specifiers -/
  bases : Nat → Written
  /-- the declaration that an expression with template arguments names: the template -/
  varTempl : Nat → Nat
  memberTempl : Nat → Nat → Nat

mutual
/-- A declared type with the template arguments put in. An argument about which nothing is known has the nullability of unannotated
pointers at that place. -/
def inst (P : Prog) (file : Nat) (σ : Binding) : PTy → ATy
  | .leaf k => .leaf k
  | .ptr ann t => .ptr (.concrete (ann.getD (P.defaults.get file))) (inst P file σ t)
  | .ref t => .ref (inst P file σ t)
  | .arr t => .arr (inst P file σ t)
  | .fn r ps => .fn (inst P file σ r) (insts P file σ ps)
  | .cls d sm p as => .cls d (sm.map fun ann => .concrete (ann.getD (P.defaults.get file))) (p.fill (.concrete (P.defaults.get file)))
      (insts P file σ as)
  | .param ann o i =>
    match σ o i, ann with
    | some A, none => A
    | some A, some nk => A.refine nk
    | none, none => (P.repl o i).fill (.concrete (P.defaults.get file))
    | none, some nk => ((P.repl o i).fill (.concrete (P.defaults.get file))).outer (.concrete nk)
def insts (P : Prog) (file : Nat) (σ : Binding) : PTys → ATys
  | .nil => .nil
  | .cons t l => .cons (inst P file σ t) (insts P file σ l)
end

/-- The type of what a declaration declares. -/
def Decl.inst (D : Decl) (P : Prog) (σ : Binding) : ATy :=
  let A := (ExprNull.inst P D.file σ D.ty).noref
  match D.over with
  | some x => A.outer x
  | none => A

/-- Types of the same pointers, references, classes …: equal up to nullability. -/
def SameShape (a b : ATy) : Prop := a.unspec = b.unspec

/-- `parent` and `args` are a way to write the arguments of the class `d`. -/
structure Spells (P : Prog) (d : Nat) (parent : APar) (args : ATys) : Prop where
  parent : parent.fill (.concrete .unspecified) = (P.parent d).fill (.concrete .unspecified)
  args : args.fill (.concrete .unspecified) = (P.args d).fill (.concrete .unspecified)
  repl : P.fromPartial d = false → ∀ i A, (P.args d).get? i = some A → SameShape A (P.repl d i)

/-- The arguments of an instance of a class template are known (not for partial specializations). -/
def classBinding (P : Prog) (d : Nat) (args : ATys) : Binding := fun o i =>
  if o = d ∧ P.isSpec d = true ∧ P.fromPartial d = false then args.get? i else none

/-- The arguments written after the name of a template are known. -/
def argsBinding (P : Prog) (f : Nat) (as : List (Option Written)) : Binding := fun o i =>
  if P.templ o = some f then
    match as[i]? with
    | some (some w) => some (inst P w.file noBinding w.ty)
    | _ => none
  else none

inductive Expr where
  /-- a variable or function; the qualifiers (from the right) and template arguments that are written -/
  | name (x : Nat) (quals : List Written) (targs : Option (List (Option Written)))
  | member (arrow : Bool) (e : Expr) (m : Nat) (targs : Option (List (Option Written)))
  /-- anything that does not change the value: conversion of lvalues to rvalues, qualification conversions, temporaries, copies and moves of
  class objects, `std::move`, `p++` -/
  | same (e : Expr)
  | decay (e : Expr)
  | addrOf (e : Expr)
  | deref (e : Expr)
  /-- `++p`, `--p` -/
  | preInc (e : Expr)
  | add (sub : Bool) (a b : Expr)
  | assign (a b : Expr)
  | comma (a b : Expr)
  | subscript (a i : Expr)
  | new (nothrow : Bool) (t : Written)
  | this (d : Nat)
  | call (f : Expr)
  /-- a call of a member operator -/
  | opCall (a : Expr) (m : Nat)
  /-- conversion to a base class; `b`: the last base specifier on the way -/
  | toBase (explicit : Bool) (e : Expr) (b : Nat)
  /-- a conversion to an unrelated type -/
  | bitCast (e : Expr) (t : ATy)
  | null (t : ATy)
  | nullAs (t : Written)
  | dynCast (e : Expr) (t : ATy)
  | int
  /-- anything else -/
  | other (t : ATy)

/-- Reinterpreting a pointer: its own nullability stays, nothing is known about what it points to. -/
def ATy.preserve : ATy → ATy → ATy
  | .ptr k t, .ptr _ t' => .ptr k (preserve t t')
  | _, t' => t'

/-- What is known from the template arguments written after a name. -/
def writtenBinding (P : Prog) (f : Nat) : Option (List (Option Written)) → Binding
  | some as => argsBinding P f as
  | none => noBinding

/-- What is known from qualifiers. -/
def qualBinding (P : Prog) : List Written → Binding
  | [] => noBinding
  | w :: l =>
    match inst P w.file noBinding w.ty with
    | .cls d none _ as => (classBinding P d as).or (qualBinding P l)
    | _ => qualBinding P l

/-- The types of expressions. Class types that are the base of `.` or `->` are not smart pointers; see `Example` for those. -/
inductive HasType (P : Prog) : Expr → ATy → Prop
  | name (x quals targs A) :
      (∀ w ∈ quals, ∃ d p as, inst P w.file noBinding w.ty = .cls d none p as ∧ Spells P d p as) →
      (targs ≠ none → P.packInside x = false) →
      (∀ as o i w, targs = some as → P.templ o = some (P.varTempl x) → as[i]? = some (some w) →
        SameShape (inst P w.file noBinding w.ty) (P.repl o i)) →
      A = (P.vars x).inst P ((qualBinding P quals).or (writtenBinding P (P.varTempl x) targs)) →
      ((P.vars x).over = none ∨ A.isPtr = true) → HasType P (.name x quals targs) A
  | member (e d p as m targs A) : HasType P e (.cls d none p as) → Spells P d p as →
      (targs ≠ none → P.packInside (P.memberTempl d m) = false) →
      (∀ ws o i w, targs = some ws → P.templ o = some (P.memberTempl d m) → ws[i]? = some (some w) →
        SameShape (inst P w.file noBinding w.ty) (P.repl o i)) →
      A = (P.members d m).inst P ((classBinding P d as).or (writtenBinding P (P.memberTempl d m) targs)) →
      ((P.members d m).over = none ∨ A.isPtr = true) → HasType P (.member false e m targs) A
  | arrow (e k d p as m targs A) : HasType P e (.ptr k (.cls d none p as)) → HasType P (.member false (.deref e) m targs) A →
      HasType P (.member true e m targs) A
  | same (e A) : HasType P e A → HasType P (.same e) A
  | decayArr (e t) : HasType P e (.arr t) → HasType P (.decay e) (.ptr (.concrete .nonnull) t)
  | decayFn (e r ps) : HasType P e (.fn r ps) → HasType P (.decay e) (.ptr (.concrete .nonnull) (.fn r ps))
  | addrOf (e t) : HasType P e t → HasType P (.addrOf e) (.ptr (.concrete .nonnull) t)
  | deref (e k t) : HasType P e (.ptr k t) → HasType P (.deref e) t
  | preIncPtr (e k t) : HasType P e (.ptr k t) → HasType P (.preInc e) (.ptr (.concrete .nonnull) t)
  | preInc (e k) : HasType P e (.leaf k) → HasType P (.preInc e) (.leaf k)
  | addL (s a b k t l) : HasType P a (.ptr k t) → HasType P b (.leaf l) → HasType P (.add s a b) (.ptr (.concrete .nonnull) t)
  | addR (a b k t l) : HasType P a (.leaf l) → HasType P b (.ptr k t) → HasType P (.add false a b) (.ptr (.concrete .nonnull) t)
  | diff (a b k k' t t') : HasType P a (.ptr k t) → HasType P b (.ptr k' t') → HasType P (.add true a b) (.leaf 0)
  | addInt (s a b k k') : HasType P a (.leaf k) → HasType P b (.leaf k') → HasType P (.add s a b) (.leaf 0)
  | assign (a b A B) : HasType P a A → HasType P b B → SameShape A B → HasType P (.assign a b) B
  | comma (a b B) : HasType P b B → HasType P (.comma a b) B
  | subscript (a i k t) : HasType P a (.ptr k t) → HasType P (.subscript a i) t
  | new (n w) : HasType P (.new n w) (.ptr (.concrete (if n then .nullable else .nonnull)) (inst P w.file noBinding w.ty))
  | this (d) : HasType P (.this d) (.ptr (.concrete .nonnull) (ATy.unspec (.cls d none (P.parent d) (P.args d))))
  | call (f r ps) : HasType P f (.fn r ps) → HasType P (.call f) r.noref
  | callPtr (f k r ps) : HasType P f (.ptr k (.fn r ps)) → HasType P (.call f) r.noref
  | opCall (e d p as m r ps) : HasType P e (.cls d none p as) → Spells P d p as → (P.members d m).over = none →
      inst P (P.members d m).file (classBinding P d as) (P.members d m).ty = .fn r ps → HasType P (.opCall e m) r.noref
  | toBase (e d p as b) : HasType P e (.cls d none p as) → Spells P d p as →
      HasType P (.toBase false e b) (inst P (P.bases b).file (classBinding P d as) (P.bases b).ty)
  | toBasePtr (e k d p as b) : HasType P e (.ptr k (.cls d none p as)) → Spells P d p as →
      HasType P (.toBase false e b) (.ptr k (inst P (P.bases b).file (classBinding P d as) (P.bases b).ty))
  | toBaseX (e d p as b) : HasType P e (.cls d none p as) → HasType P (.toBase true e b) (inst P 0 noBinding (P.bases b).ty).unspec
  | toBasePtrX (e k d p as b) : HasType P e (.ptr k (.cls d none p as)) →
      HasType P (.toBase true e b) (.ptr k (inst P 0 noBinding (P.bases b).ty).unspec)
  | bitCast (e A t) : HasType P e A → HasType P (.bitCast e t) (A.preserve t.unspec)
  | null (k t) : HasType P (.null (.ptr k t)) (.ptr (.concrete .nullable) t.unspec)
  | nullptr (k) : HasType P (.null (.leaf k)) (.leaf k)
  | nullAs (w k t) : inst P w.file noBinding w.ty = .ptr k t → HasType P (.nullAs w) (.ptr (.concrete .nullable) t)
  | dynCast (e k t) : HasType P (.dynCast e (.ptr k t)) (.ptr (.concrete .nullable) t.unspec)
  | int : HasType P .int (.leaf 0)
  | other (t) : HasType P (.other t) t.unspec

end Verif.ExprNull

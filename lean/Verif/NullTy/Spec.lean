/-!
# Nullability of types: specification

C++ types as Clang represents them: with all the ways to spell a type ("sugar").  Declarations and files are
numbers.  The specification is about the *canonical* type, which has no sugar.
-/

namespace Verif.NullTy

/-- `clang::NullabilityKind`. -/
inductive NK where
  | nonnull
  | nullable
  | unspecified
deriving DecidableEq, Repr

/-- Which argument of a template a parameter stands for: the `i`-th, or, in a parameter pack (which is last), the
`k`-th from the end. -/
inductive Ix where
  | at_ (i : Nat)
  | fromEnd (k : Nat)
deriving DecidableEq, Repr

mutual
/-- A type as spelled. -/
inductive Ty where
  /-- a type without parts -/
  | leaf (k : Nat)
  | ptr (t : Ty)
  | ref (t : Ty)
  | arr (t : Ty)
  | fn (ret : Ty) (params : Tys)
  /-- a class: its qualifiers as written, the declaration, whether it is a smart pointer, the enclosing class, the
  template arguments of the declaration -/
  | cls (quals : Quals) (d : Nat) (smart : Bool) (parent : Par) (args : Args)
  /-- a class template specialization as written: qualifiers, written arguments; then as `cls` -/
  | tst (quals : Quals) (written : Args) (d : Nat) (smart : Bool) (parent : Par) (args : Args)
  /-- a type with an attribute: a nullability annotation or another one -/
  | attr (nk : Option NK) (t : Ty)
  | paren (t : Ty)
  /-- a typedef, in a file -/
  | typedef (quals : Quals) (file : Nat) (t : Ty)
  /-- a use of an alias template: its declaration and file, the annotation on it, whether it only renames a
  template; the arguments, and the type it expands to -/
  | alias_ (quals : Quals) (templ : Nat) (file : Nat) (ann : Option NK) (transparent : Bool) (written : Args) (t : Ty)
  /-- a template parameter of `d` and the type it was replaced with -/
  | subst (d : Nat) (ix : Ix) (t : Ty)
  /-- other sugar -/
  | sugar (quals : Quals) (t : Ty)
inductive Tys where
  | nil
  | cons (t : Ty) (l : Tys)
/-- The enclosing class, if any. -/
inductive Par where
  | none
  | some (t : Ty)
/-- A template argument: a type, a pack, or something else. -/
inductive Arg where
  | ty (t : Ty)
  | pack (l : Args)
  | other (k : Nat)
inductive Args where
  | nil
  | cons (a : Arg) (l : Args)
/-- The qualifiers `foo<args>::` of a name, from the right: the declaration, whether it is an instance of a partial
specialization, and the arguments. -/
inductive Quals where
  | nil
  | cons (d : Nat) (partialSpec : Bool) (written : Args) (l : Quals)
end

def Args.length : Args → Nat
  | .nil => 0
  | .cons _ l => l.length + 1

def Args.drop : Nat → Args → Args
  | 0, l => l
  | _ + 1, .nil => .nil
  | n + 1, .cons _ l => l.drop n

def Args.get? : Args → Nat → Option Arg
  | .nil, _ => none
  | .cons a _, 0 => some a
  | .cons _ l, n + 1 => l.get? n

mutual
/-- The canonical type: no sugar anywhere. -/
def Ty.canon : Ty → Ty
  | .leaf k => .leaf k
  | .ptr t => .ptr t.canon
  | .ref t => .ref t.canon
  | .arr t => .arr t.canon
  | .fn r ps => .fn r.canon ps.canon
  | .cls _ d s p as => .cls .nil d s p.canon as.canon
  | .tst _ _ d s p as => .cls .nil d s p.canon as.canon
  | .attr _ t => t.canon
  | .paren t => t.canon
  | .typedef _ _ t => t.canon
  | .alias_ _ _ _ _ _ _ t => t.canon
  | .subst _ _ t => t.canon
  | .sugar _ t => t.canon
def Tys.canon : Tys → Tys
  | .nil => .nil
  | .cons t l => .cons t.canon l.canon
def Par.canon : Par → Par
  | .none => .none
  | .some t => .some t.canon
def Arg.canon : Arg → Arg
  | .ty t => .ty t.canon
  | .pack l => .pack l.canon
  | .other k => .other k
def Args.canon : Args → Args
  | .nil => .nil
  | .cons a l => .cons a.canon l.canon
end

mutual
/-- The pointers of a canonical type: "each nested PointerType encountered in a preorder traversal of the canonical
type" (`type_nullability.h`), smart pointers included. -/
def Ty.slots : Ty → List Ty
  | .ptr t => .ptr t :: t.slots
  | .ref t => t.slots
  | .arr t => t.slots
  | .fn r ps => r.slots ++ ps.slots
  | .cls qs d s p as => (if s then [.cls qs d s p as] else []) ++ p.slots ++ as.slots
  | _ => []
def Tys.slots : Tys → List Ty
  | .nil => []
  | .cons t l => t.slots ++ l.slots
def Par.slots : Par → List Ty
  | .none => []
  | .some t => t.slots
def Arg.slots : Arg → List Ty
  | .ty t => t.slots
  | .pack l => l.slots
  | .other _ => []
def Args.slots : Args → List Ty
  | .nil => []
  | .cons a l => a.slots ++ l.slots
end

/-- The type is a pointer, raw or smart. -/
def Ty.isPtr : Ty → Bool
  | .ptr _ => true
  | .cls _ _ s _ _ => s
  | _ => false

end Verif.NullTy

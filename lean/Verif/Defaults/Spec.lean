import Verif.Defaults.Model
/-
C53-C55: specification of default lifetimes.
-/
namespace Verif.Defaults

/-- A type without its lifetimes. -/
def Ty.erase : Ty → Ty
  | .prim _ => .prim []
  | .fnptr _ => .fnptr []
  | .error _ => .error []
  | .ptr k _ p => .ptr k [] p.erase
  | .decl id _ => .decl id []
  | .spec id _ a => .spec id [] a.erase

/-- The places of a parameter type that take a lifetime, innermost first, with the lifetimes found there: `this` and lvalue
references, and declarations with one lifetime parameter. Other pointers are raw pointers in Rust. -/
def inputSlots (ar : Arity) (isThis : Bool) : Ty → List (List Name)
  | .ptr k l p => if isThis ∨ k = .lvalueRef then inputSlots ar false p ++ [l] else []
  | .decl id l => if ar id = some 1 then [l] else []
  | .spec id l a => if ar id = some 1 then inputSlots ar false a ++ [l] else []
  | _ => []

/-- The outermost of these places. -/
def topSlot (ar : Arity) (isThis : Bool) (ty : Ty) : Option (List Name) := (inputSlots ar isThis ty).getLast?

/-- The places of a return type that take a lifetime. -/
def outputSlots (ar : Arity) : Ty → List (List Name)
  | .ptr .lvalueRef l p => outputSlots ar p ++ [l]
  | .decl id l => if ar id = some 1 then [l] else []
  | .spec id l a => outputSlots ar a ++ if ar id = some 1 then [l] else []
  | _ => []

/-- A parameter is the implicit `this` of a method. -/
def isThisParam (isCtor first : Bool) (p : Param) : Bool := first && p.name = sThis && !isCtor

/-- The places of all parameters. -/
def paramSlots (ar : Arity) (isCtor first : Bool) : List Param → List (List Name)
  | [] => []
  | p :: ps => inputSlots ar (isThisParam isCtor first p) p.ty ++ paramSlots ar isCtor false ps

/-- `Filled ρ before after fresh`: every place without a lifetime gets one of its own (`fresh` lists these), a place with the
lifetime `id` gets `ρ id` unless that is `unknown`, a place with several gets none. -/
inductive Filled (ρ : Name → Name) : List (List Name) → List (List Name) → List Name → Prop
  | nil : Filled ρ [] [] []
  | fresh {n os ns fs} : Filled ρ os ns fs → Filled ρ ([] :: os) ([n] :: ns) (n :: fs)
  | named {id os ns fs} : ρ id ≠ sUnknown → Filled ρ os ns fs → Filled ρ ([id] :: os) ([ρ id] :: ns) fs
  | unknown {id os ns fs} : ρ id = sUnknown → Filled ρ os ns fs → Filled ρ ([id] :: os) ([] :: ns) fs
  | several {a b l os ns fs} : Filled ρ os ns fs → Filled ρ ((a :: b :: l) :: os) ([] :: ns) fs

def Ty.isPtr : Ty → Bool
  | .ptr .. => true
  | _ => false

/-- The slot of `this`, if it is a pointer. -/
def thisSlot (isCtor : Bool) : List Param → Option (List Name)
  | p :: _ => if isThisParam isCtor true p then (match p.ty with | .ptr _ l _ => some l | _ => none) else none
  | [] => none

/-- The outermost slots of the parameters other than a `this` pointer. -/
def otherSlots (ar : Arity) (isCtor : Bool) : Bool → List Param → List (List Name)
  | _, [] => []
  | first, p :: ps =>
    (if isThisParam isCtor first p && p.ty.isPtr then [] else (topSlot ar false p.ty).toList) ++
      otherSlots ar isCtor false ps

/-- The lifetime for the result: that of `this`; without `this`, the lifetime that all outermost places of the parameters
share, if there is any such place. -/
def Elided (this : Option (List Name)) (others : List (List Name)) (h : List Name) : Prop :=
  match this with
  | some l => h = l
  | none => (∃ n, h = [n] ∧ others ≠ [] ∧ ∀ s ∈ others, s = [n]) ∨ (h = [] ∧ ¬ ∃ n, others ≠ [] ∧ ∀ s ∈ others, s = [n])

/-- The return type before and after: lifetimes written by the user are kept (renamed), other places get `h`; if there is
none, references become raw non-null pointers. -/
inductive Out (ar : Arity) (ρ : Name → Name) (h : List Name) : Ty → Ty → Prop
  | prim {l} : Out ar ρ h (.prim l) (.prim l)
  | fnptr {l} : Out ar ρ h (.fnptr l) (.fnptr l)
  | error {l} : Out ar ρ h (.error l) (.error l)
  | rawPtr {k l p} : k ≠ .lvalueRef → Out ar ρ h (.ptr k l p) (.ptr k l p)
  | refNamed {l p} : l ≠ [] → Out ar ρ h (.ptr .lvalueRef l p) (.ptr .lvalueRef (l.map ρ) p)
  | refElided {p p'} : h ≠ [] → Out ar ρ h p p' → Out ar ρ h (.ptr .lvalueRef [] p) (.ptr .lvalueRef h p')
  | refRaw {p p'} : h = [] → Out ar ρ h p p' → Out ar ρ h (.ptr .lvalueRef [] p) (.ptr .nonNull [] p')
  | declNone {id l} : ar id ≠ some 1 → Out ar ρ h (.decl id l) (.decl id l)
  | declNamed {id l} : ar id = some 1 → l ≠ [] → Out ar ρ h (.decl id l) (.decl id (if sUnknown ∈ l.map ρ then [] else l.map ρ))
  | declElided {id} : ar id = some 1 → Out ar ρ h (.decl id []) (.decl id h)
  | specNone {id l a a'} : ar id ≠ some 1 → Out ar ρ h a a' → Out ar ρ h (.spec id l a) (.spec id l a')
  | specNamed {id l a a'} : ar id = some 1 → l ≠ [] → Out ar ρ h a a' →
      Out ar ρ h (.spec id l a) (.spec id (if sUnknown ∈ l.map ρ then [] else l.map ρ) a')
  | specElided {id a a'} : ar id = some 1 → Out ar ρ h a a' → Out ar ρ h (.spec id [] a) (.spec id h a')

/-- The lifetime names an enclosing item binds, as written in the source. -/
def Encl.binders : Encl → List Name
  | .func inputs => inputs
  | .record arity inputs => if arity ≠ inputs.length then List.replicate arity sImplicit else inputs
  | .other => []

/-- Binding names one after the other in a new context, as specified in `Step`: results `rs`, open bindings `scopes`, used
names `used`. -/
def Binds (ids : List Name) (rs : List Name) (scopes : Scopes) (used : List Name) : Prop :=
  Runs [(sUnknown, sUnknown), (sStatic, sStatic)] [sUnknown, sStatic] (ids.map .bind) (rs.map some) scopes used

/-- A pointer regarded as a reference. -/
def Ty.asRef : Ty → Ty
  | .ptr _ l p => .ptr .lvalueRef l p
  | t => t

/-- Everything about the parameters but their lifetimes and whether `this` is a pointer or a reference. -/
def paramShapes (isCtor : Bool) : Bool → List Param → List (Name × Bool × Ty)
  | _, [] => []
  | first, p :: ps =>
    (p.name, p.bound, if isThisParam isCtor first p then p.ty.erase.asRef else p.ty.erase) :: paramShapes isCtor false ps

/-- No reference with a lifetime refers to something with lifetimes. -/
def PlainRefs (ar : Arity) : Ty → Prop
  | .ptr .lvalueRef l p => (l ≠ [] → ∀ x ∈ outputSlots ar p, x = []) ∧ PlainRefs ar p
  | .spec _ _ a => PlainRefs ar a
  | _ => True

end Verif.Defaults

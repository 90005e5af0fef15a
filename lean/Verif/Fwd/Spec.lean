import Verif.Fwd.Model

/-!
# When two Rust types are the same C++ type

The specification speaks of types only, not of names.
-/
namespace Verif.Fwd

/-- What a pointer allows. -/
inductive Access where
  | read
  | write
deriving DecidableEq

def Ptr.access : Ptr → Access
  | .const | .ref _ | .pinRef _ | .cref _ => .read
  | .mut | .mutRef _ | .pinMut _ | .cmut _ => .write

/-- How long it is valid; raw pointers have no lifetime. -/
def Ptr.lifetime : Ptr → Option Nat
  | .const | .mut => none
  | .ref a | .pinRef a | .cref a | .mutRef a | .pinMut a | .cmut a => some a

/-- A type declared or defined under a name. -/
inductive Declares (E : Env) : Ty → List Char → Prop
  | forward (s d) : Declares E (.inc s d) s
  | define (c) : Declares E (.complete c) (E.name c)

/-- The same C++ type: declared under one name, or pointers that allow the same for the same
time to the same type, or arrays of the same type of the same length. Slices are the same as
slices - and as arrays of the length `usize::MAX`. -/
inductive Same (E : Env) : Ty → Ty → Prop
  | decl (t u s) : Declares E t s → Declares E u s → Same E t u
  | ptr (k l t u) : k.access = l.access → k.lifetime = l.lifetime → Same E t u →
      Same E (.ptr k t) (.ptr l u)
  | arr (n t u) : Same E t u → Same E (.arr n t) (.arr n u)
  | slice (t u) : Same E t u → Same E (.slice t) (.slice u)
  | arrSlice (t u) : Same E t u → Same E (.arr (2 ^ 64 - 1) t) (.slice u)
  | sliceArr (t u) : Same E t u → Same E (.slice t) (.arr (2 ^ 64 - 1) u)

/-- What may be moved in memory: not a forward declaration. -/
inductive Movable (E : Env) : Ty → Prop
  | complete (c) : E.unpin c = true → Movable E (.complete c)
  | ptr (k t) : Movable E (.ptr k t)
  | arr (n t) : Movable E t → Movable E (.arr n t)
  | slice (t) : Movable E t → Movable E (.slice t)
  | other (c) : Movable E (.other c)

/-- How many bytes a value has. A slice has no such number. -/
inductive HasBytes (E : Env) : Ty → Nat → Prop
  | inc (s d) : HasBytes E (.inc s d) 0
  | complete (c) : HasBytes E (.complete c) (E.size c)
  | fat (k t) : HasBytes E (.ptr k (.slice t)) 16
  | thin (k t) : (∀ w, t ≠ .slice w) → HasBytes E (.ptr k t) 8
  | arr (n t b) : HasBytes E t b → HasBytes E (.arr n t) (n * b)
  | other (c) : HasBytes E (.other c) (E.size c)

/-- Contains a forward declaration, or a type that can be forward-declared, only; with
`&mut` only to what may be moved, and arrays only of elements with a size. -/
inductive Formed (E : Env) : Ty → Prop
  | decl (t s) : Declares E t s → Formed E t
  | ptr (k t) : Formed E t → (∀ a, k = .mutRef a → Movable E t) → Formed E (.ptr k t)
  | arr (n t) : Formed E t → (∀ w, t ≠ .slice w) → Formed E (.arr n t)
  | slice (t) : Formed E t → (∀ w, t ≠ .slice w) → Formed E (.slice t)

/-- A type whose values are really there: no forward declaration outside of pointers. -/
inductive Solid : Ty → Prop
  | complete (c) : Solid (.complete c)
  | ptr (k t) : Solid (.ptr k t)
  | arr (n t) : Solid t → Solid (.arr n t)

/-- No array of the length `usize::MAX` in it. -/
def NoHuge : Ty → Prop
  | .ptr _ t => NoHuge t
  | .arr n t => n ≠ 2 ^ 64 - 1 ∧ NoHuge t
  | .slice t => NoHuge t
  | _ => True

end Verif.Fwd

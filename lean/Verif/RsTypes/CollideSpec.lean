import Verif.RsTypes.Spec

/-
Specification vocabulary for C166: when two C++ types are the same type on a target.
-/

namespace Verif.RsTypes

mutual
/-- A C++ type after typedefs like `int64_t` and `intptr_t` have been resolved. -/
def CTy.resolve (f : String → String) : CTy → CTy
  | .prim p => .prim (f p)
  | .cls n => .cls n
  | .ptr k c t => .ptr k c (t.resolve f)
  | .tmpl n as => .tmpl n (as.resolve f)
  | .fn r ps => .fn (r.resolve f) (ps.resolve f)
def CArgs.resolve (f : String → String) : CArgs → CArgs
  | .nil => .nil
  | .ty c t as => .ty c (t.resolve f) (as.resolve f)
  | .nat n as => .nat n (as.resolve f)
end

/-- A target's typedefs: types of 32 and 64 bits differ. -/
structure Target (f : String → String) : Prop where
  int : f "int32_t" ≠ f "int64_t"
  uint : f "uint32_t" ≠ f "uint64_t"

/-- The usual typedefs with pointers of 64 or 32 bits. -/
def usual (ptr64 : Bool) (s : String) : String :=
  if s = "intptr_t" then (if ptr64 then "int64_t" else "int32_t")
  else if s = "uintptr_t" then (if ptr64 then "uint64_t" else "uint32_t")
  else s

/-- Integers behind any number of references, pointers, slices and arrays. -/
def chain : RTy → Bool
  | .int _ _ => true
  | .ref _ _ t => chain t
  | .raw _ t => chain t
  | .slice t => chain t
  | .array t _ => chain t
  | _ => false

end Verif.RsTypes

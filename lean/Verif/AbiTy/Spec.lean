/-
Specification vocabulary for ABI types in generated code (C179): types and expressions of Rust and C++, how they are written,
which types expressions have, and which Rust and C++ types describe the same bytes (support/bridge.h,
support/crubit_bridge_rust/src/bridge.rs; see C01, C02).
-/

namespace Verif.AbiTy

abbrev Toks := List String

/-- With a token between -/
def sepBy (s : String) : List Toks → Toks
  | [] => []
  | [a] => a
  | a :: b :: l => a ++ s :: sepBy s (b :: l)

/-- A path, possibly with `::` before -/
structure Path where
  lead : Bool
  parts : List String
deriving DecidableEq

def Path.toks (p : Path) : Toks := (if p.lead then ["::"] else []) ++ sepBy "::" (p.parts.map fun x => [x])

/-! ### Rust -/

/-- Rust types -/
inductive RTy where
  /-- a type that is given by its tokens -/
  | given (ts : Toks)
  | path (p : Path) (args : List RTy)
  | pair (a b : RTy)
  | constPtr (t : RTy)
  | mutPtr (t : RTy)
  | slice (t : RTy)
  | cref (t : RTy)
  | cmut (t : RTy)

mutual
def RTy.toks : RTy → Toks
  | .given ts => ts
  | .path p [] => p.toks
  | .path p (a :: as) => p.toks ++ "<" :: sepBy "," (RTy.toksL (a :: as)) ++ [">"]
  | .pair a b => "(" :: a.toks ++ "," :: b.toks ++ [")"]
  | .constPtr t => "*" :: "const" :: t.toks
  | .mutPtr t => "*" :: "mut" :: t.toks
  | .slice t => "[" :: t.toks ++ ["]"]
  | .cref t => ["::", "cref", "::", "CRef", "<", "'static", ","] ++ t.toks ++ [">"]
  | .cmut t => ["::", "cref", "::", "CMut", "<", "'static", ","] ++ t.toks ++ [">"]
def RTy.toksL : List RTy → List Toks
  | [] => []
  | a :: as => a.toks :: RTy.toksL as
end

/-- Rust expressions -/
inductive RExpr where
  | given (ts : Toks)
  /-- `::bridge_rust::transmute_abi::<T>()` -/
  | transmute (t : RTy)
  /-- `Path` or `Path(…)` -/
  | path (p : Path) (args : List RExpr)
  /-- `Path(::core::marker::PhantomData)` -/
  | phantom (p : Path)
  | pair (a b : RExpr)

mutual
def RExpr.toks : RExpr → Toks
  | .given ts => ts
  | .transmute t => ["::", "bridge_rust", "::", "transmute_abi", "::", "<"] ++ t.toks ++ [">", "(", ")"]
  | .path p [] => p.toks
  | .path p (a :: as) => p.toks ++ "(" :: sepBy "," (RExpr.toksL (a :: as)) ++ [")"]
  | .phantom p => p.toks ++ ["(", "::", "core", "::", "marker", "::", "PhantomData", ")"]
  | .pair a b => "(" :: a.toks ++ "," :: b.toks ++ [")"]
def RExpr.toksL : List RExpr → List Toks
  | [] => []
  | a :: as => a.toks :: RExpr.toksL as
end

def transmuteR : Path := ⟨true, ["bridge_rust", "TransmuteAbi"]⟩

mutual
/-- Rust expressions have these types: ABI types are structs without fields, structs with a field for each parameter, or
`TransmuteAbi`. `G`: the types of given expressions. -/
inductive RHas (G : Toks → RTy → Prop) : RExpr → RTy → Prop where
  | given {ts : Toks} {t : RTy} : G ts t → RHas G (.given ts) t
  | transmute (t : RTy) : RHas G (.transmute t) (.path transmuteR [t])
  | path {p : Path} {es : List RExpr} {ts : List RTy} : p ≠ transmuteR → RHasL G es ts → RHas G (.path p es) (.path p ts)
  | phantom (p : Path) (t : RTy) : RHas G (.phantom p) (.path p [t])
  | pair {a b : RExpr} {s t : RTy} : RHas G a s → RHas G b t → RHas G (.pair a b) (.pair s t)
inductive RHasL (G : Toks → RTy → Prop) : List RExpr → List RTy → Prop where
  | nil : RHasL G [] []
  | cons {e : RExpr} {t : RTy} {es : List RExpr} {ts : List RTy} : RHas G e t → RHasL G es ts → RHasL G (e :: es) (t :: ts)
end

/-! ### C++ -/

/-- C++ types -/
inductive CTy where
  | given (ts : Toks)
  | path (p : Path) (args : List CTy)
  | const (t : CTy)
  | ptr (t : CTy)
  | ref (t : CTy)

mutual
def CTy.toks : CTy → Toks
  | .given ts => ts
  | .path p [] => p.toks
  | .path p (a :: as) => p.toks ++ "<" :: sepBy "," (CTy.toksL (a :: as)) ++ [">"]
  | .const t => "const" :: t.toks
  | .ptr t => t.toks ++ ["*"]
  | .ref t => t.toks ++ ["&"]
def CTy.toksL : List CTy → List Toks
  | [] => []
  | a :: as => a.toks :: CTy.toksL as
end

/-- A type before which `const` can be written: not a pointer or reference, of which it would qualify the pointee. -/
def CTy.Simple : CTy → Prop
  | .given ts => ts.getLast? ≠ some "*" ∧ ts.getLast? ≠ some "&"
  | .path _ _ => True
  | _ => False

/-- C++ expressions -/
inductive CExpr where
  | given (ts : Toks)
  /-- `T(…)` -/
  | make (t : CTy) (args : List CExpr)

mutual
def CExpr.toks : CExpr → Toks
  | .given ts => ts
  | .make t as => t.toks ++ "(" :: sepBy "," (CExpr.toksL as) ++ [")"]
def CExpr.toksL : List CExpr → List Toks
  | [] => []
  | a :: as => a.toks :: CExpr.toksL as
end

def transmuteC : Path := ⟨true, ["crubit", "TransmuteAbi"]⟩

def boxedC : Path := ⟨true, ["crubit", "BoxedAbi"]⟩

mutual
/-- C++ expressions have these types: `TransmuteAbi` and `BoxedAbi` have no fields, others have a field for each parameter. -/
inductive CHas (G : Toks → CTy → Prop) : CExpr → CTy → Prop where
  | given {ts : Toks} {t : CTy} : G ts t → CHas G (.given ts) t
  | transmute (t : CTy) : CHas G (.make (.path transmuteC [t]) []) (.path transmuteC [t])
  | boxed (t : CTy) : CHas G (.make (.path boxedC [t]) []) (.path boxedC [t])
  | make {p : Path} {es : List CExpr} {ts : List CTy} : p ≠ transmuteC → p ≠ boxedC → CHasL G es ts → CHas G (.make (.path p ts) es) (.path p ts)
inductive CHasL (G : Toks → CTy → Prop) : List CExpr → List CTy → Prop where
  | nil : CHasL G [] []
  | cons {e : CExpr} {t : CTy} {es : List CExpr} {ts : List CTy} : CHas G e t → CHasL G es ts → CHasL G (e :: es) (t :: ts)
end

/-! ### The same bytes -/

/-- Values of these types have the same bytes. `L`: for types that are given. -/
inductive SameValue (L : Toks → Toks → Prop) : RTy → CTy → Prop where
  | given {r c : Toks} : L r c → SameValue L (.given r) (.given c)
  | constPtr (r : RTy) {c : CTy} : c.Simple → SameValue L (.constPtr r) (.ptr (.const c))
  | mutPtr (r : RTy) (c : CTy) : SameValue L (.mutPtr r) (.ptr c)
  | cref (r : RTy) {c : CTy} : c.Simple → SameValue L (.cref r) (.ptr (.const c))
  | cmut (r : RTy) (c : CTy) : SameValue L (.cmut r) (.ptr c)
  | constSlice (r : RTy) {c : CTy} : c.Simple →
      SameValue L (.constPtr (.slice r)) (.path ⟨true, ["rs_std", "SliceRef"]⟩ [.const c])
  | mutSlice (r : RTy) (c : CTy) : SameValue L (.mutPtr (.slice r)) (.path ⟨true, ["rs_std", "SliceRef"]⟩ [c])
  | crefSlice (r : RTy) {c : CTy} : c.Simple →
      SameValue L (.cref (.slice r)) (.path ⟨true, ["rs_std", "SliceRef"]⟩ [.const c])
  | cmutSlice (r : RTy) (c : CTy) : SameValue L (.cmut (.slice r)) (.path ⟨true, ["rs_std", "SliceRef"]⟩ [c])

mutual
/-- These ABI types encode values in the same way. `U`: ABIs of users, `M`: Rust and C++ messages, `F`: given ABI types. -/
inductive SameAbi (L : Toks → Toks → Prop) (U : Path → Path → Prop) (M : Path → Path → Path → Prop)
    (F : Toks → Toks → Prop) : RTy → CTy → Prop where
  | transmute {r : RTy} {c : CTy} : SameValue L r c → SameAbi L U M F (.path transmuteR [r]) (.path transmuteC [c])
  | pair {r s : RTy} {c d : CTy} : SameAbi L U M F r c → SameAbi L U M F s d →
      SameAbi L U M F (.pair r s) (.path ⟨true, ["crubit", "PairAbi"]⟩ [c, d])
  | string {p : Path} : p = ⟨false, ["crate", "std", "BoxedCppStringAbi"]⟩ ∨ p = ⟨true, ["cc_std", "std", "BoxedCppStringAbi"]⟩ →
      SameAbi L U M F (.path p []) (.path boxedC [.path ⟨false, ["std", "string"]⟩ []])
  | message {b r c : Path} : M b r c → SameAbi L U M F (.path b [.path r []]) (.path boxedC [.path c []])
  | user {r c : Path} {rs : List RTy} {cs : List CTy} : U r c → SameAbiL L U M F rs cs →
      SameAbi L U M F (.path r rs) (.path c cs)
  | given {r c : Toks} : F r c → SameAbi L U M F (.given r) (.given c)
inductive SameAbiL (L : Toks → Toks → Prop) (U : Path → Path → Prop) (M : Path → Path → Path → Prop)
    (F : Toks → Toks → Prop) : List RTy → List CTy → Prop where
  | nil : SameAbiL L U M F [] []
  | cons {r : RTy} {c : CTy} {rs : List RTy} {cs : List CTy} : SameAbi L U M F r c → SameAbiL L U M F rs cs →
      SameAbiL L U M F (r :: rs) (c :: cs)
end

/-! ### Paths in annotations -/

/-- With `::` between -/
def colons : List (List Char) → List Char
  | [] => []
  | [a] => a
  | a :: b :: l => a ++ ':' :: ':' :: colons (b :: l)

/-- A path as users write it -/
def pathText (lead : Bool) (parts : List (List Char)) : List Char := (if lead then [':', ':'] else []) ++ colons parts

end Verif.AbiTy

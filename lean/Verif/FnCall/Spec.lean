/-!
# Calling a Rust function through its generated C++ binding: specification

`cc_bindings_from_rs` gives every supported Rust function `fn f(a: A, …) -> R` a C++ function of the
same name.  What a C++ programmer relies on does not mention thunks, slots, `void*` arrays or
buffers:

* `f`'s body sees exactly the argument values the C++ caller passed (translated to the Rust side of
  the type where the two languages spell the type differently), and the C++ caller gets back exactly
  what the body returned;
* a value that owns something has one owner at every moment: an argument belongs to Rust once the
  body starts, and the C++ parameter that held it releases nothing when it goes out of scope; the
  returned value belongs to the C++ caller and nothing else releases it.

This file is that statement's vocabulary: values, types, and what "translated" means.
-/

namespace Verif.FnCall

/-- An atomic value: the thing it owns (a heap allocation, a handle, …), if any, and its contents. -/
structure Leaf where
  res : Option Nat
  val : Nat
deriving DecidableEq, Repr

/-- A value of either language: atomic, or a tuple. -/
inductive Val where
  | leaf (l : Leaf)
  | tup (vs : List Val)
deriving Repr

mutual
/-- Equality test on values, so that closed examples can be evaluated. -/
def Val.eqb : Val → Val → Bool
  | .leaf a, .leaf b => decide (a = b)
  | .tup as, .tup bs => Val.eqbs as bs
  | _, _ => false
def Val.eqbs : List Val → List Val → Bool
  | [], [] => true
  | a :: as, b :: bs => Val.eqb a b && Val.eqbs as bs
  | _, _ => false
end

/-- The types of parameters and results, by the way bindings treat them.

* `scalar drop`: passed by value across the C ABI (integers, floats, `bool`, raw pointers,
  references, function pointers, `repr(transparent)` wrappers of those).  `drop` says whether the
  type has drop glue; only the `repr(transparent)` wrappers can have it.
* `adt drop`: any other struct, enum, union or array, whose C++ counterpart has the same layout.
* `legacyPtr conv`: a Rust type annotated to appear in C++ as a raw pointer; `conv` names the
  conversion functions if there are any, otherwise it is transmuted.
* `legacyVal conv drop`: a Rust type annotated to appear as some other C++ type.
* `composable k`: a type translated by encoding into a byte buffer (`Option`, strings, …).
* `tup ts`: a tuple; `tup []` is `()`. -/
inductive Ty where
  | scalar (drop : Bool)
  | adt (drop : Bool)
  | legacyPtr (conv : Option Nat)
  | legacyVal (conv : Option Nat) (drop : Bool)
  | composable (k : Nat)
  | tup (ts : List Ty)
deriving Repr

/-- The user-supplied translations: the annotated conversion functions (`toRust`, `toCpp`, and what
the clone made by a `toCpp` owns), and the two halves of the buffer codec. -/
structure Convs where
  toRust : Nat → Nat → Nat
  toCpp : Nat → Nat → Nat
  cloneRes : Nat → Nat
  cEnc : Nat → Nat → Nat
  rDec : Nat → Nat → Nat
  rEnc : Nat → Nat → Nat
  cDec : Nat → Nat → Nat

mutual
/-- What the Rust body must see when C++ passes `v`. -/
def rustOf (K : Convs) : Ty → Val → Val
  | .legacyPtr (some k), .leaf l => .leaf { l with val := K.toRust k l.val }
  | .legacyVal (some k) _, .leaf l => .leaf { l with val := K.toRust k l.val }
  | .composable k, .leaf l => .leaf { l with val := K.rDec k (K.cEnc k l.val) }
  | .tup ts, .tup vs => .tup (rustOfs K ts vs)
  | _, v => v
def rustOfs (K : Convs) : List Ty → List Val → List Val
  | t :: ts, v :: vs => rustOf K t v :: rustOfs K ts vs
  | _, _ => []
end

mutual
/-- What the C++ caller must get when the Rust body returns `v`.  An annotated conversion function
takes the Rust value by reference, so what C++ gets is a clone. -/
def cppOf (K : Convs) : Ty → Val → Val
  | .legacyPtr (some k), .leaf l => .leaf ⟨l.res.map K.cloneRes, K.toCpp k l.val⟩
  | .legacyVal (some k) _, .leaf l => .leaf ⟨l.res.map K.cloneRes, K.toCpp k l.val⟩
  | .composable k, .leaf l => .leaf { l with val := K.cDec k (K.rEnc k l.val) }
  | .tup ts, .tup vs => .tup (cppOfs K ts vs)
  | _, v => v
def cppOfs (K : Convs) : List Ty → List Val → List Val
  | t :: ts, v :: vs => cppOf K t v :: cppOfs K ts vs
  | _, _ => []
end

mutual
/-- Everything a value owns. -/
def Val.owns : Val → List Nat
  | .leaf l => l.res.toList
  | .tup vs => ownsAll vs
def ownsAll : List Val → List Nat
  | [] => []
  | v :: vs => v.owns ++ ownsAll vs
end

mutual
/-- What Rust still owns of its own return value `v` after C++ got `cppOf v`, and so must drop:
the originals of the values that were cloned by a conversion function. -/
def originals : Ty → Val → List Nat
  | .legacyPtr (some _), .leaf l => l.res.toList
  | .legacyVal (some _) _, .leaf l => l.res.toList
  | .tup ts, .tup vs => originalsAll ts vs
  | _, _ => []
def originalsAll : List Ty → List Val → List Nat
  | t :: ts, v :: vs => originals t v ++ originalsAll ts vs
  | _, _ => []
end

mutual
/-- `v` is a value of type `t`: the shape matches, and a type without drop glue owns nothing. -/
def HasTy : Ty → Val → Prop
  | .scalar d, .leaf l => d = false → l.res = none
  | .adt d, .leaf l => d = false → l.res = none
  | .legacyPtr _, .leaf l => l.res = none
  | .legacyVal _ d, .leaf l => d = false → l.res = none
  | .composable _, .leaf _ => True
  | .tup ts, .tup vs => HasTys ts vs
  | _, _ => False
def HasTys : List Ty → List Val → Prop
  | [], [] => True
  | t :: ts, v :: vs => HasTy t v ∧ HasTys ts vs
  | _, _ => False
end

mutual
/-- No type that is passed by value across the C ABI has drop glue.  (A `repr(transparent)` wrapper
with a `Drop` implementation violates this; the bindings do not reject it.) -/
def ScalarsTrivial : Ty → Prop
  | .scalar d => d = false
  | .tup ts => ScalarsTrivialAll ts
  | _ => True
def ScalarsTrivialAll : List Ty → Prop
  | [] => True
  | t :: ts => ScalarsTrivial t ∧ ScalarsTrivialAll ts
end

mutual
/-- The two languages store a value of the type in the same bytes: no conversion is involved. -/
def SameBytes : Ty → Prop
  | .legacyPtr c => c = none
  | .legacyVal c _ => c = none
  | .composable _ => False
  | .tup ts => SameBytesAll ts
  | _ => True
def SameBytesAll : List Ty → Prop
  | [] => True
  | t :: ts => SameBytes t ∧ SameBytesAll ts
end

mutual
/-- The tuples the bindings accept.  Without the `LayoutCompatTuple` feature a tuple must not contain
a buffer-encoded type (`format_type.rs:426–440` refuses it); with the feature (`lct`) a tuple is one
object with one layout, so its elements must have the same bytes in both languages. -/
def TuplesOk (lct : Bool) : Ty → Prop
  | .tup ts => (lct = true → SameBytesAll ts) ∧ TuplesOkAll lct ts
  | _ => True
def TuplesOkAll (lct : Bool) : List Ty → Prop
  | [] => True
  | t :: ts => (∀ k, t ≠ .composable k) ∧ TuplesOk lct t ∧ TuplesOkAll lct ts
end

end Verif.FnCall

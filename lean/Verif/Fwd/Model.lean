/-!
# Forward declarations

Models `/repo/support/forward_declare.rs`: which types implement `CppType`, with which `Name`,
and `cpp_coerce`. Symbols are texts (`symbol!`, lines 218-232 and
/repo/support/forward_declare_proc_macros.rs lines 8-24: a type for each text, another for each
other text, as the tuple of its characters determines it). Lifetimes are numbers. Pointers have
8 bytes (16 with a length).
-/
namespace Verif.Fwd

/-- All pointers and references for which there are `impl`s, lines 374-392 and 492-606. -/
inductive Ptr where
  | const
  | mut
  | ref (a : Nat)
  | pinRef (a : Nat)
  | cref (a : Nat)
  | mutRef (a : Nat)
  | pinMut (a : Nat)
  | cmut (a : Nat)
deriving DecidableEq

/-- Types: `Incomplete<symbol, declarer>` (line 304), types named with `unsafe_define!` (lines
361-369), pointers, arrays (line 408), slices (line 449), and types without `CppType`. -/
inductive Ty where
  | inc (symbol : List Char) (declarer : Nat)
  | complete (c : Nat)
  | ptr (k : Ptr) (t : Ty)
  | arr (n : Nat) (t : Ty)
  | slice (t : Ty)
  | other (c : Nat)
deriving DecidableEq

/-- The complete types of a program: the name given with `unsafe_define!` (lines 361-369), the
size, and whether they are `Unpin`. -/
structure Env where
  name : Nat → List Char
  size : Nat → Nat
  unpin : Nat → Bool

/-- The types used as `Name` (lines 351, 366, 378, 388, 412, 455, 500, 570). -/
inductive Name where
  | sym (s : List Char)
  | const (n : Name)
  | mut (n : Name)
  | arr (k : Nat) (n : Name)
  | ref (a : Nat) (n : Name)
  | mutRef (a : Nat) (n : Name)
deriving DecidableEq

/-- `usize::MAX`, line 455. -/
def usizeMax : Nat := 2 ^ 64 - 1

/-- `Unpin`: not for `Incomplete` (line 311), for all pointers, for arrays and slices as for
their elements. -/
def Ty.unpin (E : Env) : Ty → Bool
  | .inc _ _ => false
  | .complete c => E.unpin c
  | .ptr _ _ => true
  | .arr _ t => t.unpin E
  | .slice t => t.unpin E
  | .other _ => true

/-- `Sized`: all types but slices; `Incomplete` is, as its field `Unsized` is `()` (line 292). -/
def Ty.sized : Ty → Bool
  | .slice _ => false
  | _ => true

/-- `CppType::Name`; `none` if there is no `impl`. Lines 350-460 and 492-606. -/
def cppName (E : Env) : Ty → Option Name
  | .inc s _ => some (.sym s)
  | .complete c => some (.sym (E.name c))
  | .ptr .const t => (cppName E t).map .const
  | .ptr .mut t => (cppName E t).map .mut
  | .ptr (.ref a) t => (cppName E t).map (.ref a)
  | .ptr (.pinRef a) t => (cppName E t).map (.ref a)
  | .ptr (.cref a) t => (cppName E t).map (.ref a)
  | .ptr (.mutRef a) t => if t.unpin E then (cppName E t).map (.mutRef a) else none
  | .ptr (.pinMut a) t => (cppName E t).map (.mutRef a)
  | .ptr (.cmut a) t => (cppName E t).map (.mutRef a)
  | .arr n t => if t.sized then (cppName E t).map (.arr n) else none
  | .slice t => if t.sized then (cppName E t).map (.arr usizeMax) else none
  | .other _ => none

/-- `size_of`, lines 304 (no fields of any size), 622; of a slice: unused. -/
def Ty.size (E : Env) : Ty → Nat
  | .inc _ _ => 0
  | .complete c => E.size c
  | .ptr _ t => if t.sized then 8 else 16
  | .arr n t => n * t.size E
  | .slice _ => 0
  | .other c => E.size c

/-- What becomes of a cast: it does not compile, it panics, or it gives the bytes of a value. -/
inductive Outcome where
  | rejected
  | panic
  | ok (bytes : List Nat)
deriving DecidableEq

/-- The bounds `T: CppType, U: CppType<Name = T::Name>`, lines 618-619 and 630-631. -/
def bound (E : Env) (t u : Ty) : Bool :=
  match cppName E t, cppName E u with
  | some n, some m => n == m
  | _, _ => false

/-- `CppCoerce::cpp_coerce` of the bytes of a value, lines 616-626; `T` and `U` are `Sized`. -/
def coerce (E : Env) (t u : Ty) (v : List Nat) : Outcome :=
  if t.sized && u.sized && bound E t u then
    if t.size E = u.size E then .ok (v.take (u.size E)) else .panic
  else .rejected

/-- A `Vec`: the bytes allocated, the length and the capacity in elements; lines 633-636. -/
structure RawVec where
  bytes : List Nat
  len : Nat
  cap : Nat
deriving DecidableEq

/-- `cpp_coerce` of `Vec<&'a T>` to `Vec<&'a U>`, lines 628-637; `none`: it does not compile.
`T` and `U` need not be `Sized`. -/
def coerceVec (E : Env) (t u : Ty) (v : RawVec) : Option RawVec :=
  if bound E t u then some v else none

end Verif.Fwd

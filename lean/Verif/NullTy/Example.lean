import Verif.NullTy.Rebuild

/-!
# Examples
-/

namespace Verif.NullTy.Example

open Verif.NullTy

def int_ : Ty := .leaf 0
def float_ : Ty := .leaf 1
def char_ : Ty := .leaf 2
def one (t : Ty) : Args := .cons (.ty t) .nil
def two (t u : Ty) : Args := .cons (.ty t) (.cons (.ty u) .nil)

/-! The example of the comment in `type_nullability.cc`, with pointers:

    template <class T> struct Outer { template <class U> struct Inner { using Pair = std::pair<T, U>; }; };
    template <class X> struct S { using Type = typename Outer<int* _Nonnull>::Inner<X>::Pair; };
    using Target = S<float* _Nullable>::Type;
-/

def pInt : Ty := .ptr int_
def pFloat : Ty := .ptr float_
/-- `std::pair<T, U>`. -/
def pairTU : Ty :=
  .tst .nil (two (.subst 1 (.at_ 0) pInt) (.subst 2 (.at_ 0) pFloat)) 3 false .none (two pInt pFloat)
def type_ : Ty :=
  .typedef (.cons 2 false (one (.subst 4 (.at_ 0) pFloat)) (.cons 1 false (one (.attr (some .nonnull) pInt)) .nil)) 0 pairTU
def target : Ty := .typedef (.cons 4 false (one (.attr (some .nullable) pFloat)) .nil) 0 type_

theorem target_scoped : Scoped noneGiven .nil 0 target := by
  simp [target, type_, pairTU, Scoped, ScopedQ, ScopedArgs, ScopedArg, ScopedPar, one, two, bindFrom, findArg, argAt,
    Args.get?, Ctx.argCtx, findCtx, Arg.canon, Ty.canon, pInt, pFloat, int_, float_, noneGiven, Args.drop, Args.length,
    Args.canon, Args.slots, Arg.slots, Ty.slots]

theorem target_vector :
    getTypeNullability noneGiven noDefaults 20 0 target = some [.concrete .nonnull, .concrete .nullable] := by
  decide +kernel

example : target.canon.slots.length = 2 := by decide +kernel

/-- The same type without sugar. -/
example : target.canon = .cls .nil 3 false .none (two pInt pFloat) := rfl

theorem target_annotated :
    ∃ N v, ∀ n, N ≤ n → getTypeNullability noneGiven noDefaults n 0 target = some v ∧
      getTypeNullability noneGiven noDefaults n 0 (.attr (some .nullable) target) = some v := by
  obtain ⟨N, v, h⟩ := annotation target_scoped noDefaults .nullable
  exact ⟨N, v, fun n hn => ⟨(h n hn).1, by rw [(h n hn).2]; rfl⟩⟩

/-- `Nullable<int**>` in a file with `#pragma nullability file_default nonnull`. -/
def df : Defaults := ⟨fun f => if f = 7 then some .nonnull else none, .unspecified⟩
def ppInt : Ty := .ptr pInt
example : getTypeNullability noneGiven df 20 7
    (.alias_ .nil 9 8 (some .nullable) true (one ppInt) (.subst 9 (.at_ 0) ppInt)) =
    some [.concrete .nullable, .concrete .nonnull] := by decide +kernel
example : takesEffect .nullable ppInt = true := by decide +kernel
example : takesEffect .unspecified ppInt = true := by decide +kernel
example : takesEffect .unspecified (.attr (some .nullable) ppInt) = false := by decide +kernel
example : takesEffect .unspecified (.typedef .nil 0 ppInt) = false := by decide +kernel

/-- `std::unique_ptr<int* _Nullable> _Nonnull`. -/
def smart : Ty := .attr (some .nonnull) (.tst .nil (one (.attr (some .nullable) pInt)) 5 true .none (one pInt))
theorem smart_scoped : Scoped noneGiven .nil 0 smart := by
  simp [smart, Scoped, ScopedQ, ScopedArgs, ScopedArg, ScopedPar, one, bindFrom, Args.drop, Args.length, Args.canon,
    Args.slots, Arg.canon, Arg.slots, Ty.canon, Ty.slots, pInt, int_]
example : getTypeNullability noneGiven noDefaults 20 0 smart = some [.concrete .nonnull, .concrete .nullable] := by
  decide +kernel
/-- The vector of a type with a smart pointer is not accepted for rebuilding the type. -/
theorem smart_not_rebuilt : rebuildWithNullability smart [.concrete .nonnull, .concrete .nullable] = none := rfl
example : smart.canon.raw < smart.canon.slots.length := by decide +kernel

/-- `int* _Nullable * _Nonnull (&)(char*)`, rebuilt. -/
def func : Ty := .ref (.fn ppInt (.cons (.ptr char_) .nil))
theorem func_plain : func.canon.Plain := by
  simp [func, ppInt, pInt, Ty.canon, Tys.canon, Ty.Plain, Tys.Plain, char_, int_]
example : (rebuildWithNullability func [.concrete .nonnull, .symbolic 3, .concrete .nullable]) =
    some (.ref (.fn (.attr (some .nonnull) (.ptr (.ptr int_))) (.cons (.attr (some .nullable) (.ptr char_)) .nil))) := rfl
example : (rebuildWithNullability func [.concrete .nonnull]).isSome = false := rfl

/-- A template parameter whose nullability the caller knows only by a symbol. -/
def given1 : Given := fun d ix => if d = 4 ∧ ix = .at_ 0 then some [.symbolic 6] else none
example : getTypeNullability given1 noDefaults 20 0 (.ptr (.subst 4 (.at_ 0) pInt)) =
    some [.concrete .unspecified, .symbolic 6] := by decide +kernel

/-! ## "Unspecified" on a template parameter

    template <class T> struct S { using X = T _Null_unspecified; };
    S<int* _Nullable>::X

The annotation counts as one on a spelled-out pointer, and then hides that of the argument; the assertion of
`sawNullability` does not hold. -/

def unspecifiedParam : Ty :=
  .typedef (.cons 1 false (one (.attr (some .nullable) pInt)) .nil) 0
    (.attr (some .unspecified) (.subst 1 (.at_ 0) pInt))
theorem unspecified_hides_nullable :
    isUnknownValidOn (.subst 1 (.at_ 0) pInt) = true ∧
    getTypeNullability noneGiven noDefaults 20 0 unspecifiedParam = some [.concrete .unspecified] := by
  decide +kernel

/-! ## A type with a slot too many

    template <class> struct Foo { template <class...> struct Bar {}; };
    template <class U> struct S;
    template <class T> using B = typename Foo<int>::template Bar<typename Foo<char>::template Bar<T>, typename S<T>::type>;
    template <class U> struct S { using type = B<U*>; };
    template <> struct S<int**> { using type = int; };
    B<int*>

The parameter `U` of `S` is looked up in the context `Foo<char>`, `Foo<int>`, `B<U*>`, `S<T>`, `B<int*>`; its
argument, `T`, is then walked in the context of the arguments of `Foo<int>`, not in that of the arguments of `S<T>`, and
there `T` is `U*`. -/

/-- The body of `B` for `T` replaced with `t`, and `S<T>::type` spelled `s`. -/
def bodyB (d : Nat) (t s : Ty) : Ty :=
  let inner : Ty := .tst (.cons 4 false (one char_) .nil) (one (.subst 1 (.at_ 0) t)) d false
    (.some (.cls .nil 4 false .none (one char_))) (one t)
  .tst (.cons 3 false (one int_) .nil) (two inner s) (d + 1) false
    (.some (.cls .nil 3 false .none (one int_))) (two inner.canon s.canon)
/-- `S<int**>::type`. -/
def sType2 : Ty := .typedef (.cons 7 false (one (.subst 1 (.at_ 0) ppInt)) .nil) 0 int_
/-- `S<int*>::type`. -/
def sType1 : Ty := .typedef (.cons 2 false (one (.subst 1 (.at_ 0) pInt)) .nil) 0
  (.alias_ .nil 1 0 none false (one (.ptr (.subst 2 (.at_ 0) pInt))) (bodyB 10 ppInt sType2))
/-- `B<int*>`. -/
def reentered : Ty := .alias_ .nil 1 0 none false (one pInt) (bodyB 20 pInt sType1)

/-- Three pointers, four entries. -/
theorem too_many_slots :
    reentered.canon.slots.length = 3 ∧ countPointers 30 reentered = some 4 ∧
    countPointers 30 reentered.canon = some 3 := by
  decide +kernel

end Verif.NullTy.Example

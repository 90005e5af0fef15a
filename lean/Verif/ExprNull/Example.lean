import Verif.ExprNull.Typed
/-
A program on which the vectors are computed, and places where the vectors are not what the annotations say (C141-C143).
-/
namespace Verif.ExprNull.Example
open Verif.NullTy (NK PN Ty Tys Arg Args Par Quals Ix Given)

local notation "U" => PN.concrete NK.unspecified
local notation "NN" => PN.concrete NK.nonnull
local notation "NL" => PN.concrete NK.nullable

/-- `int*` -/
def ip : ATy := .ptr U (.leaf 0)

/-- Classes: 1 `Vec<int*>`, 2 `Pair<int*, char**>`, 3 `Derived<int*> : Vec<T>`, 4 `unique_ptr<int*>` (a smart pointer), 5 `Outer<int*>`,
6 `Outer<int*>::Inner` (not a template), 7 `Derived2<int*> : Derived<T>`, 8 `Vec<Vec<int*>>`.
Functions: 20 the instance of the function template 10. File 1 has `#pragma nullability file_default nonnull`. -/
def P : Prog where
  defaults := ⟨fun f => if f = 1 then some .nonnull else none, .unspecified⟩
  args := fun d => match d with
    | 1 => .cons ip .nil
    | 2 => .cons ip (.cons (.ptr U (.ptr U (.leaf 1))) .nil)
    | 3 => .cons ip .nil
    | 4 => .cons ip .nil
    | 5 => .cons ip .nil
    | 7 => .cons ip .nil
    | 8 => .cons (.cls 1 none .none (.cons ip .nil)) .nil
    | _ => .nil
  repl := fun d i => match d, i with
    | 2, 1 => .ptr U (.ptr U (.leaf 1))
    | 8, _ => .cls 1 none .none (.cons ip .nil)
    | _, _ => ip
  parent := fun d => if d = 6 then .some (.cls 5 none .none (.cons ip .nil)) else .none
  isSpec := fun d => d ≠ 6
  fromPartial := fun _ => false
  templ := fun o => if o = 20 then some 10 else none
  packInside := fun _ => false
  vars := fun x => match x with
    -- Vec<int* _Nullable> v;
    | 0 => ⟨0, .cls 1 none .none (.cons (.ptr (some .nullable) (.leaf 0)) .nil), none⟩
    -- Pair<int* _Nonnull, char* _Nullable * _Nonnull> q;
    | 1 => ⟨0, .cls 2 none .none (.cons (.ptr (some .nonnull) (.leaf 0))
        (.cons (.ptr (some .nonnull) (.ptr (some .nullable) (.leaf 1))) .nil)), none⟩
    -- Derived<int* _Nullable>* _Nonnull p;
    | 2 => ⟨0, .ptr (some .nonnull) (.cls 3 none .none (.cons (.ptr (some .nullable) (.leaf 0)) .nil)), none⟩
    -- unique_ptr<int* _Nullable> _Nonnull u;
    | 3 => ⟨0, .cls 4 (some (some .nonnull)) .none (.cons (.ptr (some .nullable) (.leaf 0)) .nil), none⟩
    -- Derived2<int* _Nullable> r;
    | 4 => ⟨0, .cls 7 none .none (.cons (.ptr (some .nullable) (.leaf 0)) .nil), none⟩
    -- Vec<Vec<int* _Nullable>> w;
    | 5 => ⟨0, .cls 8 none .none (.cons (.cls 1 none .none (.cons (.ptr (some .nullable) (.leaf 0)) .nil)) .nil), none⟩
    -- int* _Nullable a;
    | 6 => ⟨0, .ptr (some .nullable) (.leaf 0), none⟩
    -- template <typename T> T make(T); declared in file 1
    | 10 => ⟨1, .fn (.param none 20 0) (.cons (.param none 20 0) .nil), none⟩
    -- an unannotated parameter whose nullability has been inferred
    | 11 => ⟨0, .ptr none (.leaf 0), some NN⟩
    | _ => ⟨0, .leaf 0, none⟩
  members := fun d m => match d, m with
    | 1, 0 => ⟨1, .fn (.ref (.param none 1 0)) .nil, none⟩   -- T& front()
    | 8, 0 => ⟨1, .fn (.ref (.param none 8 0)) .nil, none⟩
    | 2, 0 => ⟨1, .param none 2 0, none⟩
    | 2, 1 => ⟨1, .param none 2 1, none⟩
    | 2, 2 => ⟨1, .param (some .nullable) 2 0, none⟩         -- T _Nullable x
    | 4, 0 => ⟨1, .fn (.ref (.param none 4 0)) .nil, none⟩   -- T& operator*()
    | 6, 0 => ⟨1, .param none 5 0, none⟩                     -- T x in Outer<T>::Inner
    | _, _ => ⟨0, .leaf 0, none⟩
  bases := fun b => match b with
    | 0 => ⟨1, .cls 1 none .none (.cons (.param none 3 0) .nil)⟩   -- Derived<T> : Vec<T>
    | _ => ⟨1, .cls 3 none .none (.cons (.param none 7 0) .nil)⟩   -- Derived2<T> : Derived<T>
  varTempl := fun _ => 10
  memberTempl := fun _ _ => 11

def v : Expr := .name 0 [] none
def q : Expr := .name 1 [] none
def p : Expr := .name 2 [] none

/-- A use without template arguments and qualifiers. -/
theorem use (x : Nat) (h : (P.vars x).over = none) : HasType P (.name x [] none) ((P.vars x).inst P noBinding) :=
  .name x [] none _ (by simp) (by simp) (by simp) rfl (.inl h)

theorem spells1 (as : ATys) (h : as.fill U = (P.args 1).fill U) : Spells P 1 .none as :=
  ⟨rfl, h, fun _ i A hA => by
    match i with
    | 0 => simp only [P, ATys.get?, Option.some.injEq] at hA; subst hA; rfl
    | i + 1 => simp [P, ATys.get?] at hA⟩

theorem spells2 (as : ATys) (h : as.fill U = (P.args 2).fill U) : Spells P 2 .none as :=
  ⟨rfl, h, fun _ i A hA => by
    match i with
    | 0 => simp only [P, ATys.get?, Option.some.injEq] at hA; subst hA; rfl
    | 1 => simp only [P, ATys.get?, Option.some.injEq] at hA; subst hA; rfl
    | i + 2 => simp [P, ATys.get?] at hA⟩

theorem spells3 (as : ATys) (h : as.fill U = (P.args 3).fill U) : Spells P 3 .none as :=
  ⟨rfl, h, fun _ i A hA => by
    match i with
    | 0 => simp only [P, ATys.get?, Option.some.injEq] at hA; subst hA; rfl
    | i + 1 => simp [P, ATys.get?] at hA⟩

theorem spells8 (as : ATys) (h : as.fill U = (P.args 8).fill U) : Spells P 8 .none as :=
  ⟨rfl, h, fun _ i A hA => by
    match i with
    | 0 => simp only [P, ATys.get?, Option.some.injEq] at hA; subst hA; rfl
    | i + 1 => simp [P, ATys.get?] at hA⟩

/-- `v.front()` is `int* _Nullable`, although `Vec` is declared in a file where unannotated pointers are not null. -/
example : nul P (.call (.member false v 0 none)) = [NL] :=
  element_access P v 1 .none (.cons (.ptr NL (.leaf 0)) .nil) 0 0 .nil 1 (.ptr NL (.leaf 0)) (use 0 rfl) (spells1 _ rfl) rfl rfl rfl rfl

example : nul P (.call (.member false v 0 none)) = [NL] := by decide +kernel

/-- `w.front().front()`. -/
example : nul P (.call (.member false (.call (.member false (.name 5 [] none) 0 none)) 0 none)) = [NL] :=
  element_access P _ 1 .none (.cons (.ptr NL (.leaf 0)) .nil) 0 0 .nil 1 (.ptr NL (.leaf 0))
    (HasType.call _ (.ref (.cls 1 none .none (.cons (.ptr NL (.leaf 0)) .nil))) .nil
      (.member _ 8 .none (.cons (.cls 1 none .none (.cons (.ptr NL (.leaf 0)) .nil)) .nil) 0 none _ (use 5 rfl) (spells8 _ rfl)
        (by simp) (by simp) rfl (.inl rfl)))
    (spells1 _ rfl) rfl rfl rfl rfl

/-- The fields of `q`: the second one has the second part of the vector; an annotation of the parameter does not beat the argument. -/
example : nul P q = [NN, NN, NL] ∧ nul P (.member false q 0 none) = [NN] ∧ nul P (.member false q 1 none) = [NN, NL] ∧
    nul P (.deref (.member false q 1 none)) = [NL] ∧ nul P (.member false q 2 none) = [NN] := by decide +kernel

example : nul P (.member true (.addrOf q) 1 none) = [NN, NL] :=
  element_field P (.addrOf q) NN 2 .none (.cons (.ptr NN (.leaf 0)) (.cons (.ptr NN (.ptr NL (.leaf 1))) .nil)) 1 1 1 (.ptr NN (.ptr NL (.leaf 1)))
    (.addrOf _ _ (use 1 rfl)) (spells2 _ rfl) rfl rfl rfl rfl

/-- `make<int* _Nullable>(…)`. -/
def make (w : Option Written) : Expr := .call (.name 10 [] (some [w]))

example : nul P (make (some ⟨0, .ptr (some .nullable) (.leaf 0)⟩)) = [NL] :=
  explicit_argument P 10 20 0 [some ⟨0, .ptr (some .nullable) (.leaf 0)⟩] ⟨0, .ptr (some .nullable) (.leaf 0)⟩ _ 1 rfl rfl rfl
    (by
      intro o i w ho hw
      match i with
      | 0 =>
        simp only [List.getElem?_cons_zero, Option.some.injEq] at hw
        subst hw
        have : o = 20 := by
          by_cases h : o = 20
          · exact h
          · simp [P, h] at ho
        subst this
        rfl
      | i + 1 => simp at hw)
    rfl

/-- A conversion to the base class `Vec<T>` of `Derived<T>`, and then `front()`. -/
example : HasType P (.toBase false p 0) (.ptr NN (.cls 1 none .none (.cons (.ptr NL (.leaf 0)) .nil))) :=
  .toBasePtr p NN 3 .none (.cons (.ptr NL (.leaf 0)) .nil) 0 (use 2 rfl) (spells3 _ rfl)

example : nul P (.call (.member true (.toBase false p 0) 0 none)) = [NL] := by decide +kernel

/-- Other operations. -/
example : nul P (.addrOf (.call (.member false v 0 none))) = [NN, NL] ∧ nul P (.preInc (.name 6 [] none)) = [NN] ∧
    nul P (.same (.name 6 [] none)) = [NL] ∧ nul P (.new false ⟨0, .ptr (some .nullable) (.leaf 0)⟩) = [NN, NL] ∧
    nul P (.new true ⟨0, .leaf 0⟩) = [NL] ∧ nul P (.name 11 [] none) = [NN] ∧
    nul P (.bitCast (.name 6 [] none) (.ptr U (.leaf 9))) = [NL] ∧ nul P (.toBase true p 0) = [NN, U] ∧
    nul P (.null (.ptr U (.ptr U (.leaf 0)))) = [NL, U] := by decide +kernel

/-! ### Where the vectors are not what the annotations say -/

/-- The entry of the smart pointer itself is not skipped in the vector of its class (`type_transferer.cc:145-177`; `countPointersInType` of the
enclosing context and of the preceding arguments is all that is skipped): `*u` for `unique_ptr<int* _Nullable> _Nonnull u`
is taken to be `int* _Nonnull`. -/
theorem smart_pointer_slice : nul P (.name 3 [] none) = [NN, NL] ∧ nul P (.opCall (.name 3 [] none) 0) = [NN] := by decide +kernel

/-- A deduced template argument is taken to have the nullability of unannotated pointers in the file of the template: `make(a)` with
`int* _Nullable a` is `int* _Nonnull`, since the template is in a file with `#pragma nullability file_default nonnull`. -/
theorem deduced_argument : nul P (.call (.name 10 [] none)) = [NN] ∧ nul P (make none) = [NN] := by decide +kernel

/-- With two steps to the base class, only the last base specifier is considered, whose parameter belongs to the class between:
`Derived2<int* _Nullable>` is converted to a `Vec<int* _Nonnull>`. -/
theorem two_steps : nul P (.toBase false (.name 4 [] none) 0) = [NN] ∧
    nul P (.toBase false (.toBase false (.name 4 [] none) 1) 0) = [NL] := by decide +kernel

/-- The field of a class within a class template: the template argument is in the vector, but is not looked for. -/
theorem inner_class (x : ATy) (h : x = .cls 6 none (.some (.cls 5 none .none (.cons (.ptr NL (.leaf 0)) .nil))) .nil) :
    x.vec = [NL] ∧ typeNullability P (firstGiven (classGivens P (some x.erase) x.vec)) 1 (P.members 6 0).ty = [NN] := by
  subst h
  decide +kernel

end Verif.ExprNull.Example

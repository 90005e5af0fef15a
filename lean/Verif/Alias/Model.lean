import Verif.StrRef.Model
/-
Model of support/internal/check_no_mutable_aliasing.{h,cc}: the run-time check that generated C++ bindings
perform before handing `&mut` arguments to Rust.

Simplification: addresses are natural numbers, so `start + sizeof(T)` does not wrap (no object straddles the
top of the address space). `std::array`/`std::span` are lists.
-/
namespace Verif.Alias

/-- `PtrData`, check_no_mutable_aliasing.h lines 18-21. -/
structure PtrData where
  start : Nat
  stop : Nat
deriving DecidableEq, Repr

/-- `PtrLike<T*>::AsPtrData` / `PtrLike<T&>::AsPtrData`, .h lines 34-56 (`size` = `sizeof(T)`). -/
def ofPtr (addr size : Nat) : PtrData := ⟨addr, addr + size⟩

/-- `PtrLike<SliceRef<T>>::AsPtrData`, support/rs_std/slice_ref.h lines 231-241 (`StrRef` is the same with
`sizeof(T) = 1`, support/rs_std/str_ref.h line 202). -/
def ofSlice (s : StrRef.Slice) (size : Nat) : PtrData := ⟨s.data, s.data + s.size * size⟩

/-- `Overlaps`, .h lines 85-87. -/
def overlaps (a b : PtrData) : Bool := a.start < b.stop && b.start < a.stop

/-- The inner loop `for j = i + 1 .. M` of the small case, .h lines 119-123. -/
def innerLoop (a : PtrData) : List PtrData → Bool
  | [] => false
  | b :: bs => if overlaps a b then true else innerLoop a bs

/-- The outer loop over mutable pointers, .h lines 118-124. -/
def mutLoop : List PtrData → Bool
  | [] => false
  | a :: as => if innerLoop a as then true else mutLoop as

/-- The loop nest over mutable and const pointers, .h lines 125-131. -/
def constLoop (cs : List PtrData) : List PtrData → Bool
  | [] => false
  | m :: ms => if innerLoop m cs then true else constLoop cs ms

/-- The adjacent check, check_no_mutable_aliasing.cc lines 39-43. -/
def adjacent : List PtrData → Bool
  | a :: b :: r => if a.stop > b.start then true else adjacent (b :: r)
  | _ => false

/-- The two-pointer sweep, .cc lines 45-57. The first argument is the range from `mut_iter` to
`mut_ptrs.end()` (never empty in the source), the second the const pointers still to visit. One iteration
of the `while` loop is the first branch. -/
def sweep : List PtrData → List PtrData → Bool
  | [], _ => false
  | _ :: _, [] => false
  | m :: ms, c :: cs =>
    if m.stop ≤ c.start then sweep ms (c :: cs)
    else if m.start < c.stop then true
    else sweep (m :: ms) cs
termination_by ms cs => ms.length + cs.length

/-- `HasMutableAliasingSpans`, .cc lines 30-58. `sortM` and `sortC` are what `std::sort` did to the two
spans (it is not stable, so the order of ranges with equal start is unspecified). -/
def hasMutableAliasingSpans (sortM sortC : List PtrData → List PtrData) (muts consts : List PtrData) : Bool :=
  if muts.isEmpty then false
  else
    let muts := sortM muts
    let consts := sortC consts
    if adjacent muts then true else sweep muts consts

/-- `HasMutableAliasing`, .h lines 107-135 (`M` and `N` are the array lengths). -/
def hasMutableAliasing (sortM sortC : List PtrData → List PtrData) (muts consts : List PtrData) : Bool :=
  let M := muts.length
  let N := consts.length
  if M = 0 || (M = 1 && N = 0) then false
  else if M ≤ 3 && N ≤ 3 then
    if mutLoop muts then true else constLoop consts muts
  else hasMutableAliasingSpans sortM sortC muts consts

/-- `CheckNoMutableAliasing`, .h lines 89-101 and .cc lines 25-28: `true` when the program goes on, `false`
when `CRUBIT_CHECK` aborts it. -/
def checkNoMutableAliasing (sortM sortC : List PtrData → List PtrData) (muts consts : List PtrData) : Bool :=
  let M := muts.length
  let N := consts.length
  if M = 0 || (M = 1 && N = 0) then true
  else if M ≤ 3 && N ≤ 3 then !hasMutableAliasing sortM sortC muts consts
  else !hasMutableAliasingSpans sortM sortC muts consts

end Verif.Alias

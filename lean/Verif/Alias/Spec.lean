import Verif.Alias.Model
/- Specification for C36. -/
namespace Verif.Alias

/-- The byte at address `a` belongs to range `r`. -/
def Covers (r : PtrData) (a : Nat) : Prop := r.start ≤ a ∧ a < r.stop

/-- Two ranges share a byte. -/
def Share (r s : PtrData) : Prop := ∃ a, Covers r a ∧ Covers s a

/-- Illegal aliasing: two different mutable arguments share a byte, or a mutable and a const argument do. -/
def Aliased (muts consts : List PtrData) : Prop :=
  (∃ i j, ∃ (hi : i < muts.length) (hj : j < muts.length), i ≠ j ∧ Share muts[i] muts[j]) ∨
  ∃ m ∈ muts, ∃ c ∈ consts, Share m c

/-- What arguments look like: a non-null, non-empty range, or the (0, 0) of an empty slice. -/
def Valid (r : PtrData) : Prop := (0 < r.start ∧ r.start < r.stop) ∨ (r.start = 0 ∧ r.stop = 0)

/-- The contract of `std::sort` by `start`: a permutation of the input, in ascending order. -/
def Sorts (sort : List PtrData → List PtrData) : Prop :=
  ∀ l, (sort l).Perm l ∧ (sort l).Pairwise (fun a b => a.start ≤ b.start)

end Verif.Alias

/-
Specification of operator bindings, written without the generator's helpers: what the operators of
Rust are, when two Rust `impl`s conflict, what the documentation of `PartialOrd` demands, and which
function of an overload set may be bound.
-/
namespace Verif.Ops

/-- Name of a Rust lifetime (without the apostrophe). -/
abbrev Name := List Char

/-- Types of parameters, as far as operators look at them. `incomplete`: forward-declared classes;
`prim`: any other type; `named`: a type alias with its target; references and pointers carry `true`
when mutable. References carry their lifetime. -/
inductive Ty where
  | record (id : Nat)
  | incomplete (id : Nat)
  | prim (id : Nat)
  | named (name : Nat) (target : Ty)
  | ref (mutable : Bool) (lt : Name) (t : Ty)
  | rval (mutable : Bool) (lt : Name) (t : Ty)
  | ptr (mutable : Bool) (t : Ty)
deriving DecidableEq, Repr

/-- The lifetime `l` is written somewhere in a type. -/
inductive LifetimeIn (l : Name) : Ty → Prop where
  | ref (m : Bool) (t : Ty) : LifetimeIn l (.ref m l t)
  | rval (m : Bool) (t : Ty) : LifetimeIn l (.rval m l t)
  | inNamed (n : Nat) (t : Ty) : LifetimeIn l t → LifetimeIn l (.named n t)
  | inRef (m : Bool) (k : Name) (t : Ty) : LifetimeIn l t → LifetimeIn l (.ref m k t)
  | inRval (m : Bool) (k : Name) (t : Ty) : LifetimeIn l t → LifetimeIn l (.rval m k t)
  | inPtr (m : Bool) (t : Ty) : LifetimeIn l t → LifetimeIn l (.ptr m t)

/-- The type the Rust compiler sees when it looks for conflicting impls: an alias is its target, and
lifetimes play no role. -/
def Ty.erase : Ty → Ty
  | .record r => .record r
  | .incomplete r => .incomplete r
  | .prim p => .prim p
  | .named _ t => t.erase
  | .ref m _ t => .ref m [] t.erase
  | .rval m _ t => .rval m [] t.erase
  | .ptr m t => .ptr m t.erase

/-- Written without aliases and without named lifetimes. -/
def Ty.Plain (t : Ty) : Prop := t.erase = t

/-- The header `impl Trait<params> for Self`. -/
structure Header where
  traitName : String
  self : Ty
  params : List Ty
deriving DecidableEq, Repr

/-- Two impls that the Rust compiler refuses to have in one crate (E0119). -/
def Header.Conflict (a b : Header) : Prop :=
  a.traitName = b.traitName ∧ a.self.erase = b.self.erase ∧ a.params.map Ty.erase = b.params.map Ty.erase

/-- How Rust's operator traits are invoked. -/
inductive Use where
  | unary | binary | assign
deriving DecidableEq, Repr

/-- The traits behind the overloadable operators of Rust, with the token and the kind of use (Rust
reference, "Operator expressions"; `std::ops`). -/
def rustOps : List (String × String × Use) :=
  [("::core::ops::Neg", "-", .unary), ("::core::ops::Not", "!", .unary),
   ("::core::ops::Add", "+", .binary), ("::core::ops::Sub", "-", .binary),
   ("::core::ops::Mul", "*", .binary), ("::core::ops::Div", "/", .binary),
   ("::core::ops::Rem", "%", .binary), ("::core::ops::BitAnd", "&", .binary),
   ("::core::ops::BitOr", "|", .binary), ("::core::ops::BitXor", "^", .binary),
   ("::core::ops::Shl", "<<", .binary), ("::core::ops::Shr", ">>", .binary),
   ("::core::ops::AddAssign", "+=", .assign), ("::core::ops::SubAssign", "-=", .assign),
   ("::core::ops::MulAssign", "*=", .assign), ("::core::ops::DivAssign", "/=", .assign),
   ("::core::ops::RemAssign", "%=", .assign), ("::core::ops::BitAndAssign", "&=", .assign),
   ("::core::ops::BitOrAssign", "|=", .assign), ("::core::ops::BitXorAssign", "^=", .assign),
   ("::core::ops::ShlAssign", "<<=", .assign), ("::core::ops::ShrAssign", ">>=", .assign)]

/-- Number of operands. -/
def Use.arity : Use → Nat
  | .unary => 1
  | .binary | .assign => 2

/-- The contract of `PartialOrd` that ties its methods together (documentation of
`core::cmp::PartialOrd`, items 1 to 5, and of `PartialEq::ne`). -/
structure Contract (V : Type) (eq ne lt le gt ge : V → V → Bool) (cmp : V → V → Option Ordering) : Prop where
  eq_iff : ∀ a b, eq a b = true ↔ cmp a b = some .eq
  lt_iff : ∀ a b, lt a b = true ↔ cmp a b = some .lt
  gt_iff : ∀ a b, gt a b = true ↔ cmp a b = some .gt
  le_iff : ∀ a b, le a b = true ↔ lt a b = true ∨ eq a b = true
  ge_iff : ∀ a b, ge a b = true ↔ gt a b = true ∨ eq a b = true
  ne_iff : ∀ a b, ne a b = true ↔ eq a b = false

/-- "Duality" in the same documentation. -/
def Dual (V : Type) (lt gt : V → V → Bool) : Prop := ∀ a b, lt a b = true ↔ gt b a = true

/-- `f` is the function of the overload set `set` that gets a binding: it is in the set and every
other function of the set has a smaller rank. -/
def Canonical {F : Type} (set : F → Prop) (rank : F → Nat) (f : F) : Prop :=
  set f ∧ ∀ g, set g → g ≠ f → rank g < rank f

end Verif.Ops

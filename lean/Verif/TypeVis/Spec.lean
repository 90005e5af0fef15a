/-!
# Visibility of bindings: specification

Source of the property: comments of `type_target_restriction`, `type_visibility` and
`missing_feature_descriptions_of_type`; the Rust rules that a `pub(crate)` item is private to its crate and that an
item may not be more visible than the types it mentions.
-/

namespace Verif.TypeVis

/-- Targets (crates) are numbers. -/
abbrev Target := Nat

inductive Vis where
  | pub | pubCrate
  deriving DecidableEq

inductive Feature where
  | types | wrapper | templateInstantiation | experimental
  deriving DecidableEq

/-- A C++ class, as far as visibility is concerned. -/
structure Rec where
  target : Target
  /-- it belongs to one target: no template instantiation, or one with a canonical alias -/
  unique : Bool
  /-- a handwritten Rust type is used for it -/
  uniform : Bool
  deriving DecidableEq

/-- Rust types for C++ types. -/
inductive Kind where
  /-- a type without bindings, printed as an opaque type; perhaps with a visibility of its own -/
  | error (override : Option Vis) (message : Nat)
  | prim
  | incomplete
  | enum
  /-- a class; for a handwritten generic Rust type, with its arguments -/
  | record (r : Rec) (args : List Kind)
  | ptr (k : Kind)
  | ref (k : Kind)
  | rref (k : Kind)
  | alias (owner : Target) (k : Kind)
  | fnPtr (cConv : Bool) (params : List Kind) (ret : Kind)
  /-- bridged types with arguments -/
  | bridge (args : List Kind)
  | optional (k : Kind)
  | pair (a b : Kind)
  | callable (params : List Kind) (ret : Kind)
  | co (k : Kind)
  /-- a Rust type used from C++, with its arguments -/
  | existing (args : List Kind)

/-- The arguments of generic Rust types. -/
def Kind.args : Kind → List Kind
  | .record _ args => args
  | .bridge args => args
  | .existing args => args
  | _ => []

/-- The other components. -/
def Kind.parts : Kind → List Kind
  | .ptr k | .ref k | .rref k | .alias _ k | .optional k | .co k => [k]
  | .fnPtr _ params ret | .callable params ret => params ++ [ret]
  | .pair a b => [a, b]
  | _ => []

/-- `s` occurs in `k`, outside of the arguments of generic Rust types. -/
inductive Sees : Kind → Kind → Prop
  | self (k) : Sees k k
  | part {k p s} : p ∈ k.parts → Sees p s → Sees k s

/-- `s` occurs in `k`. -/
inductive Mentions : Kind → Kind → Prop
  | self (k) : Mentions k k
  | part {k p s} : p ∈ k.parts → Mentions p s → Mentions k s
  | arg {k p s} : p ∈ k.args → Mentions p s → Mentions k s

/-- No generic Rust type with arguments. -/
def Plain (k : Kind) : Prop := ∀ s, Mentions k s → s.args = []

/-- The features of the targets. -/
abbrev Features := Target → Feature → Bool

/-- The struct for this class is `pub(crate)`: an instantiation of a template, no handwritten Rust type, and the
target generates neither public instantiations nor experimental bindings. -/
def Rec.Private (F : Features) (r : Rec) : Prop :=
  r.unique = false ∧ r.uniform = false ∧ F r.target .templateInstantiation = false ∧ F r.target .experimental = false

/-- The type for which the features of a target do not suffice. -/
def Lacks (f : Feature → Bool) : Kind → Prop
  | .error none _ => f .wrapper = false
  | .ref _ | .rref _ => f .experimental = false
  | .fnPtr false _ _ => f .experimental = false
  | .incomplete => f .wrapper = false
  | .record r _ => r.unique = false ∧ r.uniform = false ∧ f .wrapper = false ∧ f .templateInstantiation = false
  | _ => False

/-- The reasons that are reported. -/
inductive Reason where
  | disabled (t : Target)
  | error (message : Nat)
  | references
  | callingConvention
  | forwardDeclared
  | template
  deriving DecidableEq

/-- The reason that is reported for a type. -/
def Explains : Reason → Kind → Prop
  | .disabled _, _ => False
  | .error m, s => s = .error none m
  | .references, s => (∃ k, s = .ref k) ∨ ∃ k, s = .rref k
  | .callingConvention, s => ∃ ps r, s = .fnPtr false ps r
  | .forwardDeclared, s => s = .incomplete
  | .template, s => ∃ r args, s = .record r args

end Verif.TypeVis

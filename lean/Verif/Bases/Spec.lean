/-
The part of C++ that upcasts and inherited member functions are about (C138-C140): class hierarchies
with virtual and non-virtual bases, subobjects, conversions to bases, and member name lookup.

Nothing in this file is code of /repo: it is the part of the C++ standard ([class.mi],
[class.access.base], [conv.ptr], [class.member.lookup]) that the statements refer to.
-/
namespace Verif.Bases

inductive Access where
  | pub | prot | priv
  deriving DecidableEq, Repr

/-- A base specifier: `public virtual …`. -/
structure BSpec where
  acc : Access := .pub
  virt : Bool := false
  deriving DecidableEq, Repr

mutual
/-- A class, with the classes it is derived from. -/
inductive Cls where
  | mk (id : Nat) (bases : Bases)
/-- The base specifiers of a class, in order. -/
inductive Bases where
  | nil
  | cons (s : BSpec) (c : Cls) (rest : Bases)
end

def Cls.id : Cls → Nat
  | .mk n _ => n

def Cls.bases : Cls → Bases
  | .mk _ b => b

/-- `c` is a direct base, by specifier `s`. -/
inductive Bases.Has : Bases → BSpec → Cls → Prop
  | head (s c rest) : Bases.Has (.cons s c rest) s c
  | tail (s c rest s' c') : Bases.Has rest s' c' → Bases.Has (.cons s c rest) s' c'

/-- The direct bases, in order. -/
def Bases.ids : Bases → List Nat
  | .nil => []
  | .cons _ c rest => c.id :: rest.ids

/-- One step from a class to a direct base of it. -/
structure Step where
  cls : Nat
  spec : BSpec
  base : Cls

/-- A way from a class to one of its bases. -/
inductive Way : Cls → List Step → Cls → Prop
  | nil (c) : Way c [] c
  | step (a s b p c) : Bases.Has a.bases s b → Way b p c → Way a (⟨a.id, s, b⟩ :: p) c

/-- The hierarchy is one that C++ allows: a class is the same wherever it occurs, and no class is a direct base of another
one twice. -/
structure Cls.Proper (d : Cls) : Prop where
  same : ∀ p a q b, Way d p a → Way d q b → a.id = b.id → a = b
  direct : ∀ p a, Way d p a → a.bases.ids.Nodup

/-- The identity of a subobject: the virtual base it is in (the complete object: `none`), and the non-virtual bases from there. -/
abbrev Key := Option Nat × List Nat

/-- A step: there is one subobject for all virtual bases of a class, and one of its own for each non-virtual one. -/
def Key.step (k : Key) (s : Step) : Key :=
  if s.spec.virt then (some s.base.id, []) else (k.1, k.2 ++ [s.base.id])

/-- The subobject that a way leads to. -/
def subobject (p : List Step) : Key := p.foldl Key.step (none, [])

/-- `k` is a subobject of class `f` in objects of class `d`. -/
def IsSubobject (d : Cls) (k : Key) (f : Nat) : Prop := ∃ p c, Way d p c ∧ c.id = f ∧ subobject p = k

/-- `f` is a proper base of `d`. -/
def IsBase (d : Cls) (f : Nat) : Prop := ∃ p c, Way d p c ∧ p ≠ [] ∧ c.id = f

/-- There is just one subobject of the class. -/
def Unambiguous (d : Cls) (f : Nat) : Prop := ∀ k k', IsSubobject d k f → IsSubobject d k' f → k = k'

/-- Everybody may convert to the base: on some way to it all specifiers are `public`. -/
def PublicBase (d : Cls) (f : Nat) : Prop := ∃ p c, Way d p c ∧ c.id = f ∧ ∀ s ∈ p, s.spec.acc = .pub

/-- Everybody can convert a pointer to `d` to a pointer to its base `f`. -/
def Convertible (d : Cls) (f : Nat) : Prop := IsBase d f ∧ Unambiguous d f ∧ PublicBase d f

/-- The addresses of the subobjects of some complete object, in which the object of class `d` has the address `addr (none, [])`:
non-virtual bases are where the layout of the class says, virtual bases may be anywhere. -/
def Placed (offset : Nat → Nat → Nat) (d : Cls) (addr : Key → Nat) : Prop :=
  ∀ p c s b, Way d p c → Bases.Has c.bases s b → s.virt = false →
    addr ((subobject p).step ⟨c.id, s, b⟩) = addr (subobject p) + offset c.id b.id

/-- `k'` is a base subobject of `k` (or `k` itself). -/
def Within (d : Cls) (k k' : Key) : Prop :=
  ∃ p a q b, Way d p a ∧ Way a q b ∧ subobject p = k ∧ subobject (p ++ q) = k'

/-- Member name lookup: `declares c` says that the class declares the name. The declarations of the subobject `k` of class `f` are
found: all other declarations of that name are hidden by it, being in bases of that subobject. -/
def Finds (declares : Nat → Prop) (d : Cls) (k : Key) (f : Nat) : Prop :=
  IsSubobject d k f ∧ declares f ∧ ∀ k' g, IsSubobject d k' g → declares g → Within d k k'

end Verif.Bases

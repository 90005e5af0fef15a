/-!
# The generated C++ header: specification

What a C++ compiler needs of a header, which it reads once from top to bottom.  A header is a list of
*pieces* of text; each piece was made together with a statement of what it needs.
-/

namespace Verif.Header

/-- What a piece of C++ text needs (`CcPrerequisites`,
`cc_bindings_from_rs/generate_bindings/database/code_snippet.rs:48–82`): `#include`s, definitions and
forward declarations of Rust items, template specializations that have to be complete, and template
specializations that have to exist somewhere.  The elements stand for `CcInclude`, `DefId` and
`TemplateSpecialization` values.  Each list is a set in some enumeration order. -/
structure Prereqs where
  includes : List Nat
  defs : List Nat
  fwds : List Nat
  specs : List Nat
  lazies : List Nat
deriving DecidableEq, Repr

/-- No requirements. -/
def Prereqs.none : Prereqs := ⟨[], [], [], [], []⟩

/-- What the header defines: Rust items, and specializations of templates. -/
inductive Node where
  | item (d : Nat)
  | spec (s : Nat)
deriving DecidableEq, Repr

/-- What a piece is. -/
inductive Label where
  /-- a forward declaration -/
  | fwd (d : Nat)
  /-- the definition (or, for a function, the declaration) -/
  | main (n : Node)
  /-- a `using` declaration for a further path of an item -/
  | alias (d : Nat)
  /-- function bodies, assertions and the like -/
  | details (n : Node)
deriving DecidableEq, Repr

/-- What a piece defines. -/
def Label.defines : Label → Option Node
  | .main n => some n
  | _ => none

/-- What a piece forward-declares. -/
def Label.declares : Label → Option Nat
  | .fwd d => some d
  | _ => none

/-- A piece of the header: its text, its namespace, and what it needs.  `parent` and `colons` only decide
which pieces share a `namespace` block. -/
structure Piece where
  label : Label
  parent : Option Nat
  ns : List String
  colons : Bool
  toks : List Nat
  pre : Prereqs
deriving DecidableEq, Repr

/-- What a piece needs has been provided by the pieces before it (or, in the case of definitions, is
provided by itself).  `gen`: the items this header defines; what other items need is provided by the
included headers. -/
structure Met (gen : List Nat) (before : List Piece) (p : Piece) : Prop where
  defs : ∀ d ∈ p.pre.defs, d ∈ gen →
    p.label = .main (.item d) ∨ ∃ q ∈ before, q.label = .main (.item d)
  fwds : ∀ d ∈ p.pre.fwds, ∃ q ∈ before, q.label = .fwd d ∨ q.label = .main (.item d)
  specs : ∀ s ∈ p.pre.specs,
    p.label = .main (.spec s) ∨ ∃ q ∈ before, q.label = .main (.spec s)

/-- A header that can be compiled: everything is declared before it is used, everything that has to be
included is included, every specialization that has to exist exists, and nothing is defined twice. -/
structure Compiles (gen : List Nat) (includes : List Nat) (pieces : List Piece) : Prop where
  met : ∀ a p b, pieces = a ++ p :: b → Met gen a p
  includes : ∀ p ∈ pieces, ∀ i ∈ p.pre.includes, i ∈ includes
  exist : ∀ p ∈ pieces, ∀ s, s ∈ p.pre.specs ∨ s ∈ p.pre.lazies →
    ∃ q ∈ pieces, q.label = .main (.spec s)
  once : (pieces.filterMap fun p => p.label.defines).Nodup
  fwdOnce : (pieces.filterMap fun p => p.label.declares).Nodup

/-! ## Namespaces -/

/-- C++ text with namespaces. -/
inductive Cc where
  | text (t : Nat)
  | ns (deprecated : Bool) (names : List String) (body : List Cc)

/-- What the text means: each token with its namespace and those of the namespaces around it that are marked
deprecated. -/
def Cc.flat (path : List String) (marked : List (List String)) :
    List Cc → List (List String × List (List String) × Nat)
  | [] => []
  | .text t :: r => (path, marked, t) :: Cc.flat path marked r
  | .ns deprecated names body :: r =>
      Cc.flat (path ++ names) (if deprecated then (path ++ names) :: marked else marked) body ++
        Cc.flat path marked r

end Verif.Header

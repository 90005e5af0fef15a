import Verif.Lossy.Model
/-
Specification of lossy UTF-8 decoding: Unicode "substitution of maximal subparts" (Unicode standard
3.9, U+FFFD substitution), written with the encoding form only; no reference to the chunk scanner.
-/
namespace Verif.Lossy
open Verif.Utf8

/-- `m` is the maximal subpart of an ill-formed sequence at the start of `src`: the longest prefix
of `src` that is a prefix of the encoding of some scalar, or a single byte if there is none. -/
def MaximalSubpart (m src : List Nat) : Prop :=
  m <+: src ∧ ((m ≠ [] ∧ IsPartial m) ∨ m.length = 1) ∧ ∀ m', m' <+: src → IsPartial m' → m'.length ≤ m.length

/-- `Decodes src text`: the lossy decoding of the bytes `src` is the sequence of scalars `text`. -/
inductive Decodes : List Nat → List Nat → Prop
  | nil : Decodes [] []
  | char {c rest text} : IsScalar c → Decodes rest text → Decodes (encode c ++ rest) (c :: text)
  | bad {m rest text} : (∀ c, IsScalar c → ¬ encode c <+: m ++ rest) → MaximalSubpart m (m ++ rest) →
      Decodes rest text → Decodes (m ++ rest) (0xFFFD :: text)

/-- Bytes accepted by the sink. -/
def output (l : Log) : List Nat := l.flatMap fun (o, ok) => if ok then o.bytes else []

/-- No write has failed. -/
def NoFailure (l : Log) : Prop := ∀ e ∈ l, e.2 = true

/-- The bytes a list of write calls asks to write (flush excluded by `Writes`). -/
def inputOf : Call → List Nat
  | .slice d => d
  | .byte b => [b]
  | .fill n b => List.replicate n b
  | .flush => []

end Verif.Lossy

/-
Specification vocabulary for the command line of rs_bindings_from_cc (C175, C176).
-/

namespace Verif.Cmd

abbrev Str := List Char

/-- What is said about a target: its label, its headers, its features and the name of its crate. -/
structure Target where
  t : Str
  h : List Str
  f : List Str
  c : Option Str

/-- The target `t` has the header `h`. -/
def HasHeader (as : List Target) (t h : Str) : Prop := ∃ a ∈ as, a.t = t ∧ h ∈ a.h

def HasFeature (as : List Target) (t f : Str) : Prop := ∃ a ∈ as, a.t = t ∧ f ∈ a.f

/-- No name is empty. -/
def Named (as : List Target) : Prop := ∀ a ∈ as, a.t ≠ [] ∧ (∀ h ∈ a.h, h ≠ []) ∧ ∀ f ∈ a.f, f ≠ []

/-- A strict total order on labels -/
structure Order where
  lt : Str → Str → Bool
  irrefl : ∀ a, lt a a = false
  trans : ∀ a b c, lt a b = true → lt b c = true → lt a c = true
  total : ∀ a b, lt a b = true ∨ a = b ∨ lt b a = true

/-! ### Files with arguments -/

/-- How an argument is written in a file: backslashes and line ends are preceded by a backslash. -/
def escaped (a : Str) : Str := a.flatMap fun c => if c = '\\' ∨ c = '\n' then ['\\', c] else [c]

/-- A file with these arguments, one in each line -/
def fileOf (as : List Str) : Str := as.flatMap fun a => escaped a ++ ['\n']

/-! ### `--target_to_arg` -/

/-- An argument, or `--target_to_arg` and a value -/
inductive Item where
  | plain (a : Str)
  | target (v : Str)
deriving DecidableEq

def flag : Str := "--target_to_arg".toList

def stop : Str := "--".toList

def Item.write : Item → List Str
  | .plain a => [a]
  | .target v => [flag, v]

def values : List Item → List Str
  | [] => []
  | .plain _ :: is => values is
  | .target v :: is => v :: values is

def plains : List Item → List Str
  | [] => []
  | .plain a :: is => a :: plains is
  | .target _ :: is => plains is

/-- With commas between -/
def commas : List Str → Str
  | [] => []
  | [a] => a
  | a :: b :: l => a ++ ',' :: commas (b :: l)

/-- Arguments that are not plain are written as such, and plain ones are not the two special ones. -/
def Proper (is : List Item) : Prop := ∀ a, .plain a ∈ is → a ≠ flag ∧ a ≠ stop

end Verif.Cmd

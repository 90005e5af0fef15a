import Verif.Doc.Model

/-!
# Spec: documentation comments, source locations, includes
-/

namespace Verif.Doc.Spec

/-! ## Lines -/

/-- The lines of a text: none has a newline, and the text is the lines with newlines
between. -/
def Lines (t : Str) (ls : List Str) : Prop :=
  ls ≠ [] ∧ (∀ l ∈ ls, '\n' ∉ l) ∧ t = (ls.map fun l => '\n' :: l).flatten.drop 1

/-- White space, as C has it. -/
def Blank (c : Char) : Prop := c ∈ [' ', '\t', '\n', '\x0b', '\x0c', '\r']

/-- A line is a suppression of clang-tidy and nothing else: slashes and blanks, a
`NOLINT` word, perhaps a parenthesis (perhaps not closed), blanks. -/
def Marker (l : Str) : Prop :=
  ∃ lead word arg trail, l = lead ++ word ++ arg ++ trail ∧
    (∀ c ∈ lead, Blank c ∨ c = '/') ∧
    word ∈ ["NOLINT", "NOLINTNEXTLINE", "NOLINTBEGIN", "NOLINTEND"].map String.toList ∧
    (arg = [] ∨ ∃ q, (∀ c ∈ q, c ≠ ')' ∧ ¬ Blank c) ∧ (arg = '(' :: q ∨ arg = '(' :: q ++ [')'])) ∧
    ∀ c ∈ trail, Blank c

/-- Paragraphs: pieces with an empty line between. -/
def Paragraphs : List Str → Str
  | [] => []
  | p :: ps => p ++ (ps.map fun q => '\n' :: '\n' :: q).flatten

/-! ## Locations -/

/-- The text of a place, after some words: the file without a leading `./`, and the
line. -/
def PlaceText (words : String) (p : Place) (t : Str) : Prop :=
  (p.file = [] ∧ t = "<unknown location>".toList) ∨
  (p.file ≠ [] ∧ ∃ f, (p.file = "./".toList ++ f ∨ (¬ "./".toList <+: p.file ∧ f = p.file)) ∧
    t = words.toList ++ f ++ ";l=".toList ++ p.line)

/-! ## Includes -/

/-- The groups of the style guide: C++ headers, headers of the user, of Crubit, and
re-exported ones. -/
def group : Include → Nat
  | .system _ => 0
  | .user _ => 1
  | .support _ _ _ => 2
  | .exported _ => 3

/-- A C++ compiler reads an `#include` of the path in a line; `angled`: in angle
brackets. A path in quotes has no escapes. -/
def ReadsInclude (line : Str) (angled : Bool) (path : Str) : Prop :=
  ∃ rest, (rest = [] ∨ ∃ r, rest = ' ' :: '/' :: '/' :: r) ∧
    if angled then '>' ∉ path ∧ line = "#include <".toList ++ path ++ ">".toList ++ rest
    else '"' ∉ path ∧ line = "#include \"".toList ++ path ++ "\"".toList ++ rest

end Verif.Doc.Spec

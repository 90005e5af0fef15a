import Verif.Doc.Includes

/-!
# Examples: the hypotheses of the theorems are met
-/

namespace Verif.Doc.Example
open Spec

/-! ## Comments of C++ -/

def noteLine : Str := ['s', 'e', 'e', ' ', 'N', 'O', 'L', 'I', 'N', 'T']
def markLine : Str := [' ', '/', '/', 'N', 'O', 'L', 'I', 'N', 'T', '(', 'a', '-', 'b', ')', ' ']
def openLine : Str := ['N', 'O', 'L', 'I', 'N', 'T', '(', 'a']

def comment : Str := ['x', '\n'] ++ markLine ++ ['\n'] ++ noteLine

example : Lines comment [['x'], markLine, noteLine] := lines_iff.2 (by decide +kernel)
example : getComment (some comment) = some (['x', '\n'] ++ noteLine) := by decide +kernel
example : getComment (some markLine) = none := by decide +kernel
example : Marker markLine ∧ Marker openLine ∧ ¬ Marker noteLine := by
  exact ⟨Classical.byContradiction fun h => absurd (keepLine_iff.2 h) (by decide +kernel),
    Classical.byContradiction fun h => absurd (keepLine_iff.2 h) (by decide +kernel),
    keepLine_iff.1 (by decide +kernel)⟩

/-! ## Source locations -/

/-- `./a.h`, line 7, expanded in `b.h`, line 9. -/
def inA : Place := ⟨['.', '/', 'a', '.', 'h'], ['7']⟩
def inB : Place := ⟨['b', '.', 'h'], ['9']⟩

example : convertLoc inA (some inB) =
    "Generated from: a.h;l=7\nExpanded at: b.h;l=9".toList := by decide +kernel
example : parseLoc (convertLoc inA (some inB)) = none :=
  no_offsets _ _ (by
    rintro p (rfl | h)
    · decide
    · cases h; decide)

/-- Offsets, as the Kythe support expects them. -/
example : parseLoc ("Generated from: a.h;l=7[3,5]".toList) =
    some ("Generated from: a.h".toList, ['3'], ['5']) := by decide +kernel

/-! ## Documentation in Rust and in C++ -/

example : rustDoc (· = ' ') (some ['a', '\n', 'b']) (some [' ', 'c', ' ']) (some ['l']) false false =
    some " a\n b\n \n # Safety\n \n c\n \n l".toList := by decide +kernel
example : rustDoc (· = ' ') none none (some ['l']) true false = none := by decide +kernel
example : cppDoc [['a'], ['b']] (some inA) false false =
    some "a\nb\n\nGenerated from: a.h;l=7".toList := by decide +kernel

/-! ## Includes -/

/-- What `proc_macro2` writes for the characters of a literal: here, only for the
backslash. -/
def esc (c : Char) : Str := if c = '\\' then ['\\', '\\'] else [c]

def wanted : List Include :=
  [.exported ['e', '.', 'h'], .user ['b', '.', 'h'], .system ['z'], .user ['a', '.', 'h'],
   .support ['"', 's', '/'] ['"'] ['f', '.', 'h'], .user ['b', '.', 'h'], .system ['c']]

example : formatIncludes esc (setOf wanted) =
    ["#include <c>", "#include <z>", "", "#include \"a.h\"", "#include \"b.h\"",
     "#include \"s/f.h\"", "#include \"e.h\" // IWYU pragma: export"].map String.toList := by
  decide +kernel

example : fromPath ['<', 'c', '>'] = .system ['c'] ∧ fromPath ['<', 'c'] = .user ['<', 'c'] ∧
    fromPath ['<', '>'] = .system [] := by decide +kernel

example : ReadsInclude ((Include.user ['a', '.', 'h']).text esc) false ['a', '.', 'h'] :=
  plain_read esc (by decide) _ (.inl rfl)

/-- A path with a backslash is read as another path. -/
theorem backslash_read (q : Str) :
    ReadsInclude ((Include.user ['a', '\\', 'b']).text esc) false q ↔ q = ['a', '\\', '\\', 'b'] :=
  quoted_read esc (by decide) q _ (.inl rfl)

end Verif.Doc.Example

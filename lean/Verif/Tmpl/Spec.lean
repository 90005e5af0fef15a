/-
Specification vocabulary for `cc_template!` (C174).
-/

namespace Verif.Tmpl

abbrev Str := List Char

inductive Delim where
  | paren
  | brace
  | bracket
  | none
deriving DecidableEq

/-- Tokens of Rust source -/
inductive TT where
  | ident (s : Str)
  | punct (c : Char)
  | lit (s : Str)
  | group (d : Delim) (ts : List TT)

/-- `cc_template!` is invoked with the tokens `body` somewhere in the tokens, also in groups, including the bodies of macros. -/
inductive Invokes : List TT → List TT → Prop where
  | here {pre post body : List TT} {d : Delim} (h : d ≠ .none) :
      Invokes (pre ++ .ident "cc_template".toList :: .punct '!' :: .group d body :: post) body
  | inside {ts us body : List TT} {d : Delim} : .group d us ∈ ts → Invokes us body → Invokes ts body

def Delim.open : Delim → Str
  | .paren => ['(']
  | .brace => ['{']
  | .bracket => ['[']
  | .none => []

def Delim.close : Delim → Str
  | .paren => [')']
  | .brace => ['}']
  | .bracket => [']']
  | .none => []

mutual
/-- The texts of the tokens -/
def TT.texts : TT → List Str
  | .ident s => [s]
  | .punct c => [[c]]
  | .lit s => [s]
  | .group d ts => d.open :: textsL ts ++ [d.close]
def textsL : List TT → List Str
  | [] => []
  | t :: ts => t.texts ++ textsL ts
end

/-- `s` consists of these texts with any number of spaces around them. -/
inductive Spaced : List Str → Str → Prop where
  | nil : Spaced [] []
  | space {l : List Str} {s : Str} : Spaced l s → Spaced l (' ' :: s)
  | text {l : List Str} {s x : Str} : Spaced l s → Spaced (x :: l) (x ++ s)

/-- A class, as clang sees it: its number, its canonical spelling and its Rust name. -/
structure Rec where
  id : Nat
  ccName : Str
  rsName : Str

end Verif.Tmpl

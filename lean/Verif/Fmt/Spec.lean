/-!
# What a format string is

Nothing here refers to the model.
-/
namespace Verif.Fmt

/-- A format string consists of characters other than braces, doubled braces, and names in
braces, which may be surrounded by blanks. -/
inductive Piece where
  | lit (c : Char)
  | openBrace
  | closeBrace
  | var (before name after : List Char)

/-- How a piece is written. -/
def Piece.write : Piece → List Char
  | .lit c => [c]
  | .openBrace => ['{', '{']
  | .closeBrace => ['}', '}']
  | .var a n b => '{' :: (a ++ n ++ b) ++ ['}']

/-- Blanks: the characters with the property `White_Space` of Unicode. -/
def White (c : Char) : Prop :=
  (9 ≤ c.toNat ∧ c.toNat ≤ 13) ∨
    c.toNat ∈ [0x20, 0x85, 0xA0, 0x1680, 0x2000, 0x2001, 0x2002, 0x2003, 0x2004, 0x2005, 0x2006,
      0x2007, 0x2008, 0x2009, 0x200A, 0x2028, 0x2029, 0x202F, 0x205F, 0x3000]

/-- `name` is written between blanks `a` and `b`, with no blank at its own ends. -/
def Surrounded (a name b : List Char) : Prop :=
  (∀ c ∈ a, White c) ∧ (∀ c ∈ b, White c) ∧
    (∀ c r, name = c :: r → ¬ White c) ∧ (∀ c r, name = r ++ [c] → ¬ White c)

/-- The text can be between the braces of a name: it ends before the first closing brace, and
does not begin with an opening one (that would be a doubled brace). -/
def Inner (t : List Char) : Prop := '}' ∉ t ∧ ∀ r, t ≠ '{' :: r

/-- A piece that is in order. -/
def Piece.Ok : Piece → Prop
  | .lit c => c ≠ '{' ∧ c ≠ '}'
  | .openBrace | .closeBrace => True
  | .var a n b => Surrounded a n b ∧ Inner (a ++ n ++ b)

/-- A piece whose name, if it has one, is among those given. -/
def Piece.Known (names : List (List Char)) : Piece → Prop
  | .var _ n _ => n ∈ names
  | _ => True

/-- What becomes of a piece: a name is replaced by what is given for it. -/
def Piece.meaning (names args : List (List Char)) : Piece → List Char
  | .lit c => [c]
  | .openBrace => ['{']
  | .closeBrace => ['}']
  | .var _ n _ => ((names.zip args).lookup n).getD []

/-- A text made of such pieces. -/
def text (ps : List Piece) : List Char := ps.flatMap Piece.write

/-- All pieces are in order and known. -/
def Good (names : List (List Char)) (ps : List Piece) : Prop :=
  ∀ p ∈ ps, p.Ok ∧ p.Known names

/-- The same piece but for blanks around the name. -/
def Piece.Same : Piece → Piece → Prop
  | .lit c, .lit d => c = d
  | .openBrace, .openBrace => True
  | .closeBrace, .closeBrace => True
  | .var _ n _, .var _ m _ => n = m
  | _, _ => False

/-- All braces doubled. -/
def escape : List Char → List Char
  | [] => []
  | c :: s => (if c = '{' ∨ c = '}' then [c, c] else [c]) ++ escape s

end Verif.Fmt

/-!
# Printing generated code: specification

What compilers read: a tokenizer for the part of the grammar that Rust and C++ share (words, numbers, quoted literals,
single punctuation characters, `::`, delimiters, line comments), and the tokens a stream stands for.
-/

namespace Verif.Printer

abbrev Text := List Char

def isWord (c : Char) : Bool := c.isAlphanum || c == '_'
def isDelim (c : Char) : Bool := c == '(' || c == ')' || c == '[' || c == ']' || c == '{' || c == '}'
def isBlank (c : Char) : Bool := c == ' ' || c == '\n'
def isQuote (c : Char) : Bool := c == '"' || c == '\''

/-- Punctuation in a stream: any other character, without the backslash. -/
def isPunct (c : Char) : Bool := !isWord c && !isDelim c && !isBlank c && c != '"' && c != '\\'

/-- What a compiler sees. -/
inductive Tok where
  | word (w : Text)
  | quoted (t : Text)
  | punct (c : Char)
  | colon2
  | delim (c : Char)
  deriving DecidableEq

/-- The body of a quoted literal, up to the closing quote, and the text after it. -/
def scan (q : Char) : Text → Option (Text × Text)
  | [] => none
  | c :: cs =>
      if c = '\\' then match cs with
        | [] => none
        | d :: ds => (scan q ds).map fun r => (c :: d :: r.1, r.2)
      else if c = q then some ([], cs)
      else (scan q cs).map fun r => (c :: r.1, r.2)

/-- `'` starts a literal if an escape follows, or one character and another `'`. -/
def startsChar : Text → Bool
  | '\\' :: _ => true
  | _ :: '\'' :: _ => true
  | _ => false

/-- The longest token at the start of a text; `some none`: blanks and comments; `none`: no token. -/
def next : Text → Option (Option Tok × Text)
  | [] => none
  | c :: cs =>
      if c = '/' ∧ cs.head? = some '/' then some (none, cs.dropWhile (· != '\n'))
      else if c = '/' ∧ cs.head? = some '*' then none
      else if c = ':' ∧ cs.head? = some ':' then some (some .colon2, cs.tail)
      else if isBlank c then some (none, cs)
      else if isDelim c then some (some (.delim c), cs)
      else if isWord c then
        let w := (c :: cs).takeWhile isWord
        let r := (c :: cs).dropWhile isWord
        if r.head?.any isQuote && !c.isDigit then
          -- a literal with a prefix, such as `b"…"`
          (r.head?.bind fun q => scan q r.tail).map fun br =>
            (some (.quoted (w ++ r.take 1 ++ br.1 ++ r.take 1 ++ br.2.takeWhile isWord)), br.2.dropWhile isWord)
        else if c.isDigit && r.head? == some '.' && r.tail.head?.any Char.isDigit then
          some (some (.word (w ++ '.' :: r.tail.takeWhile isWord)), r.tail.dropWhile isWord)
        else some (some (.word w), r)
      else if c == '"' || (c == '\'' && startsChar cs) then
        (scan c cs).map fun br => (some (.quoted (c :: br.1 ++ c :: br.2.takeWhile isWord)), br.2.dropWhile isWord)
      else some (some (.punct c), cs)

/-- All tokens, in `n` steps. -/
def lexN : Nat → Text → Option (List Tok)
  | _, [] => some []
  | 0, _ :: _ => none
  | n + 1, c :: cs => match next (c :: cs) with
      | none => none
      | some (t, r) => (lexN n r).map fun ts => t.toList ++ ts

/-- The tokens of a text: every step takes at least one character. -/
def lex (cs : Text) : Option (List Tok) := lexN cs.length cs

/-- C++ first joins lines that end in a backslash with the next ([lex.phases]). -/
def splice : Text → Text
  | '\\' :: '\n' :: cs => splice cs
  | c :: cs => c :: splice cs
  | [] => []

/-! ## Streams -/

/-- Literals.  `quoted`: strings, byte strings, C strings, characters; raw strings are not modelled. -/
inductive Lit where
  | num (neg : Bool) (w : Text) (frac : Option Text)
  | quoted (pre : Text) (q : Char) (body : Text) (suf : Text)

inductive Delim where
  | paren | bracket | brace | none
  deriving DecidableEq

/-- A token stream with the placeholders of the printer.  The colon, which the printer treats specially, is separate from
other punctuation; `joint`: `Spacing::Joint`. -/
inductive TS where
  | nil
  | ident (w : Text) (r : TS)
  | punct (c : Char) (joint : Bool) (r : TS)
  | colon (joint : Bool) (r : TS)
  | lit (l : Lit) (r : TS)
  | group (d : Delim) (i : TS) (r : TS)
  | newline (r : TS)
  | space (r : TS)
  | hash (r : TS)
  | captureTag (path start stop : Text) (r : TS)
  | captureBegin (r : TS)
  | captureEnd (r : TS)
  /-- `v`: the value of the string literal -/
  | comment (v : Text) (r : TS)

/-- The fraction of a number, with its point. -/
def fracText : Option Text → Text
  | some f => '.' :: f
  | none => []

def Lit.text : Lit → Text
  | .num neg w f => (if neg then ['-'] else []) ++ w ++ fracText f
  | .quoted pre q body suf => pre ++ q :: body ++ q :: suf

def Lit.toks : Lit → List Tok
  | .num neg w f => (if neg then [.punct '-'] else []) ++ [.word (w ++ fracText f)]
  | l => [.quoted l.text]

def Delim.open : Delim → List Tok
  | .paren => [.delim '('] | .bracket => [.delim '['] | .brace => [.delim '{'] | .none => []
def Delim.close : Delim → List Tok
  | .paren => [.delim ')'] | .bracket => [.delim ']'] | .brace => [.delim '}'] | .none => []

/-- The tokens a stream stands for: two colons, the first joint, are one token. -/
def TS.toks : TS → List Tok
  | .nil => []
  | .ident w r => .word w :: r.toks
  | .colon true (.colon _ r) => .colon2 :: r.toks
  | .colon _ r => .punct ':' :: r.toks
  | .punct c _ r => .punct c :: r.toks
  | .lit l r => l.toks ++ r.toks
  | .group d i r => d.open ++ i.toks ++ d.close ++ r.toks
  | .newline r | .space r | .captureTag _ _ _ r | .captureBegin r | .captureEnd r | .comment _ r => r.toks
  | .hash r => .punct '#' :: r.toks

def wordOk (w : Text) : Prop := w ≠ [] ∧ w.all isWord = true ∧ w.head?.any Char.isDigit = false
def numOk (w : Text) : Prop := w.all isWord = true ∧ w.head?.any Char.isDigit = true

def Lit.ok : Lit → Prop
  | .num _ w f => numOk w ∧ ∀ x, f = some x → numOk x
  | .quoted pre q body suf => isQuote q = true ∧ (pre = [] ∨ wordOk pre) ∧ suf.all isWord = true ∧ '\n' ∉ body ∧
      scan q (body ++ [q]) = some (body, []) ∧ (q = '\'' → startsChar (body ++ [q]) = true)

/-- The first thing printed of a stream: markers for captures print nothing. -/
inductive First where
  | end_ | punct (c : Char) | digit | comment | other
  deriving DecidableEq

def TS.first : TS → First
  | .nil => .end_
  | .punct c _ _ => .punct c
  | .colon _ _ => .punct ':'
  | .lit (.num false _ _) _ => .digit
  | .comment _ _ => .comment
  | .captureTag _ _ _ r | .captureBegin r | .captureEnd r => r.first
  | .hash _ => .punct '#'
  | _ => .other

/-- The stream begins with a marker for captures. -/
def TS.marked : TS → Bool
  | .captureTag .. | .captureBegin _ | .captureEnd _ => true
  | _ => false

def TS.isIdent : TS → Bool
  | .ident .. => true
  | _ => false

def TS.startsWith (c : Char) : TS → Bool
  | .punct d _ _ => c == d
  | _ => false

/-- After a number: `.` and another number. -/
def TS.fraction : TS → Bool
  | .punct '.' _ r => r.first == .digit
  | _ => false

def Lit.whole : Lit → Bool
  | .num _ _ none => true
  | _ => false

/-- Streams that can be printed: identifiers and literals are such; no invisible groups; a quote only starts a lifetime and
does not follow a word; `/` is not followed by something that makes it a comment; a whole number is not followed by `.` and a
number; no `:` follows a `:` after a marker. -/
def TS.Clean : TS → Prop
  | .nil => True
  | .ident w r => wordOk w ∧ r.startsWith '\'' = false ∧ r.Clean
  | .punct c _ r => isPunct c = true ∧ c ≠ ':' ∧
      (c = '/' → r.first ≠ .punct '/' ∧ r.first ≠ .punct '*' ∧ r.first ≠ .comment) ∧
      (c = '\'' → r.isIdent = true) ∧ r.Clean
  | .colon _ r => (r.marked = true → r.first ≠ .punct ':') ∧ r.Clean
  | .lit l r => l.ok ∧ r.startsWith '\'' = false ∧ (l.whole = true → r.fraction = false) ∧ r.Clean
  | .group d i r => d ≠ .none ∧ i.Clean ∧ r.Clean
  | .newline r | .space r | .hash r | .captureTag _ _ _ r | .captureBegin r | .captureEnd r | .comment _ r => r.Clean

/-- Comments that are safe in C++: neither a backslash nor a quote at the end. -/
def TS.CommentsOk : TS → Prop
  | .nil => True
  | .comment v r => v.getLast? ≠ some '\\' ∧ v.getLast? ≠ some '"' ∧ r.CommentsOk
  | .group _ i r => i.CommentsOk ∧ r.CommentsOk
  | .ident _ r | .punct _ _ r | .colon _ r | .lit _ r | .newline r | .space r | .hash r | .captureTag _ _ _ r | .captureBegin r
  | .captureEnd r => r.CommentsOk

/-! ## Captured identifiers -/

/-- Captures as the generators make them: around one identifier. -/
def TS.CapOk : TS → Prop
  | .nil => True
  | .captureBegin (.ident _ (.captureEnd r)) => r.CapOk
  | .captureBegin _ | .captureEnd _ => False
  | .group _ i r => i.CapOk ∧ r.CapOk
  | .ident _ r | .punct _ _ r | .colon _ r | .lit _ r | .newline r | .space r | .hash r | .captureTag _ _ _ r | .comment _ r => r.CapOk

inductive Ev where
  | tag (path start stop : Text)
  | cap (w : Text)

/-- A captured identifier: the number of its tag, counted from 1, the literals of the tag, and the identifier; and where in the
text the tag and the identifier are. -/
structure Cap where
  index : Nat
  path : Text
  start : Text
  stop : Text
  word : Text
  tagPos : Nat
  pos : Nat

/-- Each identifier belongs to the last tag before it. -/
def attach (n : Nat) (p a b : Text) (tagPos : Nat) : List (Ev × Nat) → List Cap
  | [] => []
  | (.tag p' a' b', k) :: es => attach (n + 1) p' a' b' k es
  | (.cap w, k) :: es => ⟨n, p, a, b, w, tagPos, k⟩ :: attach n p a b tagPos es

/-- The maximal words of a text. -/
def wordsOf : Text → List Text
  | [] => []
  | c :: cs =>
      if isWord c then
        if cs.head?.any isWord then match wordsOf cs with
          | w :: ws => (c :: w) :: ws
          | [] => [[c]]
        else [c] :: wordsOf cs
      else wordsOf cs

/-- No word crosses the border between the texts. -/
def Border (a b : Text) : Prop := ∀ c d, a.getLast? = some c → b.head? = some d → isWord c = true → isWord d = true → False

end Verif.Printer

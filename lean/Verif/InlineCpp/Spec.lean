/-
Specification vocabulary for C++ embedded in Rust source files (`inline_cpp!`, `global_cpp!`,
`DO_NOT_SUBMIT_CPP_DECL!`), properties C155-C159.

Nothing here refers to the model of the tools in `Verif.InlineCpp.Model`: this is what a reader
who knows the English properties needs.

A Rust source file is the list of its lexer tokens, in order; the file's text is the
concatenation of their texts.  How text is cut into tokens is the job of the external lexer
(`ra_ap_rustc_lexer`) and is not modelled: the properties hold for every token list.
-/

namespace Verif.InlineCpp

/-- The lexer token kinds the tools distinguish. -/
inductive TK where
  | ident | colon | bang | ws | openB | closeB | openP | closeP | other
  deriving DecidableEq, Repr

/-- A token: kind and text. -/
structure Tok where
  kind : TK
  text : List Char
  deriving DecidableEq, Repr

/-- The three macros. -/
inductive Kind where
  | inlineCpp | globalCpp | doNotSubmit
  deriving DecidableEq, Repr

/-- The name a macro is invoked by. -/
def nameOf : Kind → List Char
  | .inlineCpp => "inline_cpp".toList
  | .globalCpp => "global_cpp".toList
  | .doNotSubmit => "DO_NOT_SUBMIT_CPP_DECL".toList

/-- The text of a token list. -/
def src (ts : List Tok) : List Char := ts.flatMap (·.text)

/-- Number of bytes of a text in UTF-8. -/
def byteLen (l : List Char) : Nat := (l.map Char.utf8Size).sum

/-- The (1-based) line of the character that follows the text `pre` in a file. -/
def lineOf (pre : List Char) : Nat := pre.count '\n' + 1

/-- The (1-based) column, in characters, of the character that follows the text `pre`. -/
def colOf (pre : List Char) : Nat := (pre.reverse.takeWhile (fun c => c != '\n')).length + 1

/-- `name`, or `seg :: seg :: … :: name` where only the last segment is one of the three names. -/
inductive Segs (k : Kind) : List Tok → Prop where
  | last (t : Tok) : t.kind = .ident → t.text = nameOf k → Segs k [t]
  | seg (t c₁ c₂ : Tok) (p : List Tok) : t.kind = .ident → (∀ k', t.text ≠ nameOf k') →
      c₁.kind = .colon → c₂.kind = .colon → Segs k p → Segs k (t :: c₁ :: c₂ :: p)

/-- A path to the macro, possibly starting with `::`. -/
inductive Path (k : Kind) : List Tok → Prop where
  | rel (p : List Tok) : Segs k p → Path k p
  | abs (c₁ c₂ : Tok) (p : List Tok) : c₁.kind = .colon → c₂.kind = .colon →
      Segs k p → Path k (c₁ :: c₂ :: p)

/-- Blank tokens only. -/
def Blank (ts : List Tok) : Prop := ∀ t ∈ ts, t.kind = .ws

/-- The beginning of a block: path, `!` and `{`, with white space allowed before `!` and `{`. -/
structure Header (k : Kind) (h : List Tok) : Prop where
  shape : ∃ path w₁ bang w₂ brace, h = path ++ w₁ ++ bang :: w₂ ++ [brace] ∧ Path k path ∧
    Blank w₁ ∧ bang.kind = .bang ∧ Blank w₂ ∧ brace.kind = .openB

/-- A block begins at the beginning of these tokens. -/
def Starts (s : List Tok) : Prop := ∃ k h r, Header k h ∧ s = h ++ r

def opens (ts : List Tok) : Nat := (ts.filter (fun t => t.kind = .openB)).length
def closes (ts : List Tok) : Nat := (ts.filter (fun t => t.kind = .closeB)).length

/-- The braces in `ts` match: no prefix closes more than it opens, and all are closed. -/
def Balanced (ts : List Tok) : Prop :=
  (∀ a b, ts = a ++ b → closes a ≤ opens a) ∧ closes ts = opens ts

/-- A brace that is open at the beginning of `ts` is never closed in `ts`. -/
def NeverClosed (ts : List Tok) : Prop := ∀ a b, ts = a ++ b → closes a ≤ opens a

/-- What the tools are told about a block. -/
structure Macro where
  kind : Kind
  start : Nat
  line : Nat
  col : Nat
  bodyStart : Nat
  bodyEnd : Nat
  bodyLine : Nat
  bodyCol : Nat
  bodyText : List Char
  deriving DecidableEq, Repr

/-- What should be reported for a block of kind `k` with header `h` and body `body` that comes
after the tokens `pre`: byte offsets and line/column of the path and of the body, and the body. -/
def report (pre : List Tok) (k : Kind) (h body : List Tok) : Macro where
  kind := k
  start := byteLen (src pre)
  line := lineOf (src pre)
  col := colOf (src pre)
  bodyStart := byteLen (src (pre ++ h))
  bodyEnd := byteLen (src (pre ++ h ++ body))
  bodyLine := lineOf (src (pre ++ h))
  bodyCol := colOf (src (pre ++ h))
  bodyText := src body

/-- `Blocks pre ts ms`: reading `ts`, which comes after `pre`, from left to right, the blocks are
exactly `ms`: each begins at the first token at which a block can begin after the previous
block's end, its body goes to the matching `}`, and no block begins after the last one. -/
inductive Blocks : List Tok → List Tok → List Macro → Prop where
  | done (pre ts : List Tok) : (∀ a b, ts = a ++ b → ¬ Starts b) → Blocks pre ts []
  | block (pre gap h body rest : List Tok) (k : Kind) (close : Tok) (ms : List Macro) :
      (∀ a b, gap = a ++ b → b ≠ [] → ¬ Starts (b ++ h ++ body ++ close :: rest)) →
      Header k h → Balanced body → close.kind = .closeB →
      Blocks (pre ++ gap ++ h ++ body ++ [close]) rest ms →
      Blocks pre (gap ++ h ++ body ++ close :: rest) (report (pre ++ gap) k h body :: ms)

/-- `Unclosed pre ts l`: reading the blocks of `ts` in the same way, one comes at line `l` whose
body is never closed. -/
inductive Unclosed : List Tok → List Tok → Nat → Prop where
  | here (pre gap h rest : List Tok) (k : Kind) :
      (∀ a b, gap = a ++ b → b ≠ [] → ¬ Starts (b ++ h ++ rest)) →
      Header k h → NeverClosed rest →
      Unclosed pre (gap ++ h ++ rest) (lineOf (src (pre ++ gap)))
  | later (pre gap h body rest : List Tok) (k : Kind) (close : Tok) (l : Nat) :
      (∀ a b, gap = a ++ b → b ≠ [] → ¬ Starts (b ++ h ++ body ++ close :: rest)) →
      Header k h → Balanced body → close.kind = .closeB →
      Unclosed (pre ++ gap ++ h ++ body ++ [close]) rest l →
      Unclosed pre (gap ++ h ++ body ++ close :: rest) l

/-! ### `#line` (C156) -/

/-- The complete lines of a text, without their newlines; an unfinished last line is left out. -/
def linesOf : List Char → List (List Char)
  | [] => []
  | c :: r =>
      if c = '\n' then [] :: linesOf r
      else match linesOf r with
        | [] => []
        | l :: ls => (c :: l) :: ls

def isBlank (c : Char) : Bool := c == ' ' || c == '\t'

/-- Drop the word `line`, if it is there. -/
def dropLineWord : List Char → List Char
  | 'l' :: 'i' :: 'n' :: 'e' :: r => r
  | r => r

/-- The file name in a line directive, after the number. -/
def readFile : List Char → Option (List Char)
  | '"' :: r => some (r.takeWhile (fun c => c != '"'))
  | _ => none

/-- A C++ line directive `#line N "file"` (also `# N "file"`, and without file): the number and the
file. -/
def readDirective (l : List Char) : Option (Nat × Option (List Char)) :=
  match l.dropWhile isBlank with
  | '#' :: r =>
      let r := (dropLineWord (r.dropWhile isBlank)).dropWhile isBlank
      let ds := r.takeWhile Char.isDigit
      if ds = [] then none
      else some (Nat.ofDigitChars 10 ds 0, readFile ((r.dropWhile Char.isDigit).dropWhile isBlank))
  | _ => none

/-- What the C++ compiler calls the line after a line: a directive sets number and file, any other
line counts up. -/
def afterLine (st : Option (List Char) × Nat) (l : List Char) : Option (List Char) × Nat :=
  match readDirective l with
  | some (n, some f) => (some f, n)
  | some (n, none) => (st.1, n)
  | none => (st.1, st.2 + 1)

/-- The file and line the C++ compiler reports for the character after the text `before`. -/
def presumed (before : List Char) : Option (List Char) × Nat :=
  (linesOf before).foldl afterLine (none, 1)

/-- A C++ text with no line directives of its own (also if indented by spaces). -/
def NoDirective (body : List Char) : Prop := ∀ l ∈ linesOf body, readDirective l = none

/-! ### Signatures of `inline_cpp!` (C158) -/

def parenOpens (ts : List Tok) : Nat := (ts.filter (fun t => t.kind = .openP)).length
def parenCloses (ts : List Tok) : Nat := (ts.filter (fun t => t.kind = .closeP)).length

/-- The parentheses in `ts` match. -/
def ParenBalanced (ts : List Tok) : Prop :=
  (∀ a b, ts = a ++ b → parenCloses a ≤ parenOpens a) ∧ parenCloses ts = parenOpens ts

/-- White space as `str::trim` understands it, for the characters that can occur in practice. -/
def isSpace (c : Char) : Bool :=
  c == ' ' || c == '\t' || c == '\n' || c == '\r' || c == '\x0b' || c == '\x0c' ||
  c == Char.ofNat 0x85 || c == Char.ofNat 0xa0 || c == Char.ofNat 0x1680 ||
  (0x2000 ≤ c.toNat && c.toNat ≤ 0x200a) || c == Char.ofNat 0x2028 || c == Char.ofNat 0x2029 ||
  c == Char.ofNat 0x202f || c == Char.ofNat 0x205f || c == Char.ofNat 0x3000

/-- `(args) -> type { … }`, with white space around. -/
structure Signature (ts : List Tok) : Prop where
  shape : ∃ w₁ op args cp ret ob body cb w₂,
    ts = w₁ ++ op :: args ++ cp :: ret ++ ob :: body ++ cb :: w₂ ∧
    Blank w₁ ∧ op.kind = .openP ∧ ParenBalanced args ∧ cp.kind = .closeP ∧
    (∀ t ∈ ret, t.kind ≠ .openB) ∧
    (∃ r, (src ret).dropWhile isSpace = '-' :: '>' :: r) ∧
    ob.kind = .openB ∧ cb.kind = .closeB ∧ Blank w₂

/-! ### Formatting (C159) -/

/-- The characters of a text that are not white space. -/
def solid (l : List Char) : List Char := l.filter (fun c => !isSpace c)

/-- `Spliced f pre ts ms out`: `out` is the text of `ts`, which comes after `pre` and whose blocks are
`ms`, with the body of each block `m` replaced by `f m` and nothing else changed. -/
inductive Spliced (f : Macro → List Char) : List Tok → List Tok → List Macro → List Char → Prop where
  | done (pre ts : List Tok) : Spliced f pre ts [] (src ts)
  | block (pre gap h body rest : List Tok) (k : Kind) (close : Tok) (ms : List Macro) (out : List Char) :
      Spliced f (pre ++ gap ++ h ++ body ++ [close]) rest ms out →
      Spliced f pre (gap ++ h ++ body ++ close :: rest) (report (pre ++ gap) k h body :: ms)
        (src gap ++ src h ++ f (report (pre ++ gap) k h body) ++ close.text ++ out)

/-- A body as the formatter writes it: empty, or lines indented by `n + 4` spaces (empty lines are
left empty) followed by `n` spaces before the closing brace. -/
inductive Indented (n : Nat) : List Char → Prop where
  | empty : Indented n []
  | lines (ls : List (List Char)) : ls ≠ [] →
      (∀ l ∈ ls, '\n' ∉ l ∧ (l = [] ∨ ∃ r, l = List.replicate (n + 4) ' ' ++ r)) →
      Indented n ('\n' :: (ls.flatMap (· ++ ['\n']) ++ List.replicate n ' '))

end Verif.InlineCpp

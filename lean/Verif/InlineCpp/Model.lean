import Verif.InlineCpp.Spec

/-
Model of `support/extract_cpp_from_rust`: `parse_inline_cpp_macros.rs`, `inline_cpp_utils.rs`,
`extract_cpp_from_rust.rs`, `inline_cpp_macro.rs` and `rust_with_cpp_fmt.rs`.

Not modelled: the lexer (a file is given as its token list), command line handling, reading and
writing files, the lint for bindable declarations, the wording of errors (only the line they name),
the placeholder closure the macro expands to without `CRUBIT_TARGET`, and the external programs
`rustfmt` and `clang-format` (arbitrary functions).
-/

namespace Verif.InlineCpp

/-! ### `parse_inline_cpp_macros.rs` -/

/-- `offset`, `line`, `col` in `MacroParser::new` (parse_inline_cpp_macros.rs:74-80). -/
structure Pos where
  off : Nat
  line : Nat
  col : Nat
  deriving DecidableEq, Repr

/-- One character of the loop at parse_inline_cpp_macros.rs:88-96 (and `offset += len`). -/
def stepChar (p : Pos) (c : Char) : Pos :=
  if c = '\n' then ⟨p.off + c.utf8Size, p.line + 1, 1⟩
  else ⟨p.off + c.utf8Size, p.line, p.col + 1⟩

/-- One token of the loop at parse_inline_cpp_macros.rs:82-105: the position of the next token.
Simplification: the code stores the position in every token in advance; the model carries the
position of the token at the cursor along. -/
def advTok (p : Pos) (t : Tok) : Pos := t.text.foldl stepChar p

/-- `advance` several times (parse_inline_cpp_macros.rs:113-117). -/
def advToks (p : Pos) (ts : List Tok) : Pos := ts.foldl advTok p

/-- parse_inline_cpp_macros.rs:74-80 -/
def startPos : Pos := ⟨0, 1, 1⟩

/-- `eat_whitespace` (parse_inline_cpp_macros.rs:119-125): position and remaining tokens. -/
def eatWs (p : Pos) : List Tok → Pos × List Tok
  | [] => (p, [])
  | t :: r => if t.kind = .ws then eatWs (advTok p t) r else (p, t :: r)

/-- `try_eat_path_separator_at` (parse_inline_cpp_macros.rs:127-137): number of tokens eaten. -/
def sepCount : List Tok → Nat
  | a :: b :: _ => if a.kind = .colon ∧ b.kind = .colon then 2 else 0
  | _ => 0

/-- The names compared at parse_inline_cpp_macros.rs:169-180. -/
def kindOf (x : List Char) : Option Kind :=
  if x = "inline_cpp".toList then some .inlineCpp
  else if x = "global_cpp".toList then some .globalCpp
  else if x = "DO_NOT_SUBMIT_CPP_DECL".toList then some .doNotSubmit
  else none

/-- The loop of `check_macro_path` (parse_inline_cpp_macros.rs:160-186): the macro and the number
of tokens up to the end of its name. -/
def pathLoop : List Tok → Option (Kind × Nat)
  | [] => none
  | t :: r =>
      if t.kind ≠ .ident then none
      else match kindOf t.text with
        | some k => some (k, 1)
        | none =>
            match r with
            | c₁ :: c₂ :: r' =>
                if c₁.kind = .colon ∧ c₂.kind = .colon then
                  (pathLoop r').map (fun (k, n) => (k, n + 3))
                else none
            | _ => none

/-- Number of leading white space tokens (parse_inline_cpp_macros.rs:191-194). -/
def wsCount (ts : List Tok) : Nat := (ts.takeWhile (fun t => t.kind = .ws)).length

/-- `check_macro_path` (parse_inline_cpp_macros.rs:152-202): the macro and the number of tokens up
to and including `!`. -/
def checkMacroPath (ts : List Tok) : Option (Kind × Nat) :=
  let s := sepCount ts
  match pathLoop (ts.drop s) with
  | none => none
  | some (k, n) =>
      let idx := s + n
      let bang := idx + wsCount (ts.drop idx)
      match ts[bang]? with
      | some t => if t.kind = .bang then some (k, bang + 1) else none
      | none => none

/-- The loop over the body (parse_inline_cpp_macros.rs:236-260): position of the closing brace,
position after it and remaining tokens; `none` at the end of the file. -/
def eatBody (depth : Nat) (p : Pos) : List Tok → Option (Pos × Pos × List Tok)
  | [] => none
  | t :: r =>
      if t.kind = .openB then eatBody (depth + 1) (advTok p t) r
      else if t.kind = .closeB then
        if depth - 1 = 0 then some (p, advTok p t, r) else eatBody (depth - 1) (advTok p t) r
      else eatBody depth (advTok p t) r

/-- Characters from a byte offset on (the start of `&source[a..b]`). -/
def dropBytes : Nat → List Char → List Char
  | _, [] => []
  | n, c :: l => if n = 0 then c :: l else dropBytes (n - c.utf8Size) l

/-- Characters up to a byte offset. -/
def takeBytes : Nat → List Char → List Char
  | _, [] => []
  | n, c :: l => if n = 0 then [] else c :: takeBytes (n - c.utf8Size) l

/-- `&source[a..b]` -/
def slice (source : List Char) (a b : Nat) : List Char := takeBytes (b - a) (dropBytes a source)

/-- Result of `next_macro`. -/
inductive Next where
  | err (line : Nat)
  | none
  | found (m : Macro) (p : Pos) (rest : List Tok)

/-- `next_macro` (parse_inline_cpp_macros.rs:205-283).  `fuel` bounds the number of rounds of the
outer loop; every round takes a token. -/
def nextMacro (source : List Char) : Nat → Pos → List Tok → Next
  | 0, _, _ => .none
  | _ + 1, _, [] => .none
  | fuel + 1, p, t :: r =>
      match checkMacroPath (t :: r) with
      | Option.none => nextMacro source fuel (advTok p t) r
      | some (k, count) =>
          let q := eatWs (advToks p ((t :: r).take count)) ((t :: r).drop count)
          match q.2 with
          | [] => nextMacro source fuel q.1 []
          | b :: r' =>
              if b.kind = .openB then
                let bodyPos := advTok q.1 b
                match eatBody 1 bodyPos r' with
                | some (e, p', rest) =>
                    .found { kind := k, start := p.off, line := p.line, col := p.col,
                             bodyStart := bodyPos.off, bodyEnd := e.off,
                             bodyLine := bodyPos.line, bodyCol := bodyPos.col,
                             bodyText := slice source bodyPos.off e.off } p' rest
                | Option.none => .err p.line
              else nextMacro source fuel q.1 (b :: r')

/-- The loop of `parse_inline_cpp_macros` (parse_inline_cpp_macros.rs:286-297). -/
def parseLoop (source : List Char) : Nat → Pos → List Tok → Except Nat (List Macro)
  | 0, _, _ => .ok []
  | fuel + 1, p, ts =>
      match nextMacro source (ts.length + 1) p ts with
      | .err l => .error l
      | .none => .ok []
      | .found m p' rest =>
          match parseLoop source fuel p' rest with
          | .ok ms => .ok (m :: ms)
          | .error l => .error l

/-- `parse_inline_cpp_macros` on the tokens of a file: the blocks, or the line of an unclosed one. -/
def parse (ts : List Tok) : Except Nat (List Macro) :=
  parseLoop (src ts) (ts.length + 1) startPos ts

/-! ### `inline_cpp_utils.rs` -/

/-- A round of `Fnv1aHasher::write` (inline_cpp_utils.rs:14-19). -/
def fnvByte (h : Nat) (b : Nat) : Nat := ((h ^^^ b) * 0x100000001b3) % 2 ^ 64

/-- `Fnv1aHasher::write` (inline_cpp_utils.rs:14-19). -/
def fnvWrite (h : Nat) (bytes : List Nat) : Nat := bytes.foldl fnvByte h

/-- `usize::to_ne_bytes`; simplification: a 64-bit little-endian host. -/
def neBytes (n : Nat) : List Nat :=
  [n % 256, n / 256 % 256, n / 256 ^ 2 % 256, n / 256 ^ 3 % 256, n / 256 ^ 4 % 256,
   n / 256 ^ 5 % 256, n / 256 ^ 6 % 256, n / 256 ^ 7 % 256]

/-- The hash in `compute_thunk_name` (inline_cpp_utils.rs:27-32) -/
def thunkHash (target file : List Nat) (line col : Nat) : Nat :=
  fnvWrite (fnvWrite (fnvWrite (fnvWrite 0xcbf29ce484222325 target) file) (neBytes line))
    (neBytes col)

/-- A lower-case hexadecimal digit. -/
def hexDigit (d : Nat) : Char := if d < 10 then Char.ofNat (48 + d) else Char.ofNat (87 + d)

/-- The last `n` hexadecimal digits of `v`. -/
def hexDigits : Nat → Nat → List Char
  | 0, _ => []
  | n + 1, v => hexDigits n (v / 16) ++ [hexDigit (v % 16)]

/-- UTF-8 bytes of a text (`as_bytes`). -/
def utf8 (l : List Char) : List Nat := l.flatMap (fun c => (String.utf8EncodeChar c).map UInt8.toNat)

/-- `Path::file_name` on a path with `/` separators (inline_cpp_utils.rs:34-35).  Simplification:
paths that end in `/`, `.` or `..`, which are no source files, are not treated specially. -/
def baseName (path : List Char) : List Char :=
  (path.reverse.takeWhile (fun c => c != '/')).reverse

/-- The escaping at inline_cpp_utils.rs:36-37. -/
def escape (name : List Char) : List Char :=
  name.map (fun c => if c = '.' ∨ c = '-' then '_' else c)

/-- `compute_thunk_name` (inline_cpp_utils.rs:26-40). -/
def thunkName (target file : List Char) (line col : Nat) : List Char :=
  "inline_cpp_thunk_".toList ++ escape (baseName file) ++
    '_' :: hexDigits 16 (thunkHash (utf8 target) (utf8 file) line col)

/-! ### `inline_cpp_macro.rs` -/

/-- The name the expansion of `inline_cpp!` refers to (inline_cpp_macro.rs:38-79); `line` and `col`
are those of the invocation's first token, which is what `Span::call_site()` gives. -/
def macroName (target file : List Char) (line col : Nat) : List Char :=
  thunkName target file line col

/-! ### `extract_cpp_from_rust.rs` -/

/-- `#line` followed by the padded body (extract_cpp_from_rust.rs:64-69 and :169-175). -/
def linePiece (file : List Char) (m : Macro) : List Char :=
  "#line ".toList ++ Nat.toDigits 10 m.bodyLine ++ " \"".toList ++ file ++ "\"\n".toList ++
    List.replicate (m.bodyCol - 1) ' ' ++ m.bodyText ++ "\n".toList

/-- `extract_global_cpp` without the lint (extract_cpp_from_rust.rs:54-75). -/
def extractGlobal (file : List Char) : List Macro → List Char
  | [] => []
  | m :: ms =>
      if m.kind ≠ .globalCpp ∧ m.kind ≠ .doNotSubmit then extractGlobal file ms
      else linePiece file m ++ extractGlobal file ms

/-- The search for the closing parenthesis (extract_cpp_from_rust.rs:105-124): its index. -/
def closeParen (depth : Int) : List Tok → Option Nat
  | [] => none
  | t :: r =>
      if t.kind = .openP then (closeParen (depth + 1) r).map (· + 1)
      else if t.kind = .closeP then
        if depth - 1 = 0 then some 0 else (closeParen (depth - 1) r).map (· + 1)
      else (closeParen depth r).map (· + 1)

/-- `str::trim` -/
def trim (l : List Char) : List Char :=
  ((l.dropWhile isSpace).reverse.dropWhile isSpace).reverse

/-- `validate_inline_cpp_syntax` (extract_cpp_from_rust.rs:84-153) on the tokens of the body. -/
def validate (ts : List Tok) : Bool :=
  let rest := ts.dropWhile (fun t => t.kind = .ws)
  match rest with
  | [] => false
  | t :: _ =>
      if t.kind ≠ .openP then false
      else match closeParen 0 rest with
        | none => false
        | some i =>
            let after := rest.drop (i + 1)
            match after.findIdx? (fun t => t.kind = .openB) with
            | none => false
            | some j =>
                match ts.reverse.dropWhile (fun t => t.kind = .ws) with
                | [] => false
                | l :: _ =>
                    if l.kind ≠ .closeB then false
                    else
                      match trim (src (after.take j)) with
                      | '-' :: '>' :: _ => true
                      | _ => false

/-- `extract_inline_cpp` (extract_cpp_from_rust.rs:155-179); `lex` cuts a body into tokens. -/
def extractInline (lex : List Char → List Tok) (target file : List Char) :
    List Macro → Except Nat (List Char)
  | [] => .ok []
  | m :: ms =>
      if m.kind ≠ .inlineCpp then extractInline lex target file ms
      else if validate (lex m.bodyText) = false then .error m.line
      else match extractInline lex target file ms with
        | .error l => .error l
        | .ok r =>
            .ok ("inline auto ".toList ++ thunkName target file m.line m.col ++ "\n".toList ++
              linePiece file m ++ "\n".toList ++ r)

/-- A round of the loop over the source files in `main` (extract_cpp_from_rust.rs:187-209). -/
def snippets (lex : List Char → List Tok) (target : List Char) :
    List (List Char × List Tok) → Option (List Char)
  | [] => some []
  | (file, ts) :: r =>
      match parse ts with
      | .error _ => none
      | .ok ms =>
          match extractInline lex target file ms, snippets lex target r with
          | .ok inl, some rest => some (extractGlobal file ms ++ inl ++ rest)
          | _, _ => none

/-- `final_header` in `main` (extract_cpp_from_rust.rs:221-226); `none` if the tool fails. -/
def header (lex : List Char → List Tok) (target : List Char) (files : List (List Char × List Tok)) :
    Option (List Char) :=
  (snippets lex target files).map fun content =>
    "#ifndef CRUBIT_EXTRACTED_GLOBAL_CPP_H_\n#define CRUBIT_EXTRACTED_GLOBAL_CPP_H_\n\n".toList ++
      content ++ "\n#endif  // CRUBIT_EXTRACTED_GLOBAL_CPP_H_\n".toList

/-! ### `rust_with_cpp_fmt.rs` -/

/-- Remove a `\r` before the `\n`; `cur` is the line, reversed. -/
def stripCr : List Char → List Char
  | '\r' :: q => q.reverse
  | cur => cur.reverse

/-- `str::lines`: the lines without their line ends (`\n` or `\r\n`). `cur` is the current line,
reversed. -/
def rustLinesGo (cur : List Char) : List Char → List (List Char)
  | [] => if cur = [] then [] else [cur.reverse]
  | c :: r =>
      if c = '\n' then
        stripCr cur :: rustLinesGo [] r
      else rustLinesGo (c :: cur) r

/-- `str::lines` -/
def rustLines (l : List Char) : List (List Char) := rustLinesGo [] l

/-- `find(prefix)` and the text after it (rust_with_cpp_fmt.rs:157-161). -/
def afterPrefix (p : List Char) : List Char → Option (List Char)
  | [] => if p = [] then some [] else none
  | c :: r => if p.isPrefixOf (c :: r) then some ((c :: r).drop p.length) else afterPrefix p r

/-- `trim_matches('\n')` -/
def trimNl (l : List Char) : List Char :=
  ((l.dropWhile (fun c => c == '\n')).reverse.dropWhile (fun c => c == '\n')).reverse

def wrapInline : List Char := "inline auto __crubit_fmt_wrapper".toList
def wrapVoid : List Char := "void __crubit_fmt_wrapper()".toList

/-- What is given to `clang-format`, and the prefix to remove (rust_with_cpp_fmt.rs:133-149). -/
def clangInput (kind : Kind) (trimmed : List Char) : List Char × Option (List Char) :=
  match kind with
  | .inlineCpp =>
      match trimmed with
      | '(' :: _ => (wrapInline ++ ' ' :: trimmed, some wrapInline)
      | _ => (wrapVoid ++ ' ' :: trimmed, some wrapVoid)
  | _ => (trimmed, none)

/-- `run_clang_format` (rust_with_cpp_fmt.rs:122-165); `clang` is the program, given the column limit and
the input; `none`: it failed. -/
def runClang (clang : Nat → List Char → Option (List Char)) (body : List Char) (kind : Kind)
    (limit : Nat) : Option (List Char) :=
  let inp := clangInput kind (trim body)
  match clang limit inp.1 with
  | none => none
  | some formatted =>
      match inp.2 with
      | some p =>
          match afterPrefix p formatted with
          | some inner => some (trimNl (inner.dropWhile isSpace))
          | none => some (trimNl formatted)
      | none => some (trimNl formatted)

/-- `base_indent` (rust_with_cpp_fmt.rs:192-195): the spaces at the beginning of the line the macro's
path begins in. -/
def baseIndent (source : List Char) (m : Macro) : Nat :=
  let linePrefix := ((takeBytes m.start source).reverse.takeWhile (fun c => c != '\n')).reverse
  (linePrefix.takeWhile (fun c => c == ' ')).length

/-- The C++ of a block after formatting (rust_with_cpp_fmt.rs:197-207). -/
def formattedCpp (clang : Nat → List Char → Option (List Char)) (source : List Char) (m : Macro) :
    List Char :=
  let limit := Nat.max (80 - (baseIndent source m + 4)) 20
  (runClang clang m.bodyText m.kind limit).getD (trim m.bodyText)

/-- `indented_body` (rust_with_cpp_fmt.rs:209-219). -/
def indentBody (n : Nat) (cpp : List Char) : List Char :=
  (rustLines cpp).flatMap fun line =>
    if trim line = [] then ['\n'] else List.replicate (n + 4) ' ' ++ line ++ ['\n']

/-- `replacement` (rust_with_cpp_fmt.rs:221-226). -/
def replacement (clang : Nat → List Char → Option (List Char)) (source : List Char) (m : Macro) :
    List Char :=
  let n := baseIndent source m
  let b := indentBody n (formattedCpp clang source m)
  if b = [] then ['{', '}'] else '{' :: '\n' :: (b ++ List.replicate n ' ' ++ ['}'])

/-- `rfind('{')` (rust_with_cpp_fmt.rs:228-230): byte offset of the last `{`. -/
def rfindBrace (l : List Char) : Option Nat :=
  match l.reverse.dropWhile (fun c => c != '{') with
  | [] => none
  | _ :: r => some (byteLen r)

/-- `String::replace_range` -/
def replaceRange (l : List Char) (a b : Nat) (x : List Char) : List Char :=
  takeBytes a l ++ x ++ dropBytes b l

/-- The loop over the blocks (rust_with_cpp_fmt.rs:190-234). -/
def replacements (clang : Nat → List Char → Option (List Char)) (source : List Char) :
    List Macro → Option (List (Nat × Nat × List Char))
  | [] => some []
  | m :: ms =>
      match rfindBrace (takeBytes m.bodyStart source), replacements clang source ms with
      | some a, some rs => some ((a, m.bodyEnd + 1, replacement clang source m) :: rs)
      | _, _ => none

/-- Pass 2 of `format_rust_source` (rust_with_cpp_fmt.rs:182-242), on the tokens of what `rustfmt`
returned; `none`: an error. -/
def formatSource (clang : Nat → List Char → Option (List Char)) (ts : List Tok) : Option (List Char) :=
  match parse ts with
  | .error _ => none
  | .ok ms =>
      match replacements clang (src ts) ms with
      | none => none
      | some rs => some (rs.reverse.foldl (fun acc r => replaceRange acc r.1 r.2.1 r.2.2) (src ts))

end Verif.InlineCpp

import Verif.Printer.Spec

/-!
# Printing generated code: the printer

Source: `common/token_stream_printer.rs`.  Positions count characters, not bytes.  A `__CAPTURE_TAG__` or `__COMMENT__`
without its literals, which stops the generator with an error, is not representable; `__LITERALLY__` is modelled alone
(`literally`); external formatters are not modelled.
-/

namespace Verif.Printer

/-- `Display` of a string literal made from its value (`proc_macro2`, `Literal::string`); only the escapes for quotes,
backslashes, newlines, carriage returns, tabs and zeros (a zero before a digit is written differently). -/
def escape : Char → Text
  | '"' => ['\\', '"']
  | '\\' => ['\\', '\\']
  | '\n' => ['\\', 'n']
  | '\r' => ['\\', 'r']
  | '\t' => ['\\', 't']
  | c => if c = Char.ofNat 0 then ['\\', '0'] else [c]

def display (v : Text) : Text := '"' :: v.flatMap escape ++ ['"']

/-- `str::trim_matches('"')`. -/
def trimQuotes (s : Text) : Text := ((s.dropWhile (· == '"')).reverse.dropWhile (· == '"')).reverse

/-- `.replace("\\\"", "\"")`. -/
def unquote : Text → Text
  | '\\' :: '"' :: cs => '"' :: unquote cs
  | c :: cs => c :: unquote cs
  | [] => []

/-- `.replace("\\n", "\n// ")`. -/
def breakLines : Text → Text
  | '\\' :: 'n' :: cs => '\n' :: '/' :: '/' :: ' ' :: breakLines cs
  | c :: cs => c :: breakLines cs
  | [] => []

/-- `.replace("\\\\", "\\")`. -/
def unslash : Text → Text
  | '\\' :: '\\' :: cs => '\\' :: unslash cs
  | c :: cs => c :: unslash cs
  | [] => []

/-- `clean_literal`, lines 209–212. -/
def cleanLiteral (v : Text) : Text := unquote (trimQuotes (display v))

/-- `__COMMENT__`, lines 304–317. -/
def commentText (v : Text) : Text := '/' :: '/' :: ' ' :: breakLines (unquote (trimQuotes (display v))) ++ ['\n']

/-- `__LITERALLY__`, lines 318–335. -/
def literally (v : Text) : Text := unslash (unquote (trimQuotes (display v))) ++ ['\n']

/-- `GeneratedOffsetsWithProvenance`, lines 156–172. -/
structure Entry where
  searchStart : Nat := 0
  start : Nat := 0
  stop : Nat := 0
  path : Text := []
  origStart : Text := []
  origStop : Text := []
  deriving DecidableEq

/-- `TokenOutputState`, lines 222–236; the map as a list of insertions, later ones first. -/
structure St where
  result : Text
  lastBegin : Option Nat := none
  index : Nat := 0
  entry : Entry := {}
  map : List (Nat × Entry) := []

/-- What `tokens_require_whitespace` looks at. -/
inductive Kind where
  /-- an identifier (also a placeholder) or literal -/
  | word
  | colon (joint : Bool)
  /-- `__NEWLINE__`, `__SPACE__`, groups, other punctuation -/
  | other
  deriving DecidableEq

/-- `is_ident_or_literal` and `get_colon` of the first token, lines 524–530, 493–503. -/
def TS.kind : TS → Option Kind
  | .nil => none
  | .ident .. | .lit .. | .hash _ | .captureTag .. | .captureBegin _ | .captureEnd _ | .comment .. => some .word
  | .colon j _ => some (.colon j)
  | .punct .. | .newline _ | .space _ | .group .. => some .other

/-- `tokens_require_whitespace`, lines 479–522. -/
def needsSpace (prev : Option Kind) (current next : Kind) : Bool :=
  if current = .word ∧ next = .word then true
  else match current with
    | .colon true => false
    | .colon false => match prev with
        | some (.colon true) => match next with
            | .colon _ => true
            | _ => false
        | _ => true
    | _ => false

/-- The blank after a token, lines 349–357. -/
def blank (prev : Option Kind) (current : Kind) (r : TS) : Text := match r.kind with
  | none => []
  | some k => if needsSpace prev current k then [' '] else []

def Delim.texts : Delim → Text × Text
  | .paren => (['('], [')'])
  | .bracket => (['['], [']'])
  | .brace => (['{', ' '], [' ', '}'])
  | .none => ([], [])

/-- `write_stream`, lines 251–363. -/
def write (prev : Option Kind) : TS → St → St
  | .nil, s => s
  | .newline r, s => write (some .other) r { s with result := s.result ++ ['\n'] }
  | .space r, s => write (some .other) r { s with result := s.result ++ [' '] }
  | .hash r, s => write (some .word) r { s with result := s.result ++ ['#'] }
  | .captureTag p a b r, s => write (some .word) r
      { s with index := s.index + 1,
               entry := { s.entry with path := cleanLiteral p, origStart := cleanLiteral a, origStop := cleanLiteral b,
                                       searchStart := s.result.length } }
  | .captureBegin r, s => write (some .word) r { s with lastBegin := some s.result.length }
  | .captureEnd r, s => write (some .word) r (match s.lastBegin with
      | some b => { s with map := (s.index, { s.entry with start := b, stop := s.result.length }) :: s.map }
      | none => s)
  | .comment v r, s => write (some .word) r { s with result := s.result ++ commentText v }
  | .group d i r, s =>
      let s1 := write none i { s with result := s.result ++ d.texts.1 }
      write (some .other) r { s1 with result := s1.result ++ d.texts.2 }
  | .ident w r, s => write (some .word) r { s with result := s.result ++ w ++ blank prev .word r }
  | .lit l r, s => write (some .word) r { s with result := s.result ++ l.text ++ blank prev .word r }
  | .punct c _ r, s => write (some .other) r { s with result := s.result ++ [c] ++ blank prev .other r }
  | .colon j r, s => write (some (.colon j)) r { s with result := s.result ++ [':'] ++ blank prev (.colon j) r }

/-- `tokens_to_string`, lines 394–399. -/
def print (ts : TS) : Text := (write none ts { result := [] }).result

/-! ## Provenance -/

/-- `str::match_indices` for a pattern that is not empty: from the left, not overlapping. -/
def matches_ (pat : Text) : Nat → Nat → Text → List Nat
  | _, _, [] => []
  | i, skip + 1, _ :: cs => matches_ pat (i + 1) skip cs
  | i, 0, c :: cs => if pat.isPrefixOf (c :: cs) then i :: matches_ pat (i + 1) (pat.length - 1) cs else matches_ pat (i + 1) 0 cs

def matchIndices (pat text : Text) : List Nat := matches_ pat 0 0 text

/-- `str::trim`, for blanks and newlines. -/
def trim (s : Text) : Text := ((s.dropWhile isBlank).reverse.dropWhile isBlank).reverse

/-- `SubstringWithProvenance`, lines 176–188. -/
structure Sub where
  substring : Text
  index : Nat
  path : Text
  origStart : Text
  origStop : Text
  deriving DecidableEq

/-- `tokens_to_string_with_provenance`, the body of the loop, lines 411–438; `none`: `unwrap` of nothing; `some none`:
the record is skipped. -/
def record (result : Text) (e : Entry) : Option (Option Sub) :=
  if e.stop ≤ e.start ∨ e.start < e.searchStart then some none
  else
    let tok := trim ((result.drop e.start).take (e.stop - e.start))
    let a := e.start - e.searchStart
    let b := e.stop - e.searchStart
    ((matchIndices tok (result.drop e.searchStart)).findIdx? fun i => a ≤ i ∧ i < b).map fun ix =>
      some ⟨tok, ix, e.path, e.origStart, e.origStop⟩

/-- `fix_provenance_map_postformatting`, lines 448–477: of each tag the offsets in the formatted text. -/
def fixUp (content pattern : Text) (m : Nat → Option Sub) : List (Nat × Nat × Nat × Sub) :=
  (matchIndices pattern content).zipIdx.filterMap fun (offset, t) => match m (t + 1) with
    | none => none
    | some v =>
        if v.substring = [] then none
        else (matchIndices v.substring (content.drop offset))[v.index]?.map fun o =>
          (t + 1, o + offset, o + offset + v.substring.length, v)

end Verif.Printer

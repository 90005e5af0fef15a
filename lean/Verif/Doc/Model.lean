/-!
# Model: documentation comments, source locations, includes

How documentation passes from C++ to Rust and from Rust to C++:
`rs_bindings_from_cc/importer.cc:1755-1860`,
`rs_bindings_from_cc/generate_bindings/generate_comment.rs:61-130`,
`cc_bindings_from_rs/generate_bindings/lib.rs:1811-1861`; and the `#include`
lines of generated C++, `common/code_gen_utils.rs:950-1115`.
-/

namespace Verif.Doc

/-- Texts (`std::string` and `&str`; `rs_bindings_from_cc/importer.cc:1765`). -/
abbrev Str := List Char

/-- Models `absl::StrJoin` and `join` with a newline
(`rs_bindings_from_cc/importer.cc:1780`,
`cc_bindings_from_rs/generate_bindings/lib.rs:1844`). -/
def join (sep : Str) : List Str → Str
  | [] => []
  | [a] => a
  | a :: b :: r => a ++ sep ++ join sep (b :: r)

/-- Models `absl::StrSplit(.., '\n')` (`rs_bindings_from_cc/importer.cc:1781`). -/
def splitLines : Str → List Str
  | [] => [[]]
  | c :: s =>
    if c = '\n' then [] :: splitLines s
    else
      match splitLines s with
      | [] => [[c]]
      | l :: ls => (c :: l) :: ls

/-! ## The comment of a C++ declaration -/

/-- Models `[:space:]` of POSIX expressions (`rs_bindings_from_cc/importer.cc:1757-1761`). -/
def isSpace (c : Char) : Bool :=
  c = ' ' || c = '\t' || c = '\n' || c = Char.ofNat 11 || c = Char.ofNat 12 || c = '\r'

/-- Models the alternatives of `patterns_to_ignore`
(`rs_bindings_from_cc/importer.cc:1759`). -/
def noLint : List Str :=
  [['N', 'O', 'L', 'I', 'N', 'T'],
   ['N', 'O', 'L', 'I', 'N', 'T', 'N', 'E', 'X', 'T', 'L', 'I', 'N', 'E'],
   ['N', 'O', 'L', 'I', 'N', 'T', 'B', 'E', 'G', 'I', 'N'],
   ['N', 'O', 'L', 'I', 'N', 'T', 'E', 'N', 'D']]

/-- Models a literal at the beginning of an expression
(`rs_bindings_from_cc/importer.cc:1759`): what follows it. -/
def after : Str → Str → Option Str
  | [], s => some s
  | _ :: _, [] => none
  | a :: p, c :: s => if a = c then after p s else none

/-- Models `(\([^)[:space:]]*\)?)?[[:space:]]*$`
(`rs_bindings_from_cc/importer.cc:1760-1761`). -/
def tailOk (s : Str) : Bool :=
  s.all isSpace ||
    match s with
    | '(' :: r =>
      match r.dropWhile (fun c => c ≠ ')' && !isSpace c) with
      | ')' :: r => r.all isSpace
      | r => r.all isSpace
    | _ => false

/-- Models `ShouldKeepCommentLine` (`rs_bindings_from_cc/importer.cc:1755-1763`). -/
def keepLine (l : Str) : Bool :=
  let s := l.dropWhile (fun c => isSpace c || c = '/')
  !noLint.any fun w =>
    match after w s with
    | some r => tailOk r
    | none => false

/-- Models `GetComment` (`rs_bindings_from_cc/importer.cc:1765-1783`); `raw`:
the formatted text of the comment, if there is one. -/
def getComment (raw : Option Str) : Option Str :=
  match raw with
  | none => none
  | some t =>
    let c := join ['\n'] ((splitLines t).filter keepLine)
    if c.isEmpty then none else some c

/-! ## Source locations -/

/-- Models the presumed part of a location (`rs_bindings_from_cc/importer.cc:1800-1830`):
file name and line. -/
structure Place where
  file : Str
  line : Str
  deriving DecidableEq, Repr

/-- Models `StartsWith(.., "./")` and `substr(2)`
(`rs_bindings_from_cc/importer.cc:1815-1817`, `strip_prefix("./")`
`cc_bindings_from_rs/generate_bindings/lib.rs:1821`). -/
def stripDot : Str → Str
  | '.' :: '/' :: s => s
  | s => s

/-- `Generated from` (`rs_bindings_from_cc/importer.cc:1798`). -/
def generatedFrom : Str :=
  ['G', 'e', 'n', 'e', 'r', 'a', 't', 'e', 'd', ' ', 'f', 'r', 'o', 'm']

/-- `Expanded at` (`rs_bindings_from_cc/importer.cc:1799`). -/
def expandedAt : Str := ['E', 'x', 'p', 'a', 'n', 'd', 'e', 'd', ' ', 'a', 't']

/-- `<unknown location>` (`rs_bindings_from_cc/importer.cc:1807`). -/
def unknown : Str :=
  ['<', 'u', 'n', 'k', 'n', 'o', 'w', 'n', ' ', 'l', 'o', 'c', 'a', 't', 'i', 'o', 'n', '>']

/-- Models `kSourceLocationFunc` and the test for an empty file name
(`rs_bindings_from_cc/importer.cc:1800-1830`); the offsets the function gets are
not in what it returns. Lines are numerals. -/
def placeText (origin : Str) (p : Place) : Str :=
  if p.file.isEmpty then unknown
  else origin ++ [':', ' '] ++ stripDot p.file ++ [';', 'l', '='] ++ p.line

/-- Models `ConvertSourceLocation` (`rs_bindings_from_cc/importer.cc:1785-1852`):
the spelling, and for a location in a macro the expansion. -/
def convertLoc (spelling : Place) (expansion : Option Place) : Str :=
  match expansion with
  | none => placeText generatedFrom spelling
  | some e => placeText generatedFrom spelling ++ ['\n'] ++ placeText expandedAt e

/-- Models `\d+` in `SOURCE_LOC_RE`
(`rs_bindings_from_cc/generate_bindings/generate_comment.rs:67`), greedy: the digits and
what follows. Simplified: digits of ASCII only. -/
def digits (s : Str) : Option (Str × Str) :=
  let d := s.takeWhile Char.isDigit
  if d.isEmpty then none else some (d, s.dropWhile Char.isDigit)

/-- Models `SOURCE_LOC_RE` (`rs_bindings_from_cc/generate_bindings/generate_comment.rs:66-67`)
at the beginning of a text: the groups and what follows. `[^;]+` ends where the
next `;` is. -/
def locRe (s : Str) : Option ((Str × Str × Str) × Str) := do
  let f := s.takeWhile (· ≠ ';')
  if f.isEmpty then none
  let s ← after [';', 'l', '='] (s.dropWhile (· ≠ ';'))
  let (_, s) ← digits s
  let s ← after ['['] s
  let (a, s) ← digits s
  let s ← after [','] s
  let (b, s) ← digits s
  let s ← after [']'] s
  pure ((f, a, b), s)

/-- Models `captures_iter(..).last()`
(`rs_bindings_from_cc/generate_bindings/generate_comment.rs:73`): matches from left to right that do not
overlap; `skip`: characters of a match that are left. -/
def lastMatch : Nat → Option (Str × Str × Str) → Str → Option (Str × Str × Str)
  | _, found, [] => found
  | k + 1, found, _ :: s => lastMatch k found s
  | 0, found, c :: s =>
    match locRe (c :: s) with
    | some (g, r) => lastMatch (s.length - r.length) (some g) s
    | none => lastMatch 0 found s

/-- Models `parse_extended_source_loc`
(`rs_bindings_from_cc/generate_bindings/generate_comment.rs:69-79`). -/
def parseLoc (s : Str) : Option (Str × Str × Str) :=
  if (generatedFrom ++ [':', ' ']).isPrefixOf s then lastMatch 0 none s else none

/-! ## Documentation in Rust -/

/-- Models `str::trim` as called at
`rs_bindings_from_cc/generate_bindings/generate_comment.rs:103`; `ws`: Unicode white
space. -/
def trim (ws : Char → Bool) (s : Str) : Str :=
  ((s.dropWhile ws).reverse.dropWhile ws).reverse

/-- `# Safety` and an empty line
(`rs_bindings_from_cc/generate_bindings/generate_comment.rs:103`). -/
def safetyHead : Str := ['#', ' ', 'S', 'a', 'f', 'e', 't', 'y', '\n', '\n']

/-- Models `replace('\n', "\n ")`
(`rs_bindings_from_cc/generate_bindings/generate_comment.rs:117-120`). -/
def indent : Str → Str
  | [] => []
  | c :: s => if c = '\n' then '\n' :: ' ' :: indent s else c :: indent s

/-- Models `generate_doc_comment`
(`rs_bindings_from_cc/generate_bindings/generate_comment.rs:82-123`): the text of
the attribute `#[doc = ..]`. -/
def rustDoc (ws : Char → Bool) (comment safety loc : Option Str) (golden kythe : Bool) :
    Option Str :=
  let loc := if !golden then loc else if kythe then loc else none
  let comment := match safety with
    | some s =>
      let sc := safetyHead ++ trim ws s
      match comment with
      | some c => some (c ++ ['\n', '\n'] ++ sc)
      | none => some sc
    | none => comment
  match comment, loc with
  | none, none => none
  | none, some l => some (indent (' ' :: ([] ++ [] ++ l)))
  | some c, some l => some (indent (' ' :: (c ++ ['\n', '\n'] ++ l)))
  | some c, none => some (indent (' ' :: (c ++ [] ++ [])))

/-! ## Documentation in C++ -/

/-- Models `generate_source_location`
(`cc_bindings_from_rs/generate_bindings/lib.rs:1811-1831`) without
`crubit_debug_path_format`; `none`: the span has no lines. -/
def rustLoc : Option Place → Str
  | none => ['u', 'n', 'k', 'n', 'o', 'w', 'n', ' ', 'l', 'o', 'c', 'a', 't', 'i', 'o', 'n']
  | some p => stripDot p.file ++ [';', 'l', '='] ++ p.line

/-- Models `generate_doc_comment`
(`cc_bindings_from_rs/generate_bindings/lib.rs:1836-1861`) up to the token
`__COMMENT__`; the Kythe annotations around it are left out. -/
def cppDoc (docs : List Str) (loc : Option Place) (golden kythe : Bool) : Option Str :=
  let d := join ['\n'] docs
  let d :=
    if !golden || kythe then
      (if !d.isEmpty then d ++ ['\n', '\n'] else d) ++ (generatedFrom ++ [':', ' ']) ++ rustLoc loc
    else d
  if !d.isEmpty then some d else none

/-! ## Includes -/

/-- Models `CcInclude` (`common/code_gen_utils.rs:950-964`). A support header's
format is the text before and after the path. -/
inductive Include where
  | system (path : Str)
  | user (path : Str)
  | support (before behind path : Str)
  | exported (path : Str)
  deriving DecidableEq, Repr

/-- Models `CcInclude::from_path` (`common/code_gen_utils.rs:1058-1063`). -/
def fromPath (p : Str) : Include :=
  if p.head? = some '<' && p.getLast? = some '>' then
    .system ((p.take (p.length - 1)).drop 1)
  else .user p

/-- What the derived order compares (`common/code_gen_utils.rs:951`): the variant,
then its fields. -/
def Include.key : Include → List Str
  | .system p => [[Char.ofNat 0], p]
  | .user p => [[Char.ofNat 1], p]
  | .support a b p => [[Char.ofNat 2], a, b, p]
  | .exported p => [[Char.ofNat 3], p]

/-- Lexicographic comparison, as of strings and of derived orders
(`common/code_gen_utils.rs:951`). -/
def lexLt {α : Type} [DecidableEq α] (lt : α → α → Bool) : List α → List α → Bool
  | _, [] => false
  | [], _ :: _ => true
  | a :: as, b :: bs => if a = b then lexLt lt as bs else lt a b

/-- Comparison of strings (`common/code_gen_utils.rs:951`), by code points: for UTF-8
that is the order of the bytes. -/
def strLt (a b : Str) : Bool := lexLt (fun c d => decide (c.val < d.val)) a b

/-- The derived order (`common/code_gen_utils.rs:951`). -/
def Include.lt (a b : Include) : Bool := lexLt strLt a.key b.key

/-- Models `BTreeSet::insert` for the sets of includes (`common/code_gen_utils.rs:1100`). -/
def insert (i : Include) : List Include → List Include
  | [] => [i]
  | j :: r => if i = j then j :: r else if i.lt j then i :: j :: r else j :: insert i r

/-- Models a `BTreeSet` filled in some order (`common/code_gen_utils.rs:1100`). -/
def setOf (is : List Include) : List Include := is.foldl (fun s i => insert i s) []

/-- Models a string literal token (`common/code_gen_utils.rs:1082`); `esc`: what `proc_macro2` writes for a
character. -/
def quote (esc : Char → Str) (p : Str) : Str := '"' :: p.flatMap esc ++ ['"']

/-- `#include ` (`common/code_gen_utils.rs:1079`). -/
def hashInclude : Str := ['#', 'i', 'n', 'c', 'l', 'u', 'd', 'e', ' ']

/-- Models `ToTokens for CcInclude` (`common/code_gen_utils.rs:1072-1096`): the
line, as printed. Simplified: a system path or a formatted support path is text
here, not tokens, so blanks that a printer puts between its tokens are left out, as
are the panics for paths that are no tokens. -/
def Include.text (esc : Char → Str) : Include → Str
  | .system p => hashInclude ++ '<' :: p ++ ['>']
  | .user p => hashInclude ++ quote esc p
  | .exported p =>
    hashInclude ++ quote esc p ++
      [' ', '/', '/', ' ', 'I', 'W', 'Y', 'U', ' ', 'p', 'r', 'a', 'g', 'm', 'a', ':', ' ', 'e', 'x',
       'p', 'o', 'r', 't']
  | .support a b p => hashInclude ++ a ++ p ++ b

/-- Models `format_cc_includes` (`common/code_gen_utils.rs:1100-1115`): lines. -/
def formatIncludes (esc : Char → Str) : List Include → List Str
  | [] => []
  | [i] => [i.text esc]
  | i :: j :: r =>
    match i, j with
    | .system _, .user _ => i.text esc :: [] :: formatIncludes esc (j :: r)
    | _, _ => i.text esc :: formatIncludes esc (j :: r)

end Verif.Doc

/-!
# Model: preprocessor pragmas, location filters and replaced macros

The small state machines of the nullability tools that run beside the
preprocessor and answer questions about source locations:
`nullability/pragma.cc`, `nullability/loc_filter.cc`,
`nullability/inference/replace_macros.cc` and the declaration filter of
`nullability/inference/infer_tu_main.cc`.
-/

namespace Verif.Pre

/-- Models clang's `FileID`s that are valid (`nullability/pragma.h:26`); an
invalid one is `none` where it can occur. -/
abbrev File := Nat

/-- A character string. -/
abbrev Str := List Char

/-! ## `#pragma nullability file_default` -/

/-- Models the `clang::NullabilityKind`s that a default can have
(`nullability/pragma.cc:44-51`, `nullability/type_nullability.h:193`). -/
inductive Kind | nullable | nonnull | unspecified
  deriving DecidableEq, Repr

/-- Models one `#pragma nullability file_default` as the preprocessor hands it to
`HandlePragma` (`nullability/pragma.cc:27-34`): the file of its expansion
location (`none`: invalid) and the next token (`none`: not an identifier). -/
structure Directive where
  file : Option File
  tok : Option Str
  deriving DecidableEq, Repr

/-- Models the two warnings of `DefaultNullabilityPragmaHandler`
(`nullability/pragma.cc:59-64`). -/
inductive Warning | invalid | repeated
  deriving DecidableEq, Repr

/-- Models `parseNullabilityKind` (`nullability/pragma.cc:44-51`). -/
def parseKind : Option Str → Option Kind
  | none => none
  | some s =>
    if s = ['n', 'u', 'l', 'l', 'a', 'b', 'l', 'e'] then some .nullable
    else if s = ['n', 'o', 'n', 'n', 'u', 'l', 'l'] then some .nonnull
    else none

/-- Models the `NullabilityPragmas` map (`nullability/pragma.h:26`), an
association list here, and the warnings so far, each with the number of the
directive it is reported at. -/
structure Pragmas where
  map : List (File × Kind) := []
  seen : Nat := 0
  warnings : List (Nat × Warning) := []
  deriving DecidableEq, Repr

/-- Models `HandlePragma` (`nullability/pragma.cc:27-42`). `try_emplace` leaves
an existing entry alone. -/
def handle (p : Pragmas) (d : Directive) : Pragmas :=
  match d.file with
  | none => { p with seen := p.seen + 1 }
  | some f =>
    match parseKind d.tok with
    | none => { p with seen := p.seen + 1, warnings := p.warnings ++ [(p.seen, .invalid)] }
    | some k =>
      match p.map.lookup f with
      | some _ =>
        { p with seen := p.seen + 1, warnings := p.warnings ++ [(p.seen, .repeated)] }
      | none => { p with seen := p.seen + 1, map := (f, k) :: p.map }

/-- Models the registration of the handler on an empty map and a run of the
preprocessor (`nullability/pragma.cc:69-72`,
`nullability/inference/infer_tu_main.cc:217,295`). -/
def runPragmas (ds : List Directive) : Pragmas := ds.foldl handle {}

/-- Models `TypeNullabilityDefaults::get`
(`nullability/type_nullability.cc:1104-1110`); `DefaultNullability` is
`Unspecified` (`nullability/type_nullability.h:193`). -/
def defaultOf (p : Pragmas) : Option File → Kind
  | none => .unspecified
  | some f =>
    match p.map.lookup f with
    | some k => k
    | none => .unspecified

/-! ## Location filters -/

/-- Models a `FileEntryRef`: its directory and its name. -/
structure Entry where
  dir : Nat
  name : Str
  deriving DecidableEq, Repr

/-- Models what a filter asks about a `SourceLocation`: whether it is valid,
`SM.isInMainFile`, and `SM.getFileID` (`none`: invalid). -/
structure Loc where
  valid : Bool
  inMain : Bool
  file : Option File
  deriving DecidableEq, Repr

/-- Models the part of `SourceManager` in use: the main file and
`getFileEntryRefForID`. -/
structure Sources where
  main : File
  entry : File → Option Entry

/-- Models `llvm::sys::path::filename`: what follows the last `/`. Simplified: a
path that ends in `/` has the empty name here. -/
def fileName (p : Str) : Str := (p.reverse.takeWhile (· ≠ '/')).reverse

/-- Models `llvm::sys::path::stem`: the file name up to its last `.`. -/
def stem (p : Str) : Str :=
  let f := fileName p
  if f = ['.'] ∨ f = ['.', '.'] then f
  else
    match f.reverse.dropWhile (· ≠ '.') with
    | [] => f
    | _ :: r => r.reverse

/-- Models the regular expression `TestSuffixRegex`
(`nullability/loc_filter.cc:103-104`): the alternatives of its group. -/
def suffixes : List Str :=
  [['_', 't', 'e', 's', 't'], ['-', 't', 'e', 's', 't'],
   ['_', 'u', 'n', 'i', 't', 't', 'e', 's', 't'], ['-', 'u', 'n', 'i', 't', 't', 'e', 's', 't']]

/-- Models the match and the `substr` (`nullability/loc_filter.cc:53-57`): the
stem without the suffix that matched; empty when none does. -/
def withoutTest (s : Str) : Str :=
  match suffixes.find? (fun x => x.isSuffixOf s) with
  | some x => s.take (s.length - x.length)
  | none => []

/-- Models `InMainFileOrHeader` (`nullability/loc_filter.cc:25-36`): the main
file's entry, its stems, whether the main file is allowed, and the cache. -/
structure Filter where
  main : Entry
  stem : Str
  short : Str
  allowMain : Bool
  cache : List (File × Bool)

/-- Models the constructor (`nullability/loc_filter.cc:39-58`). A main file
without entry or with an empty name is a fatal error: `none`. -/
def Filter.new (sm : Sources) (allowMain : Bool) : Option Filter :=
  match sm.entry sm.main with
  | none => none
  | some e =>
    if e.name = [] then none
    else some { main := e, stem := Pre.stem e.name, short := withoutTest (Pre.stem e.name),
                allowMain := allowMain, cache := [(sm.main, true)] }

/-- Models `isMainFileOrHeader` (`nullability/loc_filter.cc:60-74`). -/
def Filter.associated (F : Filter) (sm : Sources) (f : File) : Bool :=
  match sm.entry f with
  | none => false
  | some e =>
    if e.dir ≠ F.main.dir then false
    else
      let s := Pre.stem e.name
      decide (s = F.stem) || (decide (F.short ≠ []) && decide (s = F.short))

/-- Models `InMainFileOrHeader::check` (`nullability/loc_filter.cc:78-98`): the
answer and the filter with its cache updated. -/
def Filter.check (F : Filter) (sm : Sources) (l : Loc) : Bool × Filter :=
  if !l.valid then (false, F)
  else if l.inMain then (F.allowMain, F)
  else
    match l.file with
    | none => (false, F)
    | some f =>
      match F.cache.lookup f with
      | some b => (b, F)
      | none =>
        let b := F.associated sm f
        (b, { F with cache := (f, b) :: F.cache })

/-- Models `LocFilterKind` (`nullability/loc_filter.h`). -/
inductive FilterKind | all | mainOrHeader | notMain | headerNotMain
  deriving DecidableEq, Repr

/-- Models the three classes behind `LocFilter`
(`nullability/loc_filter.cc:25,107,112`). -/
inductive AnyFilter where
  | noOp
  | inMainOrHeader (F : Filter)
  | allButMain

/-- Models `getLocFilter` (`nullability/loc_filter.cc:126-140`); `none` is the
fatal error of the constructor. -/
def getLocFilter (sm : Sources) : FilterKind → Option AnyFilter
  | .all => some .noOp
  | .mainOrHeader => (Filter.new sm true).map .inMainOrHeader
  | .notMain => some .allButMain
  | .headerNotMain => (Filter.new sm false).map .inMainOrHeader

/-- Models the three `check` overrides (`nullability/loc_filter.cc:78-98,108,
118-122`). -/
def AnyFilter.check (F : AnyFilter) (sm : Sources) (l : Loc) : Bool × AnyFilter :=
  match F with
  | .noOp => (true, .noOp)
  | .inMainOrHeader F =>
    let r := F.check sm l
    (r.1, .inMainOrHeader r.2)
  | .allButMain => (if !l.valid then true else if l.inMain then false else true, .allButMain)

/-- Models a client that asks one filter about many locations in turn: the
answers. -/
def AnyFilter.answers (sm : Sources) : AnyFilter → List Loc → List Bool
  | _, [] => []
  | F, l :: ls => (F.check sm l).1 :: AnyFilter.answers sm (F.check sm l).2 ls

/-! ## The declaration filter of the inference tool -/

/-- Models `RegexFlagFilter` (`nullability/inference/infer_tu_main.cc:193-207`):
a leading `-` of the flag negates. `m pattern text` stands for
`llvm::Regex::match`. -/
def flagMatch (m : Str → Str → Bool) (flag text : Str) : Bool :=
  match flag with
  | '-' :: r => !m r text
  | _ => m flag text

/-- Models a declaration as `DeclFilter` sees it: `SM.getFileID(SM.getFileLoc
(Loc))` and, for a `NamedDecl`, its qualified name. -/
structure Decl where
  file : File
  name : Option Str
  deriving DecidableEq, Repr

/-- Models the flags `-file-filter` and `-name-filter`
(`nullability/inference/infer_tu_main.cc:79-88`); `none`: does not occur on the
command line. -/
structure Flags where
  file : Option Str
  name : Option Str
  deriving DecidableEq, Repr

/-- Models `DeclFilter::checkLocation`
(`nullability/inference/infer_tu_main.cc:181-191`) with its cache. -/
def checkLocation (m : Str → Str → Bool) (sm : Sources) (fl : Flags)
    (cache : List (File × Bool)) (f : File) : Bool × List (File × Bool) :=
  match fl.file with
  | none => (true, cache)
  | some flag =>
    match cache.lookup f with
    | some b => (b, cache)
    | none =>
      let b := match sm.entry f with
        | none => true
        | some e => flagMatch m flag e.name
      (b, (f, b) :: cache)

/-- Models `DeclFilter::checkName`
(`nullability/inference/infer_tu_main.cc:193-197`). -/
def checkName (m : Str → Str → Bool) (fl : Flags) (n : Str) : Bool :=
  match fl.name with
  | none => true
  | some flag => flagMatch m flag n

/-- Models `DeclFilter::operator()`
(`nullability/inference/infer_tu_main.cc:173-179`). -/
def declFilter (m : Str → Str → Bool) (sm : Sources) (fl : Flags)
    (cache : List (File × Bool)) (d : Decl) : Bool × List (File × Bool) :=
  let r := checkLocation m sm fl cache d.file
  if !r.1 then (false, r.2)
  else
    match d.name with
    | some n => if !checkName m fl n then (false, r.2) else (true, r.2)
    | none => (true, r.2)

/-- Models the use of one filter for a whole translation unit
(`nullability/inference/infer_tu.cc:82,88`): the declarations it lets
through. -/
def selected (m : Str → Str → Bool) (sm : Sources) (fl : Flags) :
    List (File × Bool) → List Decl → List Decl
  | _, [] => []
  | c, d :: ds =>
    let r := declFilter m sm fl c d
    if r.1 then d :: selected m sm fl r.2 ds else selected m sm fl r.2 ds

/-! ## Replaced macros -/

/-- A macro definition: parameters and body, which the callbacks only pass on. -/
abbrev Body := Str

/-- Models what the preprocessor meets, as its callbacks see it
(`nullability/inference/replace_macros.cc:32-50`): `FileChanged` with its
reasons and the name of the file at the new location, `#define` and
`#undef`. -/
inductive Event where
  | enter (name : Str)
  | exit
  | otherChange (name : Str)
  | define (macroName : Str) (body : Body)
  | undef (macroName : Str)
  deriving DecidableEq, Repr

/-- The macro table of the preprocessor. -/
abbrev Table := Str → Option Body

/-- The table after a definition is appended. -/
def Table.set (t : Table) (n : Str) (b : Option Body) : Table :=
  fun x => if x = n then b else t x

/-- Models `State` (`nullability/inference/replace_macros.h`). -/
inductive Phase | notSeen | inside | finished
  deriving DecidableEq, Repr

/-- Models `ReplaceMacrosCallbacks` and the preprocessor's table beside it. -/
structure St where
  phase : Phase := .notSeen
  repl : List (Str × Body) := []
  table : Table := fun _ => none

/-- Models `CopyPrefix` (`nullability/inference/replace_macros.cc:26`):
`__clang_tidy_nullability_`. -/
def copyPrefix : Str :=
  ['_', '_', 'c', 'l', 'a', 'n', 'g', '_', 't', 'i', 'd', 'y', '_', 'n', 'u', 'l', 'l', 'a', 'b',
   'i', 'l', 'i', 't', 'y', '_']

/-- Models `ReplacementMacrosHeaderFileName`
(`nullability/inference/replace_macros.h`):
`clang_tidy_nullability_replacement_macros.h`. -/
def headerName : Str :=
  ['c', 'l', 'a', 'n', 'g', '_', 't', 'i', 'd', 'y', '_', 'n', 'u', 'l', 'l', 'a', 'b', 'i', 'l',
   'i', 't', 'y', '_', 'r', 'e', 'p', 'l', 'a', 'c', 'e', 'm', 'e', 'n', 't', '_', 'm', 'a', 'c',
   'r', 'o', 's', '.', 'h']

/-- Models `llvm::sys::path::remove_leading_dotslash`: drops `./` while more
than that is left, and the separators after it. -/
def removeDotSlash : Str → Str
  | '.' :: '/' :: c :: r => removeDotSlash ((c :: r).dropWhile (· = '/'))
  | s => s
termination_by s => s.length
decreasing_by
  simp only [List.length_cons]
  have := (List.dropWhile_suffix (l := c :: r) (· = '/')).length_le
  simp only [List.length_cons] at this
  grind

/-- Models `FileChanged` (`nullability/inference/replace_macros.cc:32-50`). -/
def fileChanged (s : St) : Event → St
  | .exit =>
    match s.phase with
    | .finished => s
    | .inside => { s with phase := .finished }
    | .notSeen => s
  | .enter name =>
    match s.phase with
    | .finished => s
    | _ => if removeDotSlash name = headerName then { s with phase := .inside } else s
  | _ => s

/-- Models `MacroDefined` (`nullability/inference/replace_macros.cc:52-86`), which
runs after the preprocessor has put the definition in its table. `insert` leaves
an existing entry alone. -/
def macroDefined (s : St) (n : Str) (b : Body) : St :=
  match s.phase with
  | .inside =>
    if copyPrefix.isPrefixOf n then s
    else
      match s.repl.lookup n with
      | some _ => s
      | none => { s with repl := (n, b) :: s.repl }
  | _ =>
    match s.repl.lookup n with
    | none => s
    | some r =>
      { s with table := (s.table.set (copyPrefix ++ n) (some b)).set n (some r) }

/-- Models the preprocessor with the callbacks installed
(`nullability/inference/infer_tu_main.cc:296-297`). The directives that
`appendDefMacroDirective` adds do not run the callbacks. -/
def step (s : St) : Event → St
  | .define n b => macroDefined { s with table := s.table.set n (some b) } n b
  | .undef n => { s with table := s.table.set n none }
  | e => fileChanged s e

/-- Models a run of the preprocessor. -/
def run (es : List Event) : St := es.foldl step {}

end Verif.Pre

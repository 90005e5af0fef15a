import Verif.Pre.Model

/-!
# Spec: pragmas, location filters, replaced macros
-/

namespace Verif.Pre.Spec

/-! ## File defaults -/

/-- The default a directive asks for: `nullable` or `nonnull` after
`file_default`. -/
def Asks (d : Directive) (f : File) (k : Kind) : Prop :=
  d.file = some f ∧
    ((k = .nullable ∧ d.tok = some "nullable".toList) ∨
      (k = .nonnull ∧ d.tok = some "nonnull".toList))

/-- `k` is what the first directive for file `f` that asks for anything asks
for. -/
def FirstAsks (ds : List Directive) (f : File) (k : Kind) : Prop :=
  ∃ pre d post, ds = pre ++ d :: post ∧ Asks d f k ∧ ∀ e ∈ pre, ∀ k', ¬ Asks e f k'

/-- The warning owed to the `i`-th directive: in a real file, `invalid` if it asks
for nothing, `repeated` if an earlier one asked for that file. -/
def Owed (ds : List Directive) (i : Nat) (w : Warning) : Prop :=
  ∃ d f, ds[i]? = some d ∧ d.file = some f ∧
    match w with
    | .invalid => ∀ k, ¬ Asks d f k
    | .repeated => (∃ k, Asks d f k) ∧ ∃ e ∈ ds.take i, ∃ k, Asks e f k

/-! ## Locations -/

/-- `s` is the stem of the path `p`: its last component without its last
extension. -/
def IsStem (p s : Str) : Prop :=
  ∃ dir f, p = dir ++ f ∧ (dir = [] ∨ ∃ d, dir = d ++ ['/']) ∧ '/' ∉ f ∧
    ((f = ['.'] ∨ f = ['.', '.']) ∧ s = f ∨
     f ≠ ['.'] ∧ f ≠ ['.', '.'] ∧
      ('.' ∉ f ∧ s = f ∨ ∃ ext, f = s ++ '.' :: ext ∧ '.' ∉ ext))

/-- The endings that make a file a test of another. -/
def testEndings : List Str :=
  ["_test".toList, "-test".toList, "_unittest".toList, "-unittest".toList]

/-- A file is associated with the main file: same directory, and the same stem or
the stem of which the main file is the test. -/
def Associated (main e : Entry) : Prop :=
  e.dir = main.dir ∧ ∃ s t, IsStem main.name s ∧ IsStem e.name t ∧
    (t = s ∨ t ≠ [] ∧ ∃ x ∈ testEndings, s = t ++ x)

/-- What each kind of filter allows, from the location alone. -/
def Allowed (sm : Sources) (main : Entry) (l : Loc) : FilterKind → Prop
  | .all => True
  | .notMain => l.valid = true → l.inMain = false
  | .mainOrHeader =>
    l.valid = true ∧
      (l.inMain = true ∨ ∃ f e, l.file = some f ∧ sm.entry f = some e ∧ Associated main e)
  | .headerNotMain =>
    l.valid = true ∧ l.inMain = false ∧
      ∃ f e, l.file = some f ∧ sm.entry f = some e ∧ Associated main e

/-! ## Declarations -/

/-- A text passes a flag: no flag, a pattern that matches, or `-` and a pattern
that does not. -/
def Passes (m : Str → Str → Bool) (flag : Option Str) (text : Str) : Prop :=
  match flag with
  | none => True
  | some fl =>
    (∃ r, fl = '-' :: r ∧ m r text = false) ∨ ((∀ r, fl ≠ '-' :: r) ∧ m fl text = true)

/-- A declaration is to be analyzed. -/
def Wanted (m : Str → Str → Bool) (sm : Sources) (fl : Flags) (d : Decl) : Prop :=
  (∀ e, sm.entry d.file = some e → Passes m fl.file e.name) ∧
    ∀ n, d.name = some n → Passes m fl.name n

/-! ## Macros -/

/-- What the preprocessor alone makes of a macro: the last `#define` or `#undef`
of it. -/
def plain : List Event → Str → Option Body
  | [], _ => none
  | e :: es, n =>
    -- the events come last first
    match e with
    | .define m b => if m = n then some b else plain es n
    | .undef m => if m = n then none else plain es n
    | _ => plain es n

/-- What the preprocessor alone has after a run. -/
def Plain (es : List Event) (n : Str) : Option Body := plain es.reverse n

/-- An event is a `#define` or `#undef` of the macro. -/
def Touches (n : Str) : Event → Prop
  | .define m _ => m = n
  | .undef m => m = n
  | _ => False

/-- `b` is the body of the first definition of `n`. -/
def FirstDef (es : List Event) (n : Str) (b : Body) : Prop :=
  ∃ pre post, es = pre ++ .define n b :: post ∧ ∀ c, .define n c ∉ pre

/-- `b` is the body of the last definition of `n`. -/
def LastDef (es : List Event) (n : Str) (b : Body) : Prop :=
  ∃ pre post, es = pre ++ .define n b :: post ∧ ∀ c, .define n c ∉ post

/-- The name under which the original of a replaced macro is kept. -/
def copyOf (n : Str) : Str := "__clang_tidy_nullability_".toList ++ n

/-- A name is kept for such copies. -/
def Reserved (n : Str) : Prop := ∃ x, n = copyOf x

/-- A translation unit with the header of replacements: what comes before it, its
own directives, and the rest. The header is entered once and includes
nothing. -/
structure TUnit where
  before : List Event
  name : Str
  header : List Event
  rest : List Event

/-- The events of the unit. -/
def TUnit.events (u : TUnit) : List Event :=
  u.before ++ .enter u.name :: u.header ++ .exit :: u.rest

/-- The unit is as the tool arranges it. -/
structure TUnit.Ok (u : TUnit) : Prop where
  /-- the header goes by its own name, `./` apart -/
  named : ∃ k, u.name = (List.replicate k ['.', '/']).flatten ++
    "clang_tidy_nullability_replacement_macros.h".toList
  /-- it is entered here first -/
  first : ∀ n, .enter n ∈ u.before → ∀ r, ¬ r ++ "clang_tidy_nullability_replacement_macros.h".toList = n
  /-- it holds definitions only -/
  defs : ∀ e ∈ u.header, ∃ n b, e = .define n b
  /-- nobody else writes the reserved names -/
  private_ : ∀ e ∈ u.rest, ∀ n, Touches n e → ¬ Reserved n

end Verif.Pre.Spec

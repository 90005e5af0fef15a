import Verif.Pre.Macro

/-!
# Examples: the hypotheses of the theorems are met
-/

namespace Verif.Pre.Example
open Spec

/-! ## File defaults -/

def nonnullTok : Option Str := some ['n', 'o', 'n', 'n', 'u', 'l', 'l']
def nullableTok : Option Str := some ['n', 'u', 'l', 'l', 'a', 'b', 'l', 'e']

/-- A bad directive, one outside of any file, a default for file 1, one for file 2,
another for file 1. -/
def directives : List Directive :=
  [⟨some 1, none⟩, ⟨none, nullableTok⟩, ⟨some 1, nonnullTok⟩, ⟨some 2, nullableTok⟩,
   ⟨some 1, nullableTok⟩]

example : FirstAsks directives 1 .nonnull := by
  refine ⟨[⟨some 1, none⟩, ⟨none, nullableTok⟩], ⟨some 1, nonnullTok⟩, _, rfl, ?_, ?_⟩
  · exact asks_iff.2 ⟨rfl, by decide +kernel⟩
  · intro e he k' h
    have := asks_iff.1 h
    simp only [List.mem_cons, List.not_mem_nil, or_false] at he
    rcases he with rfl | rfl
    · simp [parseKind] at this
    · simp at this

example : defaultOf (runPragmas directives) (some 1) = .nonnull := by decide +kernel
example : defaultOf (runPragmas directives) (some 2) = .nullable := by decide +kernel
example : defaultOf (runPragmas directives) (some 3) = .unspecified := by decide +kernel
example : (runPragmas directives).warnings = [(0, .invalid), (4, .repeated)] := by
  decide +kernel

/-! ## Locations -/

/-- `a/foo_test.cc` is the main file; `a/foo.h`, `a/foo_test.h`, `b/foo.h` and
`a/bar.h` beside it. -/
def sources : Sources where
  main := 0
  entry
    | 0 => some ⟨1, ['a', '/', 'f', '_', 't', 'e', 's', 't', '.', 'c', 'c']⟩
    | 1 => some ⟨1, ['a', '/', 'f', '.', 'h']⟩
    | 2 => some ⟨1, ['a', '/', 'f', '_', 't', 'e', 's', 't', '.', 'h']⟩
    | 3 => some ⟨2, ['b', '/', 'f', '.', 'h']⟩
    | 4 => some ⟨1, ['a', '/', 'g', '.', 'h']⟩
    | _ => none

def locs : List Loc :=
  [⟨true, false, some 1⟩, ⟨true, false, some 4⟩, ⟨true, true, some 0⟩, ⟨true, false, some 1⟩,
   ⟨true, false, some 2⟩, ⟨true, false, some 3⟩, ⟨false, false, none⟩, ⟨true, false, some 9⟩]

/-- Runs the four kinds of filter. -/
def answersOf (k : FilterKind) : Option (List Bool) :=
  (getLocFilter sources k).map fun F => AnyFilter.answers sources F locs

example : answersOf .mainOrHeader =
    some [true, false, true, true, true, false, false, false] := by decide +kernel
example : answersOf .headerNotMain =
    some [true, false, false, true, true, false, false, false] := by decide +kernel
example : answersOf .notMain =
    some [true, true, false, true, true, true, true, true] := by decide +kernel
example : answersOf .all = some (List.replicate 8 true) := by decide +kernel

/-! ## Macros -/

def check : Str := ['C', 'H', 'E', 'C', 'K']
def other : Str := ['O']

/-- The header replaces `CHECK`; the code defines `CHECK` and another macro. -/
def unit : TUnit where
  before := [.define ['_', '_', 'c'] ['1']]
  name := ['.', '/'] ++ headerName
  header := [.define check ['c', 'a', 'p'], .define (copyPrefix ++ check) []]
  rest := [.enter ['m'], .define check ['o', 'r', 'i', 'g'], .define other ['x']]

theorem unit_ok : unit.Ok where
  named := ⟨1, by rw [header_eq]; decide +kernel⟩
  first := by intro n hn; simp [unit] at hn
  defs := by
    intro e he
    simp only [unit, List.mem_cons, List.not_mem_nil, or_false] at he
    rcases he with rfl | rfl
    · exact ⟨_, _, rfl⟩
    · exact ⟨_, _, rfl⟩
  private_ := by
    intro e he n ht hr
    simp only [unit, List.mem_cons, List.not_mem_nil, or_false] at he
    rw [← reserved_iff] at hr
    rcases he with rfl | rfl | rfl
    · exact ht
    · have : check = n := ht
      subst this
      exact absurd hr (by decide +kernel)
    · have : other = n := ht
      subst this
      exact absurd hr (by decide +kernel)

theorem check_free : ¬ Reserved check := by rw [← reserved_iff]; decide +kernel
theorem check_def : FirstDef unit.header check ['c', 'a', 'p'] := ⟨[], _, rfl, by simp⟩
theorem check_last : LastDef unit.rest check ['o', 'r', 'i', 'g'] :=
  ⟨[.enter ['m']], [.define other ['x']], rfl, by
    intro c
    have : check ≠ other := by decide
    simp [this]⟩

example : (run unit.events).table check = some ['c', 'a', 'p'] := by
  rw [replaced unit_ok check_free check_def
    ⟨.define check ['o', 'r', 'i', 'g'], by simp [unit], rfl⟩]
  decide +kernel
example : (run unit.events).table (copyOf check) = some ['o', 'r', 'i', 'g'] :=
  original_kept unit_ok check_free check_def check_last
example : (run unit.events).table other = some ['x'] := by
  rw [others_unchanged unit_ok (by rw [← reserved_iff]; decide +kernel)
    (.inl (by
      intro b
      have h1 : other ≠ check := by decide
      have h2 : other ≠ copyPrefix ++ check := by decide
      simp [unit, h1, h2]))]
  decide +kernel

end Verif.Pre.Example

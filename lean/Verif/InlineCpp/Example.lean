import Verif.InlineCpp.Names
import Verif.InlineCpp.Validate
import Verif.InlineCpp.Fmt

/-
Concrete files for C155-C159, and cases where the tools do not do what one would expect.
-/

namespace Verif.InlineCpp

def t (k : TK) (s : String) : Tok := ⟨k, s.toList⟩

/-- ` (int x) -> int { return x; } ` -/
def fnToks : List Tok :=
  [t .ws " ", t .openP "(", t .ident "int", t .ws " ", t .ident "x", t .closeP ")", t .ws " ",
   t .other "-", t .other ">", t .ws " ", t .ident "int", t .ws " ", t .openB "{", t .ident "return",
   t .ident "x", t .other ";", t .closeB "}", t .ws " "]

/-- `let f = ::a::inline_cpp! { (int x) -> int { returnx; } };`, then a `global_cpp!` block. -/
def file1 : List Tok :=
  [t .ident "let", t .ws " ", t .ident "f", t .ws " ", t .other "=", t .ws " ",
   t .colon ":", t .colon ":", t .ident "a", t .colon ":", t .colon ":", t .ident "inline_cpp",
   t .bang "!", t .ws " ", t .openB "{"] ++ fnToks ++
  [t .closeB "}", t .other ";", t .ws "\n", t .ident "global_cpp", t .bang "!", t .ws " ", t .openB "{",
   t .ws "\n  ", t .ident "int", t .ws " ", t .ident "g", t .other ";", t .ws "\n", t .closeB "}"]

def lex1 (l : List Char) : List Tok := if l = src fnToks then fnToks else []

def blocks1 : List Macro :=
  [{ kind := .inlineCpp, start := 8, line := 1, col := 9, bodyStart := 26, bodyEnd := 53,
     bodyLine := 1, bodyCol := 27, bodyText := " (int x) -> int {returnx;} ".toList },
   { kind := .globalCpp, start := 56, line := 2, col := 1, bodyStart := 69, bodyEnd := 79,
     bodyLine := 2, bodyCol := 14, bodyText := "\n  int g;\n".toList }]

instance decExcept [DecidableEq ε] [DecidableEq α] : DecidableEq (Except ε α)
  | .ok a, .ok b => if h : a = b then isTrue (h ▸ rfl) else isFalse (fun e => h (Except.ok.inj e))
  | .error a, .error b => if h : a = b then isTrue (h ▸ rfl) else isFalse (fun e => h (Except.error.inj e))
  | .ok _, .error _ => isFalse nofun
  | .error _, .ok _ => isFalse nofun

/-- C155: two blocks are found in `file1`. -/
theorem example_parse : parse file1 = .ok blocks1 := by decide +kernel

theorem example_blocks : Blocks [] file1 blocks1 := (parse_ok_iff _ _).1 example_parse

/-- C155: a block that is not closed. -/
theorem example_unclosed :
    parse ([t .ws "\n", t .ident "global_cpp", t .bang "!", t .openB "{", t .openB "{", t .closeB "}"]) = .error 2 := by
  decide +kernel

/-- C156-C158: the header is written, and all hypotheses of the theorems hold. -/
theorem example_header :
    (header lex1 "//a:b".toList [("src/my-file.rs".toList, file1)]).isSome = true ∧
    '"' ∉ "src/my-file.rs".toList ∧ '\n' ∉ "src/my-file.rs".toList ∧
    (∀ m ∈ blocks1, m.line < 65536 ∧ m.col < 256) ∧
    (∀ x ∈ baseName "src/my-file.rs".toList, identChar x = true ∨ x = '.' ∨ x = '-') := by
  decide +kernel

theorem example_noDirective : ∀ m ∈ blocks1, NoDirective m.bodyText := by
  unfold NoDirective
  decide +kernel

theorem example_signature : Signature fnToks := (validate_iff _).1 (by decide +kernel)

/-- C157: the name of the first block's function. -/
theorem example_name : thunkName "//a:b".toList "src/my-file.rs".toList 1 9 =
    "inline_cpp_thunk_my_file_rs_e58221269c80464d".toList := by decide +kernel

theorem example_braces : BracesOk file1 := by
  unfold BracesOk
  decide +kernel

/-- C159: a `clang-format` that changes nothing satisfies the hypotheses. -/
theorem example_clang : ClangOk (fun _ x => some x) where
  content := fun _ _ _ h => by cases h; rfl
  keepsInline := fun _ r _ h => by cases h; exact ⟨r, rfl⟩
  keepsVoid := fun _ r _ h => by cases h; exact ⟨r, rfl⟩

theorem example_format : formatSource (fun _ x => some x) file1 =
    some "let f = ::a::inline_cpp! {\n    (int x) -> int {returnx;}\n};\nglobal_cpp! {\n    int g;\n}".toList := by
  decide +kernel

/-! ### Where the tools disagree with what one would expect -/

/-- `inline_cpp!( … )` is not seen by the extraction tool (rustc expands it all the same, to a call of
a function that is then defined nowhere). -/
theorem parentheses_not_extracted :
    parse ([t .ident "inline_cpp", t .bang "!", t .openP "("] ++ fnToks ++ [t .closeP ")"]) = .ok [] := by
  decide +kernel

/-- Nor is an invocation with a comment between the name and `!` or between `!` and `{`. -/
theorem comment_not_extracted :
    parse ([t .ident "inline_cpp", t .bang "!", t .other "/**/", t .openB "{"] ++ fnToks ++ [t .closeB "}"]) =
      .ok [] := by
  decide +kernel

/-- White space inside a path: the extraction tool takes the macro to begin at its last segment, rustc
at the first one, so that the names do not agree. -/
theorem space_in_path_name :
    ∃ m, parse ([t .ident "a", t .ws " ", t .colon ":", t .colon ":", t .ident "inline_cpp", t .bang "!",
        t .openB "{"] ++ fnToks ++ [t .closeB "}"]) = .ok [m] ∧
      ∀ target file, thunkName target file m.line m.col ≠ macroName target file 1 1 := by
  refine ⟨{ kind := .inlineCpp, start := 2, line := 1, col := 3, bodyStart := 16, bodyEnd := 43,
            bodyLine := 1, bodyCol := 17, bodyText := src fnToks }, by decide +kernel, ?_⟩
  intro target file h
  have := (thunkName_inj target file (by decide) (by decide) (by decide) (by decide) h).2
  exact absurd this (by decide)

/-- If `clang-format` breaks the line after `auto` (the column limit can be as low as 20, and the text in
front of the body is 32 characters long), the name of the auxiliary function ends up in the user's file. -/
theorem wrapper_leaks :
    runClang (fun _ _ => some "inline auto\n__crubit_fmt_wrapper(int x) -> int {}".toList)
        "(int x) -> int {}".toList .inlineCpp 20 =
      some "inline auto\n__crubit_fmt_wrapper(int x) -> int {}".toList := by
  decide +kernel

/-- Indentation is also added inside multi-line string literals: the string the C++ code contains
changes. -/
theorem raw_string_changes :
    indentBody 0 "auto s = R\"(a\nb)\";".toList = "    auto s = R\"(a\n    b)\";\n".toList := by
  decide +kernel

/-- A file name with other characters gives a name that is no identifier. -/
theorem space_in_file_name : ¬ ∀ x ∈ thunkName [] "a b.rs".toList 1 1, identChar x = true := by
  decide +kernel

/-- Declarations after the function's body are accepted as long as the last token is `}`. -/
theorem trailing_declaration_accepted :
    validate (fnToks ++ [t .ident "namespace", t .ws " ", t .ident "n", t .openB "{", t .closeB "}"]) = true := by
  decide +kernel

end Verif.InlineCpp

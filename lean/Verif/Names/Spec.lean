/-
Specification vocabulary for the names in generated code (C168-C172).
-/

namespace Verif.Names

abbrev Str := List Char

/-- Unicode's classes XID_Start and XID_Continue, of which only some ASCII characters matter. -/
structure Xid where
  start : Char → Bool
  cont : Char → Bool
  sub : ∀ c, start c = true → cont c = true
  alpha : ∀ c : Char, c.isAlpha = true → start c = true
  digit : ∀ c : Char, c.isDigit = true → cont c = true
  under : cont '_' = true
  nodigit : ∀ c : Char, c.isDigit = true → start c = false
  nohash : cont '#' = false
  nohyphen : cont '-' = false
  nocontrol : cont (Char.ofNat 1) = false

/-- Identifiers, in C++ and in Rust, keywords included. -/
def IsIdent (X : Xid) : Str → Prop
  | [] => False
  | c :: s => (X.start c = true ∨ c = '_') ∧ ∀ d ∈ s, X.cont d = true

instance (X : Xid) (s : Str) : Decidable (IsIdent X s) := by
  cases s <;> unfold IsIdent <;> infer_instance

/-- The keywords of C++ (C++23, [lex.key] and alternative tokens) -/
def cppKeywords : List String := [
  "alignas", "alignof", "asm", "auto", "bool", "break", "case", "catch", "char", "char8_t", "char16_t", "char32_t",
  "class", "concept", "const", "consteval", "constexpr", "constinit", "const_cast", "continue", "co_await",
  "co_return", "co_yield", "decltype", "default", "delete", "do", "double", "dynamic_cast", "else", "enum", "explicit",
  "export", "extern", "false", "float", "for", "friend", "goto", "if", "inline", "int", "long", "mutable", "namespace",
  "new", "noexcept", "nullptr", "operator", "private", "protected", "public", "register", "reinterpret_cast",
  "requires", "return", "short", "signed", "sizeof", "static", "static_assert", "static_cast", "struct", "switch",
  "template", "this", "thread_local", "throw", "true", "try", "typedef", "typeid", "typename", "union", "unsigned",
  "using", "virtual", "void", "volatile", "wchar_t", "while",
  "and", "and_eq", "bitand", "bitor", "compl", "not", "not_eq", "or", "or_eq", "xor", "xor_eq"]

/-- The keywords of Rust (strict and reserved, up to edition 2024) -/
def rustKeywords : List String := [
  "as", "break", "const", "continue", "crate", "else", "enum", "extern", "false", "fn", "for", "if", "impl", "in",
  "let", "loop", "match", "mod", "move", "mut", "pub", "ref", "return", "self", "Self", "static", "struct", "super",
  "trait", "true", "type", "unsafe", "use", "where", "while", "async", "await", "dyn",
  "abstract", "become", "box", "do", "final", "macro", "override", "priv", "typeof", "unsized", "virtual", "yield",
  "try", "gen", "_"]

/-- What can not be written as `r#…` -/
def notRaw : List String := ["crate", "self", "super", "Self", "_"]

/-- An identifier in Rust source: `x` or `r#x` -/
inductive RsId where
  | plain (s : Str)
  | raw (s : Str)
deriving DecidableEq

/-- The name it stands for. -/
def RsId.name : RsId → Str
  | .plain s => s
  | .raw s => s

/-- The Rust compiler accepts it as an identifier. -/
def RsId.Valid (X : Xid) : RsId → Prop
  | .plain s => IsIdent X s ∧ s ∉ rustKeywords.map String.toList
  | .raw s => IsIdent X s ∧ s ∉ notRaw.map String.toList

/-! ### C++ types, as written -/

inductive Tok where
  | ident (s : String)
  | punct (c : Char)
  | other (s : String)
deriving DecidableEq

/-- Where `const` is written. -/
inductive Side where
  | no
  | west
  | east
deriving DecidableEq

/-- A type that is not a pointer, maybe `const`, or a pointer, maybe `const` -/
inductive CTy where
  | base (k : Side) (ts : List Tok)
  | ptr (t : CTy) (k : Bool)
deriving DecidableEq

def CTy.spelling : CTy → List Tok
  | .base .no ts => ts
  | .base .west ts => .ident "const" :: ts
  | .base .east ts => ts ++ [.ident "const"]
  | .ptr t k => t.spelling ++ [.punct '*'] ++ if k then [.ident "const"] else []

def CTy.isConst : CTy → Bool
  | .base .no _ => false
  | .base _ _ => true
  | .ptr _ k => k

/-- `const` is written in front of it. -/
def CTy.front : CTy → Bool
  | .base .west _ => true
  | .base _ _ => false
  | .ptr t _ => t.front

/-- The name of a type does not begin or end with `const` and does not end with `*`. -/
def CTy.Proper : CTy → Prop
  | .base _ ts => ts ≠ [] ∧ ts.head? ≠ some (.ident "const") ∧ ts.getLast? ≠ some (.ident "const") ∧
      ts.getLast? ≠ some (.punct '*')
  | .ptr t _ => t.Proper

end Verif.Names

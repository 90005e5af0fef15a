import Verif.AbiTy.Spec

/-
Model of common/crubit_abi_type.rs: `FullyQualifiedPath::new` (23-31), `CrubitAbiType` (44-98), `option` (110-116) and the four
implementations of `ToTokens` (139-372).

Simplified: tokens are strings; the types of callables and coroutines are tokens, as in the code; `Ident::new` is a test.
-/

namespace Verif.AbiTy

/-- `CrubitAbiType` (crubit_abi_type.rs:44-98); `Callable` and `C9Co` are the same here. -/
inductive Abi where
  | ptr (isConst isRustSlice isCref isCppRef : Bool) (rust cpp : Toks)
  | pair (a b : Abi)
  | stdString (inCcStd : Bool)
  | transmute (rust cpp : Toks)
  | protoMessage (bridge rust cpp : Path)
  | tokens (rustType rustExpr cppType cppExpr : Toks)
  | type (rust cpp : Path) (args : List Abi)

/-- `CrubitAbiType::option` (crubit_abi_type.rs:110-116) -/
def Abi.option (a : Abi) : Abi := .type ⟨true, ["bridge_rust", "OptionAbi"]⟩ ⟨true, ["crubit", "OptionAbi"]⟩ [a]

/-- The type of a pointer in Rust (crubit_abi_type.rs:143-154, 193-204) -/
def rustPtr (isConst isRustSlice isCref : Bool) (ty : Toks) : Toks :=
  let ty := if isRustSlice then "[" :: ty ++ ["]"] else ty
  match isConst, isCref with
  | true, true => ["::", "cref", "::", "CRef", "<", "'static", ","] ++ ty ++ [">"]
  | false, true => ["::", "cref", "::", "CMut", "<", "'static", ","] ++ ty ++ [">"]
  | true, false => "*" :: "const" :: ty
  | false, false => "*" :: "mut" :: ty

/-- `root` (crubit_abi_type.rs:162-167, 212-217) -/
def stringPath (inCcStd : Bool) : Toks :=
  (if inCcStd then ["crate"] else ["::", "cc_std"]) ++ ["::", "std", "::", "BoxedCppStringAbi"]

mutual
/-- `CrubitAbiTypeToRustTokens` (crubit_abi_type.rs:139-187) -/
def Abi.rustType : Abi → Toks
  | .ptr k s r _ ty _ => ["::", "bridge_rust", "::", "TransmuteAbi", "<"] ++ rustPtr k s r ty ++ [">"]
  | .pair a b => "(" :: a.rustType ++ "," :: b.rustType ++ [")"]
  | .stdString c => stringPath c
  | .transmute ty _ => ["::", "bridge_rust", "::", "TransmuteAbi", "<"] ++ ty ++ [">"]
  | .protoMessage b r _ => b.toks ++ "<" :: r.toks ++ [">"]
  | .tokens t _ _ _ => t
  | .type p _ args => if args.isEmpty then p.toks else p.toks ++ "<" :: sepBy "," (Abi.rustTypes args) ++ [">"]
def Abi.rustTypes : List Abi → List Toks
  | [] => []
  | a :: as => a.rustType :: Abi.rustTypes as
end

mutual
/-- `CrubitAbiTypeToRustExprTokens` (crubit_abi_type.rs:189-239) -/
def Abi.rustExpr : Abi → Toks
  | .ptr k s r _ ty _ => ["::", "bridge_rust", "::", "transmute_abi", "::", "<"] ++ rustPtr k s r ty ++ [">", "(", ")"]
  | .pair a b => "(" :: a.rustExpr ++ "," :: b.rustExpr ++ [")"]
  | .stdString c => stringPath c
  | .transmute ty _ => ["::", "bridge_rust", "::", "transmute_abi", "::", "<"] ++ ty ++ [">", "(", ")"]
  | .protoMessage b _ _ => b.toks ++ ["(", "::", "core", "::", "marker", "::", "PhantomData", ")"]
  | .tokens _ e _ _ => e
  | .type p _ args => if args.isEmpty then p.toks else p.toks ++ "(" :: sepBy "," (Abi.rustExprs args) ++ [")"]
def Abi.rustExprs : List Abi → List Toks
  | [] => []
  | a :: as => a.rustExpr :: Abi.rustExprs as
end

mutual
/-- `CrubitAbiTypeToCppTokens` (crubit_abi_type.rs:241-296) -/
def Abi.cppType : Abi → Toks
  | .ptr k s _ ref _ ty =>
      let ty := if k then "const" :: ty else ty
      let ty := if s then ["::", "rs_std", "::", "SliceRef", "<"] ++ ty ++ [">"] else if ref then ty ++ ["&"] else ty ++ ["*"]
      ["::", "crubit", "::", "TransmuteAbi", "<"] ++ ty ++ [">"]
  | .pair a b => ["::", "crubit", "::", "PairAbi", "<"] ++ a.cppType ++ "," :: b.cppType ++ [">"]
  | .stdString _ => ["::", "crubit", "::", "BoxedAbi", "<", "std", "::", "string", ">"]
  | .transmute _ ty => ["::", "crubit", "::", "TransmuteAbi", "<"] ++ ty ++ [">"]
  | .protoMessage _ _ c => ["::", "crubit", "::", "BoxedAbi", "<"] ++ c.toks ++ [">"]
  | .tokens _ _ t _ => t
  | .type _ p args => if args.isEmpty then p.toks else p.toks ++ "<" :: sepBy "," (Abi.cppTypes args) ++ [">"]
def Abi.cppTypes : List Abi → List Toks
  | [] => []
  | a :: as => a.cppType :: Abi.cppTypes as
end

mutual
/-- `CrubitAbiTypeToCppExprTokens` (crubit_abi_type.rs:298-372) -/
def Abi.cppExpr : Abi → Toks
  | .ptr k s _ _ _ ty =>
      let ty := if k then "const" :: ty else ty
      let ty := if s then ["::", "rs_std", "::", "SliceRef", "<"] ++ ty ++ [">"] else ty ++ ["*"]
      ["::", "crubit", "::", "TransmuteAbi", "<"] ++ ty ++ [">", "(", ")"]
  | .pair a b => ["::", "crubit", "::", "PairAbi", "<"] ++ a.cppType ++ "," :: b.cppType ++ [">", "("] ++ a.cppExpr ++
      "," :: b.cppExpr ++ [")"]
  | .stdString _ => ["::", "crubit", "::", "BoxedAbi", "<", "std", "::", "string", ">", "(", ")"]
  | .transmute _ ty => ["::", "crubit", "::", "TransmuteAbi", "<"] ++ ty ++ [">", "(", ")"]
  | .protoMessage _ _ c => ["::", "crubit", "::", "BoxedAbi", "<"] ++ c.toks ++ [">", "(", ")"]
  | .tokens _ _ _ e => e
  | .type _ p args =>
      if args.isEmpty then p.toks ++ ["(", ")"]
      else p.toks ++ "<" :: sepBy "," (Abi.cppTypes args) ++ [">", "("] ++ sepBy "," (Abi.cppExprs args) ++ [")"]
def Abi.cppExprs : List Abi → List Toks
  | [] => []
  | a :: as => a.cppExpr :: Abi.cppExprs as
end

/-! ### Paths -/

/-- `split("::")` -/
def split (cur : List Char) : List Char → List (List Char)
  | ':' :: ':' :: s => cur :: split [] s
  | c :: s => split (cur ++ [c]) s
  | [] => [cur]

/-- `FullyQualifiedPath::new` (crubit_abi_type.rs:23-31); `ident`: what `Ident::new` accepts -/
def pathNew (ident : List Char → Bool) (s : List Char) : Option (Bool × List (List Char)) :=
  let lead := [':', ':'].isPrefixOf s
  let parts := if lead then (split [] s).drop 1 else split [] s
  if parts.all ident then some (lead, parts) else none

end Verif.AbiTy

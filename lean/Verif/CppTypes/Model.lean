import Verif.CppTypes.Spec

/-
Model of the way of a C++ type from the header to the generated code: `Importer::ConvertQualType`
(rs_bindings_from_cc/importer.cc), `rs_type_kind_with_lifetime_elision` (generate_bindings/rs_type_kind.rs),
`format_cpp_type` (generate_bindings/cpp_type_name.rs) and `to_token_stream` (database/rs_snippet.rs).

Not modelled: attributes other than those in `PKind`, `volatile` (refused), bridge types and
uniform-representation templates (a class or alias is its name), the wording of errors, and lifetimes
beyond their presence.
-/

namespace Verif.CppTypes

mutual
/-- `CcType` (ir.rs:745-790); `c` is `is_const`.  Simplification: `SliceRef<T>`, which is a declaration with
a template argument, is a constructor. -/
inductive CcTy where
  | prim (c : Bool) (p : String)
  | decl (c : Bool) (n : String)
  | ptr (c : Bool) (k : PKind) (life : Bool) (t : CcTy)
  | slice (c : Bool) (t : CcTy)
  | fnptr (c : Bool) (nonNull : Bool) (cc : CConv) (params : CcTys) (ret : CcTy)
inductive CcTys where
  | nil
  | cons (t : CcTy) (ts : CcTys)
end

/-- `CcType::is_const` -/
def CcTy.isConst : CcTy → Bool
  | .prim c _ | .decl c _ | .ptr c .. | .slice c _ | .fnptr c .. => c

/-- Which declarations are imported (`EnsureSuccessfullyImported` and not in a system header). -/
abbrev Imported := String → Bool

/-- Both results, or failure. -/
def both (a : Option α) (b : Option β) : Option (α × β) :=
  match a, b with
  | some x, some y => some (x, y)
  | _, _ => none

mutual
/-- `ConvertQualType` (importer.cc:2190-2226) with `ConvertUnattributedType` (:2002-2188); `q`: the type is
written with `const`; `none`: an error.  `isPointerType` and the like look through aliases, the branch
for typedefs does not. -/
def convert (imp : Imported) (q : Bool) : STy → Option CcTy
  | .prim p => some (.prim q p)
  | .cls n => if imp n then some (.decl q n) else none
  | .alias n c t =>
      if (desugar t).2.isPtr then convert imp (q || c) t
      else if imp n then some (.decl (mkConst (q || c) (desugar t)).1 n)
      else convert imp (q || c) t
  | .ptr k life c t =>
      if (desugar t).2.isFn then convertFn imp q k t
      else (convert imp c t).map (.ptr (q && k.ref = .ptr) k life)
  | .slice c t => (convert imp c t).map (.slice q)
  | .fn .. => none
/-- The branch for pointers to functions (importer.cc:2035-2077). Simplification: the `CHECK` that fails for
`&&` is an error here. Whether the function is variadic or `noexcept` is not looked at. -/
def convertFn (imp : Imported) (q : Bool) (k : PKind) : STy → Option CcTy
  | .alias _ _ t => convertFn imp q k t
  | .fn cc _ _ c r ps =>
      if k = .rref then none
      else (both (converts imp ps) (convert imp c r)).map fun x =>
        .fnptr (q && k.ref = .ptr) (k = .lref) cc x.1 x.2
  | _ => none
def converts (imp : Imported) : STys → Option CcTys
  | .nil => some .nil
  | .cons t ts => (both (convert imp false t) (converts imp ts)).map fun x => .cons x.1 x.2
end

mutual
/-- `RsTypeKind` (rs_snippet.rs:620-693); `decl` stands for all that are formatted as a name. -/
inductive RsTy where
  | prim (p : String)
  | decl (n : String)
  | ptr (k : PKind) (const : Bool) (t : RsTy)
  | slice (const : Bool) (t : RsTy)
  | ref (const cref : Bool) (t : RsTy)
  | rvref (const : Bool) (t : RsTy)
  | fnptr (option : Bool) (cc : CConv) (ret : RsTy) (params : RsTys)
inductive RsTys where
  | nil
  | cons (t : RsTy) (ts : RsTys)
end

/-- `LifetimeOptions` -/
structure LOpts where
  assume : Bool
  infer : Bool
  isReturn : Bool
  isOperator : Bool

/-- What is known of declarations. -/
structure Decls where
  /-- `record.is_string_view()` -/
  stringView : String → Bool
  /-- `is_complete()` -/
  complete : String → Bool
  /-- `is_c_abi_compatible_by_value()` -/
  byValue : String → Bool
  /-- `is_unpin()` -/
  unpin : String → Bool
  /-- `cc_tag_kind()` for records -/
  tag : String → Option String
  isEnum : String → Bool
  ccName : String → String
  rsName : String → String

/-- `pointee_is_string_view` (rs_type_kind.rs:16-29) -/
def pointeeIsStringView (D : Decls) : CcTy → Bool
  | .decl _ n => D.stringView n
  | _ => false

/-- `is_complete` -/
def isComplete (D : Decls) : RsTy → Bool
  | .decl n => D.complete n
  | _ => true

/-- `is_c_abi_compatible_by_value` (rs_snippet.rs:1485-1516) -/
def byValue (D : Decls) : RsTy → Bool
  | .decl n => D.byValue n
  | _ => true

def byValues (D : Decls) : RsTys → Bool
  | .nil => true
  | .cons t ts => byValue D t && byValues D ts

/-- The options for a pointee (rs_type_kind.rs:69-81) -/
def pointeeOpts (D : Decls) (o : LOpts) (t : CcTy) : LOpts :=
  { assume := o.assume && !pointeeIsStringView D t, infer := false,
    isReturn := o.isReturn && o.assume, isOperator := o.isOperator }

/-- The choice between pointer and references (rs_type_kind.rs:104-148) -/
def pointerKind (D : Decls) (o : LOpts) (k : PKind) (life const : Bool) (t : RsTy) : RsTy :=
  if !o.assume && !life && !o.infer then .ptr k const t
  else match k with
    | .lref =>
        .ref const (o.assume && (!isComplete D t || (o.isReturn && !o.isOperator))) t
    | .rref => .rvref const t
    | _ => .ptr k const t

mutual
/-- `rs_type_kind_with_lifetime_elision` (rs_type_kind.rs:43-285). Simplification: more than one explicit
lifetime on a pointer, an error, is not modelled. -/
def kindOf (D : Decls) (o : LOpts) : CcTy → Option RsTy
  | .prim _ p => some (.prim p)
  | .decl _ n => some (.decl n)
  | .ptr _ k life t =>
      (kindOf D (pointeeOpts D o t) t).map (pointerKind D o k life t.isConst)
  | .slice _ t =>
      (kindOf D ⟨false, false, false, false⟩ t).map (.slice t.isConst)
  | .fnptr _ nonNull cc ps r =>
      match kindOf D ⟨o.assume, false, false, false⟩ r, kindsOf D ⟨o.assume, false, false, false⟩ ps with
      | some r', some ps' =>
          if byValues D ps' && byValue D r' then some (.fnptr (!nonNull) cc r' ps') else none
      | _, _ => none
def kindsOf (D : Decls) (o : LOpts) : CcTys → Option RsTys
  | .nil => some .nil
  | .cons t ts =>
      match kindOf D o t, kindsOf D o ts with
      | some t', some ts' => some (.cons t' ts')
      | _, _ => none
end

/-- `const_fragment` -/
def constTok (c : Bool) : List Tok := if c then [.kConst] else []

/-- The name of a declaration (cpp_type_name.rs:30-47 and :146-179): enums are spelled with `rs_name`. -/
def nameToks (D : Decls) (n : String) : List Tok :=
  if D.isEnum n then [.name (D.rsName n)]
  else match D.tag n with
    | some s => [.tag s, .name (D.ccName n)]
    | none => [.name (D.ccName n)]

/-- `*`, `&` or `&&` (cpp_type_name.rs:63-69) -/
def ptrTok (refs : Bool) : PKind → Tok
  | .lref => if refs then .amp else .star
  | .rref => if refs then .ampAmp else .star
  | _ => .star

/-- cpp_type_name.rs:107-110 -/
def attrTok : CConv → List Tok
  | .c => []
  | cc => [.attr cc]

mutual
/-- `format_cpp_type_inner` (cpp_type_name.rs:49-144) -/
def format (D : Decls) (refs : Bool) : RsTy → List Tok
  | .prim p => [.prim p]
  | .decl n => nameToks D n
  | .ptr k c t => format D refs t ++ constTok c ++ [ptrTok refs k]
  | .slice c t => [.sliceRef, .lt] ++ constTok c ++ format D refs t ++ [.gt]
  | .ref c _ t => format D refs t ++ constTok c ++ [if refs then .amp else .star]
  | .rvref c t => format D refs t ++ constTok c ++ [if refs then .ampAmp else .star]
  | .fnptr option cc r ps =>
      [.tyId, .lt] ++ format D true r ++ [.lpar] ++ formats D ps ++ [.rpar] ++ attrTok cc ++ [.gt] ++
        [if !option && refs then .amp else .star]
/-- `#( #param_types ),*` -/
def formats (D : Decls) : RsTys → List Tok
  | .nil => []
  | .cons t .nil => format D true t
  | .cons t ts => format D true t ++ .comma :: formats D ts
end

/-- A parameter or result type in the assertion that a function has the expected type
(generate_function_thunk.rs:345-372) -/
def assertTy (D : Decls) (c : CcTy) (r : RsTy) : List Tok := format D true r ++ constTok c.isConst

/-- `is_unpin` -/
def isUnpin (D : Decls) : RsTy → Bool
  | .decl n => D.unpin n
  | _ => true

mutual
/-- `to_token_stream` (rs_snippet.rs:2346-2420), as a Rust type. -/
def rust (D : Decls) : RsTy → RTy
  | .prim p => .prim p
  | .decl n => .named n
  | .ptr _ c t => .raw (!c) (rust D t)
  | .slice c t => .slice (!c) (rust D t)
  | .ref c cref t =>
      if cref then .cref (!c) (rust D t) else .ref (!c) (!c && !isUnpin D t) (rust D t)
  | .rvref c t => .rvalue (!c) (rust D t)
  | .fnptr option cc r ps => .fn option cc (rust D r) (rusts D ps)
def rusts (D : Decls) : RsTys → RTys
  | .nil => .nil
  | .cons t ts => .cons (rust D t) (rusts D ts)
end

end Verif.CppTypes

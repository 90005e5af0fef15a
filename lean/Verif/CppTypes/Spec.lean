/-
Specification vocabulary for the C++ and Rust spellings of C++ types (C160-C162).

Nothing here refers to the model of the generator in `Verif.CppTypes.Model`: C++ types as written in
headers, what type they are, how the C++ compiler reads a type, and which Rust types agree with it.
-/

namespace Verif.CppTypes

/-- Calling conventions the tool supports. -/
inductive CConv where
  | c | fastcall | vectorcall | thiscall | stdcall | msabi
  deriving DecidableEq, Repr

/-- `*`, `&` and `&&`. -/
inductive Ref where
  | ptr | lref | rref
  deriving DecidableEq, Repr

mutual
/-- C++ types, without the names of aliases.  `constTo`, `constElem`, `constRet`: what is pointed to (the
element, the result) is `const`. -/
inductive CTy where
  | prim (p : String)
  | cls (n : String)
  | ptr (k : Ref) (constTo : Bool) (t : CTy)
  | slice (constElem : Bool) (t : CTy)
  | fn (cc : CConv) (variadic noexc : Bool) (constRet : Bool) (ret : CTy) (params : CTys)
/-- Lists of C++ types. -/
inductive CTys where
  | nil
  | cons (t : CTy) (ts : CTys)
end

/-- How a pointer is declared; pointers may be annotated as not null or as owning. -/
inductive PKind where
  | nullable | nonNull | owned | lref | rref
  deriving DecidableEq, Repr

def PKind.ref : PKind → Ref
  | .lref => .lref
  | .rref => .rref
  | _ => .ptr

mutual
/-- C++ types as written in a header: aliases keep their names.  `life`: the pointer or reference has a
lifetime. -/
inductive STy where
  | prim (p : String)
  | cls (n : String)
  | alias (n : String) (const : Bool) (t : STy)
  | ptr (k : PKind) (life : Bool) (constTo : Bool) (t : STy)
  | slice (constElem : Bool) (t : STy)
  | fn (cc : CConv) (variadic noexc : Bool) (constRet : Bool) (ret : STy) (params : STys)
inductive STys where
  | nil
  | cons (t : STy) (ts : STys)
end

def CTy.isRef : CTy → Bool
  | .ptr .lref _ _ => true
  | .ptr .rref _ _ => true
  | _ => false

def CTy.isFn : CTy → Bool
  | .fn .. => true
  | _ => false

def CTy.isPtr : CTy → Bool
  | .ptr .. => true
  | _ => false

/-- A type with `const` (or not) in front: `const` is ignored on references and functions. -/
def mkConst (c : Bool) (q : Bool × CTy) : Bool × CTy := (q.1 || (c && !q.2.isRef && !q.2.isFn), q.2)

mutual
/-- The type a written type is, and whether it is `const`. -/
def desugar : STy → Bool × CTy
  | .prim p => (false, .prim p)
  | .cls n => (false, .cls n)
  | .alias _ c t => mkConst c (desugar t)
  | .ptr k _ c t => (false, .ptr k.ref (mkConst c (desugar t)).1 (desugar t).2)
  | .slice c t => (false, .slice (mkConst c (desugar t)).1 (desugar t).2)
  | .fn cc va ne c r ps => (false, .fn cc va ne (mkConst c (desugar r)).1 (desugar r).2 (desugars ps))
def desugars : STys → CTys
  | .nil => .nil
  | .cons t ts => .cons (desugar t).2 (desugars ts)
end

mutual
/-- `P` holds for a written type and for all types that occur in it. -/
def All (P : STy → Prop) : STy → Prop
  | .prim p => P (.prim p)
  | .cls n => P (.cls n)
  | .alias n c t => P (.alias n c t) ∧ All P t
  | .ptr k l c t => P (.ptr k l c t) ∧ All P t
  | .slice c t => P (.slice c t) ∧ All P t
  | .fn cc va ne c r ps => P (.fn cc va ne c r ps) ∧ All P r ∧ Alls P ps
def Alls (P : STy → Prop) : STys → Prop
  | .nil => True
  | .cons t ts => All P t ∧ Alls P ts
end

/-- C++ has no pointers or references to references and no slices of references or functions
(references to aliases of references, which C++ collapses, are left out). -/
def wfNode : STy → Prop
  | .ptr _ _ _ t => (desugar t).2.isRef = false
  | .slice _ t => (desugar t).2.isRef = false ∧ (desugar t).2.isFn = false
  | _ => True

/-- Types that are spelled exactly: see the counterexamples for the others. -/
def exactNode : STy → Prop
  | .fn _ va ne c r _ => va = false ∧ ne = false ∧ (mkConst c (desugar r)).1 = false
  | .slice c t => (mkConst c (desugar t)).1 = true → (desugar t).2.isPtr = false
  | _ => True

/-! ### How a C++ compiler reads a type -/

/-- Tokens of C++ types.  `tyId` is `crubit::type_identity_t`, `sliceRef` is `::rs_std::SliceRef`, `tag` one of
`struct`, `class`, `union`; a built-in type such as `unsigned int` and a qualified name are one token. -/
inductive Tok where
  | prim (p : String) | name (s : String) | tag (s : String)
  | kConst | star | amp | ampAmp | lt | gt | lpar | rpar | comma | ellipsis
  | tyId | sliceRef | attr (cc : CConv)
  deriving DecidableEq, Repr

/-- Put `&` behind a type (references to references collapse). -/
def addL : Bool × CTy → Bool × CTy
  | (_, .ptr .lref c t) => (false, .ptr .lref c t)
  | (_, .ptr .rref c t) => (false, .ptr .lref c t)
  | (c, t) => (false, .ptr .lref c t)

/-- Put `&&` behind a type. -/
def addR : Bool × CTy → Bool × CTy
  | (_, .ptr .lref c t) => (false, .ptr .lref c t)
  | (_, .ptr .rref c t) => (false, .ptr .rref c t)
  | (c, t) => (false, .ptr .rref c t)

/-- `const`, `*`, `&` and `&&` after a type apply to what comes before them. -/
def suffix (q : Bool × CTy) : List Tok → Option ((Bool × CTy) × List Tok)
  | .kConst :: r => suffix (mkConst true q) r
  | .star :: r => if q.2.isRef then none else suffix (false, .ptr .ptr q.1 q.2) r
  | .amp :: r => suffix (addL q) r
  | .ampAmp :: r => suffix (addR q) r
  | ts => some (q, ts)

/-- An optional attribute after a function type. -/
def readAttr : List Tok → CConv × List Tok
  | .attr cc :: r => (cc, r)
  | r => (.c, r)

mutual
/-- A type, given what the names in scope mean (`fuel`: nesting). A `const` in front applies to the
first name only, not to the `*` and `&` that follow. -/
def readTy (scope : String → Option (Bool × CTy)) :
    Nat → List Tok → Option ((Bool × CTy) × List Tok)
  | 0, _ => none
  | f + 1, .kConst :: ts =>
      match readBase scope f ts with
      | some (q, r) => suffix (mkConst true q) r
      | none => none
  | f + 1, ts =>
      match readBase scope f ts with
      | some (q, r) => suffix q r
      | none => none
/-- A built-in type, a name, a slice, or `type_identity_t` of a function type. -/
def readBase (scope : String → Option (Bool × CTy)) :
    Nat → List Tok → Option ((Bool × CTy) × List Tok)
  | 0, _ => none
  | f + 1, ts =>
      match ts with
      | .prim p :: r => some ((false, .prim p), r)
      | .name s :: r => (scope s).map fun q => (q, r)
      | .tag _ :: .name s :: r =>
          match scope s with
          | some (false, .cls n) => some ((false, .cls n), r)
          | _ => none
      | .sliceRef :: .lt :: r =>
          match readTy scope f r with
          | some (q, .gt :: r') =>
              if q.2.isRef || q.2.isFn then none else some ((false, .slice q.1 q.2), r')
          | _ => none
      | .tyId :: .lt :: r =>
          match readTy scope f r with
          | some (q, .lpar :: r₁) =>
              match readParams scope f r₁ with
              | some (ps, va, r₂) =>
                  match readAttr r₂ with
                  | (cc, .gt :: r₃) => some ((false, .fn cc va false q.1 q.2 ps), r₃)
                  | _ => none
              | none => none
          | _ => none
      | _ => none
/-- A parameter list, up to and including `)`; `const` on a parameter itself does not matter. -/
def readParams (scope : String → Option (Bool × CTy)) :
    Nat → List Tok → Option (CTys × Bool × List Tok)
  | 0, _ => none
  | _ + 1, .rpar :: r => some (.nil, false, r)
  | f + 1, ts => readParams1 scope f ts
/-- A parameter list that is not empty. -/
def readParams1 (scope : String → Option (Bool × CTy)) :
    Nat → List Tok → Option (CTys × Bool × List Tok)
  | 0, _ => none
  | _ + 1, .ellipsis :: .rpar :: r => some (.nil, true, r)
  | f + 1, ts =>
      match readTy scope f ts with
      | some (q, .rpar :: r) => some (.cons q.2 .nil, false, r)
      | some (q, .comma :: r) =>
          match readParams1 scope f r with
          | some (ps, va, r') => some (.cons q.2 ps, va, r')
          | none => none
      | _ => none
end

/-- The type that a token list denotes. -/
def typeOf (scope : String → Option (Bool × CTy)) (ts : List Tok) : Option (Bool × CTy) :=
  match readTy scope (3 * ts.length + 3) ts with
  | some (q, []) => some q
  | _ => none

/-- A reference passed as a pointer. -/
def asPointer : CTy → CTy
  | .ptr _ c t => .ptr .ptr c t
  | t => t

/-! ### Rust types -/

mutual
/-- Rust types of bindings: `*mut T`/`*const T`, `*mut [T]`/`*const [T]`, `&mut T`/`&T` (perhaps pinned),
`CMut`/`CRef`, `RvalueReference`/`ConstRvalueReference` and function pointers (perhaps in `Option`). -/
inductive RTy where
  | prim (p : String)
  | named (n : String)
  | raw (mutable : Bool) (t : RTy)
  | slice (mutable : Bool) (t : RTy)
  | ref (mutable pinned : Bool) (t : RTy)
  | cref (mutable : Bool) (t : RTy)
  | rvalue (mutable : Bool) (t : RTy)
  | fn (nullable : Bool) (cc : CConv) (ret : RTy) (params : RTys)
inductive RTys where
  | nil
  | cons (t : RTy) (ts : RTys)
end

mutual
/-- A Rust type agrees with a C++ type: same structure, a pointer that can be null is not a Rust
reference or function pointer, and Rust can write through a pointer if and only if C++ can. -/
inductive Agrees (names : String → Option CTy) : CTy → RTy → Prop where
  | prim (p : String) : Agrees names (.prim p) (.prim p)
  | named (n : String) (t : CTy) : names n = some t → Agrees names t (.named n)
  | raw (k : Ref) (c : Bool) (t : CTy) (r : RTy) : Agrees names t r →
      Agrees names (.ptr k c t) (.raw (!c) r)
  | slice (c : Bool) (t : CTy) (r : RTy) : Agrees names t r → Agrees names (.slice c t) (.slice (!c) r)
  | ref (c pinned : Bool) (t : CTy) (r : RTy) : Agrees names t r →
      Agrees names (.ptr .lref c t) (.ref (!c) pinned r)
  | cref (c : Bool) (t : CTy) (r : RTy) : Agrees names t r →
      Agrees names (.ptr .lref c t) (.cref (!c) r)
  | rvalue (c : Bool) (t : CTy) (r : RTy) : Agrees names t r →
      Agrees names (.ptr .rref c t) (.rvalue (!c) r)
  | fn (cc : CConv) (noexc cr nullable : Bool) (k : Ref) (ret : CTy) (ps : CTys) (r : RTy) (rs : RTys) :
      (nullable = true ↔ k = .ptr) → Agrees names ret r → AgreesL names ps rs →
      Agrees names (.ptr k false (.fn cc false noexc cr ret ps)) (.fn nullable cc r rs)
inductive AgreesL (names : String → Option CTy) : CTys → RTys → Prop where
  | nil : AgreesL names .nil .nil
  | cons (t : CTy) (ts : CTys) (r : RTy) (rs : RTys) : Agrees names t r → AgreesL names ts rs →
      AgreesL names (.cons t ts) (.cons r rs)
end

end Verif.CppTypes

/-
Specification vocabulary for the C++ types that stand for Rust types (C163-C166).

Nothing here refers to the model of the generator in `Verif.RsTypes.Model`: Rust types, C++ types, how the
two compilers read a type, and which C++ types correspond to a Rust type.
-/

namespace Verif.RsTypes

inductive Prim where
  | bool | char | f32 | f64
  deriving DecidableEq, Repr

inductive IntW where
  | w8 | w16 | w32 | w64 | w128 | size
  deriving DecidableEq, Repr

/-- Generic types of the standard library. -/
inductive Gen where
  | option | result | vec
  deriving DecidableEq, Repr

/-- Lifetimes: without a name, elided in the source (with a made-up name), or written. -/
inductive Life where
  | none
  | anon (s : String)
  | named (s : String)
  deriving DecidableEq, Repr

mutual
/-- Rust types. `rvref`: `RvalueReference<'l, T>` or `ByValue<'l, T>`; `adt`: structs, enums and unions without
generic parameters; `fn`: function pointers, `generic` if they are polymorphic in a lifetime. -/
inductive RTy where
  | prim (p : Prim)
  | int (signed : Bool) (w : IntW)
  | never
  | cvoid
  | str
  | tuple (ts : RTys)
  | array (t : RTy) (n : Nat)
  | adt (n : String)
  | gen (g : Gen) (ts : RTys)
  | rvref (byValue : Bool) (l : Life) (t : RTy)
  | maybeUninit (t : RTy)
  | slice (t : RTy)
  | raw (mutable : Bool) (t : RTy)
  | ref (l : Life) (mutable : Bool) (t : RTy)
  | fn (generic uns : Bool) (abi : String) (variadic : Bool) (ret : RTy) (ps : RTys)
inductive RTys where
  | nil
  | cons (t : RTy) (ts : RTys)
end

/-- `*`, `&` and `&&`. -/
inductive Ref where
  | ptr | lref | rref
  deriving DecidableEq, Repr

mutual
/-- C++ types.  `prim`: built-in types and those of `<cstdint>`; `tmpl`: instances of class templates. -/
inductive CTy where
  | prim (p : String)
  | cls (n : String)
  | ptr (k : Ref) (constTo : Bool) (t : CTy)
  | tmpl (n : String) (args : CArgs)
  | fn (ret : CTy) (ps : CArgs)
/-- Template arguments (types, perhaps `const`, and numbers) and parameters. -/
inductive CArgs where
  | nil
  | ty (const : Bool) (t : CTy) (as : CArgs)
  | nat (n : Nat) (as : CArgs)
end

def CTy.isRef : CTy → Bool
  | .ptr .lref _ _ => true
  | .ptr .rref _ _ => true
  | _ => false

def CTy.isFn : CTy → Bool
  | .fn .. => true
  | _ => false

def CTy.isVoid : CTy → Bool
  | .prim "void" => true
  | _ => false

/-! ### How a C++ compiler reads a type -/

/-- Tokens of C++ types; a qualified name is one token, and the compiler knows which names are templates.
`life` and `nonnull` are the annotations `$a` and `crubit_nonnull`. -/
inductive Tok where
  | prim (p : String) | name (s : String) | tname (s : String)
  | kConst | star | amp | ampAmp | lt | gt | lpar | rpar | comma | nat (n : Nat)
  | tyId | life (s : String) | nonnull
  deriving DecidableEq, Repr

/-- `const` is ignored on references and functions. -/
def mkConst (c : Bool) (q : Bool × CTy) : Bool × CTy := (q.1 || (c && !q.2.isRef && !q.2.isFn), q.2)

/-- `const`, `*`, `&`, `&&` after a type apply to what comes before them; annotations do not change the
type.  (References to references, which C++ collapses or rejects, are not read.) -/
def suffix (q : Bool × CTy) : List Tok → Option ((Bool × CTy) × List Tok)
  | .kConst :: r => suffix (mkConst true q) r
  | .star :: r => if q.2.isRef then none else suffix (false, .ptr .ptr q.1 q.2) r
  | .amp :: r => if q.2.isRef || q.2.isVoid then none else suffix (false, .ptr .lref q.1 q.2) r
  | .ampAmp :: r => if q.2.isRef || q.2.isVoid then none else suffix (false, .ptr .rref q.1 q.2) r
  | .life _ :: r => suffix q r
  | .nonnull :: r => suffix q r
  | ts => some (q, ts)

mutual
/-- A type (`fuel`: nesting). A `const` in front applies to the first name only. -/
def readTy : Nat → List Tok → Option ((Bool × CTy) × List Tok)
  | 0, _ => none
  | f + 1, .kConst :: ts =>
      match readBase f ts with
      | some (q, r) => suffix (mkConst true q) r
      | none => none
  | f + 1, ts =>
      match readBase f ts with
      | some (q, r) => suffix q r
      | none => none
/-- A built-in type, a class, an instance of a template, or `type_identity_t` of a function type. -/
def readBase : Nat → List Tok → Option ((Bool × CTy) × List Tok)
  | 0, _ => none
  | f + 1, ts =>
      match ts with
      | .prim p :: r => some ((false, .prim p), r)
      | .name s :: r => some ((false, .cls s), r)
      | .tname s :: .lt :: r =>
          match readArgs .gt f r with
          | some (as, r') => some ((false, .tmpl s as), r')
          | none => none
      | .tyId :: .lt :: r =>
          match readTy f r with
          | some (q, .lpar :: r₁) =>
              match readArgs .rpar f r₁ with
              | some (ps, .gt :: r₂) => some ((false, .fn q.2 ps), r₂)
              | _ => none
          | _ => none
      | _ => none
/-- Template arguments up to `>` or parameters up to `)`. -/
def readArgs (close : Tok) : Nat → List Tok → Option (CArgs × List Tok)
  | 0, _ => none
  | f + 1, ts =>
      match ts with
      | [] => none
      | t :: r => if t = close then some (.nil, r) else readArgs1 close f (t :: r)
/-- A list that is not empty. -/
def readArgs1 (close : Tok) : Nat → List Tok → Option (CArgs × List Tok)
  | 0, _ => none
  | f + 1, .nat n :: ts =>
      match ts with
      | .comma :: r =>
          match readArgs1 close f r with
          | some (as, r') => some (.nat n as, r')
          | none => none
      | t :: r => if t = close then some (.nat n .nil, r) else none
      | [] => none
  | f + 1, ts =>
      match readTy f ts with
      | some (q, .comma :: r) =>
          match readArgs1 close f r with
          | some (as, r') => some (.ty q.1 q.2 as, r')
          | none => none
      | some (q, t :: r) => if t = close then some (.ty q.1 q.2 .nil, r) else none
      | _ => none
end

/-- The type that a token list denotes. -/
def typeOf (ts : List Tok) : Option (Bool × CTy) :=
  match readTy (3 * ts.length + 3) ts with
  | some (q, []) => some q
  | _ => none

/-! ### Correspondence -/

/-- What correspondence depends on. -/
structure Env where
  /-- the C++ name of a type -/
  ccName : String → String
  /-- types whose shared references C++ may write through -/
  threadSafe : RTy → Bool
  /-- pointers have 64 bits, otherwise 32 -/
  ptr64 : Bool

def primTy : Prim → CTy
  | .bool => .prim "bool"
  | .char => .cls "rs_std::char_"
  | .f32 => .prim "float"
  | .f64 => .prim "double"

/-- C++ integer types of a Rust integer type: `usize` is `uintptr_t` or the unsigned type of the same width. -/
def IntCorr (E : Env) (s : Bool) : IntW → String → Prop
  | .w8, n => n = if s then "int8_t" else "uint8_t"
  | .w16, n => n = if s then "int16_t" else "uint16_t"
  | .w32, n => n = if s then "int32_t" else "uint32_t"
  | .w64, n => n = if s then "int64_t" else "uint64_t"
  | .size, n => (n = if s then "intptr_t" else "uintptr_t") ∨
      (E.ptr64 = true ∧ n = if s then "int64_t" else "uint64_t") ∨
      (E.ptr64 = false ∧ n = if s then "int32_t" else "uint32_t")
  | .w128, _ => False

def genNames : Gen → List String
  | .option => ["rs_std::Option", "std::optional"]
  | .result => ["rs_std::Result"]
  | .vec => ["rs_std::Vec"]

mutual
/-- A C++ type that has the values of a Rust type, in any place: pointers are used for references. -/
inductive Corr (E : Env) : RTy → CTy → Prop where
  | prim (p : Prim) : Corr E (.prim p) (primTy p)
  | int (s : Bool) (w : IntW) (n : String) : IntCorr E s w n → Corr E (.int s w) (.prim n)
  | adt (n : String) : Corr E (.adt n) (.cls (E.ccName n))
  | array (t : RTy) (n : Nat) (t' : CTy) : Corr E t t' →
      Corr E (.array t n) (.tmpl "std::array" (.ty false t' (.nat n .nil)))
  | tuple (n : String) (ts : RTys) (as : CArgs) : n ∈ ["rs_std::Tuple", "std::tuple"] → CorrL E ts as →
      Corr E (.tuple ts) (.tmpl n as)
  | gen (g : Gen) (n : String) (ts : RTys) (as : CArgs) : n ∈ genNames g → CorrL E ts as →
      Corr E (.gen g ts) (.tmpl n as)
  | raw (m : Bool) (t : RTy) (t' : CTy) : Pointee E t t' → Corr E (.raw m t) (.ptr .ptr (!m) t')
  | rawSlice (m : Bool) (t : RTy) (t' : CTy) : Corr E t t' →
      Corr E (.raw m (.slice t)) (.tmpl "rs_std::SliceRef" (.ty (!m) t' .nil))
  | ref (l : Life) (m : Bool) (t : RTy) (t' : CTy) : Pointee E t t' →
      Corr E (.ref l m t) (.ptr .ptr (!m) t')
  | refSlice (l : Life) (m : Bool) (t : RTy) (t' : CTy) : Corr E t t' →
      Corr E (.ref l m (.slice t)) (.tmpl "rs_std::SliceRef" (.ty (!m) t' .nil))
  | str (l : Life) : Corr E (.ref l false .str) (.cls "rs_std::StrRef")
  | rvref (b : Bool) (l : Life) (t : RTy) (t' : CTy) : Pointee E t t' →
      Corr E (.rvref b l t) (.ptr .ptr false t')
  | fn (u : Bool) (abi : String) (ret : RTy) (ps : RTys) (r : CTy) (as : CArgs) :
      abi ∈ ["C", "C-unwind"] → CorrRet E ret r → CorrPs E ps as →
      Corr E (.fn false u abi false ret ps) (.ptr .ptr false (.fn r as))
/-- What a thin pointer points to. -/
inductive Pointee (E : Env) : RTy → CTy → Prop where
  | same (t : RTy) (t' : CTy) : Corr E t t' → Pointee E t t'
  | void : Pointee E .cvoid (.prim "void")
  | uninit (t : RTy) (t' : CTy) : Corr E t t' → Pointee E (.maybeUninit t) t'
  | uninitVoid : Pointee E (.maybeUninit .cvoid) (.prim "void")
/-- Types of parameters, results and constants: references may be used. -/
inductive CorrTop (E : Env) : RTy → CTy → Prop where
  | same (t : RTy) (t' : CTy) : Corr E t t' → CorrTop E t t'
  | lref (l : Life) (m : Bool) (t : RTy) (t' : CTy) : Pointee E t t' →
      CorrTop E (.ref l m t) (.ptr .lref (!m) t')
  | shared (l : Life) (k : Ref) (t : RTy) (t' : CTy) : E.threadSafe t = true → k ≠ .rref → Pointee E t t' →
      CorrTop E (.ref l false t) (.ptr k false t')
  | rref (b : Bool) (l : Life) (t : RTy) (t' : CTy) : Pointee E t t' → CorrTop E (.rvref b l t) (.ptr .rref false t')
  | fnref (u : Bool) (abi : String) (ret : RTy) (ps : RTys) (r : CTy) (as : CArgs) :
      abi ∈ ["C", "C-unwind"] → CorrRet E ret r → CorrPs E ps as →
      CorrTop E (.fn false u abi false ret ps) (.ptr .lref false (.fn r as))
/-- Types of results. -/
inductive CorrRet (E : Env) : RTy → CTy → Prop where
  | same (t : RTy) (t' : CTy) : CorrTop E t t' → CorrRet E t t'
  | unit : CorrRet E (.tuple .nil) (.prim "void")
  | never : CorrRet E .never (.prim "void")
/-- Template arguments; the unit type may be `rs_std::unit_t`. -/
inductive CorrL (E : Env) : RTys → CArgs → Prop where
  | nil : CorrL E .nil .nil
  | cons (t : RTy) (ts : RTys) (t' : CTy) (as : CArgs) : Corr E t t' → CorrL E ts as →
      CorrL E (.cons t ts) (.ty false t' as)
  | unit (ts : RTys) (as : CArgs) : CorrL E ts as →
      CorrL E (.cons (.tuple .nil) ts) (.ty false (.cls "rs_std::unit_t") as)
/-- Parameters of a function. -/
inductive CorrPs (E : Env) : RTys → CArgs → Prop where
  | nil : CorrPs E .nil .nil
  | cons (t : RTy) (ts : RTys) (t' : CTy) (as : CArgs) : CorrTop E t t' → CorrPs E ts as →
      CorrPs E (.cons t ts) (.ty false t' as)
end

/-- Where a type stands in the header. -/
inductive Loc where
  | ret (constructor : Bool)
  | param (isSelf elidedIsOutput : Bool)
  | const | nested | templ | other | field
  deriving DecidableEq, Repr

/-- What is wanted of a type in a place. -/
def CorrAt (E : Env) : Loc → RTy → CTy → Prop
  | .ret _, t, t' => CorrRet E t t'
  | .param _ _, t, t' => CorrTop E t t'
  | .const, t, t' => CorrTop E t t'
  | _, t, t' => Corr E t t'

mutual
/-- Well-formed C++ types: no `void` and no functions except behind pointers and as results, references only as the
types of parameters and results. -/
def Wf : CTy → Prop
  | .prim p => p ≠ "void"
  | .cls _ => True
  | .ptr .ptr _ t => WfPointee t
  | .ptr _ _ _ => False
  | .tmpl _ as => WfArgs as
  | .fn _ _ => False
/-- Behind a pointer. -/
def WfPointee : CTy → Prop
  | .prim _ => True
  | .cls _ => True
  | .ptr .ptr _ t => WfPointee t
  | .ptr _ _ _ => False
  | .tmpl _ as => WfArgs as
  | .fn r ps => WfTop r ∧ WfPs ps
/-- A result, or (except for `void`) a parameter. -/
def WfTop : CTy → Prop
  | .prim _ => True
  | .cls _ => True
  | .ptr _ _ t => WfPointee t
  | .tmpl _ as => WfArgs as
  | .fn _ _ => False
def WfArgs : CArgs → Prop
  | .nil => True
  | .ty _ t as => Wf t ∧ WfArgs as
  | .nat _ as => WfArgs as
def WfPs : CArgs → Prop
  | .nil => True
  | .ty c t as => c = false ∧ t.isVoid = false ∧ WfTop t ∧ WfPs as
  | .nat _ _ => False
end

/-- Well formed in a place: `void` and references are for results, references for parameters and constants. -/
def WfAt : Loc → CTy → Prop
  | .ret _, c => WfTop c
  | .param _ _, c => WfTop c ∧ c.isVoid = false
  | .const, c => WfTop c ∧ c.isVoid = false
  | _, c => Wf c

mutual
/-- `P` holds for a Rust type and for all types that occur in it. -/
def All (P : RTy → Prop) : RTy → Prop
  | .prim p => P (.prim p)
  | .int s w => P (.int s w)
  | .never => P .never
  | .cvoid => P .cvoid
  | .str => P .str
  | .adt n => P (.adt n)
  | .tuple ts => P (.tuple ts) ∧ Alls P ts
  | .array t n => P (.array t n) ∧ All P t
  | .gen g ts => P (.gen g ts) ∧ Alls P ts
  | .rvref b l t => P (.rvref b l t) ∧ All P t
  | .maybeUninit t => P (.maybeUninit t) ∧ All P t
  | .slice t => P (.slice t) ∧ All P t
  | .raw m t => P (.raw m t) ∧ All P t
  | .ref l m t => P (.ref l m t) ∧ All P t
  | .fn g u abi v r ps => P (.fn g u abi v r ps) ∧ All P r ∧ Alls P ps
def Alls (P : RTy → Prop) : RTys → Prop
  | .nil => True
  | .cons t ts => All P t ∧ Alls P ts
end

/-- Slices of `RvalueReference`s are excluded: see the counterexample. -/
def exactNode : RTy → Prop
  | .slice (.rvref ..) => False
  | _ => True

end Verif.RsTypes

import Verif.Ops.Spec
/-
Model of the generation of bindings for C++ operators and of the selection among overloads:
rs_bindings_from_cc/generate_bindings/generate_function.rs.
-/
namespace Verif.Ops

/-- What the generator knows about records: `is_unpin`, `is_record_clonable`
(generate_function.rs lines 1369-1395), `should_derive_copy`. -/
structure Env where
  unpin : Nat → Bool
  clonable : Nat → Bool
  copy : Nat → Bool

/-- `func.enclosing_item_id()` as read by `api_func_shape`, generate_function.rs lines 1286-1296. -/
inductive Parent where
  | none | record (id : Nat) | foreign
deriving DecidableEq, Repr

/-- The C++ return type as `operator[]` looks at it: `isPtr`: a reference or pointer; `isLRef`: an
lvalue reference; `isConst`: to const. -/
structure CcRet where
  isPtr : Bool
  isLRef : Bool
  isConst : Bool
deriving DecidableEq, Repr

/-- A C++ operator, an `ir::Func` whose name is an operator. `params`: the result of
`rs_type_kinds_for_func` (lines 1785-1850). `ret`: the Rust return type. `fatal`: `generate_function`
fails for a reason not modelled here (a type without bindings, a return type that cannot be passed,
...), lines 1965-2080. `soft`: the binding is generated but marked uncallable for a reason not modelled
here. -/
structure Func where
  item : Nat
  op : String
  params : List Ty
  names : List Name
  ccRet : CcRet
  ret : Ty
  method : Option Bool
  rvalueThis : Bool
  parent : Parent
  adlRecord : Option Nat
  deprecated : Bool
  fatal : Bool
  soft : Bool
deriving DecidableEq, Repr

/-- `RsTypeKind::unalias`, database/rs_snippet.rs lines 1327-1334. -/
def Ty.unalias : Ty → Ty
  | .named _ t => t.unalias
  | t => t

/-- `TraitName`, database/function_types.rs lines 38-90; only the traits of operators. -/
inductive Trait where
  | partialEq (param : Ty) (negate : Bool)
  | partialOrd (param : Ty)
  | ccIndex (index output : Ty)
  | ccIndexMut (index output : Ty)
  | other (name : String) (params : List Ty)
deriving DecidableEq, Repr

/-- `ImplKind` with the name of the method; `implFor`: `none` is `ImplFor::T`, `some t` is
`ImplFor::RefT`, where `t` is `param_types[0]`, the type after `for` (generate_function.rs lines
2672-2684). -/
inductive Shape where
  | trait (record : Nat) (tr : Trait) (implFor : Option Ty) (method : String) (dropReturn forceConst : Bool)
  | inherent (record : Nat) (method : String)
deriving DecidableEq, Repr

/-- `type_by_value_or_under_const_ref`, generate_function.rs lines 250-290: the type and the record under
it, and whether an error was added. -/
def byValueOrConstRef : Ty → Option (Ty × Nat) × Bool
  | .ref m _ t =>
    match t.unalias with
    | .record r => (some (t, r), m)
    | _ => (none, true)
  | t =>
    match t.unalias with
    | .record r => (some (t, r), false)
    | _ => (none, true)

/-- The type after the mutable reference was made const, line 271. -/
def constRef : Ty → Ty
  | .ref _ lt t => .ref false lt t
  | t => t

/-- `api_func_shape_for_operator_eq`, generate_function.rs lines 328-352. Operators with the wrong number
of parameters (not C++) panic there and have no shape here. -/
def shapeEq (negate : Bool) : List Ty → Option Shape × Bool
  | [p1, p2] =>
    match byValueOrConstRef p1, byValueOrConstRef p2 with
    | (some (_, r), e1), (some (t, _), e2) =>
      (some (.trait r (.partialEq t negate) none "eq" false true), e1 || e2)
    | _, _ => (none, true)
  | _ => (none, true)

/-- `adl_expands_to`, generate_function.rs lines 136-143. -/
def adlExpandsTo (record : Nat) : Ty → Bool
  | .record r => r == record
  | .ref _ _ t => adlExpandsTo record t
  | .rval _ _ t => adlExpandsTo record t
  | _ => false

/-- `is_friend_of_record_not_visible_by_adl` with `is_visible_by_adl`, lines 151-153 and 238-248. -/
def hiddenFriend (f : Func) : Bool :=
  match f.adlRecord with
  | none => false
  | some r => !(f.params.any (adlExpandsTo r))

/-- The checks of `api_func_shape` before the kinds of functions are told apart, lines 1286-1300. -/
def skipped (f : Func) : Bool := f.parent == .foreign || hiddenFriend f

/-- `api_func_shape` of an `operator==`. -/
def shapeOfEq (f : Func) : Option Shape × Bool :=
  if skipped f then (none, false) else shapeEq false f.params

/-- `adjust_param_types_for_trait_impl`, lines 1447-1485: an error for every by-value parameter of a record
that cannot be cloned, when the trait wants references. -/
def cloneErr (env : Env) (params : List Ty) (forceConst : Bool) : Bool :=
  forceConst && params.any fun t =>
    match t.unalias with
    | .record r => !env.clonable r
    | _ => false

/-- `get_binding` for `operator==`, lines 1347-1367: a function with that name for which
`generate_function` gives a result, with the very same parameter types and a shape without errors. For
`==` the result of `generate_function` is `Some` iff nothing fatal happened and there is a shape. -/
def getEq (lib : List Func) (params : List Ty) : Option Shape :=
  (lib.filter fun g => g.op == "==" && !g.fatal && (shapeOfEq g).1.isSome).findSome? fun g =>
    if g.params = params then
      match shapeOfEq g with
      | (some s, false) => some s
      | _ => none
    else none

/-- `api_func_shape_for_operator_ne`, lines 292-326. -/
def shapeNe (lib : List Func) (params : List Ty) : Option Shape × Bool :=
  match getEq lib params with
  | some (.trait _ (.partialEq _ _) _ _ _ _) => (none, false)
  | _ => shapeEq true params

/-- `api_func_shape_for_operator_lt`, lines 548-592. -/
def shapeLt (lib : List Func) : List Ty → Option Shape × Bool
  | [p1, p2] =>
    match byValueOrConstRef p1, byValueOrConstRef p2 with
    | (some (_, l), e1), (some (t, r), e2) =>
      if l ≠ r then (none, true) else
      let missing := match getEq lib [constRef p1, constRef p2] with
        | some (.trait _ (.partialEq _ _) _ _ _ _) => false
        | _ => true
      (some (.trait l (.partialOrd t) none "lt" false true), e1 || e2 || missing)
    | _, _ => (none, true)
  | _ => (none, true)

/-- `OperatorMetadataEntry`, lines 160-167. -/
structure Entry where
  ccName : String
  ccParams : Nat
  traitName : String
  method : String
  compound : Bool
deriving DecidableEq, Repr

/-- `OPERATOR_METADATA`, lines 195-232. -/
def entries : List Entry :=
  [⟨"-", 1, "Neg", "neg", false⟩, ⟨"!", 1, "Not", "not", false⟩,
   ⟨"+", 2, "Add", "add", false⟩, ⟨"-", 2, "Sub", "sub", false⟩,
   ⟨"*", 2, "Mul", "mul", false⟩, ⟨"/", 2, "Div", "div", false⟩,
   ⟨"%", 2, "Rem", "rem", false⟩, ⟨"&", 2, "BitAnd", "bitand", false⟩,
   ⟨"|", 2, "BitOr", "bitor", false⟩, ⟨"^", 2, "BitXor", "bitxor", false⟩,
   ⟨"<<", 2, "Shl", "shl", false⟩, ⟨">>", 2, "Shr", "shr", false⟩,
   ⟨"+=", 2, "AddAssign", "add_assign", true⟩, ⟨"-=", 2, "SubAssign", "sub_assign", true⟩,
   ⟨"*=", 2, "MulAssign", "mul_assign", true⟩, ⟨"/=", 2, "DivAssign", "div_assign", true⟩,
   ⟨"%=", 2, "RemAssign", "rem_assign", true⟩, ⟨"&=", 2, "BitAndAssign", "bitand_assign", true⟩,
   ⟨"|=", 2, "BitOrAssign", "bitor_assign", true⟩, ⟨"^=", 2, "BitXorAssign", "bitxor_assign", true⟩,
   ⟨"<<=", 2, "ShlAssign", "shl_assign", true⟩, ⟨">>=", 2, "ShrAssign", "shr_assign", true⟩]

/-- Lookup in the table by C++ name and number of parameters, lines 816-826. -/
def lookup (op : String) (n : Nat) : Option Entry :=
  entries.find? fun e => e.ccName == op && e.ccParams == n

/-- `RsTypeKind::is_unpin` for the types here: only records can be `!Unpin`. -/
def Ty.isUnpin (env : Env) (t : Ty) : Bool :=
  match t.unalias with
  | .record r => env.unpin r
  | _ => true

/-- All lifetimes of a type, `RsTypeKind::lifetimes`. -/
def Ty.lifetimes : Ty → List Name
  | .record _ | .incomplete _ | .prim _ => []
  | .named _ t => t.lifetimes
  | .ref _ l t => l :: t.lifetimes
  | .rval _ l t => l :: t.lifetimes
  | .ptr _ t => t.lifetimes

/-- The `k`-th name tried by `new_lifetime_param`, lines 1400-1413: the name itself, then with suffix `_2`,
`_3`, ... -/
def candidate (base : Name) (k : Nat) : Name :=
  if k = 0 then base else base ++ '_' :: Nat.toDigits 10 (k + 1)

/-- The loop of `new_lifetime_param`, from try `k` on; `fuel` bounds the number of tries (the theorems
show that the bound used below is never reached). -/
def freshFrom (used : List Name) (base : Name) : Nat → Nat → Name
  | 0, k => candidate base k
  | fuel + 1, k => if candidate base k ∈ used then freshFrom used base fuel (k + 1) else candidate base k

/-- `new_lifetime_param`, lines 1400-1413. -/
def fresh (used : List Name) (base : Name) : Name := freshFrom used base used.length 0

/-- The loop of `materialize_ctor_in_caller`, lines 1414-1426. -/
def materializeGo (env : Env) : List Name → List Name → List Ty → List Ty
  | used, n :: ns, t :: ts =>
    if t.isUnpin env then t :: materializeGo env used ns ts
    else
      let l := fresh used n
      .rval true l t :: materializeGo env (l :: used) ns ts
  | _, _, ts => ts

/-- `materialize_ctor_in_caller`, lines 1396-1428. -/
def materialize (env : Env) (names : List Name) (ts : List Ty) : List Ty :=
  materializeGo env (ts.flatMap Ty.lifetimes) names ts

/-- `extract_first_operator_parameter` with `expect_possibly_incomplete_record`, lines 665-722: the record
and, for a reference, the type to implement the trait for. -/
def firstOperand : Ty → Option (Nat × Option Ty)
  | .record r => some (r, none)
  | .ref m l t =>
    match t with
    | .record r => some (r, some (.ref m l t))
    | _ => none
  | _ => none

/-- `record_type_of_compound_assignment`, lines 724-768: the record, and whether an error was added.
Operators whose first parameter is not a class cannot be declared. -/
def compoundRecord (env : Env) (t : Ty) : Option Nat × Bool :=
  match t with
  | .record r => if env.unpin r then (some r, true) else (none, true)
  | .ref m _ u =>
    match u with
    | .record r => if env.unpin r then (some r, !m) else (none, true)
    | _ => (none, true)
  | .rval _ _ u | .ptr _ u =>
    match u with
    | .record r => if env.unpin r then (some r, true) else (none, true)
    | _ => (none, true)
  | _ => (none, true)

/-- The default case of `api_func_shape_for_operator`, lines 815-857. -/
def shapeOther (env : Env) (f : Func) : Option Shape × Bool :=
  match lookup f.op f.params.length with
  | none => (none, true)
  | some e =>
    match materialize env f.names f.params with
    | [] => (none, true)
    | p :: ps =>
      if e.compound then
        match compoundRecord env p with
        | (some r, err) => (some (.trait r (.other ("::core::ops::" ++ e.traitName) ps) none e.method true false), err)
        | (none, _) => (none, true)
      else
        match firstOperand p with
        | some (r, implFor) =>
          (some (.trait r (.other ("::core::ops::" ++ e.traitName) ps) implFor e.method false false), false)
        | none => (none, true)

/-- `api_func_shape_for_operator_assign`, lines 594-648. `is_ref_to`: database/rs_snippet.rs lines
1698-1704. -/
def refTo (t : Ty) (r : Nat) : Bool :=
  match t.unalias with
  | .ref _ _ u | .rval _ _ u => u.unalias == .record r
  | _ => false

/-- `api_func_shape_for_operator_assign`, lines 594-648. -/
def shapeAssign (env : Env) (f : Func) : Option Shape × Bool :=
  match f.parent, materialize env f.names f.params with
  | .record r, [_, rhs] =>
    if env.unpin r then
      if refTo rhs r && env.copy r then (none, false)
      else (some (.trait r (.other "::ctor::UnpinAssign" [rhs]) none "unpin_assign" true false), false)
    else (some (.trait r (.other "::ctor::Assign" [rhs]) none "assign" true false), false)
  | _, _ => (none, true)

/-- `api_func_shape_for_operator_index` and its two helpers, lines 354-545. -/
def shapeIndex (f : Func) : Option Shape × Bool :=
  match f.method, f.params with
  | some isConst, [.ref _ _ (.record r), idx] =>
    if !f.ccRet.isPtr then (none, true) else
    match f.ret with
    | .ref _ _ out | .rval _ _ out =>
      if f.ccRet.isConst && isConst then
        (some (.trait r (.ccIndex idx out) none "cc_index" false false), !f.ccRet.isLRef)
      else if !f.ccRet.isConst && !isConst then
        (some (.trait r (.ccIndexMut idx out) none "cc_index_mut" false false), !f.ccRet.isLRef)
      else (none, true)
    | _ => (none, true)
  | _, _ => (none, true)

/-- `api_func_shape_for_operator_unary_plus`, lines 650-663. -/
def shapePlus (f : Func) : Option Shape × Bool :=
  match f.params with
  | [p] => match firstOperand p with
    | some (r, _) => (some (.inherent r "unary_plus"), false)
    | none => (none, true)
  | _ => (none, true)

/-- `api_func_shape` for operators: lines 1280-1312 with `api_func_shape_for_operator`, lines 779-857. -/
def shape (env : Env) (lib : List Func) (f : Func) : Option Shape × Bool :=
  if skipped f then (none, false)
  else if f.op = "==" then shapeEq false f.params
  else if f.op = "!=" then shapeNe lib f.params
  else if f.op = "<=>" then (none, true)
  else if f.op = "<" then shapeLt lib f.params
  else if f.op = "=" then shapeAssign env f
  else if f.op = "+" ∧ f.params.length = 1 then shapePlus f
  else if f.op = "[]" then shapeIndex f
  else shapeOther env f

/-- `FunctionId`, database/function_types.rs lines 26-36, as computed at generate_function.rs lines
2702-2708 (traits, with `trait_name_to_token_stream`, lines 42-133) and, for inherent functions, from the
record and the name. Tokens of types are the types. -/
inductive FnId where
  | trait (record : Nat) (name : String) (params : List Ty) (method : String)
  | inherent (record : Nat) (method : String)
deriving DecidableEq, Repr

/-- Name of a trait, lines 42-126. -/
def Trait.name : Trait → String
  | .partialEq _ _ => "PartialEq"
  | .partialOrd _ => "PartialOrd"
  | .ccIndex _ _ => "::operator::CcIndex"
  | .ccIndexMut _ _ => "::operator::CcIndexMut"
  | .other n _ => n

/-- Type arguments of a trait, lines 42-126. -/
def Trait.params : Trait → List Ty
  | .partialEq p _ => [p]
  | .partialOrd p => [p]
  | .ccIndex i _ => [i]
  | .ccIndexMut i _ => [i]
  | .other _ ps => ps

/-- Lines 2702-2708. -/
def Shape.id : Shape → FnId
  | .trait r tr _ m _ _ => .trait r tr.name tr.params m
  | .inherent r m => .inherent r m

/-- The impl that is written, lines 2672-2700. -/
def Shape.header : Shape → Option Header
  | .trait r tr implFor _ _ _ => some ⟨tr.name, implFor.getD (.record r), tr.params⟩
  | .inherent _ _ => none

/-- Is this the trait whose errors are always fatal (lines 2105-2111)? -/
def Shape.isPartialOrd : Shape → Bool
  | .trait _ (.partialOrd _) _ _ _ _ => true
  | _ => false

/-- Does the trait want references (`force_const_reference_params`)? -/
def Shape.forceConst : Shape → Bool
  | .trait _ _ _ _ _ fc => fc
  | .inherent _ _ => false

/-- Rvalue-qualified `operator[]` fails, lines 2456-2463. -/
def Shape.isIndex : Shape → Bool
  | .trait _ (.ccIndex _ _) _ _ _ _ => true
  | .trait _ (.ccIndexMut _ _) _ _ _ _ => true
  | _ => false

/-- Result of `generate_function`, lines 1951-2745: an error, nothing, or a function with its id and
whether it can be called (functions with errors get a `where` clause that nothing satisfies). -/
inductive Gen where
  | err
  | nothing
  | some (s : Shape) (callable : Bool)
deriving DecidableEq, Repr

/-- `generate_function`, lines 1951-2745. -/
def generate (env : Env) (lib : List Func) (f : Func) : Gen :=
  if f.fatal then .err else
  match shape env lib f with
  | (none, true) => .err
  | (none, false) => .nothing
  | (some s, e) =>
    let errs := e || f.soft || cloneErr env f.params s.forceConst
    if errs && s.isPartialOrd then .err
    else if s.isIndex && f.rvalueThis then .err
    else .some s (!errs)

/-! ### Overload sets -/

/-- `Rank`, lines 3383-3396. -/
def rank (f : Func) : Nat := if f.deprecated then 0 else 1

/-- `CandidateFunction`, lines 3368-3372. -/
structure Cand where
  item : Nat
  rank : Nat
  ambiguous : Bool
deriving DecidableEq, Repr

/-- The hash map from ids to candidates, as an association list with at most one entry per key. -/
abbrev CMap (K : Type) := List (K × Cand)

/-- The update of one entry: body of the loop, lines 3398-3413. -/
def Cand.update (value new : Cand) : Cand :=
  if value.item = new.item then value
  else if new.rank > value.rank then new
  else if new.rank = value.rank then { value with ambiguous := true }
  else value

/-- `entry(id).or_insert(new)` and the update, lines 3404-3413. -/
def CMap.insert {K : Type} [DecidableEq K] : CMap K → K → Cand → CMap K
  | [], k, new => [(k, new.update new)]
  | (k', v) :: m, k, new => if k' = k then (k, v.update new) :: m else (k', v) :: CMap.insert m k new

/-- Lookup in the map. -/
def CMap.get {K : Type} [DecidableEq K] : CMap K → K → Option Cand
  | [], _ => none
  | (k', v) :: m, k => if k' = k then some v else CMap.get m k

/-- The loop of `overload_sets`, lines 3394-3414, over the generated functions: item, id, rank. -/
def overloadSets {K : Type} [DecidableEq K] (l : List (Nat × K × Nat)) : CMap K :=
  l.foldl (fun m x => m.insert x.2.1 ⟨x.1, x.2.2, false⟩) []

/-- `is_ambiguous_function`, database/db.rs lines 292-297, with the map made at lines 3415-3424. -/
def isAmbiguous {K : Type} [DecidableEq K] (l : List (Nat × K × Nat)) (k : K) (item : Nat) : Bool :=
  match (overloadSets l).get k with
  | none => false
  | some c => if c.ambiguous then true else c.item != item

/-- The functions with bindings, as input to `overload_sets`, lines 3394-3403. -/
def generated (env : Env) (lib : List Func) : List (Nat × FnId × Nat) :=
  lib.filterMap fun f => match generate env lib f with
    | .some s _ => some (f.item, s.id, rank f)
    | _ => none

/-- The binding of `f` that ends up in the Rust file, `generate_item_impl`, lib.rs lines 314-330. -/
def emitted (env : Env) (lib : List Func) (f : Func) : Option (Shape × Bool) :=
  match generate env lib f with
  | .some s c => if isAmbiguous (generated env lib) s.id f.item then none else some (s, c)
  | _ => none

/-! ### What the generated code does -/

/-- How an argument reaches the C++ function, lines 1447-1485 and 1604-1610: parameters by value of the
record type are cloned. -/
def passArg {V : Type} (clone : V → V) (t : Ty) (v : V) : V :=
  match t.unalias with
  | .record _ => clone v
  | _ => v

/-- The body of `eq`, lines 1589-1610: the thunk's result, negated for `operator!=`. -/
def eqBody {V : Type} (clone : V → V) (den : V → V → Bool) (params : List Ty) (negate : Bool) (a b : V) : Bool :=
  match params with
  | [p1, p2] =>
    let r := den (passArg clone p1 a) (passArg clone p2 b)
    if negate then !r else r
  | _ => false

/-- The generated `partial_cmp`, lines 2505-2530. -/
def partialCmp {V : Type} (eq lt : V → V → Bool) (a b : V) : Option Ordering :=
  if eq a b then some .eq
  else if lt a b then some .lt
  else if lt b a then some .gt
  else none

/-- Rust's provided methods (`core::cmp::PartialOrd`, `PartialEq`). -/
def rustLe {V : Type} (cmp : V → V → Option Ordering) (a b : V) : Bool :=
  match cmp a b with
  | some .lt | some .eq => true
  | _ => false
/-- `PartialOrd::gt`. -/
def rustGt {V : Type} (cmp : V → V → Option Ordering) (a b : V) : Bool := cmp a b == some .gt
/-- `PartialOrd::ge`. -/
def rustGe {V : Type} (cmp : V → V → Option Ordering) (a b : V) : Bool :=
  match cmp a b with
  | some .gt | some .eq => true
  | _ => false
/-- `PartialEq::ne`. -/
def rustNe {V : Type} (eq : V → V → Bool) (a b : V) : Bool := !(eq a b)

/-! ### Standard indexing -/

/-- `has_matching_cc_index`, lines 3436-3465; `all_static_lifetimes(true)` replaces lifetimes and strips
aliases. -/
def hasMatchingCcIndex (children : List Func) (index : Ty) : Bool :=
  children.any fun g =>
    g.op == "[]" && g.method == some true && !g.fatal && !skipped g &&
      match (shapeIndex g).1 with
      | some (.trait _ (.ccIndex i _) _ _ _ _) => i.erase == index.erase
      | _ => false

/-- `generate_standard_indexing_impl`, lines 3470-3560: the further impl (trait name, type argument, output
type) next to the one of `CcIndex` or `CcIndexMut`. `children`: the functions of the record. -/
def stdIndex (env : Env) (children : List Func) (s : Shape) : Option (String × Ty × Ty) :=
  match s with
  | .trait _ (.ccIndex i o) _ _ _ _ => some ("Index", i, o)
  | .trait _ (.ccIndexMut i o) _ _ _ _ =>
    let itemUnpin := match o with
      | .record r => env.unpin r
      | _ => true
    if !itemUnpin || !hasMatchingCcIndex children i then none
    else some ("IndexMut", i, o)
  | _ => none

end Verif.Ops

import Verif.CcCall.Spec

/-!
# The generated Rust function, its `extern "C"` declaration, and the generated C++ thunk

The generator is modelled as it is written — functions from the C++ function to *code* — and the code
is given an operational meaning on an explicit memory: Rust locals and temporaries, byte buffers, the
C++ thunk's parameters, the called function's parameters, the return slot.  Everything that is
constructed must be destroyed; destroying releases what the object owns at that moment.

All paths below are relative to `rs_bindings_from_cc/generate_bindings/`.
-/

namespace Verif.CcCall

/-! ## The C++ function, and the way the binding exposes it -/

/-- A parameter: its C++ name, and its type. -/
structure Param where
  name : Nat
  ty : Ty
deriving DecidableEq, Repr

/-- Free functions (and static methods, operators); instance methods, whose first parameter is
`__this`; constructors, whose first parameter is `__this` too.  `rval`: `&&`-qualified.  `unpin`: the
constructed class may be moved by Rust. -/
inductive Kind where
  | free
  | method (rval : Bool)
  | ctor (unpin : Bool)
deriving DecidableEq, Repr

/-- `ir::Func`, the parts that matter for the call. -/
structure Func where
  params : List Param
  ret : Option Ty
  kind : Kind
  isInline : Bool
  inTemplate : Bool
  isVirtual : Bool
  cCallConv : Bool
  conflictingName : Bool
deriving Repr

/-- The choices of `api_func_shape` that matter for the call (`generate_function.rs:300–1300`): is the
function shown in a trait (so that by-value parameters of immovable types are materialised by the
caller), does the trait take its parameters by `&`, is the result negated, is it dropped, is the first
parameter `self`, is the method inherited by another record through which it is called.
Note: trait `From`/`CtorNew` pack the parameters in a tuple, which is unpacked into the same locals. -/
structure Shape where
  materialize : Bool
  constRefs : Bool
  negate : Bool
  dropRet : Bool
  selfFirst : Bool
  derived : Bool
deriving Repr

/-! ## Passing conventions -/

/-- `database/rs_snippet.rs:1479–1481`. -/
def Ty.isOwnedPtr : Ty → Bool
  | .ownedPtr => true
  | _ => false

/-- `database/rs_snippet.rs:1350–1352`. -/
def Ty.isBridge : Ty → Bool
  | .bridged _ => true
  | _ => false

/-- `database/rs_snippet.rs:1316–1325`. -/
def Ty.isUnpin : Ty → Bool
  | .record u => u
  | _ => true

/-- `database/rs_snippet.rs:1485–1516`. -/
def Ty.isCAbi : Ty → Bool
  | .record _ => false
  | .bridged _ => false
  | .existing same => same
  | _ => true

/-- `database/rs_snippet.rs:1361–1363` (enums count as `prim` here, and are moved rather than copied
by the real generator: for them the two are the same). -/
def Ty.isPrimitive : Ty → Bool
  | .prim => true
  | _ => false

/-- `database/rs_snippet.rs:1940–1962`. -/
inductive Conv where
  | abiCompatible
  | layoutCompatible
  | bridged
  | ctor
  | ownedPtr
deriving DecidableEq, Repr

/-- `database/rs_snippet.rs:1963–1979` (`passing_convention`; the `Void` arm is `none` of a return
type). -/
def Ty.conv (t : Ty) : Conv :=
  if t.isOwnedPtr then .ownedPtr
  else if t.isBridge then .bridged
  else if !t.isUnpin then .ctor
  else if t.isCAbi then .abiCompatible
  else .layoutCompatible

/-! ## The Rust side -/

/-- `generate_function.rs:1400–1429` (`materialize_ctor_in_caller`). -/
def materializeParam (sh : Shape) (t : Ty) : Shown :=
  if sh.materialize && !t.isUnpin then .rvalue t else .plain t

/-- `generate_function.rs:1448–1486` (`adjust_param_types_for_trait_impl`): `none` is the reported
error.  `is_record_clonable` is simplified to "Rust may move it", which it implies. -/
def adjustParam (sh : Shape) : Shown → Option Shown
  | .plain (.record u) =>
      if sh.constRefs then (if u then some (.constRef (.record u)) else none)
      else some (.plain (.record u))
  | s => some s

/-- The way a parameter ends up in the Rust signature. -/
def showParam (sh : Shape) (t : Ty) : Option Shown := adjustParam sh (materializeParam sh t)

/-- Which registers or memory a C ABI parameter takes: a value, the address of an object, the address
of a byte buffer. -/
inductive Cls where
  | direct
  | address
  | bytes
deriving DecidableEq, Repr

/-- The class of a C ABI compatible type spelled as itself; references are addresses. -/
def natural : Ty → Cls
  | .ptrRef => .address
  | .lref => .address
  | .rref => .address
  | _ => .direct

/-- `generate_function_thunk.rs:213–226`: the declared type of a parameter, from its type after
`materialize_ctor_in_caller` but before `adjust_param_types_for_trait_impl`
(`generate_function.rs:2033–2047`). -/
def declParam (sh : Shape) (t : Ty) : Cls :=
  match materializeParam sh t with
  | .rvalue _ => .address
  | _ =>
    match t.conv with
    | .bridged => .bytes
    | .layoutCompatible => .address
    | .ctor => .address
    | .abiCompatible => natural t
    | .ownedPtr => natural t

/-- A C ABI signature: parameter classes and the class of the result (`none`: `void`). -/
structure Sig where
  params : List Cls
  ret : Option Cls
deriving DecidableEq, Repr

/-- The first parameter of an instance method or constructor. -/
def Func.hasThis (f : Func) : Bool :=
  match f.kind with
  | .free => false
  | _ => true

/-- `f` is a constructor. -/
def Func.isCtor (f : Func) : Bool :=
  match f.kind with
  | .ctor _ => true
  | _ => false

/-- The result type on the Rust side: a constructor's `__this` becomes the result
(`generate_function.rs:3222–3251`, `move_self_from_out_param_to_return_value`). -/
def Func.rsRet (f : Func) : Option Ty :=
  match f.kind with
  | .ctor u => some (.record u)
  | _ => f.ret

/-- The parameters of the Rust function: without a constructor's `__this`. -/
def Func.rsParams (f : Func) : List Param :=
  match f.kind with
  | .ctor _ => f.params.tail
  | _ => f.params

/-- `generate_function_thunk.rs:130–236` (`generate_function_thunk`): the `extern "C"` declaration. -/
def declare (f : Func) (sh : Shape) : Sig :=
  match f.kind with
  | .ctor _ => ⟨.address :: f.params.tail.map fun p => declParam sh p.ty, none⟩
  | _ =>
    let ps := f.params.map fun p => declParam sh p.ty
    match f.ret with
    | none => ⟨ps, none⟩
    | some t =>
      match t.conv with
      | .bridged => ⟨.bytes :: ps, none⟩
      | .layoutCompatible => ⟨.address :: ps, none⟩
      | .ctor => ⟨.address :: ps, none⟩
      | .abiCompatible => ⟨ps, some (natural t)⟩
      | .ownedPtr => ⟨ps, some (natural t)⟩

/-- An argument of the call, in the Rust function: `x`, `&mut x`, `unstable_encode!(…, x).as_ptr()`,
`Pin::into_inner_unchecked(emplace!(x))`, `transmute(x)`, `&mut x.clone()`, `Upcast::upcast(x)`. -/
inductive RArg where
  | use
  | addrMut
  | encode (k : Nat)
  | emplace
  | transmute
  | cloneTemp
  | upcast
deriving DecidableEq, Repr

/-- The bridged type's codec. -/
def Ty.codec : Ty → Nat
  | .bridged k => k
  | _ => 0

/-- `generate_function.rs:2889–2946`, the loop of `function_signature`, with the prefixes and suffixes
of `generate_function.rs:1481–1484` applied. -/
def rustArg : Shown → RArg
  | .plain t =>
    match t.conv with
    | .abiCompatible => .use
    | .layoutCompatible => .addrMut
    | .bridged => .encode t.codec
    | .ctor => .emplace
    | .ownedPtr => .transmute
  | .rvalue _ => .use
  | .constRef _ => .cloneTemp

/-- `generate_function.rs:3106–3172`: the first argument, when the first parameter is `self`, or when
the method is inherited.  (A `&self` for a by-value parameter keeps its clone: the prefixes and
suffixes go around `self` too.) -/
def selfArg (sh : Shape) : Shown → RArg
  | .plain t =>
    if sh.selfFirst then
      (if t.isCAbi then (if sh.derived then .upcast else .use) else .addrMut)
    else if sh.derived then .upcast
    else rustArg (.plain t)
  | s => rustArg s

/-- The arguments, in order. -/
def rustArgs (sh : Shape) : List Shown → List RArg
  | [] => []
  | s :: ss => selfArg sh s :: ss.map rustArg

/-- What the Rust function does around the call (`generate_function.rs:1571–1654`):
`tmp = MaybeUninit::zeroed(); f(&tmp, …); tmp.assume_init()`, the same with `uninit()`, the call
itself, `unstable_return!`, `FnCtor::new(move |dest| f(dest, …))`, `transmute(f(…))`. -/
inductive RRet where
  | zeroed
  | uninit
  | call
  | decode (k : Nat)
  | fnCtor
  | transmute
deriving DecidableEq, Repr

/-- `generate_function.rs:1590–1654`, by the result type. -/
def retKindOf : Option Ty → RRet
  | none => .call
  | some t =>
    match t.conv with
    | .abiCompatible => .call
    | .layoutCompatible => .uninit
    | .bridged => .decode t.codec
    | .ctor => .fnCtor
    | .ownedPtr => .transmute

/-- `generate_function.rs:1571–1654`, the choice of the above. -/
def rustRetKind (f : Func) : RRet :=
  match f.kind with
  | .ctor true => .zeroed
  | _ => retKindOf f.rsRet

/-! ## The C++ side -/

/-- The name of a parameter of the C++ thunk: the added `__return`/`__return_abi_buffer`, or that of
the function's own parameter. -/
inductive CName where
  | out
  | par (n : Nat)
deriving DecidableEq, Repr

/-- `generate_function_thunk.rs:562–580`: the type of a parameter of the C++ thunk. -/
def cppParam (t : Ty) : Cls :=
  if t.isBridge then .bytes
  else if !t.isCAbi then .address
  else natural t

/-- Expressions of the C++ thunk: `x`, `*x`, `std::move(*x)`, `std::move(x)`, `Abi.Decode(decoder)`. -/
inductive CExpr where
  | id (x : CName)
  | deref (x : CName)
  | moveDeref (x : CName)
  | move (x : CName)
  | decode (x : CName) (k : Nat)
deriving DecidableEq, Repr

/-- `generate_function_thunk.rs:583–634`: the argument expression for one parameter. -/
def cppArg (p : Param) : CExpr :=
  match p.ty with
  | .rref => .moveDeref (.par p.name)
  | .lref => .deref (.par p.name)
  | .ptr => .id (.par p.name)
  | .ptrRef => .id (.par p.name)
  | .ownedPtr => .id (.par p.name)
  | .fnRef => .deref (.par p.name)
  | .fnPtr => .id (.par p.name)
  | t =>
    match t.conv with
    | .bridged => .decode (.par p.name) t.codec
    | .layoutCompatible =>
        if t.isCAbi then .move (.par p.name) else .moveDeref (.par p.name)
    | .ctor => if t.isCAbi then .move (.par p.name) else .moveDeref (.par p.name)
    | .abiCompatible => if t.isPrimitive then .id (.par p.name) else .move (.par p.name)
    | .ownedPtr => if t.isPrimitive then .id (.par p.name) else .move (.par p.name)

/-- What is called: `f`, `x->f`, `std::move(*x).f`, `construct_at`. -/
inductive Callee where
  | fn
  | arrow (x : CName)
  | moveDot (x : CName)
  | constructAt
deriving DecidableEq, Repr

/-- The last statement of the thunk: `Encode(e, encoder(out))`, `new(out) auto(e)`, `e`,
`return std::addressof(e)`, `T&& l = e; return &l`, `return &e`, `return e`. -/
inductive CRetStmt where
  | encode (k : Nat)
  | placementNew
  | void
  | addressof
  | lvalueTrick
  | addrOfFn
  | ret
deriving DecidableEq, Repr

/-- The C++ thunk. -/
structure Thunk where
  names : List CName
  sig : Sig
  callee : Callee
  args : List CExpr
  retStmt : CRetStmt
deriving Repr

/-- `generate_function_thunk.rs:697–738` and `:640–657`: the statement, and the parameter to insert in
front. -/
def retPlan : Option Ty → CRetStmt × Option Cls
  | none => (.void, none)
  | some t =>
    match t.conv with
    | .bridged => (.encode t.codec, some .bytes)
    | .layoutCompatible => (.placementNew, some .address)
    | .ctor => (.placementNew, some .address)
    | _ =>
      match t with
      | .lref => (.addressof, none)
      | .rref => (.lvalueTrick, none)
      | .fnRef => (.addrOfFn, none)
      | _ => (.ret, none)

/-- The class of the value the C++ thunk returns. -/
def retClass (t : Option Ty) : Option Cls :=
  match t with
  | none => none
  | some t =>
    match (retPlan (some t)).2 with
    | some _ => none
    | none => some (natural t)

/-- `generate_function_thunk.rs:517–742` (`generate_cc_thunk_parts`, `ThunkCallKind::Normal`). -/
def thunk (f : Func) : Thunk :=
  let exprs := f.params.map cppArg
  let call : Callee × List CExpr :=
    match f.kind with
    | .ctor _ => (.constructAt, exprs)
    | .free => (.fn, exprs)
    | .method rv =>
        let this := match f.params with
          | p :: _ => CName.par p.name
          | [] => .out
        (if rv then .moveDot this else .arrow this, exprs.tail)
  { names := (if (retPlan f.ret).2.isSome then [.out] else []) ++ f.params.map fun p => .par p.name
    sig := ⟨(retPlan f.ret).2.toList ++ f.params.map fun p => cppParam p.ty, retClass f.ret⟩
    callee := call.1
    args := call.2
    retStmt := (retPlan f.ret).1 }

/-- `generate_function_thunk.rs:27–128` (`can_skip_cc_thunk`). -/
def canSkip (f : Func) : Bool :=
  if f.isInline then false
  else if f.inTemplate then false
  else if f.hasThis && f.isVirtual then false
  else if !f.cCallConv then false
  else if (match f.ret with | some t => !t.isCAbi | none => false) then false
  else if f.params.any fun p => !p.ty.isCAbi then false
  else if f.conflictingName then false
  else true

/-! ## Memory -/

/-- The memory that belongs to one parameter during the call: the Rust local, the Rust temporary, the
byte buffer, the by-value parameter of the C++ thunk, the by-value parameter of the called function. -/
structure PFrame where
  loc : Option Leaf
  temp : Option Leaf
  buf : Option Leaf
  thunk : Option Leaf
  cpp : Option Leaf
deriving DecidableEq, Repr

/-- No memory in use. -/
def PFrame.empty : PFrame := ⟨none, none, none, none, none⟩

/-- The state of a call.  `ret`, `retBuf`: the memory for the result. -/
structure St where
  world : World
  fr : Nat → PFrame
  ret : Option Leaf
  retBuf : Option Leaf
  rel : List Nat

/-- Update the memory of parameter `n`. -/
def St.set (s : St) (n : Nat) (p : PFrame) : St :=
  { s with fr := fun m => if m = n then p else s.fr m }

/-- An address: of an object of the world, of parameter `n`'s Rust local, of its temporary, of the
result. -/
inductive Loc where
  | obj (a : Nat)
  | loc (n : Nat)
  | temp (n : Nat)
  | ret
deriving DecidableEq, Repr

/-- A value passed across the C ABI: a value, the address of an object, the address of parameter `n`'s
buffer, the address of the result's buffer. -/
inductive Reg where
  | val (l : Leaf)
  | addr (l : Loc)
  | bytes (n : Nat)
  | retBytes
deriving DecidableEq, Repr

/-- Does the register fit the class it is declared with? -/
def Reg.cls : Reg → Cls
  | .val _ => .direct
  | .addr _ => .address
  | .bytes _ => .bytes
  | .retBytes => .bytes

/-! ## Meaning of the Rust function -/

/-- Entering the Rust function: by-value parameters are locals. -/
def enterRust : List (Param × Arg) → St → St
  | [], s => s
  | (p, .own l) :: r, s => enterRust r (s.set p.name { (s.fr p.name) with loc := some l })
  | (_, .ref _) :: r, s => enterRust r s

/-- One argument expression.  `x` of a by-value local moves it out; `&mut x` does not.  `up` maps an
object to its base class subobject. -/
def evalRArg (K : Ops) (up : Nat → Nat) (n : Nat) (v : Arg) (e : RArg) (s : St) :
    Option (Reg × St) :=
  match e, v with
  | .use, .ref a => some (.addr (.obj a), s)
  | .use, .own _ =>
      match (s.fr n).loc with
      | some l => some (.val l, s.set n { (s.fr n) with loc := none })
      | none => none
  | .transmute, .own _ =>
      match (s.fr n).loc with
      | some l => some (.val l, s.set n { (s.fr n) with loc := none })
      | none => none
  | .addrMut, .own _ =>
      match (s.fr n).loc with
      | some _ => some (.addr (.loc n), s)
      | none => none
  | .encode k, .own _ =>
      match (s.fr n).loc with
      | some l =>
          some (.bytes n, s.set n { (s.fr n) with
            loc := none
            buf := some { l with val := K.rEnc k l.val } })
      | none => none
  | .emplace, .own _ =>
      match (s.fr n).loc with
      | some l => some (.addr (.temp n), s.set n { (s.fr n) with loc := none, temp := some l })
      | none => none
  | .cloneTemp, .ref a =>
      some (.addr (.temp n), s.set n { (s.fr n) with temp := some (K.clone (s.world a)) })
  | .upcast, .ref a => some (.addr (.obj (up a)), s)
  | .upcast, .own _ =>
      match (s.fr n).loc with
      | some l => some (.val { l with val := up l.val }, s.set n { (s.fr n) with loc := none })
      | none => none
  | _, _ => none

/-- The argument list, left to right. -/
def evalRArgs (K : Ops) (up : Nat → Nat) : List (Param × Arg) → List RArg → St →
    Option (List Reg × St)
  | [], [], s => some ([], s)
  | (p, v) :: pvs, e :: es, s => do
      let (r, s1) ← evalRArg K up p.name v e s
      let (rs, s2) ← evalRArgs K up pvs es s1
      return (r :: rs, s2)
  | _, _, _ => none

/-- Destroy an object: what it owns is released. -/
def destroy (o : Option Leaf) (s : St) : St :=
  { s with rel := s.rel ++ (o.bind (·.res)).toList }

/-- The end of the statement and of the function: temporaries, then locals, are dropped.  A buffer is
plain bytes: if it still holds an encoded value then that value is lost, which shows in the final
memory. -/
def exitRust : List Param → St → St
  | [], s => s
  | p :: ps, s =>
      let s1 := exitRust ps s
      let s2 := destroy (s1.fr p.name).loc (destroy (s1.fr p.name).temp s1)
      s2.set p.name { (s1.fr p.name) with loc := none, temp := none }

/-! ## Meaning of the C++ thunk -/

/-- What a C++ name stands for. -/
abbrev Env := CName → Option Reg

/-- Bind the C ABI parameters to the thunk's parameter names, by position. -/
def bindRegs : List CName → List Reg → Option Env
  | [], [] => some fun _ => none
  | x :: xs, r :: rs => (bindRegs xs rs).map fun env => fun y => if y = x then some r else env y
  | _, _ => none

/-- A by-value parameter of class type is an object of the thunk. -/
def enterThunk (env : Env) : List Param → St → St
  | [], s => s
  | p :: ps, s =>
      match p.ty.isClass, env (.par p.name) with
      | true, some (.val l) =>
          enterThunk env ps (s.set p.name { (s.fr p.name) with thunk := some l })
      | _, _ => enterThunk env ps s

/-- The end of the thunk: its by-value parameters are destroyed. -/
def exitThunk : List Param → St → St
  | [], s => s
  | p :: ps, s =>
      let s1 := exitThunk ps s
      (destroy (s1.fr p.name).thunk s1).set p.name { (s1.fr p.name) with thunk := none }

/-- A C++ place: an address, or the thunk's own by-value parameter `n`. -/
inductive Place where
  | at (l : Loc)
  | thunkParam (n : Nat)
deriving DecidableEq, Repr

/-- C++ values by category: an lvalue, an xvalue (`std::move`), a prvalue, a pointer, a function. -/
inductive Cat where
  | lval (p : Place)
  | xval (p : Place)
  | prval (l : Leaf)
  | pointer (l : Loc)
  | func (l : Leaf)
deriving Repr

/-- Read a place. -/
def St.read (s : St) : Place → Option Leaf
  | .at (.obj a) => some (s.world a)
  | .at (.loc n) => (s.fr n).loc
  | .at (.temp n) => (s.fr n).temp
  | .at .ret => s.ret
  | .thunkParam n => (s.fr n).thunk

/-- Overwrite the object at a place. -/
def St.write (s : St) : Place → Leaf → St
  | .at (.obj a), l => { s with world := fun b => if b = a then l else s.world b }
  | .at (.loc n), l => s.set n { (s.fr n) with loc := some l }
  | .at (.temp n), l => s.set n { (s.fr n) with temp := some l }
  | .at .ret, l => { s with ret := some l }
  | .thunkParam n, l => s.set n { (s.fr n) with thunk := some l }

/-- A name of the thunk has a by-value object of class type. -/
def St.isThunkObj (s : St) : CName → Option Nat
  | .par n => if (s.fr n).thunk.isSome then some n else none
  | .out => none

/-- Evaluate an expression of the thunk.  `isFn`: the name is a pointer to function. -/
def evalC (K : Ops) (env : Env) (isFn : Bool) (e : CExpr) (s : St) : Option (Cat × St) :=
  match e with
  | .id x =>
      match s.isThunkObj x, env x with
      | some n, _ => some (.lval (.thunkParam n), s)
      | none, some (.val l) => some (.prval l, s)
      | none, some (.addr l) => some (.pointer l, s)
      | _, _ => none
  | .move x =>
      match s.isThunkObj x, env x with
      | some n, _ => some (.xval (.thunkParam n), s)
      | none, some (.val l) => some (.prval l, s)
      | _, _ => none
  | .deref x =>
      match env x with
      | some (.addr l) => some (.lval (.at l), s)
      | some (.val l) => if isFn then some (.func l, s) else none
      | _ => none
  | .moveDeref x =>
      match env x with
      | some (.addr l) => some (.xval (.at l), s)
      | _ => none
  | .decode x k =>
      match env x with
      | some (.bytes n) =>
          match (s.fr n).buf with
          | some l =>
              some (.prval { l with val := K.cDec k l.val }, s.set n { (s.fr n) with buf := none })
          | none => none
      | _ => none

/-- Is the parameter a reference or pointer to a function? -/
def Ty.isFn : Ty → Bool
  | .fnRef => true
  | .fnPtr => true
  | _ => false

/-- Initialise the called function's parameter `p` from a value: copy- or move-construct, or
initialise directly, an object of class type; bind a reference; copy a scalar. -/
def initParam (K : Ops) (p : Param) (c : Cat) (s : St) : Option (Arg × St) :=
  if p.ty.isClass then
    match c with
    | .prval l => some (.own l, s.set p.name { (s.fr p.name) with cpp := some l })
    | .lval pl =>
        match s.read pl with
        | some l =>
            some (.own (K.clone l), s.set p.name { (s.fr p.name) with cpp := some (K.clone l) })
        | none => none
    | .xval pl =>
        match s.read pl with
        | some l =>
            let s1 := s.write pl (K.moved l)
            some (.own l, s1.set p.name { (s1.fr p.name) with cpp := some l })
        | none => none
    | _ => none
  else
    match p.ty, c with
    | .lref, .lval (.at (.obj a)) => some (.ref a, s)
    | .rref, .xval (.at (.obj a)) => some (.ref a, s)
    | .ptrRef, .pointer (.obj a) => some (.ref a, s)
    | .fnRef, .func l => some (.own l, s)
    | .fnPtr, .prval l => some (.own l, s)
    | .prim, .prval l => some (.own l, s)
    | .ptr, .prval l => some (.own l, s)
    | .ownedPtr, .prval l => some (.own l, s)
    | _, _ => none

/-- Initialise the parameters from the argument expressions. -/
def initParams (K : Ops) (env : Env) : List Param → List CExpr → St → Option (List Arg × St)
  | [], [], s => some ([], s)
  | p :: ps, e :: es, s => do
      let (c, s1) ← evalC K env p.ty.isFn e s
      let (a, s2) ← initParam K p c s1
      let (as, s3) ← initParams K env ps es s2
      return (a :: as, s3)
  | _, _, _ => none

/-- `x->` and `std::move(*x).`: the object the method is called on. -/
def thisArg (env : Env) (x : CName) : Option Arg :=
  match env x with
  | some (.addr (.obj a)) => some (.ref a)
  | some (.val l) => some (.own l)
  | _ => none

/-- A C++ call expression: virtual methods are dispatched on the object. -/
def dispatch (f : Func) (code : Code) (this : Option Arg) (W : World) : Body :=
  match this with
  | some a => if f.isVirtual then code.dyn a.object W else code.static
  | none => code.static

/-- Run the body: by-value parameters change to their final state, which `i` counts. -/
def leaveParams (post : Nat → Leaf) : Nat → List Param → St → St
  | _, [], s => s
  | i, p :: ps, s =>
      let s1 := if (s.fr p.name).cpp.isSome
        then s.set p.name { (s.fr p.name) with cpp := some (post i) } else s
      leaveParams post (i + 1) ps s1

/-- The end of the called function: its by-value parameters are destroyed. -/
def exitCallee : List Param → St → St
  | [], s => s
  | p :: ps, s =>
      let s1 := destroy (s.fr p.name).cpp s
      exitCallee ps (s1.set p.name { (s1.fr p.name) with cpp := none })

/-- The called function: run the body on initialised parameters, then destroy them.  `i` is the
position of the first of `ps` among the arguments. -/
def runBody (body : Body) (i : Nat) (ps : List Param) (args : List Arg) (s : St) : Arg × St :=
  let out := body args s.world
  let s1 := { s with
    world := out.world
    rel := s.rel ++ out.rel }
  (out.ret, exitCallee ps (leaveParams out.post i ps s1))

/-- `crubit::construct_at(p, args…)`: the parameters after the first are the constructor's; the object
is constructed where the first one points. -/
def runCtor (K : Ops) (code : Code) (env : Env) (ps : List Param) (es : List CExpr) (s : St) :
    Option St :=
  match ps, es with
  | _ :: ps', e :: es' =>
      match evalC K env false e s with
      | some (.pointer .ret, s0) =>
          match initParams K env ps' es' s0 with
          | some (args, s1) =>
              match runBody code.static 0 ps' args s1 with
              | (.own l, s2) => if s2.ret.isNone then some { s2 with ret := some l } else none
              | _ => none
          | none => none
      | _ => none
  | _, _ => none

/-- The call expression of the thunk: its result (`none` for `construct_at`, whose result the thunk
ignores). -/
def runCall (K : Ops) (f : Func) (code : Code) (t : Thunk) (env : Env) (s : St) :
    Option (Option Arg × St) :=
  match t.callee with
  | .constructAt => (runCtor K code env f.params t.args s).map fun s' => (none, s')
  | .fn =>
      match initParams K env f.params t.args s with
      | some (args, s1) =>
          let r := runBody (dispatch f code none s1.world) 0 f.params args s1
          some (some r.1, r.2)
      | none => none
  | .arrow x | .moveDot x =>
      match thisArg env x, initParams K env f.params.tail t.args s with
      | some this, some (args, s1) =>
          let r := runBody (dispatch f code (some this) s1.world) 1 f.params.tail
            (this :: args) s1
          some (some r.1, r.2)
      | _, _ => none

/-- The return statement: the register returned (`none`: `void`), and the memory afterwards.  `t` is
the function's own result type: `std::addressof` needs an lvalue, and so on. -/
def runRet (K : Ops) (env : Env) (t : Option Ty) (r : CRetStmt) (v : Option Arg) (s : St) :
    Option (Option Reg × St) :=
  match r, v with
  | .void, _ => some (none, s)
  | .encode k, some (.own l) =>
      if env .out = some .retBytes ∧ s.retBuf = none then
        some (none, { s with retBuf := some { l with val := K.cEnc k l.val } })
      else none
  | .placementNew, some (.own l) =>
      if env .out = some (.addr .ret) ∧ s.ret = none then some (none, { s with ret := some l })
      else none
  | .addressof, some (.ref a) => if t = some .lref then some (some (.addr (.obj a)), s) else none
  | .lvalueTrick, some (.ref a) => if t = some .rref then some (some (.addr (.obj a)), s) else none
  | .addrOfFn, some (.own l) => if t = some .fnRef then some (some (.val l), s) else none
  | .ret, some (.own l) => if t = some .fnRef then none else some (some (.val l), s)
  | .ret, some (.ref a) => if t = some .ptrRef then some (some (.addr (.obj a)), s) else none
  | _, _ => none

/-- The C++ thunk as a whole. -/
def runThunk (K : Ops) (f : Func) (code : Code) (regs : List Reg) (s : St) :
    Option (Option Reg × St) := do
  let t := thunk f
  let env ← bindRegs t.names regs
  let s1 := enterThunk env f.params s
  let (v, s2) ← runCall K f code t env s1
  let (r, s3) ← runRet K env f.ret t.retStmt v s2
  return (r, exitThunk f.params s3)

/-! ## Calling the function's own symbol -/

/-- The C ABI of the function itself: only functions whose parameters and result are C ABI compatible
have one that Rust can spell. -/
def nativeSig (f : Func) : Option Sig :=
  if f.params.all (fun p => p.ty.isCAbi) && (match f.ret with | some t => t.isCAbi | none => true)
  then some ⟨f.params.map fun p => natural p.ty, f.ret.map natural⟩
  else none

/-- The symbol exists in the compiled C++ library, is unique, and follows the C calling convention. -/
def hasSymbol (f : Func) : Bool := !f.isInline && !f.inTemplate && f.cCallConv && !f.conflictingName

/-- A parameter arrives in a register. -/
def nativeParam (p : Param) (r : Reg) (s : St) : Option (Arg × St) :=
  match p.ty, r with
  | .lref, .addr (.obj a) => some (.ref a, s)
  | .rref, .addr (.obj a) => some (.ref a, s)
  | .ptrRef, .addr (.obj a) => some (.ref a, s)
  | .lref, _ => none
  | .rref, _ => none
  | .ptrRef, _ => none
  | t, .val l =>
      if t.isClass then some (.own l, s.set p.name { (s.fr p.name) with cpp := some l })
      else some (.own l, s)
  | _, _ => none

/-- Parameters arrive in registers. -/
def nativeParams : List Param → List Reg → St → Option (List Arg × St)
  | [], [], s => some ([], s)
  | p :: ps, r :: rs, s => do
      let (a, s1) ← nativeParam p r s
      let (as, s2) ← nativeParams ps rs s1
      return (a :: as, s2)
  | _, _, _ => none

/-- Jump to the symbol: no dispatch takes place.  A constructor's symbol constructs the object at its
first argument. -/
def runNative (f : Func) (code : Code) (regs : List Reg) (s : St) : Option (Option Reg × St) :=
  if !hasSymbol f then none
  else if f.isCtor then
    match regs with
    | .addr .ret :: regs' =>
        match nativeParams f.params.tail regs' s with
        | some (args, s1) =>
            match runBody code.static 0 f.params.tail args s1 with
            | (.own l, s2) => if s2.ret.isNone then some (none, { s2 with ret := some l }) else none
            | _ => none
        | none => none
    | _ => none
  else
    match nativeParams f.params regs s with
    | some (args, s1) =>
        match runBody code.static 0 f.params args s1, f.ret with
        | (_, s2), none => some (none, s2)
        | (.ref a, s2), some t =>
            if natural t = .address then some (some (.addr (.obj a)), s2) else none
        | (.own l, s2), some t =>
            if natural t = .direct then some (some (.val l), s2) else none
    | none => none

/-! ## The whole call -/

/-- The argument for the result. -/
def outReg : RRet → Option Reg
  | .zeroed => some (.addr .ret)
  | .uninit => some (.addr .ret)
  | .decode _ => some .retBytes
  | .fnCtor => some (.addr .ret)
  | .call => none
  | .transmute => none

/-- What the Rust function makes of the returned register and of the memory for the result.
`assume_init`, decoding and running the constructor into the caller's destination all hand the value
over. -/
def takeRet (K : Ops) (k : RRet) (r : Option Reg) (s : St) : Option (Option Arg × St) :=
  match k with
  | .zeroed | .uninit | .fnCtor =>
      match s.ret, r with
      | some l, none => some (some (.own l), { s with ret := none })
      | _, _ => none
  | .decode k =>
      match s.retBuf, r with
      | some l, none =>
          some (some (.own { l with val := K.rDec k l.val }), { s with retBuf := none })
      | _, _ => none
  | .call | .transmute =>
      match r with
      | none => some (none, s)
      | some (.val l) => some (some (.own l), s)
      | some (.addr (.obj a)) => some (some (.ref a), s)
      | _ => none

/-- `generate_function.rs:1592–1600`, `:1658–1669`: negation applies to the direct call only. -/
def applyShape (sh : Shape) (k : RRet) (r : Option Arg) (s : St) : Option Arg × St :=
  let r1 := match k, sh.negate, r with
    | .call, true, some (.own l) => some (.own { l with val := if l.val = 0 then 1 else 0 })
    | _, _, r => r
  if sh.dropRet then (none, { s with rel := s.rel ++ (r1.map Arg.owns).getD [] }) else (r1, s)

/-- The `extern "C"` declaration and the definition it is linked with: the thunk, or the C++ function
itself (`generate_function_thunk.rs:228–235`, `:388–395`). -/
def linked (f : Func) (sh : Shape) : Bool :=
  if canSkip f then nativeSig f == some (declare f sh)
  else (thunk f).sig == declare f sh

/-- The foreign call. -/
def foreign (K : Ops) (f : Func) (code : Code) (regs : List Reg) (s : St) :
    Option (Option Reg × St) :=
  if canSkip f then runNative f code regs s else runThunk K f code regs s

/-- How each parameter appears in the Rust signature; `none` if one is refused. -/
def showAll (sh : Shape) : List Param → Option (List Shown)
  | [] => some []
  | p :: ps =>
      match showParam sh p.ty, showAll sh ps with
      | some s, some ss => some (s :: ss)
      | _, _ => none

/-- How the parameters appear in the Rust signature; `none` if bindings are refused.  A trait that
takes its parameters by `&` is a comparison, and a comparison that does not return `bool` is refused
(`generate_function.rs:3003–3012`). -/
def showParams (f : Func) (sh : Shape) : Option (List Shown) :=
  if sh.constRefs && f.rsRet != some .prim then none else showAll sh f.rsParams

/-- A call of the generated Rust function with arguments `args`, run to completion: the result and the
memory afterwards.  (A function that returns an immovable type returns a constructor; this is what
happens when the constructor is run.) -/
def runRust (K : Ops) (up : Nat → Nat) (f : Func) (sh : Shape) (code : Code) (args : List Arg)
    (W : World) : Option (Option Arg × St) := do
  let shown ← showParams f sh
  let pvs := f.rsParams.zip args
  let s0 := enterRust pvs ⟨W, fun _ => .empty, none, none, []⟩
  let (regs, s1) ← evalRArgs K up pvs (rustArgs sh shown) s0
  let regs' := (outReg (rustRetKind f)).toList ++ regs
  if linked f sh && (regs'.map Reg.cls == (declare f sh).params) then
    let (r, s2) ← foreign K f code regs' s1
    let (v, s3) ← takeRet K (rustRetKind f) r s2
    let (v', s4) := applyShape sh (rustRetKind f) v s3
    return (v', exitRust f.rsParams s4)
  else none

/-- A function that returns an immovable type returns a constructor; this is what happens when the
constructor is dropped without being run: the captured parameters are dropped. -/
def dropRust (f : Func) (args : List Arg) (W : World) : St :=
  exitRust f.rsParams (enterRust (f.rsParams.zip args) ⟨W, fun _ => .empty, none, none, []⟩)

end Verif.CcCall

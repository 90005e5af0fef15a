import Verif.FnCall.Spec

/-!
# The generated call wrapper and thunk

The generator is modelled as it is written — functions from types to *code* — and the code is given
an operational meaning on a memory of C++ locals.  Names are kept as lists of the pieces the
generator glues together with `_` (most recent piece first); two parameters whose glued names collide
produce C++ that does not compile, which this representation rules out.
-/

namespace Verif.FnCall

/-- A piece of a generated identifier: the parameter's own name, `*this`, `return_value`, and the
suffixes `_{i}`, `_cabi`, `_slot`, `_buffer`, `_ret_val_holder`, `_storage`
(`generate_function.rs:150–152`, `:187`, `:205`, `:226`, `:241`, `:265`, `:310`, `:324`). -/
inductive Seg where
  | param (i : Nat)
  | this
  | ret
  | idx (i : Nat)
  | cabi
  | slot
  | buffer
  | holder
  | storage
deriving DecidableEq, Repr

/-- An identifier, last piece first. -/
abbrev Name := List Seg

/-! ## Types as the generator sees them -/

/-- `query_compiler.rs:43–110` (`is_c_abi_compatible_by_value`), for the classes of `Ty`. -/
def Ty.isCAbi : Ty → Bool
  | .scalar _ => true
  | .tup [] => true
  | _ => false

mutual
/-- `Ty::needs_drop`. -/
def Ty.needsDrop : Ty → Bool
  | .scalar d => d
  | .adt d => d
  | .legacyPtr _ => false
  | .legacyVal _ d => d
  | .composable _ => true
  | .tup ts => needsDropAny ts
def needsDropAny : List Ty → Bool
  | [] => false
  | t :: ts => t.needsDrop || needsDropAny ts
end

/-- `matches!(ty.kind(), ty::TyKind::Tuple(_))`. -/
def Ty.isTuple : Ty → Bool
  | .tup _ => true
  | _ => false

/-! ## The C++ code of the wrapper -/

/-- Expressions: `x`, `&x`, `x.Get()`. -/
inductive CExpr where
  | var (n : Name)
  | addr (n : Name)
  | slotGet (n : Name)
deriving DecidableEq, Repr

/-- Statements of the generated wrapper. -/
inductive CStmt where
  /-- `auto&& e = ::std::get<i>(x);` -/
  | get (e x : Name) (i : Nat)
  /-- `crubit::Slot s((::std::move(x)));` -/
  | slot (s x : Name)
  /-- `unsigned char b[…]; ::crubit::internal::Encode<K>(…, b, ::std::move(x));` -/
  | encode (b x : Name) (k : Nat)
  /-- `auto&& c = e;` -/
  | bindRef (c : Name) (e : CExpr)
  /-- `auto* c = &e;` -/
  | bindAddr (c : Name) (e : CExpr)
  /-- `void* r[] = { &c0, … };` -/
  | addrs (r : Name) (cs : List Name)
  /-- `crubit::Slot<T> h; auto* s = h.Get();` -/
  | retSlot (h s : Name)
  /-- `union U { …; T val; } h; auto* s = &h.val;`, with a destructor that destroys `val`. -/
  | retUnion (h s : Name)
  /-- `T h; T* s = &h;` -/
  | retPlain (h s : Name)
  /-- `unsigned char s[…];` -/
  | retBuffer (s : Name)
  /-- `void* s[] = { s0, … };` -/
  | ptrs (s : Name) (ss : List Name)
deriving Repr

/-- `generate_function.rs:229–262`, the body of the loop: name the element, convert it (`conv` is the
result of the recursive call), name the result of the conversion. -/
def cElemOf (x : Name) (i : Nat) (t : Ty) (conv : List CStmt × CExpr) : List CStmt :=
  [.get (.idx i :: x) x i] ++ conv.1
    ++ [if t.isTuple then .bindAddr (.idx i :: .cabi :: x) conv.2
        else .bindRef (.idx i :: .cabi :: x) conv.2]

mutual
/-- `generate_function.rs:147–275` (`cc_param_to_c_abi`): the statements converting the C++ lvalue
named `x` and the expression handed to the thunk.  `lct` is the `LayoutCompatTuple` feature.
Simplification: the `ctor::RvalueReference`/`ctor::ByValue` arm (`std::move(x)` of something passed
by value) is not modelled. -/
def cParam (lct : Bool) (x : Name) : Ty → List CStmt × CExpr
  | .legacyPtr _ => ([], .var x)
  | .legacyVal _ drop =>
      if drop = false then ([], .addr x)
      else ([.slot (.slot :: x) x], .slotGet (.slot :: x))
  | .composable k => ([.encode (.buffer :: x) x k], .var (.buffer :: x))
  | .scalar _ => ([], .var x)
  | .tup [] => ([], .var x)
  | .tup (t :: ts) =>
      if lct then
        (if (t.needsDrop || needsDropAny ts) = false then ([], .addr x)
         else ([.slot (.slot :: x) x], .slotGet (.slot :: x)))
      else
        (cElemOf x 0 t (cParam lct (.idx 0 :: x) t) ++ cElems lct x 1 ts
          ++ [.addrs (.cabi :: x)
                ((List.range (ts.length + 1)).map fun i => .idx i :: .cabi :: x)],
         .var (.cabi :: x))
  | .adt drop =>
      if drop = false then ([], .addr x)
      else ([.slot (.slot :: x) x], .slotGet (.slot :: x))
/-- `generate_function.rs:229–262`, the loop. -/
def cElems (lct : Bool) (x : Name) (i : Nat) : List Ty → List CStmt
  | [] => []
  | t :: ts => cElemOf x i t (cParam lct (.idx i :: x) t) ++ cElems lct x (i + 1) ts
end

/-- One iteration of the loop, for element type `t`. -/
def cElem (lct : Bool) (x : Name) (i : Nat) (t : Ty) : List CStmt :=
  cElemOf x i t (cParam lct (.idx i :: x) t)

/-- Expressions that unpack the result: `std::move(h).AssumeInitAndTakeValue()`,
`std::move(h.val)`, `*s`, `Decode<K>(…, s)`, `std::make_tuple(…)`. -/
inductive UExpr where
  | take (h : Name)
  | moveVal (h : Name)
  | deref (s : Name)
  | decode (s : Name) (k : Nat)
  | makeTuple (es : List UExpr)
deriving Repr

mutual
/-- `generate_function.rs:300–455` (`cc_return_value_from_c_abi`): the statements that make room for
the result named `x`, and the expression that unpacks it.  The storage name is `storage :: x`. -/
def cReturn (lct : Bool) (x : Name) : Ty → List CStmt × UExpr
  | .legacyPtr _ => ([.retUnion (.holder :: x) (.storage :: x)], .moveVal (.holder :: x))
  | .legacyVal _ drop =>
      if drop then ([.retSlot (.holder :: x) (.storage :: x)], .take (.holder :: x))
      else ([.retUnion (.holder :: x) (.storage :: x)], .moveVal (.holder :: x))
  | .composable k => ([.retBuffer (.storage :: x)], .decode (.storage :: x) k)
  | .scalar _ => ([.retPlain (.holder :: x) (.storage :: x)], .deref (.storage :: x))
  | .tup [] => ([.retPlain (.holder :: x) (.storage :: x)], .deref (.storage :: x))
  | .tup (t :: ts) =>
      if lct then ([.retSlot (.holder :: x) (.storage :: x)], .take (.holder :: x))
      else
        ((cReturn lct (.idx 0 :: x) t).1 ++ (cReturns lct x 1 ts).1
          ++ [.ptrs (.storage :: x)
                ((List.range (ts.length + 1)).map fun i => .storage :: .idx i :: x)],
         .makeTuple ((cReturn lct (.idx 0 :: x) t).2 :: (cReturns lct x 1 ts).2))
  | .adt _ => ([.retSlot (.holder :: x) (.storage :: x)], .take (.holder :: x))
/-- The loop of `generate_function.rs:397–415`. -/
def cReturns (lct : Bool) (x : Name) (i : Nat) : List Ty → List CStmt × List UExpr
  | [] => ([], [])
  | t :: ts =>
      ((cReturn lct (.idx i :: x) t).1 ++ (cReturns lct x (i + 1) ts).1,
       (cReturn lct (.idx i :: x) t).2 :: (cReturns lct x (i + 1) ts).2)
end

/-! ## The Rust code of the thunk -/

/-- The Rust-side C ABI type of a parameter: `()`, the type itself, `*const c_void`,
`*const c_uchar`, `*const [*const c_void; n]`, `*mut T`. -/
inductive CAbiTy where
  | unit
  | byVal
  | voidPtr
  | ucharPtr
  | arrPtr (n : Nat)
  | objPtr
deriving DecidableEq, Repr

/-- `generate_function_thunk.rs:369–384` (`c_abi_for_param_type`). -/
def cAbiTy (lct : Bool) : Ty → CAbiTy
  | .legacyPtr _ => .voidPtr
  | .legacyVal _ _ => .voidPtr
  | .composable _ => .ucharPtr
  | .scalar _ => .byVal
  | .tup [] => .unit
  | .tup (t :: ts) => if lct then .objPtr else .arrPtr (t :: ts).length
  | .adt _ => .objPtr

/-- The code converting a thunk parameter to its Rust value: nothing, `transmute(x)`,
`(x as *const T).read()`, `converter(x, temp)`, `decode(…, x)`, `x.read()`, or reading the elements
of the array, each at its C ABI type, and converting each. -/
inductive RConv where
  | nop
  | transmute
  | readAs
  | conv (k : Nat)
  | decode (k : Nat)
  | elems (n : Nat) (tys : List CAbiTy) (cs : List RConv)
  | read
deriving Repr

mutual
/-- `generate_function_thunk.rs:240–366` (`convert_value_from_c_abi_to_rust`,
`convert_bridged_type_from_c_abi_to_rust`, `convert_tuple_from_c_abi_to_rust`).  Every emitted
statement rebinds only the local it converts, so names are left out. -/
def rParam (lct : Bool) : Ty → RConv
  | .legacyPtr none => .transmute
  | .legacyPtr (some k) => .conv k
  | .legacyVal none _ => .readAs
  | .legacyVal (some k) _ => .conv k
  | .composable k => .decode k
  | .scalar _ => .nop
  | .tup [] => .nop
  | .tup (t :: ts) =>
      if lct then .read
      else .elems (ts.length + 1) ((t :: ts).map (cAbiTy lct)) (rParam lct t :: rParams lct ts)
  | .adt _ => .read
/-- The loop of `generate_function_thunk.rs:313–327`. -/
def rParams (lct : Bool) : List Ty → List RConv
  | [] => []
  | t :: ts => rParam lct t :: rParams lct ts
end

/-- The code writing the result through the return pointer: `ptr::write`, a converter taking the
value by reference, `encode`, or taking the tuple and the pointer array apart. -/
inductive RWrite where
  | direct
  | conv (k : Nat)
  | encode (k : Nat)
  | elems (n : Nat) (ws : List RWrite)
deriving Repr

mutual
/-- `generate_function_thunk.rs:437–535` (`write_rs_value_to_c_abi_ptr`, `is_constructor = false`). -/
def rWrite (lct : Bool) : Ty → RWrite
  | .legacyPtr none => .direct
  | .legacyPtr (some k) => .conv k
  | .legacyVal none _ => .direct
  | .legacyVal (some k) _ => .conv k
  | .composable k => .encode k
  | .scalar _ => .direct
  | .tup [] => .direct
  | .tup (t :: ts) =>
      if lct then .direct else .elems (ts.length + 1) (rWrite lct t :: rWrites lct ts)
  | .adt _ => .direct
/-- `generate_function_thunk.rs:500–512`. -/
def rWrites (lct : Bool) : List Ty → List RWrite
  | [] => []
  | t :: ts => rWrite lct t :: rWrites lct ts
end

/-! ## Meaning of the code -/

/-- An object: which variable it lives in, and the path to it through tuples. -/
structure Loc where
  root : Name
  path : List Nat
deriving DecidableEq, Repr

/-- What a C++ variable holds: a value, a pointer, an array of pointers, an encoded value,
uninitialised storage for a value, or an uninitialised buffer. -/
inductive Obj where
  | val (v : Val)
  | ptr (l : Loc)
  | arr (ls : List Loc)
  | buf (l : Leaf)
  | hole
  | emptyBuf
deriving Repr

/-- The wrapper's state: what each name refers to, and what each variable holds. `exits` are the
variables with a destructor that runs when the wrapper returns. -/
structure CState where
  env : Name → Option Loc
  mem : Name → Option Obj
  exits : List Name

/-- The element of a value at a path. -/
def Val.at : Val → List Nat → Option Val
  | v, [] => some v
  | .tup vs, i :: p => (vs[i]?).bind fun v => v.at p
  | .leaf _, _ :: _ => none

/-- Replace the element at a path. -/
def Val.put : Val → List Nat → Val → Val
  | _, [], w => w
  | .tup vs, i :: p, w =>
      match vs[i]? with
      | some v => .tup (vs.set i (v.put p w))
      | none => .tup vs
  | .leaf l, _ :: _, _ => .leaf l

/-- A moved-from atom: owns nothing; if it owned something its contents are unspecified (0). -/
def Leaf.moved (l : Leaf) : Leaf := if l.res = none then l else ⟨none, 0⟩

mutual
/-- C++ move construction from a value leaves this behind (`support/internal/slot.h:80`). -/
def Val.moved : Val → Val
  | .leaf l => .leaf l.moved
  | .tup vs => .tup (movedAll vs)
def movedAll : List Val → List Val
  | [] => []
  | v :: vs => v.moved :: movedAll vs
end

/-- Change what a variable holds. -/
def CState.setMem (σ : CState) (n : Name) (o : Obj) : CState :=
  { σ with mem := fun m => if m = n then some o else σ.mem m }

/-- The value at a location, if the variable there holds a value. -/
def CState.valAt (σ : CState) (l : Loc) : Option Val :=
  match σ.mem l.root with
  | some (.val v) => v.at l.path
  | _ => none

/-- Overwrite the value at a location. -/
def CState.putAt (σ : CState) (l : Loc) (w : Val) : CState :=
  match σ.mem l.root with
  | some (.val v) =>
      σ.setMem l.root (.val (v.put l.path w))
  | _ => σ

/-- Declare a variable holding an object.  Redeclaring a name is a compile error. -/
def CState.declare (σ : CState) (n : Name) (o : Obj) : Option CState :=
  match σ.env n with
  | some _ => none
  | none => some { σ with
      env := fun m => if m = n then some ⟨n, []⟩ else σ.env m,
      mem := fun m => if m = n then some o else σ.mem m }

/-- Declare a reference. -/
def CState.bind (σ : CState) (n : Name) (l : Loc) : Option CState :=
  match σ.env n with
  | some _ => none
  | none => some { σ with env := fun m => if m = n then some l else σ.env m }

/-- A pointer stored in, or decayed from, the variable `s` (`void* arr[] = { s, … }`). -/
def CState.ptrOf (σ : CState) (s : Name) : Option Loc :=
  match σ.env s with
  | none => none
  | some l =>
    match l.path, σ.mem l.root with
    | [], some (.ptr p) => some p
    | [], some (.arr _) => some l
    | [], some (.buf _) => some l
    | [], some .emptyBuf => some l
    | _, _ => none

/-- All of a list of options, or nothing. -/
def allSome {α : Type} : List (Option α) → Option (List α)
  | [] => some []
  | none :: _ => none
  | some a :: rest => (allSome rest).map (a :: ·)

/-- Run a statement. -/
def CStmt.exec (K : Convs) (σ : CState) : CStmt → Option CState
  | .get e x i =>
      (σ.env x).bind fun l =>
        match σ.valAt l with
        | some (.tup vs) => if i < vs.length then σ.bind e ⟨l.root, l.path ++ [i]⟩ else none
        | _ => none
  | .slot s x =>
      (σ.env x).bind fun l => (σ.valAt l).bind fun v =>
        (σ.putAt l v.moved).declare s (.val v)
  | .encode b x k =>
      (σ.env x).bind fun l =>
        match σ.valAt l with
        | some (.leaf a) =>
            (σ.putAt l (Val.moved (.leaf a))).declare b (.buf { a with val := K.cEnc k a.val })
        | _ => none
  | .bindRef c e =>
      match e with
      | .var n => (σ.env n).bind fun l => σ.bind c l
      | .addr n => (σ.env n).bind fun l => σ.declare c (.ptr l)
      | .slotGet s => (σ.env s).bind fun l => σ.declare c (.ptr l)
  | .bindAddr c e =>
      match e with
      | .var n => (σ.env n).bind fun l => σ.declare c (.ptr l)
      | .addr _ => none
      | .slotGet _ => none
  | .addrs r cs => (allSome (cs.map σ.env)).bind fun ls => σ.declare r (.arr ls)
  | .retSlot h s => (σ.declare h .hole).bind fun σ => σ.declare s (.ptr ⟨h, []⟩)
  | .retUnion h s =>
      (σ.declare h .hole).bind fun σ => ({ σ with exits := h :: σ.exits }).declare s (.ptr ⟨h, []⟩)
  | .retPlain h s => (σ.declare h .hole).bind fun σ => σ.declare s (.ptr ⟨h, []⟩)
  | .retBuffer s => σ.declare s .emptyBuf
  | .ptrs s ss => (allSome (ss.map σ.ptrOf)).bind fun ls => σ.declare s (.arr ls)

/-- Run statements in order. -/
def execAll (K : Convs) : List CStmt → CState → Option CState
  | [], σ => some σ
  | s :: ss, σ => (s.exec K σ).bind (execAll K ss)

/-- What crosses the C ABI: a value or a pointer. -/
inductive AVal where
  | val (v : Val)
  | ptr (l : Loc)
deriving Repr

/-- The value of an argument expression of the thunk call: arrays decay to pointers. -/
def CState.pass (σ : CState) : CExpr → Option AVal
  | .var n =>
      (σ.env n).bind fun l =>
        match σ.mem l.root with
        | some (.val v) => (v.at l.path).map .val
        | some (.ptr p) => some (.ptr p)
        | some (.arr _) => some (.ptr l)
        | some (.buf _) => some (.ptr l)
        | some .emptyBuf => some (.ptr l)
        | _ => none
  | .addr n => (σ.env n).map .ptr
  | .slotGet s => (σ.env s).map .ptr

/-- `(p as *const A).read()` for a C ABI type `A`.  Reading a pointer out of something that is not
one, or a value out of a pointer, is a type confusion and has no meaning. -/
def CState.readAbi (σ : CState) : CAbiTy → Loc → Option AVal
  | .unit, _ => some (.val (.tup []))
  | .byVal, l => (σ.valAt l).map .val
  | .voidPtr, l =>
      match σ.mem l.root with
      | some (.val v) => (v.at l.path).map .val
      | some (.ptr p) => some (.ptr p)
      | _ => none
  | _, l =>
      match σ.mem l.root with
      | some (.ptr p) => some (.ptr p)
      | _ => none

mutual
/-- Run the conversion of one parameter. -/
def RConv.eval (K : Convs) (σ : CState) : RConv → AVal → Option Val
  | .nop, .val v => some v
  | .transmute, .val v => some v
  | .readAs, .ptr l => σ.valAt l
  | .read, .ptr l => σ.valAt l
  | .conv k, .val (.leaf a) => some (.leaf { a with val := K.toRust k a.val })
  | .conv k, .ptr l =>
      match σ.valAt l with
      | some (.leaf a) => some (.leaf { a with val := K.toRust k a.val })
      | _ => none
  | .decode k, .ptr l =>
      match l.path, σ.mem l.root with
      | [], some (.buf a) => some (.leaf { a with val := K.rDec k a.val })
      | _, _ => none
  | .elems n tys cs, .ptr l =>
      match l.path, σ.mem l.root with
      | [], some (.arr ls) => if ls.length = n then (RConv.evals K σ cs tys ls).map .tup else none
      | _, _ => none
  | _, _ => none
/-- Run the conversions of a tuple's elements. -/
def RConv.evals (K : Convs) (σ : CState) : List RConv → List CAbiTy → List Loc → Option (List Val)
  | [], _, _ => some []
  | c :: cs, a :: tys, l :: ls =>
      (σ.readAbi a l).bind fun av => (c.eval K σ av).bind fun v =>
        (RConv.evals K σ cs tys ls).map (v :: ·)
  | _ :: _, _, _ => none
end

/-- State after Rust writes through pointers: the memory, and what Rust itself dropped. -/
structure RState where
  cs : CState
  drops : List Nat

/-- Fill uninitialised storage. -/
def CState.fill (σ : CState) (l : Loc) (v : Val) : Option CState :=
  match l.path, σ.mem l.root with
  | [], some .hole =>
      some (σ.setMem l.root (.val v))
  | _, _ => none

mutual
/-- Run the code writing a Rust value `v` through the pointer `l`.  A converter takes the value by
reference and leaves Rust to drop the original at the end of the thunk. -/
def RWrite.exec (K : Convs) : RWrite → Val → Loc → RState → Option RState
  | .direct, v, l, ρ => (ρ.cs.fill l v).map fun σ => { ρ with cs := σ }
  | .conv k, .leaf a, l, ρ =>
      (ρ.cs.fill l (.leaf ⟨a.res.map K.cloneRes, K.toCpp k a.val⟩)).map fun σ =>
        ⟨σ, ρ.drops ++ a.res.toList⟩
  | .encode k, .leaf a, l, ρ =>
      match l.path, ρ.cs.mem l.root with
      | [], some .emptyBuf =>
          some { ρ with cs := ρ.cs.setMem l.root (.buf { a with val := K.rEnc k a.val }) }
      | _, _ => none
  | .elems n ws, .tup vs, l, ρ =>
      match l.path, ρ.cs.mem l.root with
      | [], some (.arr ls) => if ls.length = n then RWrite.execs K ws vs ls ρ else none
      | _, _ => none
  | _, _, _, _ => none
/-- Write the elements of a tuple. -/
def RWrite.execs (K : Convs) : List RWrite → List Val → List Loc → RState → Option RState
  | [], [], [], ρ => some ρ
  | w :: ws, v :: vs, l :: ls, ρ => (w.exec K v l ρ).bind (RWrite.execs K ws vs ls)
  | _, _, _, _ => none
end

mutual
/-- Unpack the result.  `AssumeInitAndTakeValue` (`support/internal/slot.h:96–105`) leaves the slot
uninitialised whether it relocates or moves and destroys; moving out of the union leaves a moved-from
value, which the union's destructor destroys. -/
def UExpr.eval (K : Convs) : UExpr → CState → Option (Val × CState)
  | .take h, σ =>
      match σ.mem h with
      | some (.val v) =>
          some (v, σ.setMem h .hole)
      | _ => none
  | .moveVal h, σ =>
      match σ.mem h with
      | some (.val v) =>
          some (v, σ.setMem h (.val v.moved))
      | _ => none
  | .deref s, σ =>
      match σ.mem s with
      | some (.ptr l) => (σ.valAt l).map fun v => (v, σ)
      | _ => none
  | .decode s k, σ =>
      match σ.mem s with
      | some (.buf a) =>
          some (.leaf { a with val := K.cDec k a.val }, σ.setMem s .emptyBuf)
      | _ => none
  | .makeTuple es, σ => (UExpr.evals K es σ).map fun (vs, σ) => (.tup vs, σ)
/-- Unpack the elements of a tuple. -/
def UExpr.evals (K : Convs) : List UExpr → CState → Option (List Val × CState)
  | [], σ => some ([], σ)
  | e :: es, σ =>
      (e.eval K σ).bind fun (v, σ) => (UExpr.evals K es σ).map fun (vs, σ) => (v :: vs, σ)
end

/-! ## The whole call -/

/-- The object parameter `i` names: a by-value parameter is a variable of its own; `self` is bound to
`*this` (`generate_function.rs:649–664`). -/
def rootOf (isMethod : Bool) (i : Nat) : Name :=
  if isMethod && i == 0 then [.this] else [.param i]

/-- The state when the wrapper is entered: the parameters and `*this` hold the caller's values.
By-value parameters are destroyed when the wrapper returns; `*this` outlives it. -/
def entry (isMethod : Bool) (args : List Val) : CState where
  env := fun n =>
    match n with
    | [.param i] => if i < args.length then some ⟨rootOf isMethod i, []⟩ else none
    | [.this] => if isMethod && decide (0 < args.length) then some ⟨[.this], []⟩ else none
    | _ => none
  mem := fun n =>
    match n with
    | [.param i] => if isMethod && i == 0 then none else (args[i]?).map .val
    | [.this] => if isMethod then (args[0]?).map .val else none
    | _ => none
  exits := ((List.range args.length).filter fun i => !(isMethod && i == 0)).map fun i => [.param i]

/-- `generate_function.rs:642–672`: the conversions of all parameters from `i` on. -/
def cParams (lct : Bool) (i : Nat) : List Ty → List CStmt × List CExpr
  | [] => ([], [])
  | t :: ts =>
      ((cParam lct [.param i] t).1 ++ (cParams lct (i + 1) ts).1,
       (cParam lct [.param i] t).2 :: (cParams lct (i + 1) ts).2)

/-- Convert all thunk parameters (`generate_function_thunk.rs:598–606`). -/
def rEvals (K : Convs) (lct : Bool) (σ : CState) : List Ty → List AVal → Option (List Val)
  | [], [] => some []
  | t :: ts, a :: as =>
      ((rParam lct t).eval K σ a).bind fun v => (rEvals K lct σ ts as).map (v :: ·)
  | _, _ => none

/-- What destroying the variables of the wrapper releases. -/
def releases (σ : CState) : List Nat :=
  σ.exits.flatMap fun n =>
    match σ.mem n with
    | some (.val v) => v.owns
    | _ => []

/-- Everything observable about one call: what the Rust body was called with, what the C++ caller
got, what the thunk dropped, what the wrapper's destructors released, and what is left in each
argument object. -/
structure Outcome where
  seen : List Val
  result : Val
  rustDrops : List Nat
  cppReleases : List Nat
  after : List (Option Obj)

/-- Does the result come back in a register? (`generate_function.rs:724–726`,
`generate_function_thunk.rs:630`.)  Bridged types are excluded there and never `isCAbi` here. -/
def returnsDirectly (t : Ty) : Bool := t.isCAbi

/-- `generate_function.rs:627–757` (`generate_thunk_call`) and `generate_function_thunk.rs:565–680`
(`generate_thunk_impl`), run: convert the parameters, make room for the result, call the thunk — which
converts the parameters, runs the body `f`, writes the result —, unpack and return, destroy locals.
Simplifications: `async` functions and the mutable-aliasing check are left out (the check is C36). -/
def runCall (K : Convs) (lct isMethod : Bool) (params : List Ty) (ret : Ty)
    (f : List Val → Val) (args : List Val) : Option Outcome :=
  (execAll K (cParams lct 0 params).1 (entry isMethod args)).bind fun σ1 =>
  if returnsDirectly ret then
    (allSome ((cParams lct 0 params).2.map σ1.pass)).bind fun avs =>
    (rEvals K lct σ1 params avs).bind fun seen =>
      some { seen := seen, result := f seen, rustDrops := [], cppReleases := releases σ1,
             after := (List.range args.length).map fun i => σ1.mem (rootOf isMethod i) }
  else
    (execAll K (cReturn lct [.ret] ret).1 σ1).bind fun σ2 =>
    (allSome ((cParams lct 0 params).2.map σ2.pass)).bind fun avs =>
    (σ2.ptrOf [.storage, .ret]).bind fun rp =>
    (rEvals K lct σ2 params avs).bind fun seen =>
    ((rWrite lct ret).exec K (f seen) rp ⟨σ2, []⟩).bind fun ρ =>
    ((cReturn lct [.ret] ret).2.eval K ρ.cs).bind fun (r, σ3) =>
      some { seen := seen, result := r, rustDrops := ρ.drops, cppReleases := releases σ3,
             after := (List.range args.length).map fun i => σ3.mem (rootOf isMethod i) }

end Verif.FnCall

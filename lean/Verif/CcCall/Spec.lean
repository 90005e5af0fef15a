/-!
# Calling a C++ function through its generated Rust binding: specification

`rs_bindings_from_cc` gives every supported C++ function a Rust function (or trait implementation).
What a Rust programmer relies on does not mention thunks, `extern "C"` declarations, `MaybeUninit`
or byte buffers:

* the C++ function that runs is the one a C++ call would have run (for a virtual method, the final
  overrider for the object's dynamic type);
* its parameters have the values that were passed, and the Rust caller gets the value it returned;
* a value that owns something is released exactly once: a by-value argument belongs to the C++
  function's parameter, and dies with it unless the function takes its contents; the result belongs
  to the Rust caller.

This file is the vocabulary of that statement, and the statement itself (`callSpec`).
-/

namespace Verif.CcCall

/-- A value: the thing it owns (an allocation, a handle, …), if any, and its contents. -/
structure Leaf where
  res : Option Nat
  val : Nat
deriving DecidableEq, Repr

/-- C++ types of parameters and results, as far as bindings tell them apart.

* `prim`: arithmetic types, `bool`, enums.  `ptr`: pointers that Rust sees as raw pointers.
  `ptrRef`: pointers that Rust sees as references (`this`, and pointers with a known lifetime).
  `ownedPtr`: a pointer annotated as carrying ownership.  `fnPtr`/`fnRef`: pointer/reference to
  function.
* `lref`/`rref`: `T&`, `T&&`.
* `existing sameAbi`: a C++ class that is the C++ side of a Rust type.
* `record unpin`: a C++ class; `unpin` says that Rust may move it in memory.
* `bridged k`: a C++ class translated to another Rust type through a byte buffer. -/
inductive Ty where
  | prim
  | ptr
  | ptrRef
  | ownedPtr
  | lref
  | rref
  | fnPtr
  | fnRef
  | existing (sameAbi : Bool)
  | record (unpin : Bool)
  | bridged (k : Nat)
deriving DecidableEq, Repr

/-- Objects of a class type, passed by value: they have a move constructor, a copy constructor and a
destructor. -/
def Ty.isClass : Ty → Bool
  | .existing _ => true
  | .record _ => true
  | .bridged _ => true
  | _ => false

/-- Objects that exist before the call and that references point to, by identity. -/
abbrev World := Nat → Leaf

/-- An argument: a value, or a reference to an object of the world. -/
inductive Arg where
  | own (l : Leaf)
  | ref (a : Nat)
deriving DecidableEq, Repr

/-- What a run of a C++ function body does: the final state of each by-value parameter (by position),
the world it leaves behind, what it returned, and what it released itself. -/
structure BodyOut where
  post : Nat → Leaf
  world : World
  ret : Arg
  rel : List Nat

/-- A C++ function body: any function of its arguments and of the world. -/
abbrev Body := List Arg → World → BodyOut

/-- The C++ function's code: the definition behind its symbol, and for a virtual method the final
overrider for an object in a world. -/
structure Code where
  static : Body
  dyn : Nat → World → Body

/-- The object a `this` argument designates. -/
def Arg.object : Arg → Nat
  | .ref a => a
  | .own l => l.val

/-- The value `this` has when it has been converted to the base class. -/
def Arg.up (up : Nat → Nat) : Arg → Arg
  | .own l => .own { l with val := up l.val }
  | .ref a => .ref (up a)

/-- What the C++ function is given for the Rust arguments: for an inherited method, the first argument
is converted to the base class. -/
def converted (up : Nat → Nat) (inherited : Bool) : List Arg → List Arg
  | [] => []
  | v :: vs => (if inherited then v.up up else v) :: vs

/-- What a C++ call expression runs: the final overrider for the object (the first argument) if the
function is virtual, and the function itself otherwise. -/
def called (isVirtual : Bool) (code : Code) : Body := fun args W =>
  match isVirtual, args with
  | true, a :: _ => code.dyn a.object W args W
  | _, _ => code.static args W

/-- What the types' own operations do to values.  `cloneRes`, `cloneVal`: the copy constructor
(`Clone` in Rust).  `movedRes`, `movedVal`: what a move constructor leaves behind; the new object gets
everything the old one had, and the old one may be left with something of its own.
`rEnc`, `cDec`, `cEnc`, `rDec`: the two halves of the codec of bridged type `k`. -/
structure Ops where
  cloneRes : Nat → Nat
  cloneVal : Nat → Nat
  movedRes : Nat → Option Nat
  movedVal : Nat → Nat
  rEnc : Nat → Nat → Nat
  cDec : Nat → Nat → Nat
  cEnc : Nat → Nat → Nat
  rDec : Nat → Nat → Nat

/-- A copy of `l`. -/
def Ops.clone (K : Ops) (l : Leaf) : Leaf := ⟨l.res.map K.cloneRes, K.cloneVal l.val⟩

/-- What is left of `l` after it was moved from. -/
def Ops.moved (K : Ops) (l : Leaf) : Leaf := ⟨l.res.bind K.movedRes, K.movedVal l.val⟩

/-- How the Rust signature shows a parameter of C++ type `t`.

* `plain`: as the Rust counterpart of `t`.
* `constRef`: the trait being implemented wants `&T` where C++ wants a `T`.
* `rvalue`: `t` is a class that Rust may not move, and in a trait it is shown as an rvalue reference to
  an object that the caller has already constructed. -/
inductive Shown where
  | plain (t : Ty)
  | constRef (t : Ty)
  | rvalue (t : Ty)
deriving DecidableEq, Repr

/-- The Rust caller's argument fits the Rust signature, and a type that cannot own anything owns
nothing. -/
def Fits : Shown → Arg → Prop
  | .plain .lref, .ref _ => True
  | .plain .ptrRef, .ref _ => True
  | .plain .rref, .ref _ => True
  | .plain .prim, .own l => l.res = none
  | .plain .ptr, .own l => l.res = none
  | .plain .fnPtr, .own l => l.res = none
  | .plain .fnRef, .own l => l.res = none
  | .plain .ownedPtr, .own _ => True
  | .plain (.existing _), .own _ => True
  | .plain (.record _), .own _ => True
  | .plain (.bridged _), .own _ => True
  | .constRef (.record _), .ref _ => True
  | .rvalue (.record _), .ref _ => True
  | _, _ => False

/-- The arguments fit the Rust signature. -/
def FitsAll : List Shown → List Arg → Prop
  | [], [] => True
  | s :: ss, v :: vs => Fits s v ∧ FitsAll ss vs
  | _, _ => False

/-- What the C++ parameter must be when Rust passes `v` for a parameter shown as `s`, in world `W`. -/
def seen (K : Ops) (W : World) : Shown → Arg → Arg
  | .plain (.bridged k), .own l => .own { l with val := K.cDec k (K.rEnc k l.val) }
  | .constRef _, .ref a => .own (K.clone (W a))
  | .rvalue _, .ref a => .own (W a)
  | _, v => v

/-- The objects that are moved from in order to initialise parameters. -/
def movedObjs : List (Shown × Arg) → List Nat
  | [] => []
  | (.rvalue _, .ref a) :: r => a :: movedObjs r
  | _ :: r => movedObjs r

/-- The world the body starts in. -/
def worldAtEntry (K : Ops) (ms : List Nat) (W : World) : World :=
  fun a => if a ∈ ms then K.moved (W a) else W a

/-- What dies with the by-value parameters when the body is left. -/
def paramRel (post : Nat → Leaf) : Nat → List Ty → List Nat
  | _, [] => []
  | i, t :: ts => (if t.isClass then (post i).res.toList else []) ++ paramRel post (i + 1) ts

/-- What the Rust caller must get for the C++ result. -/
def rustRet (K : Ops) : Ty → Arg → Arg
  | .bridged k, .own l => .own { l with val := K.rDec k (K.cEnc k l.val) }
  | _, v => v

/-- The body's result fits the declared type. -/
def FitsRet : Ty → Arg → Prop
  | .lref, .ref _ => True
  | .ptrRef, .ref _ => True
  | .rref, .ref _ => True
  | .prim, .own l => l.res = none
  | .ptr, .own l => l.res = none
  | .fnPtr, .own l => l.res = none
  | .fnRef, .own l => l.res = none
  | .ownedPtr, .own _ => True
  | .existing _, .own _ => True
  | .record _, .own _ => True
  | .bridged _, .own _ => True
  | _, _ => False

/-- What the Rust caller sees of a call. -/
structure Outcome where
  ret : Option Arg
  world : World
  rel : List Nat

/-- What an argument owns. -/
def Arg.owns : Arg → List Nat
  | .own l => l.res.toList
  | .ref _ => []

/-- What the Rust expression makes of the result: negated (`!=` implemented by `==`), dropped, or
handed to the caller. -/
def finish (negate drop : Bool) (r : Option Arg) : Option Arg × List Nat :=
  if drop then (none, (r.map Arg.owns).getD [])
  else if negate then
    (r.map fun
      | .own l => .own { l with val := if l.val = 0 then 1 else 0 }
      | v => v, [])
  else (r, [])

/-- **What a call does.**  `tys` are the C++ types of the parameters that are initialised by value or
reference from `args`, in order; `ret` is the type of the result (`none`: no result). -/
def callSpec (K : Ops) (body : Body) (tys : List Ty) (ret : Option Ty) (negate drop : Bool)
    (args : List (Shown × Arg)) (W : World) : Outcome :=
  let out := body (args.map fun p => seen K W p.1 p.2) (worldAtEntry K (movedObjs args) W)
  let fin := finish negate drop (ret.map fun t => rustRet K t out.ret)
  { ret := fin.1
    world := out.world
    rel := out.rel ++ paramRel out.post 0 tys ++ fin.2 }

/-- What is left of an argument, besides the C++ parameter, if the parameter is initialised from an
object that the call owns (the Rust argument itself, the copy made for a `&T`, the by-value parameter
of an intermediate C++ function): what a moved-from object owns. -/
def leftover (K : Ops) (W : World) (viaCpp : Bool) : Shown → Arg → List Nat
  | .plain (.record _), .own l => (K.moved l).res.toList
  | .plain (.existing false), .own l => (K.moved l).res.toList
  | .plain (.existing true), .own l => if viaCpp then (K.moved l).res.toList else []
  | .constRef _, .ref a => (K.moved (K.clone (W a))).res.toList
  | _, _ => []

end Verif.CcCall

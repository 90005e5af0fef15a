import Verif.RsStd.Option
/-!
# `rs_std::Result<T, E>`: the generated specialization and `ResultBase`
-/
namespace Verif.RsStd

/-- Variant numbers of `Result` (`get_result_variant_indices`,
generate_template_specialization.rs:461-475, finds them through lang items). -/
def okIdx : Nat := 0
def errIdx : Nat := 1

/-- The expression generated for `has_value_impl`. -/
inductive HasValueImpl
  /-- no tokens: `return ;` does not compile -/
  | empty
  | tagEq (v : Nat)
  | tagNe (v : Nat)

/-- What `specialize_result` puts in the generated code
(generate_template_specialization.rs:477-487). -/
structure ResultGen where
  hasValueImpl : HasValueImpl
  writeOk : Option Nat
  writeErr : Option Nat
  okPtr : Nat
  errPtr : Nat
  needsDrop : Bool

/-- `needs_drop` of `Result<T, E>` (generate_template_specialization.rs:1163). -/
def resultNeedsDrop (L : Layout) : Bool := (L.ty okIdx).hasDtor || (L.ty errIdx).hasDtor

/-- `specialize_result` (generate_template_specialization.rs:1096-1268): the direct case, and the
niche case, where `has_value_impl` starts empty and each tagged variant overwrites it. -/
def specializeResult (L : Layout) : ResultGen :=
  match L.enc with
  | .direct =>
    { hasValueImpl := .tagEq (literalOfTagTy L.tagSize okIdx)
      writeOk := some (literalOfTagTy L.tagSize okIdx)
      writeErr := some (literalOfTagTy L.tagSize errIdx)
      okPtr := L.off okIdx
      errPtr := L.off errIdx
      needsDrop := resultNeedsDrop L }
  | .niche start first _ untagged =>
    let hv := HasValueImpl.empty
    let okVal := literalOfTagTy L.tagSize (start + (okIdx - first))
    let (writeOk, okPtr, hv) :=
      if untagged = okIdx then (none, 0, hv)
      else (some okVal, L.off okIdx, HasValueImpl.tagEq okVal)
    let errVal := literalOfTagTy L.tagSize (start + (errIdx - first))
    let (writeErr, errPtr, hv) :=
      if untagged = errIdx then (none, 0, hv)
      else (some errVal, L.off errIdx, HasValueImpl.tagNe errVal)
    { hasValueImpl := hv, writeOk, writeErr, okPtr, errPtr, needsDrop := resultNeedsDrop L }

/-- `set_ok_tag` (generate_template_specialization.rs:569-571). -/
def setOkTag (e : Endian) (L : Layout) (o : Obj) : Obj :=
  match (specializeResult L).writeOk with
  | some t => setTag e L t o
  | none => o

/-- `set_err_tag` (generate_template_specialization.rs:572-574). -/
def setErrTag (e : Endian) (L : Layout) (o : Obj) : Obj :=
  match (specializeResult L).writeErr with
  | some t => setTag e L t o
  | none => o

/-- `has_value` through `has_value_impl` (result.h:153-155,
generate_template_specialization.rs:554-556). -/
def resHasValue (e : Endian) (L : Layout) (o : Obj) : Except Fault Bool :=
  match (specializeResult L).hasValueImpl with
  | .empty => .error .misuse
  | .tagEq v => .ok (cppTag e L.tagOff L.tagSize o.mem == v)
  | .tagNe v => .ok (cppTag e L.tagOff L.tagSize o.mem != v)

/-- `ResultBase(U&&)`, `ResultBase(in_place, args…)` (result.h:93-99, 138-142). -/
def resCtorOk (e : Endian) (L : Layout) (m : Mem) (x : Val) : Except Fault Obj :=
  constructAt L okIdx (specializeResult L).okPtr x (setOkTag e L { mem := m, live := none })

/-- `ResultBase(unexpected&&)`, `ResultBase(unexpect, args…)` (result.h:121-126, 144-148). -/
def resCtorErr (e : Endian) (L : Layout) (m : Mem) (x : Val) : Except Fault Obj :=
  constructAt L errIdx (specializeResult L).errPtr x (setErrTag e L { mem := m, live := none })

/-- `operator=(U&&)` (result.h:101-119); the argument is not part of this object.  `junk` is what
a destructor leaves. -/
def resAssignOk (e : Endian) (L : Layout) (x junk : Val) (o : Obj) : Except Fault Obj := do
  let hv ← resHasValue e L o
  if !hv then
    let o ← destroyAt L errIdx (specializeResult L).errPtr junk o
    let o := setOkTag e L o
    constructAt L okIdx (specializeResult L).okPtr x o
  else
    let o := setOkTag e L o
    moveAssignOrDestroyAndConstruct L okIdx (specializeResult L).okPtr x junk o

/-- `operator=(unexpected&&)` (result.h:128-141). -/
def resAssignErr (e : Endian) (L : Layout) (x junk : Val) (o : Obj) : Except Fault Obj := do
  let hv ← resHasValue e L o
  if hv then
    let o ← destroyAt L okIdx (specializeResult L).okPtr junk o
    let o := setErrTag e L o
    constructAt L errIdx (specializeResult L).errPtr x o
  else
    let o := setErrTag e L o
    moveAssignOrDestroyAndConstruct L errIdx (specializeResult L).errPtr x junk o

/-- `r = r.error()` when `T` can be constructed from `E` (result.h:101-119 with an argument that
refers to this object's error): the error is destroyed before it is read. -/
def resAssignOkFromOwnErr (e : Endian) (L : Layout) (conv : Val → Val) (junk : Val) (o : Obj) :
    Except Fault Obj := do
  let hv ← resHasValue e L o
  if !hv then
    let o ← destroyAt L errIdx (specializeResult L).errPtr junk o
    let o := setOkTag e L o
    let x ← readAt L errIdx (specializeResult L).errPtr o
    constructAt L okIdx (specializeResult L).okPtr (conv x) o
  else .error .abort

/-- `value()`, `operator*`, `operator->` (result.h:157-189, 236-270). -/
def resValue (e : Endian) (L : Layout) (o : Obj) : Except Fault Val := do
  let hv ← resHasValue e L o
  if hv then readAt L okIdx (specializeResult L).okPtr o else .error .abort

/-- `error()`, `err()` (result.h:191-234). -/
def resError (e : Endian) (L : Layout) (o : Obj) : Except Fault Val := do
  let hv ← resHasValue e L o
  if !hv then readAt L errIdx (specializeResult L).errPtr o else .error .abort

/-- `ResultBase::Reset` (result.h:273-279). -/
def resReset (e : Endian) (L : Layout) (junk : Val) (o : Obj) : Except Fault Obj := do
  let hv ← resHasValue e L o
  if hv then destroyAt L okIdx (specializeResult L).okPtr junk o
  else destroyAt L errIdx (specializeResult L).errPtr junk o

/-- `~Result()` (generate_template_specialization.rs:505-521). -/
def resDtor (e : Endian) (L : Layout) (junk : Val) (o : Obj) : Except Fault Unit := do
  let o ← if (specializeResult L).needsDrop then resReset e L junk o else .ok o
  match o.live with
  | some (v, _) => if (L.ty v).hasDtor then .error .leak else .ok ()
  | none => .ok ()

/-- `Result` never implements `Default`; it is `Clone` when both payload types are. -/
def resultMoveStyle (L : Layout) : Option MoveStyle :=
  moveStyle (!resultNeedsDrop L) false ((L.ty okIdx).unpin && (L.ty errIdx).unpin)
    ((L.ty okIdx).copyable && (L.ty errIdx).copyable)

/-- Copying the bytes of a result: for a payload type with a destructor that does not make a second
payload object. -/
def resMemcpyObj (L : Layout) (src : Obj) : Obj :=
  { mem := src.mem
    live := match src.live with
      | some (v, x) => if (L.ty v).hasDtor then none else some (v, x)
      | none => none }

/-! ## A program that uses results -/

/-- A result: `inl` is `Ok`, `inr` is `Err`. -/
abbrev RVal := Val ⊕ Val

def encRes : RVal → Nat × Val
  | .inl x => (okIdx, x)
  | .inr x => (errIdx, x)

/-- Does `m` hold `rv` as rustc lays it out? -/
def rustHoldsRes (e : Endian) (L : Layout) (m : Mem) (rv : RVal) : Bool :=
  rustVariant e L m == some (encRes rv).1 &&
  rd m (L.off (encRes rv).1) (L.ty (encRes rv).1).size == (encRes rv).2 &&
  (L.ty (encRes rv).1).valid (encRes rv).2

/-- Operations on results by name, as in `Op`. -/
inductive ROp
  | ctorOk (k : Nat) (m : Mem) (x : Val)
  | ctorErr (k : Nat) (m : Mem) (x : Val)
  | assignOk (k : Nat) (x junk : Val)
  | assignErr (k : Nat) (x junk : Val)
  | dtor (k : Nat) (junk : Val)
  | moveCtor (k k' : Nat)
  | moveAssign (k k' : Nat)
  | relocate (k k' : Nat)
  | copyCtor (k k' : Nat) (rustMem : Mem)
  | copyAssign (k k' : Nat) (rustMem : Mem)
  | rustSet (k : Nat) (rv : RVal) (rustMem : Mem)

abbrev RSt := Nat → Option Obj

def getRes (s : RSt) (k : Nat) : Except Fault Obj :=
  match s k with
  | some o => .ok o
  | none => .error .misuse

/-- `clone` of a result, by payload. -/
def cloneRes (L : Layout) : RVal → RVal
  | .inl x => .inl ((L.ty okIdx).clone x)
  | .inr x => .inr ((L.ty errIdx).clone x)

/-- The result that lives in an object. -/
def liveRes (o : Obj) : Option RVal :=
  match o.live with
  | some (0, x) => some (.inl x)
  | some (1, x) => some (.inr x)
  | _ => none

/-- What a clone made by Rust in the memory `rm` is. -/
def rustClone (e : Endian) (L : Layout) (src : Obj) (rm : Mem) : Except Fault Obj :=
  match liveRes src with
  | none => .error .useDead
  | some rv =>
    if (L.ty okIdx).copyable && (L.ty errIdx).copyable && rustHoldsRes e L rm (cloneRes L rv) then
      .ok { mem := rm, live := some (encRes (cloneRes L rv)) }
    else .error .misuse

/-- Is `junk` as long as the payload that the object holds?  (A destructor only writes its own
object's bytes.) -/
def junkFits (L : Layout) (o : Obj) (junk : Val) : Bool :=
  match o.live with
  | some (v, _) => junk.length == (L.ty v).size
  | none => true

/-- One step; copies and moves as for options (`step`). -/
def rstep (e : Endian) (L : Layout) (s : RSt) : ROp → Except Fault RSt
  | .ctorOk k m x => do
    need ((s k).isNone && (L.ty okIdx).valid x)
    let o ← resCtorOk e L m x
    .ok (upd s k (some o))
  | .ctorErr k m x => do
    need ((s k).isNone && (L.ty errIdx).valid x)
    let o ← resCtorErr e L m x
    .ok (upd s k (some o))
  | .assignOk k x junk => do
    let o ← getRes s k
    need (junkFits L o junk && (L.ty okIdx).valid x)
    let o ← resAssignOk e L x junk o
    .ok (upd s k (some o))
  | .assignErr k x junk => do
    let o ← getRes s k
    need (junkFits L o junk && (L.ty errIdx).valid x)
    let o ← resAssignErr e L x junk o
    .ok (upd s k (some o))
  | .dtor k junk => do
    let o ← getRes s k
    need (junkFits L o junk)
    resDtor e L junk o
    .ok (upd s k none)
  | .moveCtor k k' => do
    need (s k).isNone
    let src ← getRes s k'
    match resultMoveStyle L with
    | some .trivial => .ok (upd s k (some (resMemcpyObj L src)))
    | _ => .error .misuse
  | .moveAssign k k' => do
    let _ ← getRes s k
    let src ← getRes s k'
    match resultMoveStyle L with
    | some .trivial => .ok (upd s k (some (resMemcpyObj L src)))
    | _ => .error .misuse
  | .relocate k k' => do
    need (s k).isNone
    let src ← getRes s k'
    .ok (upd (upd s k (some src)) k' none)
  | .copyCtor k k' rm => do
    need (s k).isNone
    let src ← getRes s k'
    let o ← rustClone e L src rm
    .ok (upd s k (some o))
  | .copyAssign k k' rm => do
    let _ ← getRes s k
    let src ← getRes s k'
    if k = k' then .ok s
    else do
      let o ← rustClone e L src rm
      .ok (upd s k (some o))
  | .rustSet k rv rm => do
    let _ ← getRes s k
    need (rustHoldsRes e L rm rv)
    .ok (upd s k (some { mem := rm, live := some (encRes rv) }))

def rrun (e : Endian) (L : Layout) (s : RSt) : List ROp → Except Fault RSt
  | [] => .ok s
  | op :: ops => do
    let s ← rstep e L s op
    rrun e L s ops

/-! ## Specification -/

/-- What each operation does to a program's view of its results. `L` is only used for the payload
types. -/
def arStep (L : Layout) (s : Nat → Option RVal) : ROp → Option (Nat → Option RVal)
  | .ctorOk k _ x => if (s k).isNone then some (upd s k (some (.inl x))) else none
  | .ctorErr k _ x => if (s k).isNone then some (upd s k (some (.inr x))) else none
  | .assignOk k x _ => (s k).map fun _ => upd s k (some (.inl x))
  | .assignErr k x _ => (s k).map fun _ => upd s k (some (.inr x))
  | .dtor k _ => (s k).map fun _ => upd s k none
  | .moveCtor k k' => if (s k).isNone then (s k').map fun rv => upd s k (some rv) else none
  | .moveAssign k k' => (s k).bind fun _ => (s k').map fun rv => upd s k (some rv)
  | .relocate k k' =>
    if (s k).isNone then (s k').map fun rv => upd (upd s k (some rv)) k' none else none
  | .copyCtor k k' _ =>
    if (s k).isNone then (s k').map fun rv => upd s k (some (cloneRes L rv)) else none
  | .copyAssign k k' _ =>
    (s k).bind fun _ => (s k').map fun rv => if k = k' then s else upd s k (some (cloneRes L rv))
  | .rustSet k rv _ => (s k).map fun _ => upd s k (some rv)

def arRun (L : Layout) (s : Nat → Option RVal) : List ROp → Option (Nat → Option RVal)
  | [] => some s
  | op :: ops => (arStep L s op).bind fun s => arRun L s ops

/-- C++ and Rust both see `rv` in the object. -/
structure RAgrees (e : Endian) (L : Layout) (o : Obj) (rv : RVal) : Prop where
  cppHas : resHasValue e L o = .ok rv.isLeft
  cppValue : resValue e L o = rv.elim .ok fun _ => .error .abort
  cppError : resError e L o = rv.elim (fun _ => .error .abort) .ok
  rust : RustEnc e L o.mem (encRes rv).1 (encRes rv).2

end Verif.RsStd

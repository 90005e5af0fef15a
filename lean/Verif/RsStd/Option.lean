import Verif.RsStd.Layout
/-!
# `rs_std::Option<T>`: the generated specialization and `OptionBase`

Every T object lives in the payload bytes of an `rs_std::Option<T>`, or in a `std::optional<T>`.
`live` is C++'s notion of which T object is within its lifetime; the code cannot see it.  The code
decides from the bytes in `mem`; constructing over a live object, destroying or using a dead one,
accessing bytes outside the storage, and ending the storage of a live object are faults.
-/
namespace Verif.RsStd

inductive Fault
  /-- the caller broke a precondition (constructed an existing object, used a destroyed one, passed
  bytes that are no value of the type) or the program does not compile -/
  | misuse
  /-- a constructor ran on a place that holds a live object: that object leaks -/
  | doubleConstruct
  /-- a destructor, assignment or move used an object that is not live -/
  | useDead
  /-- access outside the storage of the object -/
  | outOfBounds
  /-- storage was released while an object with a destructor was live in it -/
  | leak
  /-- `CRUBIT_CHECK` failed -/
  | abort
  deriving DecidableEq

/-- An object of the specialization: its storage, and the payload object that is live in it
(variant and value). -/
structure Obj where
  mem : Mem
  live : Option (Nat × Val)

/-- `std::construct_at(ptr, …)` with `ptr = storage_ + off` (option.h:66, 78, 95, 138; result.h:98,
114, …): starts the lifetime of a payload object with value `x`. -/
def constructAt (L : Layout) (v off : Nat) (x : Val) (o : Obj) : Except Fault Obj :=
  match o.live with
  | some _ => .error .doubleConstruct
  | none =>
    if off + x.length ≤ L.size then .ok { mem := wr o.mem off x, live := some (v, x) }
    else .error .outOfBounds

/-- `std::destroy_at(ptr)` (option.h:42, 159; result.h:112, 132): ends the lifetime of the payload
object; its bytes become whatever the destructor leaves (`junk`). -/
def destroyAt (L : Layout) (v off : Nat) (junk : Val) (o : Obj) : Except Fault Obj :=
  match o.live with
  | some (w, _) =>
    if w = v then
      if off + junk.length ≤ L.size then .ok { mem := wr o.mem off junk, live := none }
      else .error .outOfBounds
    else .error .useDead
  | none => .error .useDead

/-- `*ptr = x` (support/internal/move_assign.h:17): assignment to the live payload object. -/
def assignAt (L : Layout) (v off : Nat) (x : Val) (o : Obj) : Except Fault Obj :=
  match o.live with
  | some (w, _) =>
    if w = v then
      if off + x.length ≤ L.size then .ok { mem := wr o.mem off x, live := some (v, x) }
      else .error .outOfBounds
    else .error .useDead
  | none => .error .useDead

/-- `*ptr` as a source: the payload object's bytes. -/
def readAt (L : Layout) (v off : Nat) (o : Obj) : Except Fault Val :=
  match o.live with
  | some (w, _) =>
    if w = v then
      if off + (L.ty v).size ≤ L.size then .ok (rd o.mem off (L.ty v).size) else .error .outOfBounds
    else .error .useDead
  | none => .error .useDead

/-- `set_tag` on an object (see `cppSetTag`). -/
def setTag (e : Endian) (L : Layout) (t : Nat) (o : Obj) : Obj :=
  { o with mem := cppSetTag e L.tagOff L.tagSize o.mem t }

/-- `crubit::MoveAssignOrDestroyAndConstruct` (support/internal/move_assign.h:15-22). -/
def moveAssignOrDestroyAndConstruct (L : Layout) (v off : Nat) (x junk : Val) (o : Obj) :
    Except Fault Obj :=
  if (L.ty v).moveAssignable then assignAt L v off x o
  else do
    let o ← destroyAt L v off junk o
    constructAt L v off x o

/-! ## The specialization -/

/-- The constants that `specialize_option` puts in the generated code
(generate_template_specialization.rs:268-282). -/
structure OptionGen where
  noneVal : Nat
  /-- `write_some_to_tag`; `none`: empty -/
  writeSome : Option Nat
  somePtr : Nat
  needsDrop : Bool

/-- Variant numbers of `Option`: `None` is 0, `Some` is 1 (`get_option_variant_indices`,
generate_template_specialization.rs:426-440, finds them through lang items). -/
def noneIdx : Nat := 0
def someIdx : Nat := 1

/-- `specialize_option` (generate_template_specialization.rs:1347-1488). The discriminant of a
variant of `Option` is its number. `needs_drop` of `Option<T>` is that of `T`. -/
def specializeOption (L : Layout) : OptionGen :=
  match L.enc with
  | .direct =>
    { noneVal := literalOfTagTy L.tagSize noneIdx
      writeSome := some (literalOfTagTy L.tagSize someIdx)
      somePtr := L.off someIdx
      needsDrop := (L.ty someIdx).hasDtor }
  | .niche start first _ _ =>
    { noneVal := literalOfTagTy L.tagSize (start + (noneIdx - first))
      writeSome := none
      somePtr := 0
      needsDrop := (L.ty someIdx).hasDtor }

/-- `set_some_tag` (generate_template_specialization.rs:366-368). -/
def setSomeTag (e : Endian) (L : Layout) (o : Obj) : Obj :=
  match (specializeOption L).writeSome with
  | some t => setTag e L t o
  | none => o

/-- `set_none_tag` (generate_template_specialization.rs:369-371). -/
def setNoneTag (e : Endian) (L : Layout) (o : Obj) : Obj :=
  setTag e L (specializeOption L).noneVal o

/-- `is_none` (generate_template_specialization.rs:372-374). -/
def isNone (e : Endian) (L : Layout) (o : Obj) : Bool :=
  cppTag e L.tagOff L.tagSize o.mem == (specializeOption L).noneVal

/-- `has_value()` (option.h:166). -/
def hasValue (e : Endian) (L : Layout) (o : Obj) : Bool := !isNone e L o

/-- `OptionBase::reset` (option.h:40-44). -/
def reset (e : Endian) (L : Layout) (junk : Val) (o : Obj) : Except Fault Obj :=
  if hasValue e L o then destroyAt L someIdx (specializeOption L).somePtr junk o else .ok o

/-- `OptionBase()` and `OptionBase(nullopt)` (option.h:49-52) on fresh storage `m`. -/
def ctorNone (e : Endian) (L : Layout) (m : Mem) : Except Fault Obj :=
  .ok (setNoneTag e L { mem := m, live := none })

/-- `operator=(nullopt)` (option.h:53-57). -/
def assignNullopt (e : Endian) (L : Layout) (junk : Val) (o : Obj) : Except Fault Obj := do
  let o ← reset e L junk o
  .ok (setNoneTag e L o)

/-- `OptionBase(U&&)` (option.h:59-67) and `OptionBase(in_place, args…)` (option.h:135-139): `x` is
the value that `T`'s constructor makes of the arguments. -/
def ctorValue (e : Endian) (L : Layout) (m : Mem) (x : Val) : Except Fault Obj :=
  constructAt L someIdx (specializeOption L).somePtr x (setSomeTag e L { mem := m, live := none })

/-- `operator=(U&&)` (option.h:69-81); the argument is not part of this object. -/
def assignValue (e : Endian) (L : Layout) (x junk : Val) (o : Obj) : Except Fault Obj :=
  if hasValue e L o then
    moveAssignOrDestroyAndConstruct L someIdx (specializeOption L).somePtr x junk o
  else constructAt L someIdx (specializeOption L).somePtr x (setSomeTag e L o)

/-- A `std::optional<T>`: whether it is engaged, and the T object live in it. -/
structure SObj where
  has : Bool
  live : Option Val

/-- The part shared by `OptionBase(Opt&&)` and `operator=(Opt&&)` after the tests
(option.h:92-105, 116-130): set the tag, then take the value out of the engaged `std::optional`. -/
def takeFromStd (e : Endian) (L : Layout) (s : SObj) (o : Obj) : Except Fault (Obj × SObj) :=
  let o := setSomeTag e L o
  let some_ := (specializeOption L).somePtr
  let T := L.ty someIdx
  match s.live with
  | none => .error .useDead
  | some x =>
    if T.relocatable then do
      let o ← constructAt L someIdx some_ x o
      -- std::construct_at(&value, nullopt): no destructor runs on the relocated object
      .ok (o, { has := false, live := none })
    else if T.moveConstructible then do
      let o ← constructAt L someIdx some_ (T.mv x).1 o
      .ok (o, { has := true, live := some (T.mv x).2 })
    else if T.copyable then do
      let o ← constructAt L someIdx some_ (T.clone x) o
      .ok (o, s)
    else .error .misuse

/-- `OptionBase(Opt&&)` (option.h:83-106). -/
def ctorFromStd (e : Endian) (L : Layout) (m : Mem) (s : SObj) : Except Fault (Obj × SObj) :=
  if !s.has then .ok (setNoneTag e L { mem := m, live := none }, s)
  else takeFromStd e L s { mem := m, live := none }

/-- `operator=(Opt&&)` (option.h:108-132). -/
def assignFromStd (e : Endian) (L : Layout) (junk : Val) (s : SObj) (o : Obj) :
    Except Fault (Obj × SObj) := do
  let o ← reset e L junk o
  if !s.has then .ok (setNoneTag e L o, s)
  else takeFromStd e L s o

/-- Relocating out: the payload object's lifetime ends without a destructor. -/
def relocateOut (o : Obj) : Obj := { o with live := none }

/-- `operator std::optional<T>() &&` (option.h:141-164): returns the new `std::optional`. In the
relocating branch the tag is written after the return value has been made (`DeferSetTagNone`). -/
def toStd (e : Endian) (L : Layout) (junk : Val) (o : Obj) : Except Fault (Obj × SObj) :=
  if !hasValue e L o then .ok (o, { has := false, live := none })
  else
    let some_ := (specializeOption L).somePtr
    let T := L.ty someIdx
    if T.relocatable then do
      let x ← readAt L someIdx some_ o
      .ok (setNoneTag e L (relocateOut o), { has := true, live := some x })
    else if T.moveConstructible then do
      let x ← readAt L someIdx some_ o
      let o ← assignAt L someIdx some_ (T.mv x).2 o
      let o ← destroyAt L someIdx some_ junk o
      .ok (setNoneTag e L o, { has := true, live := some (T.mv x).1 })
    else if T.copyable then do
      let x ← readAt L someIdx some_ o
      let o ← destroyAt L someIdx some_ junk o
      .ok (setNoneTag e L o, { has := true, live := some (T.clone x) })
    else .error .misuse

/-- `operator*` / `operator->` (option.h:167-203): the payload behind the checked pointer. -/
def deref (e : Endian) (L : Layout) (o : Obj) : Except Fault Val :=
  if hasValue e L o then readAt L someIdx (specializeOption L).somePtr o else .error .abort

/-- `~Option()` (generate_template_specialization.rs:300-321): `reset()`, or nothing when the type
needs no drop; then the storage goes away. -/
def dtor (e : Endian) (L : Layout) (junk : Val) (o : Obj) : Except Fault Unit := do
  let o ← if (specializeOption L).needsDrop then reset e L junk o else .ok o
  match o.live with
  | some (v, _) => if (L.ty v).hasDtor then .error .leak else .ok ()
  | none => .ok ()

/-! ## Moving and copying whole options -/

/-- `MoveCtorStyle` (database/adt_core_bindings.rs:132-141). -/
inductive MoveStyle | trivial | memSwap | copy
  deriving DecidableEq

/-- `MoveCtorStyle::from_available_traits` (database/adt_core_bindings.rs:146-162). -/
def moveStyle (doesNotNeedDrop hasDefault isUnpin hasCopy : Bool) : Option MoveStyle :=
  if doesNotNeedDrop then some .trivial
  else if hasDefault && isUnpin then some .memSwap
  else if hasCopy then some .copy
  else none

/-- `Option<T>` always implements `Default`; its other traits are those of `T`
(`has_move_ctor_and_assignment_operator`, generate_bindings/lib.rs:1612-1628). -/
def optionMoveStyle (L : Layout) : Option MoveStyle :=
  moveStyle (!(L.ty someIdx).hasDtor) true (L.ty someIdx).unpin (L.ty someIdx).copyable

/-- Copying the bytes of an option (a defaulted move or copy operation): for a payload type with a
destructor that does not make a second payload object. -/
def memcpyObj (L : Layout) (src : Obj) : Obj :=
  { mem := src.mem, live := if (L.ty someIdx).hasDtor then none else src.live }

/-! ## A program that uses options -/

/-- All objects of a run: options and `std::optional`s by name. -/
structure St where
  opts : Nat → Option Obj
  stds : Nat → Option SObj

def upd {α : Type} (f : Nat → α) (k : Nat) (x : α) : Nat → α := fun i => if i = k then x else f i

def St.setOpt (s : St) (k : Nat) (o : Option Obj) : St := { s with opts := upd s.opts k o }
def St.setStd (s : St) (j : Nat) (o : Option SObj) : St := { s with stds := upd s.stds j o }

/-- What a program can do.  `m` is the old contents of the storage for a new object; `junk` what a
destructor leaves in the payload bytes.  `rustSet` is Rust code that got a `&mut Option<T>` and
stored `ov`; `rustMem` is how it laid the value out. -/
inductive Op
  | ctorNone (k : Nat) (m : Mem)
  | ctorValue (k : Nat) (m : Mem) (x : Val)
  | ctorFromStd (k : Nat) (m : Mem) (j : Nat)
  | assignNullopt (k : Nat) (junk : Val)
  | assignValue (k : Nat) (x junk : Val)
  | assignFromStd (k j : Nat) (junk : Val)
  | toStd (k j : Nat) (junk : Val)
  | dtor (k : Nat) (junk : Val)
  | moveCtor (k k' : Nat) (m : Mem)
  | moveAssign (k k' : Nat)
  | relocate (k k' : Nat)
  | copyCtor (k k' : Nat) (rustMem : Mem)
  | copyAssign (k k' : Nat) (rustMem : Mem)
  | rustSet (k : Nat) (ov : Option Val) (rustMem : Mem)
  | stdNew (j : Nat) (ov : Option Val)
  | stdDtor (j : Nat)

/-- The Rust payload of variant `None` is empty, that of `Some` is the value. -/
def encOpt : Option Val → Nat × Val
  | none => (noneIdx, [])
  | some x => (someIdx, x)

/-- Does `m` hold `ov` as rustc lays it out?  (The check of `rustSet`'s argument.) -/
def rustHolds (e : Endian) (L : Layout) (m : Mem) (ov : Option Val) : Bool :=
  rustVariant e L m == some (encOpt ov).1 &&
  match ov with
  | none => true
  | some x => rd m (L.off someIdx) (L.ty someIdx).size == x && (L.ty someIdx).valid x

def getOpt (s : St) (k : Nat) : Except Fault Obj :=
  match s.opts k with
  | some o => .ok o
  | none => .error .misuse

def getStd (s : St) (j : Nat) : Except Fault SObj :=
  match s.stds j with
  | some o => .ok o
  | none => .error .misuse

/-- The caller's obligation. -/
def need (b : Bool) : Except Fault Unit := if b then .ok () else .error .misuse

/-- The payload that Rust's clone of an option holds. -/
def cloneOf (L : Layout) (o : Obj) : Option Val := o.live.map fun p => (L.ty someIdx).clone p.2

/-- What Rust leaves as the live payload of an object in which it stored `ov`. -/
def liveOf : Option Val → Option (Nat × Val)
  | none => none
  | some x => some (someIdx, x)

/-- The `std::optional<T>` object that a program makes of `ov`. -/
def stdOf (ov : Option Val) : SObj := { has := ov.isSome, live := ov }

/-- `~optional()`: destroys the value if engaged; then the storage goes away. -/
def stdDtor (L : Layout) (s : SObj) : Except Fault Unit :=
  match s.has, s.live with
  | true, some _ => .ok ()
  | true, none => .error .useDead
  | false, some _ => if (L.ty someIdx).hasDtor then .error .leak else .ok ()
  | false, none => .ok ()

/-- One step.  Copying (`CopyCtorStyle::Clone`, generate_bindings/lib.rs:1508-1567) and moving by
copy are done by Rust thunks; `crubit::MemSwap` (support/internal/memswap.h:23-33) exchanges all
bytes, so also which objects live in them; a trivial move copies the bytes. -/
def step (e : Endian) (L : Layout) (s : St) : Op → Except Fault St
  | .ctorNone k m => do
    need (s.opts k).isNone
    let o ← ctorNone e L m
    .ok (s.setOpt k (some o))
  | .ctorValue k m x => do
    need ((s.opts k).isNone && (L.ty someIdx).valid x)
    let o ← ctorValue e L m x
    .ok (s.setOpt k (some o))
  | .ctorFromStd k m j => do
    need (s.opts k).isNone
    let src ← getStd s j
    let (o, src) ← ctorFromStd e L m src
    .ok ((s.setOpt k (some o)).setStd j (some src))
  | .assignNullopt k junk => do
    need (junk.length == (L.ty someIdx).size)
    let o ← getOpt s k
    let o ← assignNullopt e L junk o
    .ok (s.setOpt k (some o))
  | .assignValue k x junk => do
    need (junk.length == (L.ty someIdx).size && (L.ty someIdx).valid x)
    let o ← getOpt s k
    let o ← assignValue e L x junk o
    .ok (s.setOpt k (some o))
  | .assignFromStd k j junk => do
    need (junk.length == (L.ty someIdx).size)
    let o ← getOpt s k
    let src ← getStd s j
    let (o, src) ← assignFromStd e L junk src o
    .ok ((s.setOpt k (some o)).setStd j (some src))
  | .toStd k j junk => do
    need (junk.length == (L.ty someIdx).size && (s.stds j).isNone)
    let o ← getOpt s k
    let (o, dst) ← toStd e L junk o
    .ok ((s.setOpt k (some o)).setStd j (some dst))
  | .dtor k junk => do
    need (junk.length == (L.ty someIdx).size)
    let o ← getOpt s k
    dtor e L junk o
    .ok (s.setOpt k none)
  | .moveCtor k k' m => do
    need (s.opts k).isNone
    let src ← getOpt s k'
    match optionMoveStyle L with
    | some .trivial => .ok (s.setOpt k (some (memcpyObj L src)))
    | some .memSwap => do
      let o ← ctorNone e L m
      .ok ((s.setOpt k (some src)).setOpt k' (some o))
    | _ => .error .misuse
  | .moveAssign k k' => do
    let dst ← getOpt s k
    let src ← getOpt s k'
    match optionMoveStyle L with
    | some .trivial => .ok (s.setOpt k (some (memcpyObj L src)))
    | some .memSwap => .ok ((s.setOpt k (some src)).setOpt k' (some dst))
    | _ => .error .misuse
  | .relocate k k' => do
    need (s.opts k).isNone
    let src ← getOpt s k'
    .ok ((s.setOpt k (some src)).setOpt k' none)
  | .copyCtor k k' rm => do
    need (s.opts k).isNone
    let src ← getOpt s k'
    need ((L.ty someIdx).copyable && rustHolds e L rm (cloneOf L src))
    .ok (s.setOpt k (some { mem := rm, live := liveOf (cloneOf L src) }))
  | .copyAssign k k' rm => do
    let _ ← getOpt s k
    let src ← getOpt s k'
    if k = k' then .ok s
    else do
      need ((L.ty someIdx).copyable && rustHolds e L rm (cloneOf L src))
      .ok (s.setOpt k (some { mem := rm, live := liveOf (cloneOf L src) }))
  | .rustSet k ov rm => do
    let _ ← getOpt s k
    need (rustHolds e L rm ov)
    .ok (s.setOpt k (some { mem := rm, live := liveOf ov }))
  | .stdNew j ov => do
    need ((s.stds j).isNone && (ov.all fun x => (L.ty someIdx).valid x))
    .ok (s.setStd j (some (stdOf ov)))
  | .stdDtor j => do
    let o ← getStd s j
    stdDtor L o
    .ok (s.setStd j none)

/-- Run a program from a state. -/
def run (e : Endian) (L : Layout) (s : St) : List Op → Except Fault St
  | [] => .ok s
  | op :: ops => do
    let s ← step e L s op
    run e L s ops

/-- No objects yet. -/
def St.init : St := { opts := fun _ => none, stds := fun _ => none }

end Verif.RsStd

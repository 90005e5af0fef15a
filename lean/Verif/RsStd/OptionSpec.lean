import Verif.RsStd.Option
/-!
# What an `Option` is, without bytes

`AState` is a program's view of its options: each existing one is `none` or `some value`.  `aStep`
says what each operation does to that view.  It knows nothing about tags, niches, or lifetimes.
-/
namespace Verif.RsStd

/-- Options and `std::optional`s by name; an inner `none` is an empty one. -/
structure AState where
  opts : Nat → Option (Option Val)
  stds : Nat → Option (Option Val)

def AState.init : AState := { opts := fun _ => none, stds := fun _ => none }

def AState.setOpt (s : AState) (k : Nat) (o : Option (Option Val)) : AState :=
  { s with opts := upd s.opts k o }
def AState.setStd (s : AState) (j : Nat) (o : Option (Option Val)) : AState :=
  { s with stds := upd s.stds j o }

/-- What moving out of a container with contents `ov` gives, and what stays behind: a relocatable
type leaves nothing, a movable one its moved-from value, and a type that can only be copied stays. -/
def moveOut (T : Ty) : Option Val → Option Val × Option Val
  | none => (none, none)
  | some x =>
    if T.relocatable then (some x, none)
    else if T.moveConstructible then (some (T.mv x).1, some (T.mv x).2)
    else (some (T.clone x), some x)

/-- What an operation does. `T` is the payload type. -/
def aStep (T : Ty) (s : AState) : Op → Option AState
  | .ctorNone k _ => if (s.opts k).isNone then some (s.setOpt k (some none)) else none
  | .ctorValue k _ x => if (s.opts k).isNone then some (s.setOpt k (some (some x))) else none
  | .ctorFromStd k _ j =>
    if (s.opts k).isNone then
      (s.stds j).map fun ov =>
        (s.setOpt k (some (moveOut T ov).1)).setStd j (some (moveOut T ov).2)
    else none
  | .assignNullopt k _ => (s.opts k).map fun _ => s.setOpt k (some none)
  | .assignValue k x _ => (s.opts k).map fun _ => s.setOpt k (some (some x))
  | .assignFromStd k j _ =>
    (s.opts k).bind fun _ => (s.stds j).map fun ov =>
      (s.setOpt k (some (moveOut T ov).1)).setStd j (some (moveOut T ov).2)
  -- the conversion takes the value away: the option is empty afterwards
  | .toStd k j _ =>
    if (s.stds j).isNone then
      (s.opts k).map fun ov => (s.setOpt k (some none)).setStd j (some (moveOut T ov).1)
    else none
  | .dtor k _ => (s.opts k).map fun _ => s.setOpt k none
  | .moveCtor k k' _ =>
    if (s.opts k).isNone then
      (s.opts k').map fun ov =>
        -- a type with a destructor is moved out; otherwise the move is a copy
        if T.hasDtor then (s.setOpt k (some ov)).setOpt k' (some none) else s.setOpt k (some ov)
    else none
  | .moveAssign k k' =>
    (s.opts k).bind fun old => (s.opts k').map fun ov =>
      if T.hasDtor then (s.setOpt k (some ov)).setOpt k' (some old) else s.setOpt k (some ov)
  | .relocate k k' =>
    if (s.opts k).isNone then
      (s.opts k').map fun ov => (s.setOpt k (some ov)).setOpt k' none
    else none
  | .copyCtor k k' _ =>
    if (s.opts k).isNone then (s.opts k').map fun ov => s.setOpt k (some (ov.map T.clone))
    else none
  | .copyAssign k k' _ =>
    (s.opts k).bind fun _ => (s.opts k').map fun ov =>
      if k = k' then s else s.setOpt k (some (ov.map T.clone))
  | .rustSet k ov _ => (s.opts k).map fun _ => s.setOpt k (some ov)
  | .stdNew j ov => if (s.stds j).isNone then some (s.setStd j (some ov)) else none
  | .stdDtor j => (s.stds j).map fun _ => s.setStd j none

def aRun (T : Ty) (s : AState) : List Op → Option AState
  | [] => some s
  | op :: ops => (aStep T s op).bind fun s => aRun T s ops

/-- The C++ program sees the option `o` as `ov`, and Rust sees the same thing in its bytes:
* `has_value()` says whether there is a value, `*o` yields it and aborts otherwise;
* rustc reads the variant and the payload of `ov` from the storage. -/
structure Agrees (e : Endian) (L : Layout) (o : Obj) (ov : Option Val) : Prop where
  cppHas : hasValue e L o = ov.isSome
  cppDeref : deref e L o = ov.elim (.error .abort) .ok
  rustNone : ov = none → rustVariant e L o.mem = some noneIdx
  rustSome : ∀ x, ov = some x → RustEnc e L o.mem someIdx x

end Verif.RsStd

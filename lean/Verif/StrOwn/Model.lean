import Verif.StrOwn.Spec

/-!
# C++ strings owned by Rust: the code

Sources: `support/cc_std_impl/string.rs`, `support/cc_std_impl/conversion_function_helpers.h`.  A `std::string` is its
bytes; `junk` says what a C++ implementation leaves in a string that was moved from.  Allocation does not fail.
-/

namespace Verif.StrOwn

/-- Memory. -/
structure State where
  /-- `std::string` objects on the C++ heap -/
  heap : Nat → Option Bytes
  /-- the next address -/
  next : Nat
  /-- addresses given to `delete`, in order -/
  deleted : List Nat
  /-- Rust variables: `string_wrapper::owned_cpp_string` -/
  vars : Nat → Option Nat
  /-- pointers in bridge buffers -/
  wire : Nat → Option Nat
  /-- `std::string` objects elsewhere -/
  places : Nat → Option Bytes

/-- `new std::string(…)`. -/
def State.alloc (c : State) (b : Bytes) : State × Nat :=
  ({ c with heap := upd c.heap c.next (some b), next := c.next + 1 }, c.next)

/-- `StringDelete`, `conversion_function_helpers.h:60`; `none`: no object there. -/
def State.delete (c : State) (p : Nat) : Option State := match c.heap p with
  | some _ => some { c with heap := upd c.heap p none, deleted := c.deleted ++ [p] }
  | none => none

/-- Construction in place: the place must be free. -/
def State.construct (c : State) (s : Nat) (b : Bytes) : Option State :=
  if (c.places s).isSome then none else some { c with places := upd c.places s (some b) }

/-- A variable is only defined when it is not there (Rust drops the old value before). -/
def State.define (c : State) (v p : Nat) : Option State :=
  if (c.vars v).isSome then none else some { c with vars := upd c.vars v (some p) }

/-- The operations; `none`: undefined behaviour, or a variable that is not there. -/
def State.step (junk : Bytes → Bytes) (c : State) : Op → Option (State × Obs)
  -- `From<&[u8]>`, `string.rs:186–199` with `StringCreateFromBuffer`, `.h:34–36`; the other `From`s and `default`
  -- convert to bytes (`string.rs:134–138`, `162–184`)
  | .fromBytes v b =>
      let (c', p) := c.alloc b
      (c'.define v p).map fun c => (c, .nothing)
  -- `clone`, `string.rs:140–153`, `StringCopyOwnedPtr`, `.h:49–51`
  | .clone v w => match c.vars v with
      | none => none
      | some p => match c.heap p with
          | none => none
          | some b =>
              let (c', q) := c.alloc b
              (c'.define w q).map fun c => (c, .nothing)
  -- `drop`, `string.rs:155–163`
  | .drop v => match c.vars v with
      | none => none
      | some p => ({ c with vars := upd c.vars v none }.delete p).map fun c => (c, .nothing)
  -- `deref`, `string.rs:201–223`
  | .read v => match c.vars v with
      | none => none
      | some p => match c.heap p with
          | none => none
          | some b => some (c, .bytes (some b))
  -- `eq`, `string.rs:119–130`, `StringEqual`, `.h:55–58`
  | .eq v w => match c.vars v, c.vars w with
      | some p, some q => match c.heap p, c.heap q with
          | some a, some b => some (c, .bool (some (decide (a = b))))
          | _, _ => none
      | _, _ => none
  -- `BoxedCppStringAbi::encode`, `string.rs:275–277`: `ManuallyDrop`
  | .encode v t => match c.vars v, c.wire t with
      | some p, none => some ({ c with vars := upd c.vars v none, wire := upd c.wire t (some p) }, .nothing)
      | _, _ => none
  -- `BoxedCppStringAbi::decode`, `string.rs:279–287`
  | .decode t v => match c.wire t with
      | none => none
      | some p => ({ c with wire := upd c.wire t none }.define v p).map fun c => (c, .nothing)
  -- `rust_string_to_cpp_string`, `string.rs:292–303`, `StringCreateInPlace`, `.h:29–32`
  | .toCpp v s => match c.vars v with
      | none => none
      | some p => match c.heap p with
          | none => none
          | some b => ({ c with heap := upd c.heap p (some (junk b)) }.construct s b).map fun c => (c, .nothing)
  -- `cpp_string_to_rust_string`, `string.rs:305–319`, `StringMoveOwnedPtr`, `.h:43–45`
  | .toRust s v => match c.places s with
      | none => none
      | some b =>
          let (c', p) := { c with places := upd c.places s (some (junk b)) }.alloc b
          (c'.define v p).map fun c => (c, .nothing)
  -- `ctor_new` and `pinned_drop` of `new_string`, `string.rs:382–471`, `.h:62–77`
  | .newDefault s => (c.construct s []).map fun c => (c, .nothing)
  | .newBytes s b => (c.construct s b).map fun c => (c, .nothing)
  | .newCopy s src => match c.places src with
      | none => none
      | some b => (c.construct s b).map fun c => (c, .nothing)
  | .newMove s src => match c.places src with
      | none => none
      | some b => ({ c with places := upd c.places src (some (junk b)) }.construct s b).map fun c => (c, .nothing)
  | .destroy s => match c.places s with
      | none => none
      | some _ => some ({ c with places := upd c.places s none }, .nothing)
  -- `deref`, `as_mut_slice`, `eq` of `new_string`, `string.rs:475–495`, `526–550`
  | .readNew s => match c.places s with
      | none => none
      | some b => some (c, .bytes (some b))
  | .writeNew s i b => match c.places s with
      | none => none
      | some x => if i < x.length then some ({ c with places := upd c.places s (some (x.set i b)) }, .nothing) else none
  | .eqNew s s' => match c.places s, c.places s' with
      | some a, some b => some (c, .bool (some (decide (a = b))))
      | _, _ => none

def State.run (junk : Bytes → Bytes) (c : State) : List Op → Option (State × List Obs)
  | [] => some (c, [])
  | op :: ops => match c.step junk op with
      | none => none
      | some (c', o) => match c'.run junk ops with
          | none => none
          | some (c'', os) => some (c'', o :: os)

def State.init : State := ⟨fun _ => none, 1, [], fun _ => none, fun _ => none, fun _ => none⟩

end Verif.StrOwn

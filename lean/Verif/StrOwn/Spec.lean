/-!
# C++ strings owned by Rust: specification

Source of the property: the comments of `support/cc_std_impl/string.rs`.  The specification knows no pointers: a
variable holds bytes, or nothing that may be relied on once it has been moved from.
-/

namespace Verif.StrOwn

abbrev Bytes := List Nat

/-- What a program can do.  `v`, `w`: Rust variables of type `string_wrapper`; `s`: places that hold a `std::string`
itself (C++ variables, or pinned `new_string`s); `t`: values on their way through the bridge. -/
inductive Op where
  | fromBytes (v : Nat) (b : Bytes)
  | clone (v w : Nat)
  | drop (v : Nat)
  | read (v : Nat)
  | eq (v w : Nat)
  | encode (v t : Nat)
  | decode (t v : Nat)
  /-- `rust_string_to_cpp_string` -/
  | toCpp (v s : Nat)
  /-- `cpp_string_to_rust_string` -/
  | toRust (s v : Nat)
  | newDefault (s : Nat)
  | newBytes (s : Nat) (b : Bytes)
  | newCopy (s src : Nat)
  | newMove (s src : Nat)
  | destroy (s : Nat)
  | readNew (s : Nat)
  | writeNew (s i b : Nat)
  | eqNew (s s' : Nat)

/-- A value: bytes, or unspecified. -/
abbrev Val := Option Bytes

structure AState where
  vars : Nat → Option Val
  places : Nat → Option Val
  wire : Nat → Option Val

def upd {α : Type} (f : Nat → Option α) (k : Nat) (v : Option α) : Nat → Option α := fun n => if n = k then v else f n

/-- What is observed: bytes or a truth value; unspecified if a value is. -/
inductive Obs where
  | nothing
  | bytes (b : Val)
  | bool (b : Option Bool)

/-- Two values are compared byte by byte. -/
def sameBytes (a b : Val) : Option Bool := match a, b with
  | some a, some b => some (decide (a = b))
  | _, _ => none

/-- The meaning of an operation; `none`: the program uses a variable that is not there, or defines one that is. -/
def AState.step (a : AState) : Op → Option (AState × Obs)
  | .fromBytes v b =>
      if (a.vars v).isSome then none else some ({ a with vars := upd a.vars v (some (some b)) }, .nothing)
  | .clone v w => match a.vars v, a.vars w with
      | some x, none => some ({ a with vars := upd a.vars w (some x) }, .nothing)
      | _, _ => none
  | .drop v => match a.vars v with
      | some _ => some ({ a with vars := upd a.vars v none }, .nothing)
      | none => none
  | .read v => match a.vars v with
      | some x => some (a, .bytes x)
      | none => none
  | .eq v w => match a.vars v, a.vars w with
      | some x, some y => some (a, .bool (sameBytes x y))
      | _, _ => none
  | .encode v t => match a.vars v, a.wire t with
      | some x, none => some ({ a with vars := upd a.vars v none, wire := upd a.wire t (some x) }, .nothing)
      | _, _ => none
  | .decode t v => match a.wire t, a.vars v with
      | some x, none => some ({ a with wire := upd a.wire t none, vars := upd a.vars v (some x) }, .nothing)
      | _, _ => none
  | .toCpp v s => match a.vars v, a.places s with
      | some x, none => some ({ a with vars := upd a.vars v (some none), places := upd a.places s (some x) }, .nothing)
      | _, _ => none
  | .toRust s v => match a.places s, a.vars v with
      | some x, none => some ({ a with vars := upd a.vars v (some x), places := upd a.places s (some none) }, .nothing)
      | _, _ => none
  | .newDefault s =>
      if (a.places s).isSome then none else some ({ a with places := upd a.places s (some (some [])) }, .nothing)
  | .newBytes s b =>
      if (a.places s).isSome then none else some ({ a with places := upd a.places s (some (some b)) }, .nothing)
  | .newCopy s src => match a.places src, a.places s with
      | some x, none => some ({ a with places := upd a.places s (some x) }, .nothing)
      | _, _ => none
  | .newMove s src => match a.places src, a.places s with
      | some x, none => some ({ a with places := upd (upd a.places src (some none)) s (some x) }, .nothing)
      | _, _ => none
  | .destroy s => match a.places s with
      | some _ => some ({ a with places := upd a.places s none }, .nothing)
      | none => none
  | .readNew s => match a.places s with
      | some x => some (a, .bytes x)
      | none => none
  | .writeNew s i b => match a.places s with
      | some (some x) =>
          if i < x.length then some ({ a with places := upd a.places s (some (some (x.set i b))) }, .nothing) else none
      | _ => none
  | .eqNew s s' => match a.places s, a.places s' with
      | some x, some y => some (a, .bool (sameBytes x y))
      | _, _ => none

def AState.run (a : AState) : List Op → Option (AState × List Obs)
  | [] => some (a, [])
  | op :: ops => match a.step op with
      | none => none
      | some (a', o) => match a'.run ops with
          | none => none
          | some (a'', os) => some (a'', o :: os)

def AState.init : AState := ⟨fun _ => none, fun _ => none, fun _ => none⟩

/-- A value that is really there is one that the specification allows. -/
def Val.allows (x : Val) (b : Bytes) : Prop := x = none ∨ x = some b

def Obs.allows : Obs → Obs → Prop
  | .nothing, .nothing => True
  | .bytes x, .bytes (some b) => x.allows b
  | .bool x, .bool (some b) => x = none ∨ x = some b
  | _, _ => False

end Verif.StrOwn

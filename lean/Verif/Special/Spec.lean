/-!
# C++ special members of Rust types: specification

What `docs/rust/movable_types.md` promises to C++ users of a Rust type: which of the default
constructor, copy and move operations exist, and what they do to the values.
-/

namespace Verif.Special

/-- What Rust says about a type.  `copy`, `clone`, `dflt`, `unpin`: it implements the trait.
`needsDrop`: it has a destructor. -/
structure Traits where
  copy : Bool
  clone : Bool
  dflt : Bool
  unpin : Bool
  needsDrop : Bool
deriving DecidableEq, Repr

/-- What the Rust language guarantees: `Copy: Clone`, and `Copy` types have no destructor. -/
def Traits.Legal (t : Traits) : Prop := t.copy = true → t.clone = true ∧ t.needsDrop = false

/-- What the trait implementations compute: the contents of `Default::default()`, and of a clone. -/
structure Impl where
  dflt : Nat
  clone : Nat → Nat

/-- What a C++ program does with variables of the type.  `inPlace`: whether this call of
`Clone::clone_from` keeps the old value's resources (a user may implement it so) or drops the old
value. -/
inductive Op where
  | defaultCtor (x : Nat)
  | copyCtor (x y : Nat)
  | moveCtor (x y : Nat)
  | copyAssign (x y : Nat) (inPlace : Bool)
  | moveAssign (x y : Nat) (inPlace : Bool)
  | destroy (x : Nat)
  | relocate (x y : Nat)
  | fromRust (x c : Nat)
  | mutate (x c : Nat)
deriving DecidableEq, Repr

/-- What a variable holds: given contents; some valid value; or it has been moved from and may only be
assigned to and destroyed. -/
inductive Held where
  | val (c : Nat)
  | unspecified
  | stale
deriving DecidableEq, Repr

/-- The contents of a copy. -/
def copied (t : Traits) (i : Impl) : Held → Option Held
  | .val c => if t.clone then some (.val (if t.copy then c else i.clone c)) else none
  | .unspecified => if t.clone then some .unspecified else none
  | .stale => none

/-- What a move gives to the new object, and leaves in the old one.  `left`: what the third way of moving
leaves behind. -/
def moved (t : Traits) (i : Impl) (left : Held) (h : Held) : Option (Held × Held) :=
  if h = .stale then none
  else if t.needsDrop = false then some (h, if t.copy then h else .stale)
  else if t.dflt && t.unpin then some (h, left)
  else (copied t i h).map fun h' => (h', h)

/-- Change a function at one point. -/
def upd {α β : Type} [DecidableEq α] (f : α → β) (n : α) (v : β) : α → β :=
  fun m => if m = n then v else f m

/-- One step; `none`: the operation does not exist or is used against its documentation. -/
def specStep (t : Traits) (i : Impl) (s : Nat → Option Held) : Op → Option (Nat → Option Held)
  | .defaultCtor x =>
      if s x = none && t.dflt then some (upd s x (some (.val i.dflt))) else none
  | .copyCtor x y =>
      match s x, s y with
      | none, some h => (copied t i h).map fun h' => upd s x (some h')
      | _, _ => none
  | .moveCtor x y =>
      match s x, s y with
      | none, some h =>
          (moved t i (.val i.dflt) h).map fun p => upd (upd s y (some p.2)) x (some p.1)
      | _, _ => none
  | .copyAssign x y _ =>
      match s x, s y with
      | some _, some h =>
          (copied t i h).map fun h' => if x = y then s else upd s x (some h')
      | _, _ => none
  | .moveAssign x y _ =>
      match s x, s y with
      | some _, some h =>
          (moved t i .unspecified h).map fun p => if x = y then s else
            upd (upd s y (some p.2)) x (some p.1)
      | _, _ => none
  | .destroy x =>
      match s x with
      | some _ => some (upd s x none)
      | none => none
  | .relocate x y =>
      match s x, s y with
      | none, some h => some (upd (upd s y none) x (some h))
      | _, _ => none
  | .fromRust x c => if s x = none then some (upd s x (some (.val c))) else none
  | .mutate x c =>
      match s x with
      | some .stale => none
      | some _ => some (upd s x (some (.val c)))
      | none => none

/-- A program. -/
def specRun (t : Traits) (i : Impl) (s : Nat → Option Held) : List Op → Option (Nat → Option Held)
  | [] => some s
  | o :: os => (specStep t i s o).bind fun s' => specRun t i s' os

end Verif.Special

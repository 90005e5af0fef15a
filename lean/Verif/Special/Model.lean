import Verif.Special.Spec

/-!
# C++ special members of Rust types: the code

Sources: `cc_bindings_from_rs/generate_bindings/lib.rs:1388–1745`, `generate_struct_and_union.rs:1443–1510`
and `2982–3014`, `database/adt_core_bindings.rs:107–163`, `support/internal/memswap.h`,
`support/internal/slot.h`.
-/

namespace Verif.Special

/-- `adt_core_bindings.rs:109–115`. -/
inductive CopyStyle where
  | copy
  | clone
deriving DecidableEq, Repr

/-- `adt_core_bindings.rs:132–141`. -/
inductive MoveStyle where
  | default
  | memSwap
  | copy
deriving DecidableEq, Repr

/-- `adt_core_bindings.rs:119–128`, `lib.rs:1472–1484`. -/
def copyStyle (t : Traits) : Option CopyStyle :=
  if t.copy then some .copy
  else if t.clone then some .clone
  else none

/-- `adt_core_bindings.rs:146–162`, `lib.rs:1619–1635`. -/
def moveStyle (t : Traits) : Option MoveStyle :=
  if !t.needsDrop then some .default
  else if t.dflt && t.unpin then some .memSwap
  else if (copyStyle t).isSome then some .copy
  else none

/-! ## Memory -/

/-- A Rust value: its identity (what its destructor will release) and its contents. -/
structure Val where
  id : Nat
  c : Nat
deriving DecidableEq, Repr

/-- Where objects live: variables, and a temporary. -/
inductive Loc where
  | var (x : Nat)
  | tmp
deriving DecidableEq, Repr

/-- The storage of objects (`some none`: storage whose bytes have not been initialised), fresh identities,
the destructors that ran, and whether Rust code has been given uninitialised bytes. -/
structure St where
  objs : Loc → Option (Option Val)
  next : Nat
  drops : List Nat
  ub : Bool

/-- The beginning. -/
def St.init : St := ⟨fun _ => none, 0, [], false⟩

/-- Write an object. -/
def St.put (s : St) (l : Loc) (c : Option (Option Val)) : St := { s with objs := upd s.objs l c }

/-- A new Rust value in an object. -/
def St.make (s : St) (l : Loc) (c : Nat) : St :=
  { s.put l (some (some ⟨s.next, c⟩)) with next := s.next + 1 }

/-! ## The Rust thunks -/

/-- `Drop::drop`: `drop_in_place`. -/
def rsDrop (l : Loc) (s : St) : St :=
  match s.objs l with
  | some (some v) => { s with drops := s.drops ++ [v.id] }
  | _ => { s with ub := true }

/-- `Clone::clone(other)`, written to `dst`. -/
def rsClone (i : Impl) (dst src : Loc) (s : St) : St :=
  match s.objs src with
  | some (some v) => s.make dst (i.clone v.c)
  | _ => { s with ub := true }

/-- `Clone::clone_from(dst, src)`: keeps the old value's resources, or drops the old value. -/
def rsCloneFrom (t : Traits) (i : Impl) (inPlace : Bool) (dst src : Loc) (s : St) : St :=
  match s.objs dst, s.objs src with
  | some (some d), some (some v) =>
      if inPlace then s.put dst (some (some ⟨d.id, i.clone v.c⟩))
      else (if t.needsDrop then rsDrop dst s else s).make dst (i.clone v.c)
  | _, _ => { s with ub := true }

/-! ## The C++ members -/

/-- `generate_struct_and_union.rs:1443–1494`: the destructor; then the storage is gone. -/
def destroy (t : Traits) (l : Loc) (s : St) : St :=
  (if t.needsDrop then rsDrop l s else s).put l none

/-- Copy the bytes of an object. -/
def copyBytes (dst src : Loc) (s : St) : St := s.put dst (s.objs src)

/-- `memswap.h:24–33`. -/
def memSwap (a b : Loc) (s : St) : St :=
  if a = b then s else (s.put a (s.objs b)).put b (s.objs a)

/-- `operator=(const T&)`, `lib.rs:1501–1582`; `none`: deleted. -/
def copyAssignOp (t : Traits) (i : Impl) (inPlace : Bool) (a b : Loc) (s : St) : Option St :=
  match copyStyle t with
  | some .copy => some (copyBytes a b s)
  | some .clone => some (if a = b then s else rsCloneFrom t i inPlace a b s)
  | none => none

/-- `*a = std::move(*b)`: overload resolution between `operator=(T&&)`, `lib.rs:1650–1715`, and
`operator=(const T&)`. -/
def moveAssignOp (t : Traits) (i : Impl) (inPlace : Bool) (a b : Loc) (s : St) : Option St :=
  match moveStyle t with
  | some .default => some (copyBytes a b s)
  | some .memSwap => some (memSwap a b s)
  | some .copy => copyAssignOp t i inPlace a b s
  | none => none

/-- The body of a constructor whose value comes from a thunk: when the type is passed in registers
(`is_c_abi_compatible_by_value`, `query_compiler.rs:43–121`), the thunk's result is a temporary that is
assigned to `*this` (`lib.rs:1432–1436`, `lib.rs:1560–1563`); otherwise the thunk writes to `*this`. -/
def ctorBody (t : Traits) (i : Impl) (cabi : Bool) (l : Loc) (thunk : Loc → St → St) (s : St) : Option St :=
  let s0 := s.put l (some none)
  if cabi then
    (moveAssignOp t i false l .tmp (thunk .tmp s0)).map fun s1 => destroy t .tmp s1
  else some (thunk l s0)

/-- The default constructor, `lib.rs:1388–1457`; `none`: deleted. -/
def defaultCtor (t : Traits) (i : Impl) (cabi : Bool) (l : Loc) (s : St) : Option St :=
  if t.dflt then ctorBody t i cabi l (fun d s => s.make d i.dflt) s else none

/-- The copy constructor, `lib.rs:1501–1582`. -/
def copyCtor (t : Traits) (i : Impl) (cabi : Bool) (l o : Loc) (s : St) : Option St :=
  match copyStyle t with
  | some .copy => some (copyBytes l o s)
  | some .clone => ctorBody t i cabi l (fun d s => rsClone i d o s) s
  | none => none

/-- The move constructor, `lib.rs:1650–1715`: with `MemSwap`, default construction and then move
assignment. -/
def moveCtor (t : Traits) (i : Impl) (cabi : Bool) (l o : Loc) (s : St) : Option St :=
  match moveStyle t with
  | some .default => some (copyBytes l o s)
  | some .memSwap => (defaultCtor t i cabi l s).bind fun s1 => moveAssignOp t i false l o s1
  | some .copy => copyCtor t i cabi l o s
  | none => none

/-- The relocating constructor (`generate_struct_and_union.rs:2982–3014`) and `trivial_abi`: the bytes are
copied, the old object is not destroyed. -/
def relocate (l o : Loc) (s : St) : St := (copyBytes l o s).put o none

/-! ## Programs -/

/-- One step of a C++ program. -/
def step (t : Traits) (i : Impl) (cabi : Bool) (s : St) : Op → Option St
  | .defaultCtor x =>
      if (s.objs (.var x)).isNone then defaultCtor t i cabi (.var x) s else none
  | .copyCtor x y =>
      if (s.objs (.var x)).isNone && (s.objs (.var y)).isSome then
        copyCtor t i cabi (.var x) (.var y) s else none
  | .moveCtor x y =>
      if (s.objs (.var x)).isNone && (s.objs (.var y)).isSome then
        moveCtor t i cabi (.var x) (.var y) s else none
  | .copyAssign x y inPlace =>
      if (s.objs (.var x)).isSome && (s.objs (.var y)).isSome then
        copyAssignOp t i inPlace (.var x) (.var y) s else none
  | .moveAssign x y inPlace =>
      if (s.objs (.var x)).isSome && (s.objs (.var y)).isSome then
        moveAssignOp t i inPlace (.var x) (.var y) s else none
  | .destroy x => if (s.objs (.var x)).isSome then some (destroy t (.var x) s) else none
  | .relocate x y =>
      if (s.objs (.var x)).isNone && (s.objs (.var y)).isSome then
        some (relocate (.var x) (.var y) s) else none
  | .fromRust x c =>
      if (s.objs (.var x)).isNone then
        -- `slot.h:88–96`: the thunk writes to the slot's storage, which is then relocated.
        some (relocate (.var x) .tmp (s.make .tmp c)) else none
  | .mutate x c =>
      match s.objs (.var x) with
      | some (some v) => some (s.put (.var x) (some (some ⟨v.id, c⟩)))
      | _ => none

/-- A program. -/
def run (t : Traits) (i : Impl) (cabi : Bool) (s : St) : List Op → Option St
  | [] => some s
  | o :: os => (step t i cabi s o).bind fun s' => run t i cabi s' os

end Verif.Special

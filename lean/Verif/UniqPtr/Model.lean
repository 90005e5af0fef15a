import Verif.UniqPtr.Spec

/-!
# `unique_ptr` in Rust: the code

Sources: `support/cc_std_impl/unique_ptr.rs`, `support/cc_std_impl/std_allocator.h`.  C++ itself (`new`, `delete`, moves
of `std::unique_ptr`) is the environment.  Destructors are logged; they do nothing else and do not throw.
-/

namespace Verif.UniqPtr

/-- Memory at an address: how it was obtained, and the object in it (`none` once destroyed). -/
structure Cell where
  req : Req
  obj : Option Obj

/-- `unique_ptr::ptr`, `unique_ptr.rs:36–42`, with its type. -/
structure Var where
  kind : Kind
  ty : Ty
  ptr : Option Nat

structure State where
  heap : Nat → Option Cell
  next : Nat
  vars : Nat → Option Var
  raws : Nat → Option (Option Nat)
  /-- objects made: address and type -/
  created : List (Nat × Ty)
  /-- destructors run: the address and the type the destructor belongs to -/
  destroyed : List (Nat × Ty)
  /-- calls of `operator delete` -/
  freed : List (Nat × Free)

structure Cfg where
  /-- `__STDCPP_DEFAULT_NEW_ALIGNMENT__` -/
  dflt : Nat
  /-- `__cpp_sized_deallocation` -/
  sized : Bool

/-- Running the destructor of `t` on the object at `p`: undefined if the object is not there or has another most derived
type. -/
def State.destroy (c : State) (t : Ty) (p : Nat) : Option State := match c.heap p with
  | some ⟨r, some o⟩ =>
      if o.ty = t then some { c with heap := set c.heap p (some ⟨r, none⟩), destroyed := c.destroyed ++ [(p, t)] } else none
  | _ => none

/-- `operator delete`: undefined if the memory is not there, still has an object, or was obtained otherwise. -/
def State.operatorDelete (c : State) (p : Nat) (f : Free) : Option State := match c.heap p with
  | some ⟨r, none⟩ =>
      if (f.size = none ∨ f.size = some r.size) ∧ f.align = r.align then
        some { c with heap := set c.heap p none, freed := c.freed ++ [(p, f)] }
      else none
  | _ => none

/-- `cpp_delete`, `std_allocator.h:28–42`. -/
def State.cppDelete (g : Cfg) (c : State) (p n align : Nat) : Option State :=
  if g.sized then
    if align ≤ g.dflt then c.operatorDelete p ⟨some n, none⟩ else c.operatorDelete p ⟨some n, some align⟩
  else
    if align ≤ g.dflt then c.operatorDelete p ⟨none, none⟩ else c.operatorDelete p ⟨none, some align⟩

/-- C++ `delete p` for a `p` of the most derived type or of a base with virtual destructor: C++ itself picks the
destructor and the call of `operator delete`.  `T::delete` of `virtual_unique_ptr` (`support/operator.rs`) is this. -/
def State.deleteExpr (g : Cfg) (c : State) (p : Nat) : Option State := match c.heap p with
  | some ⟨_, some o⟩ => match c.destroy o.ty p with
      | some c' => c'.operatorDelete p ⟨if g.sized then some o.ty.size else none, (o.ty.req g.dflt).align⟩
      | none => none
  | _ => none

/-- `drop` of `unique_ptr`, `unique_ptr.rs:114–129`, and of `virtual_unique_ptr`, lines 233–242.  `delete` through a base
`t` is undefined unless the object derives from `t`. -/
def State.dropVar (g : Cfg) (derives : Ty → Ty → Bool) (c : State) (x : Var) : Option State := match x.ptr with
  | none => some c
  | some p => match x.kind with
      | .plain => match c.destroy x.ty p with
          | some c' => c'.cppDelete g p x.ty.size x.ty.align
          | none => none
      | .virt => match c.heap p with
          | some ⟨_, some o⟩ => if derives o.ty x.ty then c.deleteExpr g p else none
          | _ => none

/-- The operations; `none`: undefined behaviour, or a variable that is not there. -/
def State.step (g : Cfg) (derives : Ty → Ty → Bool) (c : State) : Op → Option (State × Obs)
  | .cppNew r t b =>
      if (c.raws r).isSome then none
      else some ({ c with heap := set c.heap c.next (some ⟨t.req g.dflt, some ⟨t, b⟩⟩), next := c.next + 1,
                          raws := set c.raws r (some (some c.next)), created := c.created ++ [(c.next, t)] }, .nothing)
  | .nullptr r => if (c.raws r).isSome then none else some ({ c with raws := set c.raws r (some none) }, .nothing)
  | .cppDelete r => match c.raws r with
      | none => none
      | some none => some ({ c with raws := set c.raws r none }, .nothing)
      | some (some p) => ({ c with raws := set c.raws r none }.deleteExpr g p).map fun c => (c, .nothing)
  -- `new`, lines 63–65, 188–190
  | .wrap k t r v => match c.raws r, c.vars v with
      | some p, none => some ({ c with raws := set c.raws r none, vars := set c.vars v (some ⟨k, t, p⟩) }, .nothing)
      | _, _ => none
  -- `release`, lines 84–86, 208–210
  | .release v r => match c.vars v, c.raws r with
      | some x, none =>
          some ({ c with vars := set c.vars v (some { x with ptr := none }), raws := set c.raws r (some x.ptr) }, .nothing)
      | _, _ => none
  -- `get`, lines 75–77, 200–202
  | .isNull v => match c.vars v with
      | none => none
      | some x => some (c, .bool x.ptr.isNone)
  -- `as_ref`, lines 92–95, 217–220
  | .read v => match c.vars v with
      | none => none
      | some x => match x.ptr with
          | none => some (c, .content none)
          | some p => match c.heap p with
              | some ⟨_, some o⟩ => some (c, .content (some o.content))
              | _ => none
  -- `as_mut`, `as_pin`, lines 98–111, 223–236
  | .write v b => match c.vars v with
      | none => none
      | some x => match x.ptr with
          | none => some (c, .bool false)
          | some p => match c.heap p with
              | some ⟨r, some o⟩ =>
                  some ({ c with heap := set c.heap p (some ⟨r, some { o with content := b }⟩) }, .bool true)
              | _ => none
  | .drop v => match c.vars v with
      | none => none
      | some x => ({ c with vars := set c.vars v none }.dropVar g derives x).map fun c => (c, .nothing)
  | .move v w => match c.vars v, c.vars w with
      | some x, none => some ({ c with vars := set (set c.vars v none) w (some x) }, .nothing)
      | _, _ => none
  | .cppMove v w => match c.vars v, c.vars w with
      | some x, none => some ({ c with vars := set (set c.vars v (some { x with ptr := none })) w (some x) }, .nothing)
      | _, _ => none

def State.run (g : Cfg) (derives : Ty → Ty → Bool) (c : State) : List Op → Option (State × List Obs)
  | [] => some (c, [])
  | op :: ops => match c.step g derives op with
      | none => none
      | some (c', o) => match c'.run g derives ops with
          | none => none
          | some (c'', os) => some (c'', o :: os)

def State.init : State := ⟨fun _ => none, 1, fun _ => none, fun _ => none, [], [], []⟩

end Verif.UniqPtr

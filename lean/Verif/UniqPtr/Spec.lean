/-!
# `unique_ptr` in Rust: specification

Source of the property: the comments of `support/cc_std_impl/unique_ptr.rs`.  The specification has no addresses: a
`unique_ptr` is nothing, or an object.
-/

namespace Verif.UniqPtr

/-- A C++ type. -/
structure Ty where
  id : Nat
  size : Nat
  align : Nat
  deriving DecidableEq

/-- An object: its most derived type and its content. -/
structure Obj where
  ty : Ty
  content : Nat
  deriving DecidableEq

/-- `unique_ptr<T>` or `virtual_unique_ptr<T>`. -/
inductive Kind where
  | plain
  | virt
  deriving DecidableEq

/-- What a program can do.  `v`, `w`: variables of type `unique_ptr` in Rust or C++; `r`: raw pointers that own what
they point to. -/
inductive Op where
  /-- C++ `new T(…)` -/
  | cppNew (r : Nat) (t : Ty) (b : Nat)
  | nullptr (r : Nat)
  /-- C++ `delete r` -/
  | cppDelete (r : Nat)
  /-- `new`, with `T = t` -/
  | wrap (k : Kind) (t : Ty) (r v : Nat)
  | release (v r : Nat)
  | isNull (v : Nat)
  | read (v : Nat)
  | write (v b : Nat)
  /-- Rust: the variable goes out of scope -/
  | drop (v : Nat)
  /-- Rust: `let w = v` -/
  | move (v w : Nat)
  /-- C++: `unique_ptr w = std::move(v)` -/
  | cppMove (v w : Nat)

structure AVar where
  kind : Kind
  ty : Ty
  obj : Option Obj

structure AState where
  vars : Nat → Option AVar
  raws : Nat → Option (Option Obj)

inductive Obs where
  | nothing
  | bool (b : Bool)
  | content (b : Option Nat)
  deriving DecidableEq

def set {α : Type} (f : Nat → Option α) (k : Nat) (v : Option α) : Nat → Option α := fun n => if n = k then v else f n

/-- What the safety comments of `new` ask for: `unique_ptr<T>` only for objects whose most derived type is `T`,
`virtual_unique_ptr<T>` for objects of classes derived from `T`. -/
def wrapOk (derives : Ty → Ty → Prop) (k : Kind) (t : Ty) : Option Obj → Prop
  | none => True
  | some o => match k with
      | .plain => o.ty = t
      | .virt => derives o.ty t

/-- The meaning of an operation; no step: the program uses a variable that is not there, defines one that is, or breaks
the contract of `new`. -/
inductive AState.Step (derives : Ty → Ty → Prop) : AState → Op → AState → Obs → Prop where
  | cppNew {a r t b} : a.raws r = none →
      Step derives a (.cppNew r t b) { a with raws := set a.raws r (some (some ⟨t, b⟩)) } .nothing
  | nullptr {a r} : a.raws r = none → Step derives a (.nullptr r) { a with raws := set a.raws r (some none) } .nothing
  | cppDelete {a r x} : a.raws r = some x →
      Step derives a (.cppDelete r) { a with raws := set a.raws r none } .nothing
  | wrap {a k t r v x} : a.raws r = some x → a.vars v = none → wrapOk derives k t x →
      Step derives a (.wrap k t r v) { a with raws := set a.raws r none, vars := set a.vars v (some ⟨k, t, x⟩) } .nothing
  | release {a v r x} : a.vars v = some x → a.raws r = none →
      Step derives a (.release v r)
        { a with vars := set a.vars v (some { x with obj := none }), raws := set a.raws r (some x.obj) } .nothing
  | isNull {a v x} : a.vars v = some x → Step derives a (.isNull v) a (.bool x.obj.isNone)
  | read {a v x} : a.vars v = some x → Step derives a (.read v) a (.content (x.obj.map Obj.content))
  | write {a v x b} : a.vars v = some x →
      Step derives a (.write v b)
        { a with vars := set a.vars v (some { x with obj := x.obj.map fun o => { o with content := b } }) }
        (.bool x.obj.isSome)
  | drop {a v x} : a.vars v = some x → Step derives a (.drop v) { a with vars := set a.vars v none } .nothing
  | move {a v w x} : a.vars v = some x → a.vars w = none →
      Step derives a (.move v w) { a with vars := set (set a.vars v none) w (some x) } .nothing
  | cppMove {a v w x} : a.vars v = some x → a.vars w = none →
      Step derives a (.cppMove v w)
        { a with vars := set (set a.vars v (some { x with obj := none })) w (some x) } .nothing

inductive AState.Run (derives : Ty → Ty → Prop) : AState → List Op → AState → List Obs → Prop where
  | nil {a} : Run derives a [] a []
  | cons {a op ops a' a'' o os} : Step derives a op a' o → Run derives a' ops a'' os →
      Run derives a (op :: ops) a'' (o :: os)

def AState.init : AState := ⟨fun _ => none, fun _ => none⟩

/-- How memory was obtained: the size, and the alignment if it is above `dflt` (C++ standard, [expr.new]). -/
structure Req where
  size : Nat
  align : Option Nat
  deriving DecidableEq

def Ty.req (dflt : Nat) (t : Ty) : Req := ⟨t.size, if t.align ≤ dflt then none else some t.align⟩

/-- A call of `operator delete`: sizes are passed or not (`sized`), alignments must be those of the allocation
([basic.stc.dynamic.deallocation], [expr.delete]). -/
structure Free where
  size : Option Nat
  align : Option Nat
  deriving DecidableEq

def Free.fits (f : Free) (r : Req) : Prop := (f.size = none ∨ f.size = some r.size) ∧ f.align = r.align

end Verif.UniqPtr

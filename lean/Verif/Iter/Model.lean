import Verif.Iter.Spec

/-
Model of support/rs_std/iterator_adapter.h (`IteratorAdapter`, and `Iterator` for `T*`).

Simplified: one adapter; copies are values of their own. `std::optional` holds an element that is there or moved-from.
-/

namespace Verif.Iter

/-- The value in `current_item_` -/
inductive Cell (α : Type) where
  | full (a : α)
  | moved

/-- `source_` and `current_item_` (iterator_adapter.h:127-130), and what became of elements: dropped, or moved to the user -/
structure Adapter (σ α : Type) where
  source : σ
  current : Option (Cell α)
  gone : List α

/-- What is dropped when the optional is assigned to or destroyed. -/
def Cell.dropped {α : Type} : Option (Cell α) → List α
  | some (.full a) => [a]
  | _ => []

/-- `next()` (iterator_adapter.h:125): the old value of the optional is dropped. -/
def Adapter.next {σ α : Type} (nx : Next σ α) (A : Adapter σ α) : Adapter σ α :=
  { source := (nx A.source).2
    current := (nx A.source).1.map .full
    gone := A.gone ++ Cell.dropped A.current }

/-- The constructor (iterator_adapter.h:71-75) -/
def Adapter.new {σ α : Type} (nx : Next σ α) (s : σ) : Adapter σ α := Adapter.next nx ⟨s, none, []⟩

/-- `operator*` (iterator_adapter.h:113) -/
def Adapter.deref {σ α : Type} (A : Adapter σ α) : Obs α :=
  match A.current with
  | some (.full a) => .val a
  | some .moved => .moved
  | none => .error

/-- `iter_move` (iterator_adapter.h:114-116), and the user moves the element elsewhere. -/
def Adapter.take {σ α : Type} (A : Adapter σ α) : Obs α × Adapter σ α :=
  match A.current with
  | some (.full a) => (.got a, { A with current := some .moved, gone := A.gone ++ [a] })
  | some .moved => (.moved, A)
  | none => (.error, A)

/-- `operator==(IteratorEnd)` (iterator_adapter.h:122) -/
def Adapter.isEnd {σ α : Type} (A : Adapter σ α) : Bool := A.current.isNone

/-- The operators, `operator++` (iterator_adapter.h:117-121) -/
def Adapter.op {σ α : Type} (nx : Next σ α) (A : Adapter σ α) : Op → Obs α × Adapter σ α
  | .inc => (.none, A.next nx)
  | .deref => (A.deref, A)
  | .take => A.take
  | .isEnd => (.isEnd A.isEnd, A)

def Adapter.run {σ α : Type} (nx : Next σ α) (A : Adapter σ α) : List Op → List (Obs α) × Adapter σ α
  | [] => ([], A)
  | o :: ops =>
      let (x, A) := A.op nx o
      let (xs, A) := A.run nx ops
      (x :: xs, A)

/-- The destructor: what has become of elements by then -/
def Adapter.destroy {σ α : Type} (A : Adapter σ α) : List α := A.gone ++ Cell.dropped A.current

/-- `for (; it != IteratorEnd(); ++it) { … *it … }` -/
inductive CppFor {σ α : Type} (nx : Next σ α) : Adapter σ α → List α → Adapter σ α → Prop where
  | done {A : Adapter σ α} : A.isEnd = true → CppFor nx A [] A
  | step {A A' : Adapter σ α} {a : α} {l : List α} : A.isEnd = false → A.deref = .val a → CppFor nx (A.next nx) l A' →
      CppFor nx A (a :: l) A'

end Verif.Iter

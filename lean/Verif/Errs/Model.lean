/-!
# Collections of errors that are not reported yet

Models `/repo/common/errors.rs`, `Errors`. Errors are values of any type, and so are the values
of successful results. `RefCell` borrows end within each function.
-/
namespace Verif.Errs

/-- `Errors`, lines 29-32. -/
structure Errors (α : Type) where
  list : List α

/-- `Errors::new`, lines 35-37. -/
def new {α : Type} : Errors α := ⟨[]⟩

/-- `add`, lines 39-41. -/
def add {α : Type} (e : α) (s : Errors α) : Errors α := ⟨s.list ++ [e]⟩

/-- `is_empty`, lines 43-45. -/
def isEmpty {α : Type} (s : Errors α) : Bool := s.list.isEmpty

/-- `consume_error`, lines 49-57. -/
def consumeError {α β : Type} (r : Except α β) (s : Errors α) : Option β × Errors α :=
  match r with
  | .ok b => (some b, s)
  | .error e => (none, add e s)

/-- `consolidate`, lines 62-68; `ErrorList` is the list (/repo/common/error_report.rs lines
33-41). -/
def consolidate {α : Type} (s : Errors α) : Except (List α) Unit × Errors α :=
  let errors := s.list
  let s := ⟨[]⟩
  if !errors.isEmpty then (.error errors, s) else (.ok (), s)

/-- `consolidate_on_err`, lines 74-82; `none` is a panic of `unwrap_err`. -/
def consolidateOnErr {α β : Type} (r : Except α β) (s : Errors α) :
    Option (Except (List α) β) × Errors α :=
  match r with
  | .ok b => (some (.ok b), s)
  | .error e =>
    match consolidate (add e s) with
    | (.error l, s) => (some (.error l), s)
    | (.ok (), s) => (none, s)

/-- `discard`, lines 85-87. -/
def discard {α : Type} (_ : Errors α) : Errors α := ⟨[]⟩

/-- `drop`, lines 90-100: the errors in the message of the panic, if it panics. -/
def drop {α : Type} (s : Errors α) : Option (List α) :=
  if s.list.isEmpty then none else some s.list

/-- A call. -/
inductive Call (α β : Type) where
  | add (e : α)
  | isEmpty
  | consumeError (r : Except α β)
  | consolidate
  | consolidateOnErr (r : Except α β)
  | discard

/-- What a call returns. -/
inductive Ret (α β : Type) where
  | unit
  | bool (b : Bool)
  | option (b : Option β)
  | result (r : Except (List α) Unit)
  | resultOf (r : Except (List α) β)
  | panic

/-- A call on a collection. -/
def call {α β : Type} (c : Call α β) (s : Errors α) : Ret α β × Errors α :=
  match c with
  | .add e => (.unit, add e s)
  | .isEmpty => (.bool (isEmpty s), s)
  | .consumeError r => let (o, s) := consumeError r s; (.option o, s)
  | .consolidate => let (r, s) := consolidate s; (.result r, s)
  | .consolidateOnErr r =>
    match consolidateOnErr r s with
    | (some r, s) => (.resultOf r, s)
    | (none, s) => (.panic, s)
  | .discard => (.unit, discard s)

/-- Calls one after the other. -/
def calls {α β : Type} : List (Call α β) → Errors α → List (Ret α β) × Errors α
  | [], s => ([], s)
  | c :: cs, s =>
    let (r, s) := call c s
    let (rs, s) := calls cs s
    (r :: rs, s)

/-- The life of a collection: what its calls return, and the panic at its end. -/
def life {α β : Type} (cs : List (Call α β)) : List (Ret α β) × Option (List α) :=
  let (rs, s) := calls cs new
  (rs, drop s)

end Verif.Errs

import Verif.Movable.Model
/- Specification for C37: `Movable` as an ideal optional value that moves empty out. -/
namespace Verif.Movable

/-- The ideal state: for each name, no object, a valueless one, or a value; likewise for slots. -/
structure Ideal (V : Type) where
  mov : Nat → Option (Option V)
  slot : Nat → Option (Option V)

def Ideal.init {V : Type} : Ideal V := ⟨fun _ => none, fun _ => none⟩

/-- What each operation means. `none`: the *program* misuses the API (uses a name out of scope, dereferences
a valueless object, fills a slot twice, takes from a slot that was never filled, or uses `Slot`'s move
constructor, see `slot_move_is_ub`). -/
def ideal {V : Type} (t : Ty V) (op : Op V) (i : Ideal V) : Option (Ideal V) :=
  match op with
  | .default m => if (i.mov m).isSome then none else some { i with mov := upd i.mov m (some (some t.dflt)) }
  | .emplace m v => if (i.mov m).isSome then none else some { i with mov := upd i.mov m (some (some v)) }
  | .takeFromSlot m k =>
    if (i.mov m).isSome then none
    else match i.slot k with
      | some (some v) => some { mov := upd i.mov m (some (some v)), slot := upd i.slot k (some none) }
      | _ => none
  | .destruct m => if (i.mov m).isSome then some { i with mov := upd i.mov m none } else none
  | .moveCtor m o =>
    if (i.mov m).isSome then none
    else match i.mov o with
      | some v => some { i with mov := upd (upd i.mov o (some none)) m (some v) }
      | none => none
  | .moveAssign m o =>
    match i.mov m, i.mov o with
    | some _, some v => if m = o then some i else some { i with mov := upd (upd i.mov o (some none)) m (some v) }
    | _, _ => none
  | .copyCtor m o =>
    if (i.mov m).isSome then none
    else match i.mov o with
      | some v => some { i with mov := upd i.mov m (some v) }
      | none => none
  | .copyAssign m o =>
    match i.mov m, i.mov o with
    | some _, some v => some { i with mov := upd i.mov m (some v) }
    | _, _ => none
  | .mutate m v =>
    match i.mov m with
    | some (some _) => some { i with mov := upd i.mov m (some (some v)) }
    | _ => none
  | .newSlot k => if (i.slot k).isSome then none else some { i with slot := upd i.slot k (some none) }
  | .fill k v =>
    match i.slot k with
    | some none => some { i with slot := upd i.slot k (some (some v)) }
    | _ => none
  | .take k =>
    match i.slot k with
    | some (some _) => some { i with slot := upd i.slot k (some none) }
    | _ => none
  | .dropSlot k => if (i.slot k).isSome then some { i with slot := upd i.slot k none } else none
  | .moveSlot _ _ => none

/-- A whole history on the ideal state. -/
def idealRun {V : Type} (t : Ty V) : List (Op V) → Ideal V → Option (Ideal V)
  | [], i => some i
  | op :: ops, i => (ideal t op i).bind (idealRun t ops)

end Verif.Movable

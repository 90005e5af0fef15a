import Verif.Ctor.Model
/-
C68-C70: what memory allows. A value that was constructed in place stays there until it is dropped; memory is only written when no value
is there, and only freed when no value is left in it.
-/
namespace Verif.Ctor
open Verif

structure Machine where
  next : Nat
  /-- Values outside. -/
  hand : Nat → Prop
  mem : List Nat → Option Nat

def Machine.init : Machine := ⟨0, fun _ => False, fun _ => none⟩

/-- The effect of an event, if it is allowed. -/
def Step (M : Machine) : Ev → Machine → Prop
  | .make e, M' => e = M.next ∧ M' = { M with next := e + 1, hand := fun x => x = e ∨ M.hand x }
  | .dropHand e, M' => M.hand e ∧ M' = { M with hand := fun x => M.hand x ∧ x ≠ e }
  | .put e p, M' => M.hand e ∧ M.mem p = none ∧
      M' = { M with hand := fun x => M.hand x ∧ x ≠ e, mem := fun q => if q = p then some e else M.mem q }
  | .new e p, M' => e = M.next ∧ M.mem p = none ∧ M' = { M with next := e + 1, mem := fun q => if q = p then some e else M.mem q }
  | .drop e p, M' => M.mem p = some e ∧ M' = { M with mem := fun q => if q = p then none else M.mem q }
  | .forget e p, M' => M.mem p = some e ∧ M' = { M with mem := fun q => if q = p then none else M.mem q }
  | .free x, M' => (∀ q, M.mem (x :: q) = none) ∧ M' = M

def Replay (M : Machine) : List Ev → Machine → Prop
  | [], M' => M' = M
  | ev :: l, M' => ∃ M1, Step M ev M1 ∧ Replay M1 l M'

mutual
/-- The element at a path in a value. -/
def Val.at (q : List Nat) : Val → Option Nat
  | .leaf e => if q = [] then some e else none
  | .struct e vs => match q with
    | [] => some e
    | i :: q => vs.at i q
  | .slotNone => none
  | .slotSome v => match q with
    | 0 :: q => v.at q
    | _ => none
  | .manual v => v.at q
def Vals.at (i : Nat) (q : List Nat) : Vals → Option Nat
  | .nil => none
  | .cons v vs => match i with
    | 0 => v.at q
    | i + 1 => vs.at i q
end

mutual
/-- No closure given to `ctor_then` fails, and default values are made when they are needed. -/
def Ctor.Safe : Ctor → Prop
  | .make | .panics | .error _ | .slotUninit | .move _ => True
  | .andThen c f => c.Safe ∧ f = .ok
  | .mapErr c _ | .expect c | .slotNew c | .manuallyDrop c => c.Safe
  | .orElse c d => c.Safe ∧ d.Safe
  | .unwrapOrDefault c d => c.Safe ∧ d.Safe ∧ d.owned = []
  | .struct cs => cs.Safe
def Ctors.Safe : Ctors → Prop
  | .nil => True
  | .cons c cs => c.Safe ∧ cs.Safe
end

def Op.Safe : Op → Prop
  | .box c | .emplace c | .replace _ c | .reconstruct _ c => c.Safe
  | .clear _ panics => panics = false
  | _ => True

mutual
/-- What the documentation says a `Ctor` evaluates to, as if it were an expression of type `Result` that may panic. -/
def Ctor.eval : Ctor → Out Unit
  | .make | .move _ | .slotUninit => .ok ()
  | .panics => .panic
  | .error k => .err k
  -- `Result::and_then`
  | .andThen c f => match c.eval with
    | .ok () => match f with
      | .ok => .ok ()
      | .err k => .err k
      | .panic => .panic
    | r => r
  | .mapErr c f => match c.eval with
    | .err k => match f k with
      | some k => .err k
      | none => .panic
    | r => r
  | .orElse c d | .unwrapOrDefault c d => match c.eval with
    | .err _ => d.eval
    | r => r
  | .expect c => match c.eval with
    | .err _ => .panic
    | r => r
  | .struct cs => if cs.eval then .ok () else .panic
  | .slotNew c | .manuallyDrop c => c.eval
/-- Do all fields evaluate to values? -/
def Ctors.eval : Ctors → Bool
  | .nil => true
  | .cons c cs => (match c.eval with | .ok () => true | _ => false) && cs.eval
end

mutual
/-- The value has the type of what the `Ctor` constructs. -/
def Val.fits : Ctor → Val → Prop
  | .make, .leaf _ => True
  | .panics, _ => True
  | .move e, .leaf e' => e = e'
  | .error _, _ => True
  | .andThen c _, v | .mapErr c _, v | .expect c, v => v.fits c
  | .orElse c d, v | .unwrapOrDefault c d, v => v.fits c ∨ v.fits d
  | .struct cs, .struct _ vs => vs.fits cs
  | .slotUninit, .slotNone => True
  | .slotNew c, .slotSome v => v.fits c
  | .manuallyDrop c, .manual v => v.fits c
  | _, _ => False
def Vals.fits : Ctors → Vals → Prop
  | .nil, .nil => True
  | .cons c cs, .cons v vs => v.fits c ∧ vs.fits cs
  | _, _ => False
end

end Verif.Ctor

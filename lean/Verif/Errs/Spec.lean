import Verif.Errs.Model

/-!
# What becomes of errors

In terms of calls and what they return only.
-/
namespace Verif.Errs

variable {α β : Type}

/-- The errors given to a call. -/
def Call.given : Call α β → List α
  | .add e => [e]
  | .consumeError (.error e) => [e]
  | .consolidateOnErr (.error e) => [e]
  | _ => []

/-- Whether a call hands out what there is, or throws it away. -/
def Call.Empties : Call α β → Prop
  | .consolidate | .discard | .consolidateOnErr (.error _) => True
  | _ => False

/-- The errors given by calls. -/
def given (cs : List (Call α β)) : List α := cs.flatMap Call.given

/-- `pending cs l`: after the last of `cs` that hands out errors or throws them away, the errors
`l` were given. -/
inductive Pending : List (Call α β) → List α → Prop
  | start (cs) : (∀ c ∈ cs, ¬ c.Empties) → Pending cs (given cs)
  | after (bs c cs) : c.Empties → (∀ c ∈ cs, ¬ c.Empties) → Pending (bs ++ c :: cs) (given cs)

/-- What a call has to return if the errors `l` are pending before it. -/
inductive Answers (l : List α) : Call α β → Ret α β → Prop
  | add (e) : Answers l (.add e) .unit
  | empty (b) : (b = true ↔ l = []) → Answers l .isEmpty (.bool b)
  | consumeOk (b) : Answers l (.consumeError (.ok b)) (.option (some b))
  | consumeErr (e) : Answers l (.consumeError (.error e)) (.option none)
  | consolidateOk : l = [] → Answers l .consolidate (.result (.ok ()))
  | consolidateErr : l ≠ [] → Answers l .consolidate (.result (.error l))
  | onOk (b) : Answers l (.consolidateOnErr (.ok b)) (.resultOf (.ok b))
  | onErr (e) : Answers l (.consolidateOnErr (.error e)) (.resultOf (.error (l ++ [e])))
  | discard : Answers l .discard .unit

/-- The errors handed out by a call. -/
def Ret.errors : Ret α β → List α
  | .result (.error l) | .resultOf (.error l) => l
  | _ => []

end Verif.Errs

import Verif.SharedPtr.Model
/-
C62-C63: what programs may do, and reachable states.
-/
namespace Verif.SharedPtr

/-- `l` is in the value of block `b` or in the object it owns. -/
def Keeps (s : State) (b : Nat) (l : Loc) : Prop := ∃ k, s.blocks b = some k ∧ (l = .inner b ∨ ∃ o, k.val = some o ∧ l = .obj o)

/-- Steps a program can take: it owns what it uses (Rust's ownership, and the preconditions of the unsafe functions), a projection stays in
the memory kept alive by the value (the lifetime in the type of `f`), and new objects are at new addresses. -/
def Enabled (s : State) : Op → Prop
  | .new | .null => True
  | .fromObj o | .dropObj o => .own o ∈ s.toks
  | .project p c target => .strong p c ∈ s.toks ∧ (p ≠ none → ∃ b, c = some b ∧ Keeps s b target)
  | .release p c | .tryAsRef p c | .clone p c | .drop p c => .strong p c ∈ s.toks
  | .destroy b => .destroying b ∈ s.toks
  | .delete b counted => .deleting b counted ∈ s.toks
  | .releaseWeakLoad b => .relWeak b ∈ s.toks
  | .releaseWeakDec b => .relWeak2 b ∈ s.toks
  | .weakFrom p b => .strong p (some b) ∈ s.toks
  | .weakCopy p b | .weakDrop p b | .lock p b => .weak p b ∈ s.toks
  | .mkObj o => s.objs o = 0
  | .arcClone a => .own (.arc a) ∈ s.toks

/-- States reached by any interleaving. -/
inductive Reach : State → Prop
  | init : Reach .init
  | step {s s' : State} (op : Op) : Reach s → Enabled s op → exec s op = some s' → Reach s'

/-- The number of `shared_ptr`s, in Rust or C++, that own a share of block `b`. -/
def owners (s : State) (b : Nat) : Nat := s.toks.countP fun t => match t with
  | .strong _ c => c == some b
  | _ => false

/-- `weak_ptr`s. -/
def weakOwners (s : State) (b : Nat) : Nat := s.toks.countP fun t => match t with
  | .weak _ c => c == b
  | _ => false

/-- A step of dropping a pointer is under way in some thread. -/
def Tok.pending : Tok → Bool
  | .destroying _ | .relWeak _ | .relWeak2 _ | .deleting _ _ => true
  | _ => false

/-- The value of block `b` is alive and owns `o`. -/
def holds (s : State) (o : Obj) (b : Nat) : Bool := match s.blocks b with
  | some k => k.live && (k.val == some o)
  | none => false

/-- Steps that finish drops under way. -/
def Op.finishing : Op → Bool
  | .destroy _ | .delete _ _ | .releaseWeakLoad _ | .releaseWeakDec _ => true
  | _ => false

/-- Runs of such steps. -/
inductive Finish : State → State → Prop
  | refl (s : State) : Finish s s
  | step {s s' s'' : State} (op : Op) : op.finishing = true → Enabled s op → exec s op = some s' → Finish s' s'' → Finish s s''

end Verif.SharedPtr

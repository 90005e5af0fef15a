/-
C62-C63: `shared_ptr` shared between Rust and C++, with any number of threads.
Model of support/cc_std_impl/shared_ptr.rs and of `shared_weak_count`, `DynControlBlock` in support/cc_std_impl/std_allocator.h lines
48-121. The reference counts are those of libc++ (`__shared_weak_count`), which is not in the repository; they are modelled as
the environment, one atomic access per step.

Who owns what is a list of tokens; a thread owns some of them, and any thread can take the next step. A step consumes and produces
tokens. So a schedule of any number of threads is a sequence of steps.
-/
namespace Verif.SharedPtr

/-- What a managed value owns: a `Box` or `Pin<Box>` (lines 154-170), an `Arc` (line 179), or a pointer to be passed to a deleter
(lines 200-229). -/
inductive Obj
  | box (x : Nat)
  | arc (a : Nat)
  | raw (p : Nat)
deriving DecidableEq

/-- Where a `shared_ptr` points: into the value of a `SharedInner`, or into an object owned by that value. Sub-objects are not
distinguished. -/
inductive Loc
  | inner (b : Nat)
  | obj (o : Obj)
deriving DecidableEq

/-- A live `SharedInner` (lines 336-348): numbers of strong and weak owners (all strong owners together count as one weak owner, as in
libc++, whose counters are one less), whether the value has not been dropped, what the value owns. -/
structure Block where
  strong : Nat
  weak : Nat
  live : Bool
  val : Option Obj
deriving DecidableEq

inductive Tok
  /-- A `shared_ptr` in Rust or C++, or its raw parts: `ptr` and `cntrl`. -/
  | strong (ptr : Option Loc) (cntrl : Option Nat)
  /-- A C++ `weak_ptr`. -/
  | weak (ptr : Option Loc) (b : Nat)
  /-- An owned `Box`, `Arc` or raw pointer outside. -/
  | own (o : Obj)
  /-- A thread in `__release_shared` which found the strong count 0 and will call `__on_zero_shared`. -/
  | destroying (b : Nat)
  /-- A thread at the start of `__release_weak`. -/
  | relWeak (b : Nat)
  /-- A thread in `__release_weak` about to decrement. -/
  | relWeak2 (b : Nat)
  /-- A thread about to call `__on_zero_shared_weak`. `counted`: it has not decremented (the shortcut). -/
  | deleting (b : Nat) (counted : Bool)
deriving DecidableEq

inductive Event
  /-- A control block made, for a value that owns `v`. -/
  | created (b : Nat) (v : Option Obj)
  | destroyed (b : Nat)
  | freed (b : Nat)
  /-- An `Arc` count decremented, a `Box` freed, or the deleter called. -/
  | released (b : Nat) (o : Obj)
deriving DecidableEq

structure State where
  next : Nat
  /-- Allocated control blocks. -/
  blocks : Nat → Option Block
  /-- Numbers of owners of objects: 0 or 1 for boxes and raw pointers, the count of an `Arc`. -/
  objs : Obj → Nat
  toks : List Tok
  log : List Event

def State.init : State := ⟨0, fun _ => none, fun _ => 0, [], []⟩

def setBlock (m : Nat → Option Block) (b : Nat) (k : Option Block) : Nat → Option Block := fun i => if i = b then k else m i
def setObj (m : Obj → Nat) (o : Obj) (n : Nat) : Obj → Nat := fun i => if i = o then n else m i

/-- Is the memory at `l` alive? -/
def State.alive (s : State) : Loc → Bool
  | .inner b => match s.blocks b with
    | some k => k.live
    | none => false
  | .obj o => decide (0 < s.objs o)

inductive Op
  -- shared_ptr.rs
  | new
  | fromObj (o : Obj)
  | project (p : Option Loc) (c : Option Nat) (target : Loc)
  | release (p : Option Loc) (c : Option Nat)
  | tryAsRef (p : Option Loc) (c : Option Nat)
  | clone (p : Option Loc) (c : Option Nat)
  | drop (p : Option Loc) (c : Option Nat)
  | destroy (b : Nat)
  | delete (b : Nat) (counted : Bool)
  -- libc++ and the rest of the program
  | releaseWeakLoad (b : Nat)
  | releaseWeakDec (b : Nat)
  | weakFrom (p : Option Loc) (b : Nat)
  | weakCopy (p : Option Loc) (b : Nat)
  | weakDrop (p : Option Loc) (b : Nat)
  | lock (p : Option Loc) (b : Nat)
  | null
  | mkObj (o : Obj)
  | arcClone (a : Nat)
  | dropObj (o : Obj)

/-- `shared_ptr::new`, lines 68-82, with a value that owns `v`; also gives the control block. -/
def new (s : State) (v : Option Obj) : State × Nat :=
  ({ s with next := s.next + 1, blocks := setBlock s.blocks s.next (some ⟨1, 1, true, v⟩),
            toks := .strong (some (.inner s.next)) (some s.next) :: s.toks, log := .created s.next v :: s.log }, s.next)

/-- `project_unchecked`, lines 136-149, consuming the token: `into_raw_parts`, then `f` is applied to the reference, if not null (which
reads through the pointer, so it must be alive). -/
def project (s : State) (p : Option Loc) (c : Option Nat) (f : Loc → Loc) : Option State :=
  match p with
  | none => some { s with toks := .strong none c :: s.toks.erase (.strong p c) }
  | some l => if s.alive l then some { s with toks := .strong (some (f l)) c :: s.toks.erase (.strong p c) } else none

/-- One step; `none` is undefined behaviour: use of a freed control block, a dead object, or a count below 0. -/
def exec (s : State) : Op → Option State
  | .new => some (new s none).1
  -- `from_box`, `from_pinned_box`, `from_arc`, `from_ptr_and_deleter` with a pointer that is not null, lines 154-229: a new block whose
  -- value is the owner, projected to the object.
  | .fromObj o =>
    let r := new { s with toks := s.toks.erase (.own o) } (some o)
    project r.1 (some (.inner r.2)) (some r.2) fun _ => .obj o
  | .project p c target => project s p c fun _ => target
  -- `release` leaves a null pointer and hands out the parts, lines 261-266; `from_raw_parts` (lines 243-245) takes them: the token
  -- stays, and there is a null pointer more.
  | .release _ _ => some { s with toks := .strong none none :: s.toks }
  -- lines 281-285
  | .tryAsRef p _ => match p with
    | none => some s
    | some l => if s.alive l then some s else none
  -- lines 306-314, std_allocator.h lines 55-59
  | .clone p c => match c with
    | none => some { s with toks := .strong p c :: s.toks }
    | some b => do
      let k ← s.blocks b
      return { s with blocks := setBlock s.blocks b (some { k with strong := k.strong + 1 }), toks := .strong p c :: s.toks }
  -- lines 318-325, std_allocator.h lines 61-65; the first step of `__release_shared`
  | .drop p c => match c with
    | none => some { s with toks := s.toks.erase (.strong p c) }
    | some b => do
      let k ← s.blocks b
      if k.strong = 0 then none else
        return { s with blocks := setBlock s.blocks b (some { k with strong := k.strong - 1 }),
                        toks := (if k.strong = 1 then [.destroying b] else []) ++ s.toks.erase (.strong p c) }
  -- `__on_zero_shared`, std_allocator.h lines 112-115, `deleter(kDestroyValue)`, lines 379-383: drops the value
  | .destroy b => do
    let k ← s.blocks b
    if k.live = false then none else
    match k.val with
    | none => return { s with blocks := setBlock s.blocks b (some { k with live := false }),
                              toks := .relWeak b :: s.toks.erase (.destroying b), log := .destroyed b :: s.log }
    | some o =>
      if s.objs o = 0 then none else
      return { s with blocks := setBlock s.blocks b (some { k with live := false }), objs := setObj s.objs o (s.objs o - 1),
                      toks := .relWeak b :: s.toks.erase (.destroying b),
                      log := .released b o :: .destroyed b :: s.log }
  -- `__on_zero_shared_weak`, std_allocator.h lines 117-120, `deleter(kDeleteControlBlock)`, lines 384-395: frees the `SharedInner`, without
  -- dropping the value
  | .delete b counted => do
    let _ ← s.blocks b
    return { s with blocks := setBlock s.blocks b none, toks := s.toks.erase (.deleting b counted), log := .freed b :: s.log }
  -- `__release_weak`: the shortcut if there is no other owner
  | .releaseWeakLoad b => do
    let k ← s.blocks b
    return { s with toks := (if k.weak = 1 then .deleting b true else .relWeak2 b) :: s.toks.erase (.relWeak b) }
  | .releaseWeakDec b => do
    let k ← s.blocks b
    if k.weak = 0 then none else
      return { s with blocks := setBlock s.blocks b (some { k with weak := k.weak - 1 }),
                      toks := (if k.weak = 1 then [.deleting b false] else []) ++ s.toks.erase (.relWeak2 b) }
  | .weakFrom p b | .weakCopy p b => do
    let k ← s.blocks b
    return { s with blocks := setBlock s.blocks b (some { k with weak := k.weak + 1 }), toks := .weak p b :: s.toks }
  | .weakDrop p b => some { s with toks := .relWeak b :: s.toks.erase (.weak p b) }
  -- `weak_ptr::lock`: increments the strong count unless it is 0
  | .lock p b => do
    let k ← s.blocks b
    if k.strong = 0 then return { s with toks := .strong none none :: s.toks }
    else return { s with blocks := setBlock s.blocks b (some { k with strong := k.strong + 1 }), toks := .strong p (some b) :: s.toks }
  | .null => some { s with toks := .strong none none :: s.toks }
  | .mkObj o => some { s with objs := setObj s.objs o 1, toks := .own o :: s.toks }
  | .arcClone a => if s.objs (.arc a) = 0 then none else
      some { s with objs := setObj s.objs (.arc a) (s.objs (.arc a) + 1), toks := .own (.arc a) :: s.toks }
  | .dropObj o => if s.objs o = 0 then none else
      some { s with objs := setObj s.objs o (s.objs o - 1), toks := s.toks.erase (.own o) }

/-- `use_count`, lines 289-292, std_allocator.h lines 67-72. -/
def useCount (s : State) : Option Nat → Option Nat
  | none => some 0
  | some b => (s.blocks b).map (·.strong)

/-- `owner_equal`, lines 300-302. -/
def ownerEqual (c d : Option Nat) : Bool := c == d

end Verif.SharedPtr

import Mathlib.Order.CompleteLattice.Basic
/-
C118-C120, specification: C++ functions over pointers, what running them does to memory, and what it means that memory
respects lifetimes. Nothing in this file is about the analysis.

The fragment: integers, pointers of any depth with `const` at any level, references, arrays, string literals; local and
static variables and parameters; any control flow. Left out: records, calls, type-unsafe casts, `new`.
-/
namespace Verif.PtsTo

/-! ### Types -/

/-- `int`, or a pointer; `cst` says whether the pointee type is const-qualified. -/
inductive Ty where
  | int
  | ptr (cst : Bool) (t : Ty)
deriving DecidableEq

/-- How many times one can dereference. -/
def Ty.depth : Ty → Nat
  | .int => 0
  | .ptr _ t => t.depth + 1

/-- C++ qualification conversions, [conv.qual]: `const` may be added at a level if all levels above it (other than that of
the pointer itself) are `const` too. -/
def conv : Ty → Ty → Prop
  | .int, .int => True
  | .ptr c t, .ptr c' t' => (c = true → c' = true) ∧ (if c' = true then conv t t' else t = t')
  | _, _ => False

/-- What may be accessed as an lvalue of type `t'`, const if `c`. -/
def convc (c : Bool) (t t' : Ty) : Prop := if c = true then conv t t' else t = t'

/-- No pointer-to-non-const whose pointee is a pointer-to-const whose pointee is a pointer: see DESIGN.md, C118. -/
def Ty.Regular : Ty → Prop
  | .int => True
  | .ptr c t => t.Regular ∧ (c = false → ∀ t', t = .ptr true t' → t' = .int)

inductive Kind where
  | param | auto | stat
deriving DecidableEq

/-- A variable. `ty` is the type of the elements for an array; for a reference it is the pointer type with the same referent. -/
structure VarInfo where
  ty : Ty
  kind : Kind
  isRef : Bool
  isArr : Bool

/-! ### Programs -/

/-- Expressions. A type argument is the type of the operand. -/
inductive Expr where
  | var (v : Nat)
  | null
  | str
  | intE
  /-- lvalue-to-rvalue conversion -/
  | load (t : Ty) (e : Expr)
  | addr (e : Expr)
  | deref (e : Expr)
  /-- `++`/`--` -/
  | incr (pre : Bool) (t : Ty) (e : Expr)
  /-- pointer plus or minus integer -/
  | add (e : Expr)
  | index (e : Expr)
  /-- an array, as a pointer to its first element -/
  | decay (v : Nat)
  | assign (t : Ty) (l r : Expr)
  | cond (c a b : Expr)
  /-- qualification conversion -/
  | qual (e : Expr)
deriving DecidableEq

inductive Stmt where
  | skip
  | expr (e : Expr)
  | decl (v : Nat) (init : Option Expr)
  | declArr (v : Nat) (inits : List Expr)
  | ret (e : Expr)

/-- A function: variables `0 .. numVars - 1`, return type (`retRef`: a reference), and a control flow graph starting at node 0. -/
structure Fn where
  numVars : Nat
  vars : Nat → VarInfo
  retTy : Ty
  retRef : Bool
  stmt : Nat → Stmt
  succ : Nat → List Nat
  exit : Nat

/-- The category and type of an expression. -/
inductive Cat where
  | gl (c : Bool) (t : Ty)
  | pr (t : Ty)

/-- A static variable of pointer type. -/
def VarInfo.ptrStatic (i : VarInfo) : Bool := i.kind = .stat && !i.isRef && i.ty ≠ .int

/-- The lvalue may be (the name of) a static variable of pointer type. -/
def taint (Γ : Nat → VarInfo) : Expr → Bool
  | .var v => (Γ v).ptrStatic
  | .incr _ _ e => taint Γ e
  | .assign _ l _ => taint Γ l
  | .cond _ a b => taint Γ a || taint Γ b
  | .qual e => taint Γ e
  | _ => false

/-- The typing rules of C++ for this fragment. One restriction more: the address of a static variable of pointer type is
not taken (DESIGN.md, C118). -/
inductive HasCat (Γ : Nat → VarInfo) : Expr → Cat → Prop where
  | var {v} : (Γ v).isRef = false → (Γ v).isArr = false → HasCat Γ (.var v) (.gl false (Γ v).ty)
  | refVar {v c t} : (Γ v).isRef = true → (Γ v).ty = .ptr c t → HasCat Γ (.var v) (.gl c t)
  | null {c t} : HasCat Γ .null (.pr (.ptr c t))
  | str : HasCat Γ .str (.pr (.ptr true .int))
  | intE : HasCat Γ .intE (.pr .int)
  | load {e c t} : HasCat Γ e (.gl c t) → HasCat Γ (.load t e) (.pr t)
  | addr {e c t} : HasCat Γ e (.gl c t) → taint Γ e = false → HasCat Γ (.addr e) (.pr (.ptr c t))
  | deref {e c t} : HasCat Γ e (.pr (.ptr c t)) → HasCat Γ (.deref e) (.gl c t)
  | pre {e t} : HasCat Γ e (.gl false t) → HasCat Γ (.incr true t e) (.gl false t)
  | post {e t} : HasCat Γ e (.gl false t) → HasCat Γ (.incr false t e) (.pr t)
  | add {e c t} : HasCat Γ e (.pr (.ptr c t)) → HasCat Γ (.add e) (.pr (.ptr c t))
  | index {e c t} : HasCat Γ e (.pr (.ptr c t)) → HasCat Γ (.index e) (.gl c t)
  | decay {v} : (Γ v).isArr = true → (Γ v).ptrStatic = false → HasCat Γ (.decay v) (.pr (.ptr false (Γ v).ty))
  | assign {t l r} : HasCat Γ l (.gl false t) → HasCat Γ r (.pr t) → HasCat Γ (.assign t l r) (.gl false t)
  | cond {c a b k0 k} : HasCat Γ c k0 → HasCat Γ a k → HasCat Γ b k → HasCat Γ (.cond c a b) k
  | qualP {e t t'} : HasCat Γ e (.pr t) → conv t t' → HasCat Γ (.qual e) (.pr t')
  | qualG {e c c' t t'} : HasCat Γ e (.gl c t) → (c = true → c' = true) → convc c' t t' → HasCat Γ (.qual e) (.gl c' t')

/-- Well-typed statements. -/
inductive StmtOk (f : Fn) : Stmt → Prop where
  | skip : StmtOk f .skip
  | expr {e k} : HasCat f.vars e k → StmtOk f (.expr e)
  | decl {v} : (f.vars v).kind = .auto → (f.vars v).isRef = false → (f.vars v).isArr = false → StmtOk f (.decl v none)
  | declInit {v e} : (f.vars v).kind = .auto → (f.vars v).isRef = false → (f.vars v).isArr = false →
      HasCat f.vars e (.pr (f.vars v).ty) → StmtOk f (.decl v (some e))
  | declRef {v e c t} : (f.vars v).kind = .auto → (f.vars v).isRef = true → (f.vars v).ty = .ptr c t →
      HasCat f.vars e (.gl c t) → taint f.vars e = false → StmtOk f (.decl v (some e))
  | declArr {v es} : (f.vars v).kind = .auto → (f.vars v).isArr = true →
      (∀ e ∈ es, HasCat f.vars e (.pr (f.vars v).ty)) → StmtOk f (.declArr v es)
  | ret {e} : f.retRef = false → HasCat f.vars e (.pr f.retTy) → StmtOk f (.ret e)
  | retRef {e c t} : f.retRef = true → f.retTy = .ptr c t → HasCat f.vars e (.gl c t) → taint f.vars e = false → StmtOk f (.ret e)

/-- A well-formed function. -/
structure FnOk (f : Fn) : Prop where
  stmts : ∀ n, StmtOk f (f.stmt n)
  regular : ∀ v, (f.vars v).ty.Regular
  retRegular : f.retTy.Regular
  inRange : ∀ v, f.numVars ≤ v → (f.vars v).kind = .auto
  arr : ∀ v, (f.vars v).isArr = true → (f.vars v).isRef = false ∧ (f.vars v).kind ≠ .param

/-! ### Running -/

/-- Places: element `i` of variable `v` (0 if it is not an array), the caller's memory, string literals. -/
inductive Loc where
  | var (v i : Nat)
  | cell (n : Nat)
  | lit
deriving DecidableEq

/-- What the places hold: a pointer (a reference is a pointer too), or nothing (null, or an integer). -/
abbrev Mem := Loc → Option Loc

def Mem.write (m : Mem) (l : Loc) (x : Option Loc) : Mem := fun l' => if l' = l then x else m l'

/-- Two places of the same array. `arr` says which cells of the caller are. -/
inductive Near (Γ : Nat → VarInfo) (arr : Nat → Nat → Prop) : Loc → Loc → Prop where
  | refl {l} : Near Γ arr l l
  | var {v i j} : (Γ v).isArr = true → Near Γ arr (.var v i) (.var v j)
  | cell {i j} : arr i j → Near Γ arr (.cell i) (.cell j)

/-- Evaluation. The value of an lvalue is its place, the value of a prvalue of pointer type is what it points to. Conditions are
not looked at: either branch may be taken. Undefined behaviour has no result. -/
inductive Ev (Γ : Nat → VarInfo) (arr : Nat → Nat → Prop) : Expr → Mem → Option Loc → Mem → Prop where
  | var {v m} : (Γ v).isRef = false → Ev Γ arr (.var v) m (some (.var v 0)) m
  | refVar {v m l} : (Γ v).isRef = true → m (.var v 0) = some l → Ev Γ arr (.var v) m (some l) m
  | null {m} : Ev Γ arr .null m none m
  | str {m} : Ev Γ arr .str m (some .lit) m
  | intE {m} : Ev Γ arr .intE m none m
  | load {t e m l m'} : Ev Γ arr e m (some l) m' → Ev Γ arr (.load t e) m (m' l) m'
  | addr {e m x m'} : Ev Γ arr e m x m' → Ev Γ arr (.addr e) m x m'
  | deref {e m l m'} : Ev Γ arr e m (some l) m' → Ev Γ arr (.deref e) m (some l) m'
  | incrInt {pre e m l m'} : Ev Γ arr e m (some l) m' → Ev Γ arr (.incr pre .int e) m (some l) m'
  | pre {c t e m l m' a b} : Ev Γ arr e m (some l) m' → m' l = some a → Near Γ arr a b →
      Ev Γ arr (.incr true (.ptr c t) e) m (some l) (m'.write l (some b))
  | post {c t e m l m' a b} : Ev Γ arr e m (some l) m' → m' l = some a → Near Γ arr a b →
      Ev Γ arr (.incr false (.ptr c t) e) m (some a) (m'.write l (some b))
  | add {e m a b m'} : Ev Γ arr e m (some a) m' → Near Γ arr a b → Ev Γ arr (.add e) m (some b) m'
  | index {e m a b m'} : Ev Γ arr e m (some a) m' → Near Γ arr a b → Ev Γ arr (.index e) m (some b) m'
  | decay {v m} : Ev Γ arr (.decay v) m (some (.var v 0)) m
  | assignInt {l r m x m' y m''} : Ev Γ arr r m x m' → Ev Γ arr l m' y m'' → Ev Γ arr (.assign .int l r) m y m''
  | assign {c t l r m x m' p m''} : Ev Γ arr r m x m' → Ev Γ arr l m' (some p) m'' →
      Ev Γ arr (.assign (.ptr c t) l r) m (some p) (m''.write p x)
  | condT {c a b m x m' y m''} : Ev Γ arr c m x m' → Ev Γ arr a m' y m'' → Ev Γ arr (.cond c a b) m y m''
  | condF {c a b m x m' y m''} : Ev Γ arr c m x m' → Ev Γ arr b m' y m'' → Ev Γ arr (.cond c a b) m y m''
  | qual {e m x m'} : Ev Γ arr e m x m' → Ev Γ arr (.qual e) m x m'

/-- The initializers of an array (which do not use the array). -/
inductive EvInits (Γ : Nat → VarInfo) (arr : Nat → Nat → Prop) : List Expr → Mem → List (Option Loc) → Mem → Prop where
  | nil {m} : EvInits Γ arr [] m [] m
  | cons {e es m x m' xs m''} : Ev Γ arr e m x m' → EvInits Γ arr es m' xs m'' → EvInits Γ arr (e :: es) m (x :: xs) m''

/-- Fill an array; the elements without an initializer become null. -/
def Mem.fill (m : Mem) (v : Nat) (xs : List (Option Loc)) : Mem
  | .var u j => if u = v then (xs[j]?).getD none else m (.var u j)
  | l => m l

/-- One statement: memory before, memory and returned value after. -/
inductive Run (f : Fn) (arr : Nat → Nat → Prop) : Stmt → Mem → Option Loc → Mem → Option Loc → Prop where
  | skip {m r} : Run f arr .skip m r m r
  | expr {e m x m' r} : Ev f.vars arr e m x m' → Run f arr (.expr e) m r m' r
  | decl {v m r} : Run f arr (.decl v none) m r (m.write (.var v 0) none) r
  | declInit {v e m x m' r} : Ev f.vars arr e m x m' → Run f arr (.decl v (some e)) m r (m'.write (.var v 0) x) r
  | declArr {v es m xs m' r} : EvInits f.vars arr es m xs m' → Run f arr (.declArr v es) m r (m'.fill v xs) r
  | ret {e m x m' r} : Ev f.vars arr e m x m' → Run f arr (.ret e) m r m' x

/-- What has happened when the execution is about to run node `n`: memory, and what has been returned if anything. -/
inductive Exec (f : Fn) (arr : Nat → Nat → Prop) (m0 : Mem) : Nat → Mem → Option Loc → Prop where
  | start : Exec f arr m0 0 m0 none
  | step {n m r m' r' n'} : Exec f arr m0 n m r → Run f arr (f.stmt n) m r m' r' → n' ∈ f.succ n → Exec f arr m0 n' m' r'

/-! ### Regions and lifetimes -/

/-- A type with, for each pointer in it, a region: a lower bound of how long the pointee lives. -/
inductive RTy (Reg : Type) where
  | int
  | ptr (cst : Bool) (r : Reg) (t : RTy Reg)

/-- A value of the first type can be used as one of the second: pointees of pointers-to-const are covariant, the others
invariant. -/
def sub {Reg : Type} [LE Reg] : RTy Reg → RTy Reg → Prop
  | .int, .int => True
  | .ptr c r t, .ptr c' r' t' => r' ≤ r ∧ (c = true → c' = true) ∧ (if c' = true then sub t t' else t = t')
  | _, _ => False

/-- A place with values of the first type can be accessed as one of the second, const if `c`. -/
def subc {Reg : Type} [LE Reg] (c : Bool) (t t' : RTy Reg) : Prop := if c = true then sub t t' else t = t'

/-- The caller's memory: how long each cell lives, what is stored in it, which cells are in one array. -/
structure World (Reg : Type) where
  ext : Nat → Reg
  hty : Nat → RTy Reg
  arr : Nat → Nat → Prop
  arrOk : ∀ i j, arr i j → ext i = ext j ∧ hty i = hty j

variable {Reg : Type} [CompleteLattice Reg]

/-- How long a place lives: string literals and static variables for ever, the variables of the function no longer than the
call (the least region). -/
def ext (Γ : Nat → VarInfo) (W : World Reg) : Loc → Reg
  | .cell n => W.ext n
  | .lit => ⊤
  | .var v _ => if (Γ v).kind = .stat then ⊤ else ⊥

/-- The type of what is stored in a place that the caller may access. -/
def hty (Γ : Nat → VarInfo) (W : World Reg) : Loc → Option (RTy Reg)
  | .cell n => some (W.hty n)
  | .lit => some .int
  | .var v _ => if (Γ v).kind = .stat ∧ (Γ v).ty = .int then some .int else none

/-- The value can be used at the type, after the call too: null, or a pointer to a place of the caller, a static variable or
a literal which lives long enough and has a fitting type. -/
def Fits (Γ : Nat → VarInfo) (W : World Reg) (x : Option Loc) : RTy Reg → Prop
  | .int => True
  | .ptr c r t => ∀ l, x = some l → r ≤ ext Γ W l ∧ ∃ T, hty Γ W l = some T ∧ subc c T t

/-- Give regions to the pointers of a type: `r k` to the one at depth `k`. -/
def regions (r : Nat → Reg) : Ty → Nat → RTy Reg
  | .int, _ => .int
  | .ptr c t, k => .ptr c (r (k + 1)) (regions r t (k + 1))

/-- The caller has set up a call: parameters fit the types in the signature, static variables hold pointers to things that live
for ever, the caller's own memory is consistent. `sig p k`: the region at depth `k` of the type of parameter `p`. -/
structure Entry (f : Fn) (W : World Reg) (sig : Nat → Nat → Reg) (m : Mem) : Prop where
  params : ∀ p, (f.vars p).kind = .param → Fits f.vars W (m (.var p 0)) (regions (sig p) (f.vars p).ty 0)
  statics : ∀ g i, (f.vars g).kind = .stat → Fits f.vars W (m (.var g i)) (regions (fun _ => ⊤) (f.vars g).ty 0)
  autos : ∀ v i, (f.vars v).kind = .auto → m (.var v i) = none
  cells : ∀ n, Fits f.vars W (m (.cell n)) (W.hty n)

/-- The call has left everything as promised: the result fits the return type in the signature, every cell of the caller, and
every static variable, holds something of its type, none of them the address of a variable of the function. -/
structure SafeExit (f : Fn) (W : World Reg) (retSig : Nat → Reg) (m : Mem) (r : Option Loc) : Prop where
  result : Fits f.vars W r (regions retSig f.retTy 0)
  cells : ∀ n, Fits f.vars W (m (.cell n)) (W.hty n)
  statics : ∀ g, (f.vars g).kind = .stat → Fits f.vars W (m (.var g 0)) (regions (fun _ => ⊤) (f.vars g).ty 0)

end Verif.PtsTo

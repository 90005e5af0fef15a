import Verif.PtsTo.Spec
import Verif.Lifetimes.Apply
/-
Model of the lifetime analysis of one function: lifetime_analysis/lifetime_analysis.cc, object_repository.cc, points_to_map.cc,
lifetime_lattice.cc and `AnalyzeFunctionBody`, `AnalyzeSingleFunction`, `ConstructFunctionLifetimes` of analyze.cc, for the
fragment of Spec.lean.

Simplifications: an expression is transferred as a whole, in the order in which its sub-expressions appear in the CFG, instead
of one CFG element at a time; so the object sets of sub-expressions (`expr_objects_`) are returned instead of stored.
Parentheses are ignored. Types have no records, so `seen_pairs` and the recursion only see pointers and integers.
-/
namespace Verif.PtsTo
open Verif.Lifetimes

/-- What an object is made for: `AddObjectForVar`, `return_object_`, `GetStringLiteralObject`. -/
inductive Root where
  | var (v : Nat)
  | ret
  | lit
deriving DecidableEq

/-- An `Object`. `CreateObjectsRecursively` (object_repository.cc lines 818-858) makes a chain: object 0 for the variable itself,
object `k + 1` for what object `k` points to at first. In a chain the types all differ, so its cache is never hit. -/
structure Obj where
  root : Root
  k : Nat
deriving DecidableEq

def Obj.next (o : Obj) : Obj := ⟨o.root, o.k + 1⟩

/-- The type after `k` dereferences. -/
def peel : Ty → Nat → Ty
  | t, 0 => t
  | .int, _ + 1 => .int
  | .ptr _ t, k + 1 => peel t k

def rootTy (f : Fn) : Root → Ty
  | .var v => (f.vars v).ty
  | .ret => f.retTy
  | .lit => .int

/-- `Object::Type`; the elements of an array are not told apart, the array has one object of the type of its elements
(`ValueLifetimes::Create` of an array is that of its elements). -/
def oty (f : Fn) (o : Obj) : Ty := peel (rootTy f o.root) o.k

/-- `Object::GetLifetime` for all objects, an assignment of lifetimes to them. -/
abbrev Lts := Obj → Lifetime

/-- The lifetimes the object repository creates: `AddObjectForVar` lines 232-252, `Create` lines 470-472, `VisitStringLiteral`
lines 160-165. -/
structure LtsOk (f : Fn) (lt : Lts) : Prop where
  /-- automatic variables and parameters are local objects -/
  loc : ∀ v, (f.vars v).kind ≠ .stat → (lt ⟨.var v, 0⟩).isLocal = true
  /-- what they point to has a lifetime variable -/
  var : ∀ v k, (f.vars v).kind ≠ .stat → (lt ⟨.var v, k + 1⟩).isVariable = true
  /-- static variables and what they point to are static -/
  stat : ∀ v k, (f.vars v).kind = .stat → lt ⟨.var v, k⟩ = .static
  ret : ∀ k, (lt ⟨.ret, k⟩).isVariable = true
  lit : ∀ k, lt ⟨.lit, k⟩ = .static

/-! ### Sets and maps -/

/-- `ObjectSet::Union`/`Add`, object_set.h lines 66-94. -/
def addAll {α : Type} [DecidableEq α] (a b : List α) : List α := (setInsertAll a b).1

/-- `PointsToMap::pointer_points_tos_`. -/
abbrev Pts := List (Obj × List Obj)

/-- `GetPointerPointsToSet(const Object*)`, points_to_map.cc lines 61-67. -/
def Pts.get (p : Pts) (o : Obj) : List Obj := (AMap.get? p o).getD []

/-- `GetPointerPointsToSet(const ObjectSet&)`, lines 87-96. -/
def Pts.getAll (p : Pts) : List Obj → List Obj
  | [] => []
  | o :: os => addAll (p.get o) (Pts.getAll p os)

/-- `SetPointerPointsToSet`, lines 69-78. -/
def Pts.set (p : Pts) (o : Obj) (s : List Obj) : Pts := AMap.insert p o s

/-- `ExtendPointerPointsToSet`, lines 81-85. -/
def Pts.extend (p : Pts) (o : Obj) (s : List Obj) : Pts := AMap.insert p o (addAll (p.get o) s)

/-- `PointsToMap::Union`, lines 43-59. -/
def Pts.union (p q : Pts) : Pts := q.foldl (fun p e => p.extend e.1 e.2) p

/-- A `LifetimeLattice` that is not an error (the fragment has no expression that makes one). -/
structure St where
  pt : Pts
  cs : Constraints
  sv : List Obj

/-- `LifetimeLattice::join`, lifetime_lattice.cc lines 59-84. -/
def St.join (a b : St) : St := ⟨a.pt.union b.pt, (a.cs.join b.cs).1, a.sv.filter (· ∈ b.sv)⟩

/-! ### Constraints of an assignment -/

/-- `GenerateConstraintsForSingleAssignment`, lifetime_analysis.cc lines 103-120, for objects that are not functions. -/
def genOne (lt : Lts) (old new : Obj) (cs : Constraints) : Constraints := cs.addOutlives (lt old) (lt new)

/-- Two nested loops over sets. -/
def forPairs {σ : Type} (body : Obj → Obj → σ → σ) (as bs : List Obj) (s : σ) : σ :=
  as.foldl (fun s a => bs.foldl (fun s b => body a b s) s) s

/-- `GenerateConstraintsForAssignmentNonRecursive`, lines 122-141. -/
def genFlat (lt : Lts) (olds news : List Obj) (inv : Bool) (cs : Constraints) : Constraints :=
  let cs := forPairs (fun o n cs => genOne lt o n cs) olds news cs
  if inv then forPairs (fun o n cs => genOne lt n o cs) olds news cs else cs

/-- `GenerateConstraintsForAssignmentRecursive`, lines 144-227; records are left out, so `calls_to_make` has one element. The
size of the set tells whether a pair is new. -/
def genRec (lt : Lts) (pt : Pts) : Ty → List Obj → List Obj → Bool → Constraints → List (Obj × Obj) → Constraints × List (Obj × Obj)
  | t, pointers, news, inv, cs, seen =>
    let seen' := forPairs (fun p n s => (setInsert s (p, n)).1) pointers news seen
    if seen.length = seen'.length then (cs, seen')
    else match t with
      | .int => (cs, seen')
      | .ptr c t =>
        let olds := pt.getAll pointers
        let cs := genFlat lt olds news inv cs
        genRec lt pt t olds (pt.getAll news) (!c) cs seen'

/-- `GenerateConstraintsForAssignment`, lines 229-240. -/
def genAssign (lt : Lts) (pt : Pts) (t : Ty) (pointers news : List Obj) (cs : Constraints) : Constraints :=
  (genRec lt pt t pointers news false cs []).1

/-- `HandlePointsToSetExtension`, lines 274-289. -/
def extendSets (lt : Lts) (t : Ty) (pointers news : List Obj) (s : St) : St :=
  let cs := genAssign lt s.pt t pointers news s.cs
  { s with pt := pointers.foldl (fun p o => p.extend o news) s.pt, cs := cs }

/-! ### Transfer -/

def Ty.isPtr : Ty → Bool
  | .int => false
  | .ptr .. => true

/-- `TransferStmtVisitor` on expressions: the new state, and the object set of the expression (empty for an expression without
one). -/
def transfer (f : Fn) (lt : Lts) : Expr → St → St × List Obj
  -- `VisitDeclRefExpr`, lines 383-405
  | .var v, s => (s, if (f.vars v).isRef then s.pt.get ⟨.var v, 0⟩ else [⟨.var v, 0⟩])
  -- `CK_NullToPointer`, lines 436-439
  | .null, s => (s, [])
  -- `VisitStringLiteral` and `CK_ArrayToPointerDecay`, lines 407-412, 443-455
  | .str, s => (s, [⟨.lit, 0⟩])
  | .intE, s => (s, [])
  -- `CK_LValueToRValue`, lines 417-434
  | .load t e, s =>
    let (s, os) := transfer f lt e s
    (s, if t.isPtr then s.pt.getAll os else [])
  -- `VisitUnaryOperator`, lines 544-597
  | .addr e, s => transfer f lt e s
  | .deref e, s => transfer f lt e s
  | .incr pre t e, s =>
    let (s, os) := transfer f lt e s
    (s, if pre then os else if t.isPtr then s.pt.getAll os else [])
  -- `BO_Add`, `BO_Sub`, lines 642-658
  | .add e, s => transfer f lt e s
  -- `VisitArraySubscriptExpr`, lines 599-613
  | .index e, s => transfer f lt e s
  -- `CK_ArrayToPointerDecay`
  | .decay v, s => (s, [⟨.var v, 0⟩])
  -- `BO_Assign`, lines 618-640
  | .assign t l r, s =>
    let (s, rhs) := transfer f lt r s
    let (s, lhs) := transfer f lt l s
    if !t.isPtr then (s, lhs)
    else match lhs with
      | [o] => if o ∈ s.sv then ({ s with pt := s.pt.set o rhs }, lhs) else (extendSets lt t lhs rhs s, lhs)
      | _ => (extendSets lt t lhs rhs s, lhs)
  -- `VisitConditionalOperator`, lines 666-687; the CFG has a block for each operand
  | .cond c a b, s =>
    let (s, _) := transfer f lt c s
    let (s1, os1) := transfer f lt a s
    let (s2, os2) := transfer f lt b s
    (s1.join s2, addAll os1 os2)
  -- `CK_NoOp`, lines 449-455
  | .qual e, s => transfer f lt e s

/-- `VisitInitListExpr` for an array, lines 709-726. -/
def transferInits (f : Fn) (lt : Lts) : List Expr → St → St × List Obj
  | [], s => (s, [])
  | e :: es, s =>
    let (s, os) := transfer f lt e s
    let (s, os') := transferInits f lt es s
    (s, addAll os os')

/-- `LifetimeAnalysis::transfer` on statements: `VisitReturnStmt` lines 490-526, `VisitDeclStmt` lines 528-542 with
`TransferInitializer` and `kIgnore`, lines 291-334. -/
def transferStmt (f : Fn) (lt : Lts) : Stmt → St → St
  | .skip, s => s
  | .expr e, s => (transfer f lt e s).1
  | .decl _ none, s => s
  | .decl v (some e), s =>
    let (s, os) := transfer f lt e s
    if (f.vars v).ty.isPtr then { s with pt := s.pt.set ⟨.var v, 0⟩ os } else s
  | .declArr v es, s =>
    let (s, os) := transferInits f lt es s
    if (f.vars v).ty.isPtr then { s with pt := s.pt.set ⟨.var v, 0⟩ os } else s
  | .ret e, s =>
    let (s, os) := transfer f lt e s
    if f.retTy.isPtr then { s with cs := genAssign lt s.pt f.retTy [⟨.ret, 0⟩] os s.cs } else s

/-! ### The repository -/

/-- The objects of a root that point somewhere, `CreateObjectsRecursively` lines 848-854. -/
def chain (root : Root) : Ty → Nat → Pts
  | .int, _ => []
  | .ptr _ t, k => (⟨root, k⟩, [⟨root, k + 1⟩]) :: chain root t (k + 1)

def roots (f : Fn) : List Root := .ret :: (List.range f.numVars).map .var

/-- `InitialPointsToMap`. (The clones made for `GetOriginalParameterValue` are not in any set and are left out.) -/
def initPts (f : Fn) : Pts := (roots f).flatMap fun r => chain r (rootTy f r) 0

/-- `InitialSingleValuedObjects`, `AddObjectForVar` lines 256-258. -/
def initSv (f : Fn) : List Obj := ((List.range f.numVars).filter fun v => !(f.vars v).isArr).map fun v => ⟨.var v, 0⟩

/-- `LifetimeAnalysis::initialElement`, lifetime_analysis.cc lines 336-340. -/
def initSt (f : Fn) : St := ⟨initPts f, [], initSv f⟩

/-! ### The end of the analysis -/

/-- The loop of `AnalyzeFunctionBody` over everything that static pointers reach, analyze.cc lines 597-614. `none` if it has
not stopped after `fuel` iterations. -/
def staticReach (lt : Lts) (pt : Pts) : Nat → List Obj → List Obj → Constraints → Option Constraints
  | _, [], _, cs => some cs
  | 0, _ :: _, _, _ => none
  | fuel + 1, o :: stack, visited, cs =>
    if o ∈ visited then staticReach lt pt fuel stack visited cs
    else staticReach lt pt fuel ((pt.get o).reverse ++ stack) (o :: visited) (cs.addOutlives .static (lt o))

/-- `GetAllPointersWithLifetime`, points_to_map.cc lines 131-140. -/
def pointersWith (lt : Lts) (pt : Pts) (l : Lifetime) : List Obj := (AMap.keys pt).filter fun o => lt o = l

/-- Enough iterations (`staticReach_terminates`). -/
def staticFuel (lt : Lts) (pt : Pts) : Nat := (pointersWith lt pt .static).length + (pt.map fun e => e.2.length).sum + 1

def finalCs (lt : Lts) (s : St) : Option Constraints :=
  staticReach lt s.pt (staticFuel lt s.pt) (pointersWith lt s.pt .static).reverse [] s.cs

/-- The lifetimes of the pointers in a type, from the outermost. -/
def typeLts (lt : Lts) (root : Root) : Ty → Nat → List Lifetime
  | .int, _ => []
  | .ptr _ t, k => lt ⟨root, k + 1⟩ :: typeLts lt root t (k + 1)

def paramsOf (f : Fn) : List Nat := (List.range f.numVars).filter fun v => (f.vars v).kind = .param

/-- The lifetimes in the signature, `GetOriginalFunctionLifetimes`, object_repository.cc lines 582-613. -/
def sigLts (f : Fn) (lt : Lts) : List Lifetime :=
  typeLts lt .ret f.retTy 0 ++ (paramsOf f).flatMap fun p => typeLts lt (.var p) (f.vars p).ty 0

/-- `PropagateStaticToPointees`, analyze.cc lines 82-113, as a check (its substitutions are not used). `none`: not finished. -/
def staticCheck (lt : Lts) (pt : Pts) : Nat → List Obj → List Obj → Option Bool
  | _, [], _ => some true
  | 0, _ :: _, _ => none
  | fuel + 1, o :: stack, visited =>
    if (lt o).isLocal then some false
    else staticCheck lt pt fuel (((pt.get o).filter (· ∉ visited ++ [o])).reverse ++ stack) (visited ++ [o])

/-- From the state at the exit block to the inferred signature: `AnalyzeFunctionBody` from line 597 on and
`ConstructFunctionLifetimes`, analyze.cc lines 748-785, with `DiagnoseReturnLocal`, lines 702-740. `none` if there is an error.
(`PropagateStaticToPointees` can only add an error.) -/
def infer (ord : List Lifetime → List Lifetime) (f : Fn) (lt : Lts) (s : St) : Option (List Lifetime) := do
  let cs ← finalCs lt s
  let out ← cs.applyTo ord (sigLts f lt)
  let out ← out
  if out.any Lifetime.isLocal then none else some out

/-- States that the dataflow engine can compute: from the initial state, by transfer and join, in any order. -/
inductive Built (f : Fn) (lt : Lts) : St → Prop where
  | init : Built f lt (initSt f)
  | join {a b} : Built f lt a → Built f lt b → Built f lt (a.join b)
  | transfer {s n} : Built f lt s → Built f lt (transferStmt f lt (f.stmt n) s)

/-- Joining `a` into `b` changes nothing. -/
def St.le (a b : St) : Prop := (∀ o, ∀ x ∈ a.pt.get o, x ∈ b.pt.get o) ∧ (∀ c ∈ a.cs, c ∈ b.cs) ∧ (∀ o ∈ b.sv, o ∈ a.sv)

/-- What `runDataflowAnalysis` returns: a state before each node that has been reached, which the initial state and the states
after the predecessors do not change any more. -/
structure Stable (f : Fn) (lt : Lts) (S : Nat → Option St) : Prop where
  built : ∀ n s, S n = some s → Built f lt s
  entry : ∃ s, S 0 = some s ∧ (initSt f).le s
  edge : ∀ n s, S n = some s → ∀ n' ∈ f.succ n, ∃ s', S n' = some s' ∧ (transferStmt f lt (f.stmt n) s).le s'

end Verif.PtsTo

import Verif.Defaults.Names
/-
C53-C55: default lifetimes for functions and records.
Model of rs_bindings_from_cc/generate_bindings/lifetime_defaults_transform.rs lines 32-43 and 270-750.
-/
namespace Verif.Defaults

/-- `PointerTypeKind`, ir.rs lines 485-491. -/
inductive Kind
  | lvalueRef | rvalueRef | nullable | nonNull | owned
deriving DecidableEq

/-- `CcType` with its `explicit_lifetimes`, ir.rs lines 399-406. `decl` is a type given by a declaration; `spec` one whose
declaration is a specialization with a known type argument (`type_arg_from_decl_id`, lines 419-435), which is put in place; in
results it stands for `template_args`. Constness and attributes, which are copied, are left out. -/
inductive Ty
  | prim (lts : List Name)
  | fnptr (lts : List Name)
  | error (lts : List Name)
  | ptr (kind : Kind) (lts : List Name) (pointee : Ty)
  | decl (id : Nat) (lts : List Name)
  | spec (id : Nat) (lts : List Name) (arg : Ty)
deriving DecidableEq

/-- `explicit_lifetimes`, ir.rs lines 438-444. -/
def Ty.lts : Ty → List Name
  | .prim l | .fnptr l | .error l | .ptr _ l _ | .decl _ l | .spec _ l _ => l

def Ty.setLts (l : List Name) : Ty → Ty
  | .prim _ => .prim l
  | .fnptr _ => .fnptr l
  | .error _ => .error l
  | .ptr k _ p => .ptr k l p
  | .decl id _ => .decl id l
  | .spec id _ a => .spec id l a

/-- Results of `decl_lifetime_arity`, lines 127-192, by declaration; `none` is an error. -/
abbrev Arity := Nat → Option Nat

/-- `lifetime_arity`, lines 32-43. -/
def lifetimeArity (ar : Arity) : Ty → Option Nat
  | .ptr .. => some 1
  | .prim _ => some 0
  | .fnptr _ => none
  | .error _ => none
  | .decl id _ => ar id
  | .spec id _ _ => ar id

/-- `LifetimeState`, lines 275-283. -/
inductive LState
  | unseen
  | single (n : Name)
  | unknown
deriving DecidableEq

/-- `LifetimeState::update`, lines 286-293. -/
def LState.update : LState → LState → LState
  | .unseen, n => n
  | s, .unseen => s
  | .single a, .single b => if a = b then .single a else .unknown
  | _, _ => .unknown

/-- `get_lifetime_for_state`, lines 336-341. -/
def LState.lts : LState → List Name
  | .single l => [l]
  | _ => []

/-- The context together with `new_bindings`. -/
structure St where
  ctx : Ctx
  nb : List Name

/-- `get_or_push_new_binding` with the callback used throughout, e.g. lines 320-322. -/
def St.getOrPush (s : St) (id : Name) : Name × St :=
  let (n, called, c) := s.ctx.getOrPush id
  (n, ⟨c, if called then s.nb ++ [n] else s.nb⟩)

/-- The loops of lines 452-460 and 481-488. -/
def St.getOrPushAll (s : St) : List Name → List Name × St
  | [] => ([], s)
  | id :: ids =>
    let (n, s) := s.getOrPush id
    let (ns, s) := s.getOrPushAll ids
    (n :: ns, s)

/-- `push_fresh_binding` followed by `new_bindings.push`, lines 372-373 and 389-390. -/
def St.pushFresh (s : St) (hint : Option Name) : Name × St :=
  let (n, c) := s.ctx.pushFresh hint
  (n, ⟨c, s.nb ++ [n]⟩)

/-- `get_state_for_annotated_lifetime`, lines 312-332. -/
def stateForAnnotated (s : St) : List Name → LState × St
  | [] => (.unseen, s)
  | [id] => let (b, s) := s.getOrPush id; (if b = sUnknown then .unknown else .single b, s)
  | _ => (.unknown, s)

/-- Lines 369-375 and 386-392: the annotated lifetime, or a fresh one. -/
def stateForSlot (hint : Option Name) (s : St) (lts : List Name) : LState × St :=
  let (state, s) := stateForAnnotated s lts
  if state = .unseen then let (n, s) := s.pushFresh hint; (.single n, s) else (state, s)

/-- `add_lifetime_to_input_type`, lines 353-416: type, `state`, `this_state`. -/
def addInput (ar : Arity) (isThis : Bool) (hint : Option Name) (s : St) : Ty → Ty × LState × LState × St
  | .decl id lts =>
    if ar id = some 1 then
      let (state, s) := stateForSlot hint s lts
      (.decl id state.lts, state, .unseen, s)
    else (.decl id lts, .unseen, .unseen, s)
  | .spec id lts arg =>
    if ar id = some 1 then
      let (arg, _, _, s) := addInput ar false hint s arg
      let (state, s) := stateForSlot hint s lts
      (.spec id state.lts arg, state, .unseen, s)
    else (.spec id lts arg, .unseen, .unseen, s)
  | .ptr kind lts pointee =>
    if isThis ∨ kind = .lvalueRef then
      let (pointee, _, _, s) := addInput ar false hint s pointee
      let (state, s) := stateForSlot hint s lts
      (.ptr kind state.lts pointee, if isThis then .unseen else state, if isThis then state else .unseen, s)
    else (.ptr kind lts pointee, .unseen, .unseen, s)
  | ty => (ty, .unseen, .unseen, s)

/-- Lines 449-468: lifetimes of a declared type in output position. -/
def outputLts (ar : Arity) (hint : List Name) (s : St) (id : Nat) (lts : List Name) : List Name × St :=
  if ar id = some 1 then
    if lts ≠ [] then
      let (ns, s) := s.getOrPushAll lts
      (if sUnknown ∈ ns then [] else ns, s)
    else if hint ≠ [] then (hint, s) else (lts, s)
  else (lts, s)

/-- `add_lifetime_to_output_type`, lines 440-513. -/
def addOutput (ar : Arity) (hint : List Name) (s : St) : Ty → Ty × St
  | .decl id lts =>
    let (lts, s) := outputLts ar hint s id lts
    (.decl id lts, s)
  | .spec id lts arg =>
    let (lts, s) := outputLts ar hint s id lts
    let (arg, s) := addOutput ar hint s arg
    (.spec id lts arg, s)
  | .ptr .lvalueRef lts pointee =>
    if lts ≠ [] then
      let (ns, s) := s.getOrPushAll lts
      (.ptr .lvalueRef ns pointee, s)
    else
      let kind := if hint = [] then Kind.nonNull else .lvalueRef
      let (pointee, s) := addOutput ar hint s pointee
      (.ptr kind hint pointee, s)
  | ty => (ty, s)

/-- The parts of `FuncParam` used here: `identifier`, `clang_lifetimebound`, `type_`. -/
structure Param where
  name : Name
  bound : Bool
  ty : Ty
deriving DecidableEq

/-- The parts of `Func` used here. -/
structure Func where
  isCtor : Bool
  inputs : List Name
  params : List Param
  ret : Ty
deriving DecidableEq

def sThis : Name := ['_', '_', 't', 'h', 'i', 's']
def sRv : Name := ['_', '_', 'r', 'v']
def sImplicit : Name := ['_', '_', 'i', 'm', 'p', 'l', 'i', 'c', 'i', 't']

/-- `inject_lifetimes_into_this`, lines 521-538. -/
def injectThis (lts : List Name) : Ty → Option Ty
  | .ptr k l pointee => if pointee.lts ≠ [] ∧ pointee.lts ≠ lts then none else some (.ptr k l (pointee.setLts lts))
  | _ => none

/-- The loop of lines 555-577, over parameters from some index on (`first`: index 0); `none` on a mismatch. -/
def scanBound (isCtor : Bool) : Bool → List Name × Bool → List Param → Option (List Name × Bool)
  | _, acc, [] => some acc
  | first, (rl, has), p :: ps =>
    if p.bound ∨ (isCtor ∧ first) then
      let has := has || p.bound
      if rl = [] then scanBound isCtor false (p.ty.lts, has) ps
      else if p.ty.lts ≠ [] ∧ p.ty.lts ≠ rl then none
      else scanBound isCtor false (rl, has) ps
    else scanBound isCtor false (rl, has) ps

/-- One round of the loop of lines 616-622. -/
def applyOne (isCtor isMember : Bool) (names rl : List Name) (first : Bool) (p : Param) : Option Param :=
  if p.bound ∨ (isCtor ∧ first) then
    if isMember ∧ first ∧ names ≠ [] then (injectThis rl p.ty).map fun ty => { p with ty := ty }
    else some { p with ty := p.ty.setLts rl }
  else some p

/-- The loop of lines 615-623. -/
def applyBound (isCtor isMember : Bool) (names rl : List Name) : Bool → List Param → Option (List Param)
  | _, [] => some []
  | first, p :: ps => do
    let p ← applyOne isCtor isMember names rl first p
    let ps ← applyBound isCtor isMember names rl false ps
    return p :: ps

/-- Lines 584-614: the lifetime for what is bound if nothing is annotated. -/
def chooseBound (ar : Arity) (c : Ctx) (f : Func) (names : List Name) : Option (List Name) :=
  if f.isCtor then some names
  else match f.params with
  | [] => none
  | this :: _ =>
    if this.name = sThis ∧ this.bound then
      if names ≠ [] then some names
      else if this.ty.lts ≠ [] then some this.ty.lts
      else some [c.fresh sThis]
    else (lifetimeArity ar f.ret).map fun n => List.replicate n (c.fresh sRv)

/-- The lifetimes of what is bound: as annotated, otherwise as chosen. -/
def boundLts (ar : Arity) (c : Ctx) (f : Func) (names rl : List Name) : Option (List Name) :=
  if rl = [] then chooseBound ar c f names else some rl

/-- `lower_clang_annotations`, lines 544-637; `none` is an error. -/
def lower (ar : Arity) (c : Ctx) (f : Func) (names : List Name) : Option Func := do
  let (rl, has) ← scanBound f.isCtor true (f.ret.lts, false) f.params
  if has = false then return f
  let isMember := (f.params.head?.map (·.name)) = some sThis
  let rl ← boundLts ar c f names rl
  let params ← applyBound f.isCtor isMember names rl true f.params
  if f.isCtor then return { f with params := params }
  let n ← lifetimeArity ar f.ret
  return { f with params := params, ret := f.ret.setLts (if n ≠ rl.length then [] else rl) }

/-- An item enclosing a function: a function or record with its `lifetime_inputs`, the record with its lifetime arity. -/
inductive Encl
  | func (inputs : List Name)
  | record (arity : Nat) (inputs : List Name)
  | other

/-- Binding several names. -/
def Ctx.pushAll (c : Ctx) : List Name → List Name × Ctx
  | [] => ([], c)
  | id :: ids =>
    let (n, c) := c.push id
    let (ns, c) := c.pushAll ids
    (n :: ns, c)

/-- `bind_lifetime_inputs` for one item, lines 648-669. -/
def bindItem (c : Ctx) : Encl → List Name × Ctx
  | .func inputs => ([], (c.pushAll inputs).2)
  | .record arity inputs => c.pushAll (if arity ≠ inputs.length then List.replicate arity sImplicit else inputs)
  | .other => ([], c)

/-- `bind_lifetime_inputs`, lines 639-670, for the items enclosing a function, outermost first. (An error of
`record_lifetime_arity` ends the transformation; such items are not considered.) -/
def bindEnclosing (c : Ctx) (names : List Name) : List Encl → List Name × Ctx
  | [] => (names, c)
  | e :: es => let (ns, c) := bindItem c e; bindEnclosing c ns es

/-- The loop of lines 689-707 (`first`: index 0), with the two states. -/
def addParams (ar : Arity) (isCtor : Bool) : Bool → LState × LState → St → List Param → List Param × (LState × LState) × St
  | _, st, s, [] => ([], st, s)
  | first, st, s, p :: ps =>
    let isThis := first && p.name = sThis && !isCtor
    let (ty, st1, st2, s) := addInput ar isThis (some p.name) s p.ty
    let (ps, st, s) := addParams ar isCtor false (st.1.update st1, st.2.update st2) s ps
    ({ p with ty := ty } :: ps, st, s)

/-- Lines 720-728. -/
def promoteThis (isCtor : Bool) : List Param → List Param
  | p :: ps =>
    if p.name = sThis ∧ isCtor = false ∧ p.ty.lts ≠ [] then
      match p.ty with
      | .ptr _ l pointee => { p with ty := .ptr .lvalueRef l pointee } :: ps
      | _ => p :: ps
    else p :: ps
  | [] => []

/-- Lines 709-712: the lifetime for the result. -/
def hintOf (st : LState × LState) : List Name := match st.2 with
  | .unseen => st.1.lts
  | t => t.lts

/-- `add_lifetime_to_func`, lines 673-730; `none` is an error. -/
def addFunc (ar : Arity) (encl : List Encl) (f : Func) : Option Func := do
  let (names, c) := bindEnclosing .new [] encl
  let (inputs, c) := c.pushAll f.inputs
  let f' ← lower ar c { f with inputs := inputs } names
  let (params, st, s) := addParams ar f.isCtor true (.unseen, .unseen) ⟨c, inputs⟩ f'.params
  let (ret, s) := addOutput ar (hintOf st) s f'.ret
  return { f with inputs := s.nb, params := promoteThis f.isCtor params, ret := ret }

/-- `add_lifetime_to_record`, lines 733-752: the `lifetime_inputs` of the transformed record. -/
def addRecord (encl : List Encl) (arity : Nat) (inputs : List Name) : List Name :=
  let (_, c) := bindEnclosing .new [] encl
  (c.pushAll (if inputs = [] then List.replicate arity sImplicit else inputs)).1

end Verif.Defaults

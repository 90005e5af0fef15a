import Verif.CcCall.Props

/-!
# Concrete calls

Non-trivial cases that meet the hypotheses of the theorems, run on the model.
-/

namespace Verif.CcCall.Examples

/-- Copies own `100 + r`; a moved-from value has contents `0`; codecs shift by one. -/
def K : Ops where
  cloneRes := (· + 100)
  cloneVal := id
  movedRes := fun _ => none
  movedVal := fun _ => 0
  rEnc := fun _ v => v + 1
  cDec := fun _ v => v - 1
  cEnc := fun _ v => v + 1
  rDec := fun _ v => v - 1

/-- Object `a` owns resource `a` and contains `10 a`. -/
def W : World := fun a => ⟨some a, 10 * a⟩

/-- A body that returns what its arguments add up to, owning resource `50`, and leaves its by-value
parameters alone. -/
def leafOf (W : World) : Arg → Leaf
  | .own l => l
  | .ref a => W a

/-- See above. -/
def sumBody : Body := fun as W =>
  { post := fun i => ((as[i]?).map (leafOf W)).getD ⟨none, 0⟩
    world := W
    ret := .own ⟨some 50, (as.map fun a => (leafOf W a).val).sum⟩
    rel := [] }

/-- The same, returning a plain number. -/
def plainBody : Body := fun as W => { sumBody as W with
  ret := .own ⟨none, (as.map fun a => (leafOf W a).val).sum⟩ }

/-- An override that also adds a thousand. -/
def overrideBody : Body := fun as W => { sumBody as W with
  ret := .own ⟨none, 1000 + (as.map fun a => (leafOf W a).val).sum⟩ }

/-- What the caller sees of a run: the result, what was released, the world, and the memory in use. -/
structure Seen where
  result : Option Arg
  released : List Nat
  objects : List Leaf
  memory : List PFrame
  slot : Option Leaf
  buffer : Option Leaf
deriving DecidableEq

/-- See above; objects and parameters are numbered `0 … 7`. -/
def see (r : Option (Option Arg × St)) : Option Seen :=
  r.map fun p => ⟨p.1, p.2.rel, (List.range 8).map p.2.world, (List.range 8).map p.2.fr, p.2.ret,
    p.2.retBuf⟩

/-- No memory in use. -/
def clean (v : Option Arg) (rel : List Nat) (W : World) : Option Seen :=
  some ⟨v, rel, (List.range 8).map W, List.replicate 8 .empty, none, none⟩

/-- No trait, nothing special. -/
def plainShape : Shape := ⟨false, false, false, false, false, false⟩

/-- `S f(S, std::string-like, S&, int, unique ptr-like*, Immovable)`. -/
def manyFn : Func where
  params := [⟨0, .record true⟩, ⟨1, .bridged 3⟩, ⟨2, .lref⟩, ⟨3, .prim⟩, ⟨4, .ownedPtr⟩,
    ⟨5, .record false⟩, ⟨6, .existing true⟩]
  ret := some (.record true)
  kind := .free
  isInline := false
  inTemplate := false
  isVirtual := false
  cCallConv := true
  conflictingName := false

/-- Its arguments. -/
def manyArgs : List Arg :=
  [.own ⟨some 1, 1⟩, .own ⟨some 2, 2⟩, .ref 3, .own ⟨none, 4⟩, .own ⟨some 5, 5⟩, .own ⟨some 6, 6⟩,
    .own ⟨some 7, 7⟩]

/-- Its parameters in Rust. -/
def manyShown : List Shown :=
  [.plain (.record true), .plain (.bridged 3), .plain .lref, .plain .prim, .plain .ownedPtr,
    .plain (.record false), .plain (.existing true)]

theorem many_ok : Ok manyFn plainShape where
  names := by decide
  method := by simp [manyFn]
  ctor := by simp [manyFn]
  virt := by simp [manyFn]
  self := by simp [plainShape]
  derived := by simp [plainShape]
  negate := by simp [plainShape]

theorem many_returns : Returns manyFn ⟨sumBody, fun _ _ => sumBody⟩ := by
  intro t ht as W
  simp only [manyFn, Func.rsRet, Option.some.injEq] at ht
  subst ht
  simp [called, manyFn, sumBody, FitsRet]

theorem many_shown : showParams manyFn plainShape = some manyShown := by decide

/-- The theorem applies, and the call releases what the by-value class arguments owned. -/
example : ∃ v s, runRust K id manyFn plainShape ⟨sumBody, fun _ _ => sumBody⟩ manyArgs W = some (v, s) ∧
    s.rel.Perm [1, 2, 6, 7] := by
  obtain ⟨v, s, h1, h2⟩ := arguments_released_once K id manyFn plainShape ⟨sumBody, fun _ _ => sumBody⟩
    manyShown manyArgs W many_ok many_returns rfl rfl many_shown
    (by simp [FitsAll, Fits, manyShown, manyArgs]) (by simp [manyShown, manyArgs, movedObjs])
    (fun _ => rfl) (by
      intro as W
      refine ⟨rfl, ?_⟩
      intro i l h
      simp [called, manyFn, sumBody, h, leafOf])
  exact ⟨v, s, h1, h2.trans (by decide +kernel)⟩

/-- The run itself: `1 + 2 + 30 + 4 + 5 + 6 + 7`. -/
example : see (runRust K id manyFn plainShape ⟨sumBody, fun _ _ => sumBody⟩ manyArgs W) =
    clean (some (.own ⟨some 50, 55⟩)) [1, 2, 6, 7] W := by
  decide +kernel

/-- If moved-from objects keep something, the Rust locals and temporaries release that too. -/
example : see (runRust { K with movedRes := fun r => some (200 + r) } id manyFn plainShape
      ⟨sumBody, fun _ _ => sumBody⟩ manyArgs W) =
    clean (some (.own ⟨some 50, 55⟩)) [1, 2, 6, 7, 207, 206, 201] W := by
  decide +kernel

/-- `bool operator==(S, S)`, shown as `!=` of `&S`: the objects are copied, the copies released, the
result negated. -/
def eqFn : Func := { manyFn with
  params := [⟨0, .record true⟩, ⟨1, .record true⟩]
  ret := some .prim }

/-- `impl PartialEq`. -/
def eqShape : Shape := ⟨true, true, true, false, true, false⟩

theorem eq_ok : Ok eqFn eqShape where
  names := by decide
  method := by simp [eqFn, manyFn]
  ctor := by simp [eqFn, manyFn]
  virt := by simp [eqFn, manyFn]
  self := by
    intro _ p hp
    simp only [eqFn, manyFn, Func.rsParams, List.head?_cons, Option.some.injEq] at hp
    subst hp
    exact ⟨rfl, .inl rfl⟩
  derived := by simp [eqShape]
  negate := by simp [eqFn, manyFn, Func.rsRet]

example : showParams eqFn eqShape = some [.constRef (.record true), .constRef (.record true)] := by
  decide

example : see (runRust K id eqFn eqShape ⟨plainBody, fun _ _ => plainBody⟩ [.ref 1, .ref 2] W) =
    clean (some (.own ⟨none, 0⟩)) [101, 102] W := by
  decide +kernel

/-- A virtual method, inherited, called on an object of a derived class: `up` finds the base
subobject, and the override runs. -/
def virtFn : Func := { manyFn with
  params := [⟨0, .ptrRef⟩, ⟨1, .prim⟩]
  ret := some .prim
  kind := .method false
  isVirtual := true }

/-- An inherited method. -/
def inherited : Shape := ⟨false, false, false, false, true, true⟩

theorem virt_ok : Ok virtFn inherited where
  names := by decide
  method := fun _ _ => ⟨⟨0, .ptrRef⟩, [⟨1, .prim⟩], rfl, rfl⟩
  ctor := by simp [virtFn]
  virt := by simp [virtFn]
  self := by
    intro _ p hp
    simp only [virtFn, Func.rsParams, List.head?_cons, Option.some.injEq] at hp
    subst hp
    exact ⟨rfl, .inl rfl⟩
  derived := fun _ => ⟨false, rfl⟩
  negate := by simp [inherited]

example : canSkip virtFn = false ∧ canSkip { virtFn with isVirtual := false } = true := by decide

example : see (runRust K (· + 1) virtFn inherited
      ⟨plainBody, fun a _ => if a = 3 then overrideBody else plainBody⟩ [.ref 2, .own ⟨none, 7⟩] W) =
    clean (some (.own ⟨none, 1037⟩)) [] W := by
  decide +kernel

/-- The same method, not virtual: no thunk. -/
example : see (runRust K (· + 1) { virtFn with isVirtual := false } inherited
      ⟨plainBody, fun a _ => if a = 3 then overrideBody else plainBody⟩ [.ref 2, .own ⟨none, 7⟩] W) =
    clean (some (.own ⟨none, 37⟩)) [] W := by
  decide +kernel

/-- The constructor of an immovable class, from an object of the same kind that the caller has
constructed (a trait method: the parameter is an rvalue reference): the object is moved from. -/
def ctorFn : Func := { manyFn with
  params := [⟨0, .ptrRef⟩, ⟨1, .record false⟩, ⟨2, .record true⟩]
  ret := none
  kind := .ctor false }

/-- `impl CtorNew<(RvalueReference<…>, S)>`. -/
def ctorShape : Shape := ⟨true, false, false, false, false, false⟩

theorem ctor_ok : Ok ctorFn ctorShape where
  names := by decide
  method := by simp [ctorFn]
  ctor := fun _ _ => ⟨rfl, ⟨0, .ptrRef⟩, [⟨1, .record false⟩, ⟨2, .record true⟩], rfl, rfl⟩
  virt := by simp [ctorFn, manyFn]
  self := by simp [ctorShape]
  derived := by simp [ctorShape]
  negate := by simp [ctorShape]

example : showParams ctorFn ctorShape = some [.rvalue (.record false), .plain (.record true)] := by
  decide

example : see (runRust K id ctorFn ctorShape ⟨sumBody, fun _ _ => sumBody⟩ [.ref 3, .own ⟨some 9, 9⟩] W) =
    clean (some (.own ⟨some 50, 39⟩)) [3, 9] (fun a => if a = 3 then ⟨none, 0⟩ else W a) := by
  decide +kernel

/-- Dropped without being run, it releases the arguments it holds. -/
example : (dropRust ctorFn [.ref 3, .own ⟨some 9, 9⟩] W).rel = [9] := by decide +kernel

end Verif.CcCall.Examples

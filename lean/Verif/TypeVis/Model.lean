import Verif.TypeVis.Spec

/-!
# Visibility of bindings: the code

Sources: `rs_bindings_from_cc/generate_bindings/has_bindings.rs`, `…/database/db.rs`, `…/database/rs_snippet.rs`,
`…/database/code_snippet.rs`.
-/

namespace Verif.TypeVis

/-- What the iterator pushes for a type, `rs_snippet.rs:2683–2719`, last pushed first. -/
def pushed : Kind → List Kind
  | .error .. | .prim | .incomplete | .record .. | .enum => []
  | .ptr k => [k]
  | .ref k => [k]
  | .rref k => [k]
  | .alias _ k => [k]
  | .fnPtr _ params ret => params ++ [ret]
  | .bridge _ => []
  | .optional k => [k]
  | .pair a b => [a, b]
  | .callable params ret => params ++ [ret]
  | .co k => [k]
  | .existing _ => []

/-- `RsTypeKindIter::next`, `rs_snippet.rs:2677–2724`, until the end; the first argument bounds the number of calls. -/
def iterate : Nat → List Kind → List Kind
  | 0, _ => []
  | _ + 1, [] => []
  | n + 1, k :: todo => k :: iterate n (pushed k ++ todo)

mutual
/-- The number of types in a type: enough calls. -/
def Kind.count : Kind → Nat
  | .error .. | .prim | .incomplete | .record .. | .enum | .bridge _ | .existing _ => 1
  | .ptr k | .ref k | .rref k | .alias _ k | .optional k | .co k => k.count + 1
  | .fnPtr _ params ret | .callable params ret => counts params + ret.count + 1
  | .pair a b => a.count + b.count + 1
def counts : List Kind → Nat
  | [] => 0
  | k :: ks => k.count + counts ks
end

/-- `dfs_iter`, `rs_snippet.rs:2665–2724`. -/
def dfs (k : Kind) : List Kind := iterate k.count [k]

/-- `unalias`, `rs_snippet.rs:1328–1334`. -/
def unalias : Kind → Kind
  | .alias _ k => unalias k
  | k => k

/-- `type_target_restriction_shallow`, `has_bindings.rs:401–428`. -/
def restriction (F : Features) (k : Kind) : Option Target := match unalias k with
  | .record r _ =>
      if r.unique || F r.target .templateInstantiation then none
      else if r.uniform then none
      else if F r.target .experimental then none
      else some r.target
  | _ => none

/-- `intersect_target_restrictions`, `has_bindings.rs:364–395`; `none`: the error. -/
def intersect (old new : Option Target) : Option (Option Target) := match old, new with
  | some o, some n => if o ≠ n then none else some (some o)
  | some o, none => some (some o)
  | none, n => some n

def intersectAll (F : Features) (acc : Option Target) : List Kind → Option (Option Target)
  | [] => some acc
  | k :: ks => match intersect acc (restriction F k) with
      | none => none
      | some acc' => intersectAll F acc' ks

/-- `type_target_restriction`, `has_bindings.rs:330–346`; `none`: the error. -/
def targetRestriction (F : Features) (k : Kind) : Option (Option Target) := match dfs k with
  | [] => none
  | k :: ks => intersectAll F (restriction F k) ks

/-- The search for an error, `db.rs:323–328`. -/
def errorVis : List Kind → Vis
  | [] => .pub
  | .error o _ :: _ => o.getD .pubCrate
  | _ :: ks => errorVis ks

/-- `type_visibility`, `db.rs:307–332`; `none`: the error. -/
def typeVisibility (F : Features) (library : Target) (k : Kind) : Option Vis := match targetRestriction F k with
  | none => none
  | some (some label) => if label ≠ library then none else some .pubCrate
  | some none => some (errorVis (dfs k))

/-- `Visibility::or`, `code_snippet.rs:277–286`. -/
def Vis.or : Vis → Vis → Vis
  | .pub, .pub => .pub
  | _, _ => .pubCrate

/-- The loop of `func_has_bindings` over parameters and return type, `has_bindings.rs:279–299`. -/
def signatureVisibility (F : Features) (library : Target) (acc : Vis) : List Kind → Option Vis
  | [] => some acc
  | k :: ks => match typeVisibility F library k with
      | none => none
      | some v => signatureVisibility F library (acc.or v) ks

/-- The visibility of a function. -/
def functionVisibility (F : Features) (library : Target) (params : List Kind) (ret : Kind) : Option Vis :=
  signatureVisibility F library .pub (params ++ [ret])

/-- `require_any_feature`, `rs_snippet.rs:1385–1391`; the set of reasons is a list without order. -/
def require (f : Feature → Bool) (any : List Feature) (reason : Reason) (reasons : List Reason) : List Reason :=
  if any.any f then reasons else if reason ∈ reasons then reasons else reasons ++ [reason]

/-- The body of the loop, `rs_snippet.rs:1401–1459`. -/
def missingStep (f : Feature → Bool) (reasons : List Reason) : Kind → List Reason
  | .error o m => if o.isNone then require f [.wrapper] (.error m) reasons else reasons
  | .ref _ | .rref _ => require f [.experimental] .references reasons
  | .fnPtr cConv _ _ => if cConv then reasons else require f [.experimental] .callingConvention reasons
  | .incomplete => require f [.wrapper] .forwardDeclared reasons
  | .record r _ =>
      if !r.uniform && !r.unique then require f [.wrapper, .templateInstantiation] .template reasons else reasons
  | _ => reasons

/-- `missing_feature_descriptions_of_type`, `rs_snippet.rs:1379–1463`. -/
def missingOfType (t : Target) (f : Feature → Bool) (k : Kind) : List Reason :=
  (dfs k).foldl (missingStep f) (if f .types then [] else require f [.types] (.disabled t) [])

/-- `missing_features_of_type`, `code_snippet.rs:148–157`: the first target with reasons. -/
def missingOfTargets (F : Features) (k : Kind) : List Target → Option (List Reason)
  | [] => none
  | t :: ts => if missingOfType t (F t) k = [] then missingOfTargets F k ts else some (missingOfType t (F t) k)

/-- What `missing_feature_descriptions` says about the types of a function that is not a destructor
(`code_snippet.rs:195–216`); `targets`: defining and owning target. -/
def missingOfSignature (F : Features) (targets : List Target) (params : List Kind) (ret : Kind) :
    List (List Reason) :=
  (params ++ [ret]).filterMap fun k => missingOfTargets F k targets

end Verif.TypeVis

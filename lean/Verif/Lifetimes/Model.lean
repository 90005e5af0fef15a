import Verif.Common.AMap
import Verif.Common.Chain
/-
Model of lifetime_annotations/lifetime.{h,cc}, lifetime_symbol_table.{h,cc}, lifetime_substitutions.{h,cc}.
Hash containers are finite maps; names are character lists.
-/
namespace Verif.Lifetimes

/-- `Lifetime`, lifetime_annotations/lifetime.h lines 26-86: an id. -/
structure Lifetime where
  id : Int
deriving DecidableEq

/-- `Lifetime::Static`, lifetime.cc lines 20, 32. -/
def Lifetime.static : Lifetime := ⟨-1⟩

/-- `IsValid`, lifetime.cc lines 80-83. -/
def Lifetime.isValid (l : Lifetime) : Bool := l.id ≠ 0 ∧ l.id ≠ 1

/-- `IsVariable`, lifetime.cc lines 36-39. -/
def Lifetime.isVariable (l : Lifetime) : Bool := l.id > 0

/-- `IsConstant`, lifetime.cc lines 41-44. -/
def Lifetime.isConstant (l : Lifetime) : Bool := !l.isVariable

/-- `IsLocal`, lifetime.cc lines 46-49. -/
def Lifetime.isLocal (l : Lifetime) : Bool := l.id ≤ -2

/-- The two process-wide counters, lifetime.cc lines 24-26. -/
structure Ids where
  nextVar : Int
  nextLocal : Int

def Ids.init : Ids := ⟨2, -2⟩

/-- `std::atomic<int>` arithmetic wraps. -/
def wrap32 (x : Int) : Int := (x + 2147483648) % 4294967296 - 2147483648

/-- `CreateVariable`, lifetime.cc line 30 (one atomic step, so any interleaving of threads is a sequence of calls). -/
def createVariable (s : Ids) : Lifetime × Ids := (⟨s.nextVar⟩, { s with nextVar := wrap32 (s.nextVar + 1) })

/-- `CreateLocal`, lifetime.cc line 34. -/
def createLocal (s : Ids) : Lifetime × Ids := (⟨s.nextLocal⟩, { s with nextLocal := wrap32 (s.nextLocal - 1) })

/-- A lifetime name. -/
abbrev Name := List Char

def staticName : Name := ['s', 't', 'a', 't', 'i', 'c']

/-- The `while` loop of `NameFromIndex`, lifetime_symbol_table.cc lines 62-69: returns the remaining index and the
number of characters. `combos` is positive. -/
def nameLoop (index combos chars : Nat) : Nat × Nat :=
  if h : combos ≤ index ∧ 0 < combos then nameLoop (index - combos) (combos * 26) (chars + 1) else (index, chars)
termination_by index
decreasing_by omega

/-- The `for` loop of `NameFromIndex`, lines 72-75: prepends `chars` characters, least significant digit last. -/
def nameDigits : Nat → Nat → Name → Name
  | _, 0, acc => acc
  | index, n + 1, acc => nameDigits (index / 26) n (Char.ofNat (97 + index % 26) :: acc)

/-- `NameFromIndex`, lines 61-77. (`int` arithmetic: no overflow below 26 + … + 26^6 = 321272406.) -/
def nameFromIndex (index : Nat) : Name :=
  let (index, chars) := nameLoop index 26 1
  nameDigits index chars []

/-- `LifetimeSymbolTable`, lifetime_symbol_table.h lines 66-68. -/
structure Table where
  names : List (Name × Lifetime)
  lifetimes : List (Lifetime × Name)
  next : Nat

def Table.empty : Table := ⟨[], [], 0⟩

/-- `LookupName`, lifetime_symbol_table.cc lines 19-30. -/
def Table.lookupName (t : Table) (n : Name) : Option Lifetime :=
  if n = staticName then some .static else AMap.get? t.names n

/-- `LookupNameAndMaybeDeclare`, lines 32-46. -/
def Table.lookupNameAndMaybeDeclare (t : Table) (ids : Ids) (n : Name) : Lifetime × Table × Ids :=
  if n = staticName then (.static, t, ids)
  else match AMap.get? t.names n with
    | some l => (l, t, ids)
    | none =>
      let (l, ids) := createVariable ids
      (l, { t with names := AMap.insert t.names n l, lifetimes := AMap.insert t.lifetimes l n }, ids)

/-- `LookupLifetime`, lines 48-59. -/
def Table.lookupLifetime (t : Table) (l : Lifetime) : Option Name :=
  if l = .static then some staticName else AMap.get? t.lifetimes l

/-- The `while (true)` loop of `LookupLifetimeAndMaybeDeclare`, lines 90-98: the index of the name found. `none` if it
does not stop within `fuel` iterations. -/
def freeIndex (names : List (Name × Lifetime)) : Nat → Nat → Option Nat
  | 0, _ => none
  | fuel + 1, i => match AMap.get? names (nameFromIndex i) with
    | none => some i
    | some _ => freeIndex names fuel (i + 1)

/-- `LookupLifetimeAndMaybeDeclare`, lines 79-99; `none` if the loop does not stop (see `naming_terminates`). -/
def Table.lookupLifetimeAndMaybeDeclare (t : Table) (l : Lifetime) : Option (Name × Table) :=
  if l = .static then some (staticName, t)
  else match AMap.get? t.lifetimes l with
    | some n => some (n, t)
    | none => (freeIndex t.names (t.names.length + 1) t.next).map fun i =>
      (nameFromIndex i, { names := AMap.insert t.names (nameFromIndex i) l, lifetimes := AMap.insert t.lifetimes l (nameFromIndex i), next := i + 1 })

/-- `Add`, lines 101-107; `none` is the fatal error. -/
def Table.add (t : Table) (n : Name) (l : Lifetime) : Option Table :=
  match AMap.get? t.names n with
  | some _ => none
  | none => some { t with names := AMap.insert t.names n l, lifetimes := AMap.insert t.lifetimes l n }

/-- `Rebind`, lines 109-117; `none` is the fatal error. -/
def Table.rebind (t : Table) (n : Name) (l : Lifetime) : Option Table :=
  match AMap.get? t.names n with
  | none => none
  | some old => some { t with
      lifetimes := AMap.insert (AMap.erase t.lifetimes old) l n
      names := AMap.insert t.names n l }

/-- `LifetimeSubstitutions`, lifetime_substitutions.h line 36. -/
structure Subst where
  map : List (Lifetime × Lifetime)

def Subst.empty : Subst := ⟨[]⟩

/-- `Substitute`, lifetime_substitutions.cc lines 37-45; `none` if the loop does not stop (see `substitute_terminates`). -/
def Subst.substitute (s : Subst) (l : Lifetime) : Option Lifetime := Chain.chase (AMap.get? s.map) s.map.length l

/-- `Add`, lines 21-35. The precondition (`variable.IsVariable()`) is an `assert`. -/
def Subst.add (s : Subst) (v l : Lifetime) : Option Subst :=
  (s.substitute l).map fun l => if v = l then s else ⟨AMap.insert s.map v l⟩

end Verif.Lifetimes

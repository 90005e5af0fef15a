/-
The part of C++ that the value semantics of records is about (C132-C136): classes with their bases,
fields and special members, what C++ says about their destructors and copy constructors, and what
happens when an object is destroyed or copied.

Nothing in this file is code of /repo: it is the part of the C++ standard ([class.dtor],
[class.copy.ctor]) that the statements refer to, and that Clang implements
(`CXXMethodDecl::isDeleted`, `isTrivial`).
-/
namespace Verif.CcValue

inductive Access where
  | pub | prot | priv
  deriving DecidableEq, Repr

/-- How the author of a class declares a special member: `= default`, `= delete`, or with a body. -/
inductive How where
  | defaulted | deleted | userProvided
  deriving DecidableEq, Repr

/-- A destructor written by the author of the class. -/
structure DtorDecl where
  how : How
  access : Access := .pub
  virt : Bool := false
  deriving DecidableEq, Repr

/-- A copy constructor written by the author: `C(const C&)` or `C(C&)`. -/
structure CopyDecl where
  const : Bool := true
  how : How
  access : Access := .pub
  deriving DecidableEq, Repr

/-- An annotation that forces (`pos`) or forbids (`neg`) the derivation of a Rust trait. -/
inductive Pol where
  | unset | pos | neg
  deriving DecidableEq, Repr

/-- What the author wrote about a class, apart from its bases and fields. -/
structure ClassInfo where
  /-- a `union` (else a `struct` or a `class`) -/
  isUnion : Bool := false
  /-- the destructor; `none`: it is implicit -/
  dtor : Option DtorDecl := none
  /-- the copy constructors, in the order of declaration; `[]`: there is an implicit one -/
  copies : List CopyDecl := []
  /-- a move constructor or a move assignment operator is declared: the implicit copy constructor is
  deleted -/
  hasMove : Bool := false
  /-- the class declares a virtual function (other than its destructor) -/
  virtFns : Bool := false
  /-- some virtual function is pure -/
  isAbstract : Bool := false
  /-- Clang's answer to `canPassInRegisters`, whatever it is -/
  inRegs : Bool := true
  /-- the defaulted copy constructor cannot be defined: its synthesis reports errors although it is
  not deleted (templates), or its `requires` clause is not met -/
  copyFails : Bool := false
  /-- annotated as thread safe -/
  threadSafe : Bool := false
  deriveCopy : Pol := .unset
  deriveClone : Pol := .unset
  /-- the experimental features are on in the targets of the class -/
  experimental : Bool := false
  /-- Rust sees the parameter of the constructor `C(const C&)` as a shared reference -/
  copyParamIsRef : Bool := true
  /-- there is space before the first field (bases, virtual table pointer), or the class is no
  aggregate -/
  headPadding : Bool := false
  deriving DecidableEq, Repr

/-- What the author wrote about one base or field. -/
structure SubInfo where
  /-- a base class (else a field) -/
  isBase : Bool := false
  /-- a virtual base -/
  virt : Bool := false
  access : Access := .pub
  /-- `mutable` -/
  isMutable : Bool := false
  bitfield : Bool := false
  /-- `[[no_unique_address]]` -/
  noUniqueAddress : Bool := false
  /-- an array of that many elements -/
  array : Option Nat := none
  /-- the type of the field, or an attribute on it, has no bindings -/
  unsupported : Bool := false
  /-- the class is a friend of the class of this subobject -/
  isFriend : Bool := false
  deriving DecidableEq, Repr

mutual
/-- A class. -/
inductive Cls where
  | mk (d : ClassInfo) (subs : Subs)
/-- The bases and then the fields of a class, in the order of their construction. -/
inductive Subs where
  | nil
  /-- a field of scalar type (arithmetic, enumeration, pointer), or a reference -/
  | scalar (i : SubInfo) (mutRef : Bool) (rest : Subs)
  /-- a base, or a field of class type (or an array of such) -/
  | obj (i : SubInfo) (c : Cls) (rest : Subs)
end

def Cls.info : Cls → ClassInfo
  | .mk d _ => d

def Cls.subs : Cls → Subs
  | .mk _ s => s

/-- What the author wrote about the fields of a class, in order. -/
def Subs.fieldInfos : Subs → List SubInfo
  | .nil => []
  | .scalar i _ rest => i :: rest.fieldInfos
  | .obj i _ rest => if i.isBase then rest.fieldInfos else i :: rest.fieldInfos

/-- What has become of a special member. -/
inductive Kind where
  | deleted | trivial | nontrivial
  deriving DecidableEq, Repr

/-- May the special members of a class use a member of a subobject with that access? -/
def accessOk (i : SubInfo) (a : Access) : Bool :=
  a == .pub || i.isFriend || (a == .prot && i.isBase)

/-- A special member that is implicit or defaulted: deleted if it cannot use what it needs (in a
union also if that is not trivial), else trivial unless something virtual or not trivial is
involved. -/
def defaultKind (isUnion virt bad nontriv : Bool) : Kind :=
  if bad || (isUnion && nontriv) then .deleted
  else if virt || nontriv then .nontrivial
  else .trivial

/-! ### Destructors -/

/-- The access of the destructor. -/
def Cls.dtorAccess (c : Cls) : Access := (c.info.dtor.map (·.access)).getD .pub

/-- How the destructor is declared. -/
def ClassInfo.dtorHow (d : ClassInfo) : Option How := d.dtor.map (·.how)

def ClassInfo.dtorVirt (d : ClassInfo) : Bool := (d.dtor.map (·.virt)).getD false

mutual
/-- The destructor of a class ([class.dtor]). -/
def Cls.dtorKind : Cls → Kind
  | .mk d subs =>
    match d.dtorHow with
    | some .deleted => .deleted
    | some .userProvided => .nontrivial
    | _ => defaultKind d.isUnion d.dtorVirt subs.dtorBad subs.dtorNontriv
/-- Some subobject cannot be destroyed by the class. -/
def Subs.dtorBad : Subs → Bool
  | .nil => false
  | .scalar _ _ rest => rest.dtorBad
  | .obj i c rest => c.dtorKind == .deleted || !accessOk i c.dtorAccess || rest.dtorBad
/-- Some subobject has a destructor that is not trivial. -/
def Subs.dtorNontriv : Subs → Bool
  | .nil => false
  | .scalar _ _ rest => rest.dtorNontriv
  | .obj _ c rest => c.dtorKind == .nontrivial || rest.dtorNontriv
end

/-- Anybody can destroy objects of the class. -/
def Cls.destructible (c : Cls) : Prop := c.dtorKind ≠ .deleted ∧ c.dtorAccess = .pub

/-! ### Copy constructors -/

mutual
/-- There is a copy constructor that takes a `const` reference. -/
def Cls.constCopy : Cls → Bool
  | .mk d subs => if d.copies.isEmpty then subs.constCopy else d.copies.any (·.const)
def Subs.constCopy : Subs → Bool
  | .nil => true
  | .scalar _ _ rest => rest.constCopy
  | .obj _ c rest => c.constCopy && rest.constCopy
end

/-- Overload resolution between the declared copy constructors, for a source that is `const` or is
not. -/
def selectCopy (l : List CopyDecl) (src : Bool) : Option CopyDecl :=
  if src then l.find? (·.const)
  else (l.find? (fun d => !d.const)).orElse (fun _ => l.find? (·.const))

/-- The access of the selected copy constructor. -/
def Cls.copyAccess (c : Cls) (src : Bool) : Access :=
  ((selectCopy c.info.copies src).map (·.access)).getD .pub

/-- Bases that are virtual. -/
def Subs.virtBase : Subs → Bool
  | .nil => false
  | .scalar _ _ rest => rest.virtBase
  | .obj i _ rest => i.virt || rest.virtBase

def Cls.copyVirt (c : Cls) : Bool :=
  c.info.virtFns || c.info.dtorVirt || c.subs.virtBase

mutual
/-- What copying an object of the class from a source that is `const` (`true`) or is not does
([class.copy.ctor]). -/
def Cls.copyKind : Cls → Bool → Kind
  | .mk d subs, src =>
    if d.copies.isEmpty then
      if d.hasMove || (src && !subs.constCopy) then .deleted
      else
        defaultKind d.isUnion (d.virtFns || d.dtorVirt || subs.virtBase)
          (subs.copyBad subs.constCopy || subs.dtorBad) (subs.copyNontriv subs.constCopy)
    else
      match selectCopy d.copies src with
      | none => .deleted
      | some e =>
        match e.how with
        | .deleted => .deleted
        | .userProvided => .nontrivial
        | .defaulted =>
          defaultKind d.isUnion (d.virtFns || d.dtorVirt || subs.virtBase)
            (subs.copyBad e.const || subs.dtorBad) (subs.copyNontriv e.const)
/-- Some subobject cannot be copied by the class. (A `mutable` field of a `const` object is not
`const`.) -/
def Subs.copyBad : Subs → Bool → Bool
  | .nil, _ => false
  | .scalar _ _ rest, src => rest.copyBad src
  | .obj i c rest, src =>
    c.copyKind (src && !i.isMutable) == .deleted ||
      !accessOk i (c.copyAccess (src && !i.isMutable)) || rest.copyBad src
/-- Some subobject is not copied trivially. -/
def Subs.copyNontriv : Subs → Bool → Bool
  | .nil, _ => false
  | .scalar _ _ rest, src => rest.copyNontriv src
  | .obj i c rest, src =>
    c.copyKind (src && !i.isMutable) == .nontrivial || rest.copyNontriv src
end

/-- Anybody can copy a `const` object of the class. -/
def Cls.copyable (c : Cls) : Prop := c.copyKind true ≠ .deleted ∧ c.copyAccess true = .pub

/-! ### What happens -/

/-- The place of a subobject: the indices of bases and fields (and of the element in an array), from
the complete object inwards. -/
abbrev Path := List (Nat × Nat)

/-- Something that code written by the author of a class does. -/
inductive Event where
  /-- the body of a destructor runs, for the object at that place -/
  | dtor (p : Path)
  /-- the body of a copy constructor runs, to make the object at that place -/
  | copy (p : Path)
  deriving DecidableEq, Repr

/-- `f` for every element of an array, or for the one object. -/
def elems (a : Option Nat) (f : Nat → List Event) : List Event :=
  match a with
  | none => f 0
  | some n => (List.range n).flatMap f

/-- The same, last element first. -/
def elemsRev (a : Option Nat) (f : Nat → List Event) : List Event :=
  match a with
  | none => f 0
  | some n => (List.range n).reverse.flatMap f

mutual
/-- Destroying an object: the body of the destructor, then the fields and the bases, last first. The
fields of a union are not destroyed. -/
def Cls.destroy : Cls → Path → List Event
  | .mk d subs, p =>
    (if d.dtorHow = some .userProvided then [.dtor p] else []) ++
      (if d.isUnion then [] else subs.destroy p 0)
def Subs.destroy : Subs → Path → Nat → List Event
  | .nil, _, _ => []
  | .scalar _ _ rest, p, n => rest.destroy p (n + 1)
  | .obj i c rest, p, n =>
    rest.destroy p (n + 1) ++ elemsRev i.array (fun k => c.destroy (p ++ [(n, k)]))
end

mutual
/-- Copying an object, when that is possible: bytes are copied if the copy constructor is trivial; a
copy constructor with a body runs (what the body does with the members is its own business); else
the bases and fields are copied in order. -/
def Cls.copy : Cls → Bool → Path → List Event
  | .mk d subs, src, p =>
    match Cls.copyKind (.mk d subs) src with
    | .deleted => []
    | .trivial => []
    | .nontrivial =>
      match selectCopy d.copies src with
      | none => subs.copy subs.constCopy p 0
      | some e => if e.how = .userProvided then [.copy p] else subs.copy e.const p 0
def Subs.copy : Subs → Bool → Path → Nat → List Event
  | .nil, _, _, _ => []
  | .scalar _ _ rest, src, p, n => rest.copy src p (n + 1)
  | .obj i c rest, src, p, n =>
    elems i.array (fun k => c.copy (src && !i.isMutable) (p ++ [(n, k)])) ++ rest.copy src p (n + 1)
end

end Verif.CcValue

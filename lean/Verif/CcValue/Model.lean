import Verif.CcValue.Spec
/-
The model of how crubit classifies the special members of a C++ record, what it derives from them,
and which Rust type it generates (C132-C136).
-/
namespace Verif.CcValue

/-- `SpecialMemberFunc` (rs_bindings_from_cc/ir.proto; ir.h:378-391). -/
inductive SMF where
  | trivial | nontrivialMembers | nontrivialUserDefined | unavailable
  deriving DecidableEq, Repr

/-- `CXXRecordDecl::ctors()` also contains the implicit copy constructor. `GetCopyCtor`
(ast_convert.cc:27-34) returns the first copy constructor there is: `none` stands for the implicit
one. -/
def ClassInfo.firstCopy (d : ClassInfo) : Option CopyDecl := d.copies.head?

/-- Clang's `isDeleted()` / `isTrivial()` of that constructor. -/
def Cls.firstCopyKind (c : Cls) : Kind :=
  match c.info.firstCopy with
  | none => c.copyKind c.subs.constCopy
  | some e =>
    match e.how with
    | .deleted => .deleted
    | .userProvided => .nontrivial
    | .defaulted =>
      defaultKind c.info.isUnion c.copyVirt (c.subs.copyBad e.const || c.subs.dtorBad)
        (c.subs.copyNontriv e.const)

mutual
/-- `HasNoUserProvidedSpecialMember` for the copy constructor (ast_convert.cc:52-70): this class and
its bases, not its fields. -/
def Cls.noUserCopy : Cls → Bool
  | .mk d subs => d.firstCopy.map (·.how) != some .userProvided && subs.noUserCopy
def Subs.noUserCopy : Subs → Bool
  | .nil => true
  | .scalar _ _ rest => rest.noUserCopy
  | .obj i c rest => (!i.isBase || c.noUserCopy) && rest.noUserCopy
end

mutual
/-- `HasNoUserProvidedSpecialMember` for the destructor. -/
def Cls.noUserDtor : Cls → Bool
  | .mk d subs => d.dtorHow != some .userProvided && !d.dtorVirt && subs.noUserDtor
def Subs.noUserDtor : Subs → Bool
  | .nil => true
  | .scalar _ _ rest => rest.noUserDtor
  | .obj i c rest => (!i.isBase || c.noUserDtor) && rest.noUserDtor
end

/-- `GetSpecialMemberFunc` (ast_convert.cc:72-137), after the member has been found: `fails` stands
for the checks in lines 98-126. -/
def classify (access : Access) (fails : Bool) (kind : Kind) (noUser : Bool) : SMF :=
  if access != .pub then .unavailable
  else if fails then .unavailable
  else
    match kind with
    | .deleted => .unavailable
    | .trivial => .trivial
    | .nontrivial => if noUser then .nontrivialMembers else .nontrivialUserDefined

/-- `GetCopyCtorSpecialMemberFunc` (ast_convert.cc:140-143). -/
def Cls.copySpecial (c : Cls) : SMF :=
  classify ((c.info.firstCopy.map (·.access)).getD .pub) c.info.copyFails c.firstCopyKind c.noUserCopy

/-- `GetDestructorSpecialMemberFunc` (ast_convert.cc:150-154); without an import context the
additional checks are skipped. -/
def Cls.dtorSpecial (c : Cls) : SMF :=
  classify c.dtorAccess false c.dtorKind c.noUserDtor

/-- `Record::is_unpin` (ir.rs:2475-2477; importers/cxx_record.cc:1446). -/
def Cls.isUnpin (c : Cls) : Bool := c.info.inRegs

/-- `Record::check_by_value` (ir.rs:2584-2596). -/
def Cls.checkByValue (c : Cls) : Bool :=
  c.dtorSpecial != .unavailable && !c.info.isAbstract

/-- `Record::should_implement_drop` (ir.rs:2537-2557). -/
def Cls.shouldImplementDrop (c : Cls) : Bool :=
  match c.dtorSpecial with
  | .trivial => false
  | .nontrivialMembers => true
  | .nontrivialUserDefined => true
  | .unavailable => false

/-- `self.fields.iter().all(|f| !f.is_mutable())`. -/
def Subs.noMutableField : Subs → Bool
  | .nil => true
  | .scalar i _ rest => !i.isMutable && rest.noMutableField
  | .obj i _ rest => (i.isBase || !i.isMutable) && rest.noMutableField

/-- `Record::should_derive_copy` (ir.rs:2559-2579). -/
def Cls.shouldDeriveCopy (c : Cls) : Bool :=
  if c.info.threadSafe then false
  else
    match c.info.deriveCopy with
    | .pos => true
    | .neg => false
    | .unset =>
      c.isUnpin && c.copySpecial == .trivial && c.dtorSpecial == .trivial && c.checkByValue &&
        c.info.deriveClone != .neg && c.subs.noMutableField

/-- `should_derive_clone` (generate_bindings/database/rs_snippet.rs:239-259). -/
def Cls.shouldDeriveClone (c : Cls) : Bool :=
  if c.info.threadSafe then false
  else
    match c.info.deriveClone with
    | .pos => true
    | .neg => false
    | .unset =>
      if c.info.isUnion then c.shouldDeriveCopy
      else c.isUnpin && c.copySpecial == .trivial && c.checkByValue

/-- Is there an `impl Clone` that calls the copy constructor (`api_func_shape_for_constructor`,
generate_bindings/generate_function.rs:1008-1119)? The constructor is one of the functions of the
record if it is public and not deleted. Only the constructor with a `const` parameter has a parameter
that is a shared reference. -/
def Cls.implClone (c : Cls) : Bool :=
  c.copyAccess true == .pub && !c.info.copyFails && c.copyKind true != .deleted &&
    c.checkByValue && c.isUnpin && c.info.copyParamIsRef && !c.shouldDeriveClone

/-! ### The Rust type -/

mutual
/-- A Rust type as used for a field. -/
inductive RTy where
  /-- a primitive, a pointer, an enum, a shared reference (`copy`), or a mutable reference -/
  | plain (copy : Bool)
  /-- `[MaybeUninit<u8>; N]`, or `[Cell<MaybeUninit<u8>>; N]` -/
  | bytes (cell : Bool)
  /-- `UnsafeCell<[MaybeUninit<u8>; N]>` -/
  | unsafeCell
  /-- `ManuallyDrop<T>` -/
  | mdrop (t : RTy)
  /-- `Cell<T>` -/
  | cell (t : RTy)
  /-- a generated struct or union -/
  | adt (a : Adt)
/-- A generated struct or union: `derive(Copy)`, `derive(Clone)`; the class whose destructor `drop`
calls, the class whose copy constructor `clone` calls; `recursively_pinned`. -/
inductive Adt where
  | mk (isUnion copy clone : Bool) (drop : Option Cls) (cloneFn : Option Cls) (pinned : Bool)
      (fields : RFields)
/-- The fields, each with the index of the C++ field. -/
inductive RFields where
  | nil
  | cons (n : Nat) (t : RTy) (rest : RFields)
end

/-- What `field_definition` needs to know about the record
(generate_bindings/generate_struct_and_union.rs:266-278, 365-384). -/
structure RecInfo where
  isUnion : Bool
  drop : Bool
  cellBytes : Bool
  experimental : Bool

def Cls.recInfo (c : Cls) : RecInfo :=
  { isUnion := c.info.isUnion
    drop := c.shouldImplementDrop
    cellBytes := !c.shouldDeriveCopy
    experimental := c.info.experimental }

/-- Does `get_field_rs_type_kind_for_layout` (generate_struct_and_union.rs:120-183) give a type?
`copy`: `RsTypeKind::implements_copy` of the type (rs_snippet.rs:1656-1685). The types of fields that
are not public are elided by the importer (importers/cxx_record.cc:1530-1549), arrays are not
supported. -/
def fieldTyped (r : RecInfo) (i : SubInfo) (copy : Bool) : Bool :=
  !i.noUniqueAddress && !i.unsupported && i.access == .pub && i.array.isNone &&
    !(r.drop && !r.isUnion && !copy && !r.experimental)

/-- `field_definition` (generate_struct_and_union.rs:266-397) and `FieldType::to_tokens`
(database/code_snippet.rs:1369-1386). Bases are part of the bytes before the fields; bit-fields are
bytes. -/
def fieldTy (r : RecInfo) (i : SubInfo) (copy : Bool) (t : RTy) : RTy :=
  if i.isBase || i.bitfield || !fieldTyped r i copy then .bytes r.cellBytes
  else
    let t := if (r.drop || r.isUnion) && !copy then .mdrop t else t
    if i.isMutable then .cell t else t

mutual
/-- The generated Rust type (`generate_record`, generate_struct_and_union.rs:401-917;
`generate_derives`, 943-970; the struct body, database/code_snippet.rs:568-600;
`api_func_shape_for_destructor`, generate_function.rs:908-963). -/
def Cls.gen : Cls → Adt
  | .mk d subs =>
    let c := Cls.mk d subs
    .mk d.isUnion c.shouldDeriveCopy c.shouldDeriveClone
      (if c.shouldImplementDrop then some c else none)
      (if c.implClone then some c else none)
      (!c.isUnpin)
      (if d.threadSafe then .cons 0 .unsafeCell .nil
       else if d.headPadding then .cons 0 (.bytes (!c.shouldDeriveCopy)) (subs.gen c.recInfo 0)
       else subs.gen c.recInfo 0)
def Subs.gen : Subs → RecInfo → Nat → RFields
  | .nil, _, _ => .nil
  | .scalar i mutRef rest, r, n =>
    .cons n (fieldTy r i (!mutRef) (.plain (!mutRef))) (rest.gen r (n + 1))
  | .obj i c rest, r, n =>
    .cons n (fieldTy r i c.shouldDeriveCopy (.adt c.gen)) (rest.gen r (n + 1))
end

/-! ### Rust

What Rust does with such types: which traits they have, what it means to drop and to clone a value,
and which definitions the compiler refuses. (Not code of /repo.) -/

def Adt.isCopy : Adt → Bool
  | .mk _ copy _ _ _ _ _ => copy

def RTy.isCopy : RTy → Bool
  | .plain c => c
  | .bytes b => !b
  | .unsafeCell => false
  | .mdrop t => t.isCopy
  | .cell _ => false
  | .adt a => a.isCopy

def Adt.isClone : Adt → Bool
  | .mk _ _ clone _ f _ _ => clone || f.isSome

/-- `Cell<T>: Clone` needs `T: Copy`. -/
def RTy.isClone : RTy → Bool
  | .plain c => c
  | .bytes _ => true
  | .unsafeCell => false
  | .mdrop t => t.isClone
  | .cell t => t.isCopy
  | .adt a => a.isClone

mutual
/-- Dropping a value: `Drop::drop`, and then the fields in order; not the fields of a union, and not
what is in a `ManuallyDrop`. -/
def Adt.drop : Adt → Path → List Event
  | .mk isUnion _ _ d _ _ fs, p =>
    (match d with
     | some c => c.destroy p
     | none => []) ++ (if isUnion then [] else fs.drop p)
def RTy.drop : RTy → Path → List Event
  | .plain _, _ => []
  | .bytes _, _ => []
  | .unsafeCell, _ => []
  | .mdrop _, _ => []
  | .cell t, p => t.drop p
  | .adt a, p => a.drop p
def RFields.drop : RFields → Path → List Event
  | .nil, _ => []
  | .cons n t rest, p => t.drop (p ++ [(n, 0)]) ++ rest.drop p
end

mutual
/-- `value.clone()`: bytes are copied for `Copy` types; a derived `Clone` clones the fields in order;
else the copy constructor is called with a `const` source. -/
def Adt.clone : Adt → Path → List Event
  | .mk _ copy clone _ f _ fs, p =>
    if copy then []
    else if clone then fs.clone p
    else
      match f with
      | some c => c.copy true p
      | none => []
def RTy.clone : RTy → Path → List Event
  | .plain _, _ => []
  | .bytes _, _ => []
  | .unsafeCell, _ => []
  | .mdrop t, p => t.clone p
  | .cell _, _ => []
  | .adt a, p => a.clone p
def RFields.clone : RFields → Path → List Event
  | .nil, _ => []
  | .cons n t rest, p => t.clone (p ++ [(n, 0)]) ++ rest.clone p
end

/-- A type that Rust allows for a field of a union: `Copy`, a reference, a `ManuallyDrop`, or an
array of such (error E0740). -/
def RTy.unionOk : RTy → Bool
  | .plain _ => true
  | .mdrop _ => true
  | t => t.isCopy

def RFields.all (q : RTy → Bool) : RFields → Bool
  | .nil => true
  | .cons _ t rest => q t && rest.all q

mutual
/-- The compiler accepts the definition, and those of the types it contains: `derive(Copy)` needs
fields that are `Copy` (E0204), no `Drop` (E0184), and `Clone` (E0277); `derive(Clone)` needs fields
that are `Clone`, and on a union `Copy`; union fields are restricted. -/
def Adt.ok : Adt → Bool
  | .mk isUnion copy clone d f _ fs =>
    (!copy || (fs.all RTy.isCopy && d.isNone && (clone || f.isSome))) &&
    (!clone || (if isUnion then copy else fs.all RTy.isClone)) &&
    (!isUnion || fs.all RTy.unionOk) && fs.ok
def RTy.ok : RTy → Bool
  | .plain _ => true
  | .bytes _ => true
  | .unsafeCell => true
  | .mdrop t => t.ok
  | .cell t => t.ok
  | .adt a => a.ok
def RFields.ok : RFields → Bool
  | .nil => true
  | .cons _ t rest => t.ok && rest.ok
end

end Verif.CcValue

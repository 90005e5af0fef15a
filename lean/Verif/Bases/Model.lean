import Verif.Bases.Spec
/-
The model of how crubit finds the bases that Rust can upcast to, and the member functions of bases that
it gives to derived classes (C138-C140).
-/
namespace Verif.Bases

/-- The access along a path: `clang::AccessSpecifier` with `AS_none` for inaccessible. -/
inductive PAccess where
  | pub | prot | priv | none
  deriving DecidableEq, Repr

def Access.toP : Access → PAccess
  | .pub => .pub
  | .prot => .prot
  | .priv => .priv

def PAccess.rank : PAccess → Nat
  | .pub => 0
  | .prot => 1
  | .priv => 2
  | .none => 3

/-- `CXXRecordDecl::MergeAccess` (Clang, not in /repo). -/
def mergeAccess (path : PAccess) (a : Access) : PAccess :=
  match a with
  | .priv => .none
  | a => if path.rank < a.toP.rank then a.toP else path

/-- The state of one lookup: the matcher's `found` and `seen` (importers/cxx_record.cc:1624-1648), and Clang's
`CXXBasePaths`: which classes have been met as virtual bases, how often as non-virtual bases, and the paths recorded. -/
structure St where
  found : Option Nat
  seen : List Nat
  virt : List Nat
  nonvirt : Nat → Nat
  paths : List (List Step × PAccess)

/-- `is_new_class`, importers/cxx_record.cc:1636-1648. -/
def isNewClass (c : Nat) (st : St) : Bool × St :=
  match st.found with
  | some f => (c == f, st)
  | none => if st.seen.contains c then (false, st) else (true, { st with found := some c, seen := c :: st.seen })

/-- The access of the path with one more step: `ScratchPath.Access` in `CXXBasePaths::lookupInBases`. -/
def stepAccess (scratch : List Step) (acc : PAccess) (a : Access) : PAccess :=
  if scratch.isEmpty then a.toP else mergeAccess acc a

/-- Counting the base: `ClassSubobjects` in `CXXBasePaths::lookupInBases`. -/
def countBase (s : BSpec) (c : Nat) (st : St) : St :=
  if s.virt then { st with virt := if st.virt.contains c then st.virt else c :: st.virt }
  else { st with nonvirt := fun n => if n = c then st.nonvirt n + 1 else st.nonvirt n }

/-- `CXXBasePaths::lookupInBases` (Clang, not in /repo), for the matcher `is_new_class`: goes through the bases in order, records the
paths to bases that match, and goes into the other ones, into virtual ones only when they are met for the first time. `id` is the class
with these bases. -/
def Bases.lookup (id : Nat) : Bases → List Step → PAccess → St → Bool × St
  | .nil, _, _, st => (false, st)
  | .cons s (.mk cid bases) rest, scratch, acc, st =>
    let visit := !(s.virt && st.virt.contains cid)
    let path := scratch ++ [⟨id, s, .mk cid bases⟩]
    let here := stepAccess scratch acc s.acc
    let m := isNewClass cid (countBase s cid st)
    let r :=
      if m.1 then (true, { m.2 with paths := m.2.paths ++ [(path, here)] })
      else if visit then bases.lookup cid path here m.2
      else (false, m.2)
    let q := rest.lookup id scratch acc r.2
    (r.1 || q.1, q.2)

/-- `CXXRecordDecl::isVirtuallyDerivedFrom` (Clang, not in /repo). -/
def Bases.hasVirtBase : Bases → Nat → Bool
  | .nil, _ => false
  | .cons s (.mk cid bases) rest, v => (s.virt && cid == v) || bases.hasVirtBase v || rest.hasVirtBase v

/-- The class at the end of a path. -/
def lastBase (p : List Step) : Option Cls := p.getLast?.map (·.base)

/-- The paths that `CXXRecordDecl::lookupInBases` (Clang, not in /repo) removes again: those that go through a virtual base
of the class at the end of another path. -/
def hiddenPath (paths : List (List Step × PAccess)) (p : List Step × PAccess) : Bool :=
  p.1.any (fun s => s.spec.virt && paths.any (fun h => match lastBase h.1 with
    | some c => c.bases.hasVirtBase s.base.id
    | none => false))

/-- `next_class`, importers/cxx_record.cc:1631-1650: `CXXRecordDecl::lookupInBases` after `paths.clear()`. -/
def nextClass (d : Cls) (seen : List Nat) : Bool × St :=
  let r := d.bases.lookup d.id [] .pub ⟨none, seen, [], fun _ => 0, []⟩
  if r.1 then (true, { r.2 with paths := r.2.paths.filter (fun p => !hiddenPath r.2.paths p) }) else r

/-- `CXXBasePaths::isAmbiguous` (Clang, not in /repo). -/
def isAmbiguous (st : St) (c : Nat) : Bool :=
  st.nonvirt c + (if st.virt.contains c then 1 else 0) > 1

/-- The offset of the base at the end of a path; `none` if a step is virtual, importers/cxx_record.cc:1670-1681. `offset` is
`ASTRecordLayout::getBaseClassOffset`. -/
def pathOffset (offset : Nat → Nat → Nat) : List Step → Nat → Option Nat
  | [], o => some o
  | s :: p, o => if s.spec.virt then none else pathOffset offset p (o + offset s.cls s.base.id)

/-- The loop over the paths to one class, importers/cxx_record.cc:1653-1693: the first path that is public decides, unless the class is
ambiguous or has not been imported. -/
def pickPath (offset : Nat → Nat → Nat) (imported : Nat → Bool) (st : St) : List (List Step × PAccess) → Option (Nat × Option Nat)
  | [] => none
  | (p, acc) :: rest =>
    if acc ≠ .pub then pickPath offset imported st rest
    else
      match lastBase p with
      | none => pickPath offset imported st rest
      | some c =>
        if isAmbiguous st c.id then pickPath offset imported st rest
        else if !imported c.id then pickPath offset imported st rest
        else some (c.id, pathOffset offset p 0)

/-- The outer loop, importers/cxx_record.cc:1652. The first argument bounds the number of rounds. -/
def collectBases (offset : Nat → Nat → Nat) (imported : Nat → Bool) (d : Cls) : Nat → List Nat → List (Nat × Option Nat)
  | 0, _ => []
  | n + 1, seen =>
    let r := nextClass d seen
    if r.1 then (pickPath offset imported r.2 r.2.paths).toList ++ collectBases offset imported d n r.2.seen
    else []

def Bases.size : Bases → Nat
  | .nil => 0
  | .cons _ (.mk _ bases) rest => 1 + bases.size + rest.size

/-- `GetUnambiguousPublicBases`, importers/cxx_record.cc:1615-1697. -/
def unambiguousPublicBases (offset : Nat → Nat → Nat) (imported : Nat → Bool) (d : Cls) : List (Nat × Option Nat) :=
  collectBases offset imported d (d.bases.size + 1) []

/-- What `upcast_ptr` of the generated `Inherits` implementation gives for a pointer to `d`: an offset is added
(generate_bindings/generate_struct_and_union.rs:1110-1111; database/code_snippet.rs:712-716), or a function written in C++ does the
conversion (generate_struct_and_union.rs:1112-1136; code_snippet.rs:1664-1670). -/
def upcastPtr (cxx : Nat → Nat) (entry : Nat × Option Nat) (p : Nat) : Nat :=
  match entry.2 with
  | some o => p + o
  | none => cxx entry.1

/-! ### Member functions -/

/-- A member function of a record in the IR. -/
structure Func where
  id : Nat
  /-- the C++ name -/
  ccName : String
  /-- the Rust name; `none`: it is not an identifier (operators, constructors, destructors) -/
  rsName : Option String
  /-- `generate_function` gives bindings for it -/
  generates : Bool := true
  deriving DecidableEq, Repr

/-- `collect_unqualified_member_functions`, generate_struct_and_union.rs:209-227. -/
def unqualified (fs : List Func) : List Func := fs.filter (fun f => f.rsName.isSome)

/-- `collect_unqualified_member_functions_from_all_bases`, generate_struct_and_union.rs:187-207. `children` gives the functions of the
records of the IR; bases that are not in it have none. -/
def fromAllBases (children : Nat → List Func) (bases : List (Nat × Option Nat)) : List Func :=
  bases.flatMap (fun b => unqualified (children b.1))

/-- One round of the loop in `filter_out_ambiguous_member_functions`, generate_struct_and_union.rs:244-257. -/
def countFunc (own : List Func) (m : List (Option String × (Func × Nat))) (f : Func) : List (Option String × (Func × Nat)) :=
  if !f.generates then m
  else if own.any (fun g => g.rsName == f.rsName) then m
  else
    match m.lookup f.rsName with
    | some _ => m.map (fun e => if e.1 == f.rsName then (e.1, (e.2.1, e.2.2 + 1)) else e)
    | none => m ++ [(f.rsName, (f, 1))]

/-- `filter_out_ambiguous_member_functions`, generate_struct_and_union.rs:233-263. `values` is the order in which the hash map is
iterated, `sort` sorts by name. -/
def filterAmbiguous (values : List (Option String × (Func × Nat)) → List (Option String × (Func × Nat))) (sort : List Func → List Func)
    (own inherited : List Func) : List Func :=
  sort ((values (inherited.foldl (countFunc (unqualified own)) [])).filterMap (fun e => if e.2.2 == 1 then some e.2.1 else none))

/-- The functions of bases that become methods of the record, generate_struct_and_union.rs:614-618. -/
def inheritedFunctions (values : List (Option String × (Func × Nat)) → List (Option String × (Func × Nat)))
    (sort : List Func → List Func) (children : Nat → List Func) (offset : Nat → Nat → Nat) (imported : Nat → Bool) (d : Cls) : List Func :=
  filterAmbiguous values sort (children d.id) (fromAllBases children (unambiguousPublicBases offset imported d))

end Verif.Bases

/-!
# Names of Rust items in C++: specification

What Rust programs can write: paths through public modules.  Definitions, modules, crates and interned strings are
numbers.
-/

namespace Verif.Paths

/-- An entry of a module (`rustc_middle::metadata::ModChild`): a name and what it stands for. -/
structure Child where
  name : Nat
  isPublic : Bool
  /-- `Res::Def`; `none` for other resolutions -/
  res : Option Nat
  /-- the definition is a module -/
  isMod : Bool
  /-- the definition is the constructor of a struct or variant -/
  isCtor : Bool
  /-- the entry is a `use` or `extern crate` -/
  reexport : Bool
  /-- the entry is an `extern crate` item -/
  externCrate : Bool
deriving DecidableEq, Repr

/-- What the compiler knows. -/
structure Tcx where
  /-- the entries of a module -/
  children : Nat → List Child
  /-- the name `_` -/
  underscore : Nat
  /-- declared in an `extern` block -/
  foreign : Nat → Bool
  /-- unstable, or a SIMD primitive -/
  unstable : Nat → Bool
  /-- the type a type alias is another name of -/
  aliasOf : Nat → Option Nat
  /-- in `std::os` -/
  inStdOs : Nat → Bool
  /-- is the crate `core` -/
  isCore : Nat → Bool
  /-- marked `#[doc(hidden)]` -/
  docHidden : Nat → Bool
  /-- the string of a symbol -/
  str : Nat → String
  /-- the crate of a definition -/
  crateOf : Nat → Nat
  /-- the crate is `core` or `alloc` -/
  coreOrAlloc : Nat → Bool
  /-- the crate is `std` or `alloc` -/
  stdOrAlloc : Nat → Bool

/-- What an entry is a name of: type aliases are names of the type. -/
def Tcx.target (t : Tcx) (d : Nat) : Nat := (t.aliasOf d).getD d

/-- The entry `c` is a name, for C++, of definition `d` (`res`, before looking through type aliases). -/
def Usable (t : Tcx) (c : Child) (res : Nat) : Prop :=
  c.isPublic = true ∧ c.name ≠ t.underscore ∧ c.res = some res ∧ t.foreign res = false ∧ c.isCtor = false ∧
  t.unstable res = false ∧ t.inStdOs (t.target res) = false

/-- Module `m` has a module `m'` under `name`. -/
def Opens (t : Tcx) (m name m' : Nat) : Prop :=
  ∃ c ∈ t.children m, Usable t c m' ∧ c.name = name ∧ c.isMod = true ∧ ¬ (c.externCrate = true ∧ t.isCore m' = true)

/-- `path` leads from `root` to module `m`; the flag: some module on the way, `m` included, is
`#[doc(hidden)]`. -/
inductive Walk (t : Tcx) (root : Nat) : List Nat → Bool → Nat → Prop where
  | nil : Walk t root [] (t.docHidden root) root
  | snoc (path : List Nat) (h : Bool) (m name m' : Nat) : Walk t root path h m → Opens t m name m' →
      Walk t root (path ++ [name]) (h || t.docHidden m') m'

/-- A path for an item (`ExportedPath`,
`cc_bindings_from_rs/generate_bindings/database/fully_qualified_name.rs:150–173`). -/
structure Path where
  path : List Nat
  name : Nat
  typeAlias : Option Nat
  hidden : Bool
  reexport : Bool
  krate : Nat
deriving DecidableEq, Repr

/-- In Rust, `p` is a way to write `d`, in a crate with root module `root`. -/
def Spells (t : Tcx) (krate root : Nat) (p : Path) (d : Nat) : Prop :=
  p.krate = krate ∧ ∃ m, Walk t root p.path p.hidden m ∧
    ∃ c ∈ t.children m, ∃ res, Usable t c res ∧ c.name = p.name ∧ d = t.target res ∧
      p.typeAlias = (if (t.aliasOf res).isSome then some res else none) ∧ p.reexport = c.reexport

/-- The documented preference between kinds of paths: what is not hidden, then what is shorter, then what is not a
type alias, then what is not a re-export (`fully_qualified_name.rs:226–254`). -/
def Prefer (p q : Path) : Prop :=
  (p.hidden = false ∧ q.hidden = true) ∨ p.hidden = q.hidden ∧
  (p.path.length < q.path.length ∨ p.path.length = q.path.length ∧
  ((p.typeAlias.isSome = false ∧ q.typeAlias.isSome = true) ∨ p.typeAlias.isSome = q.typeAlias.isSome ∧
  (p.reexport = false ∧ q.reexport = true)))

/-- Neither kind of path is preferred. -/
def SameKind (p q : Path) : Prop :=
  p.hidden = q.hidden ∧ p.path.length = q.path.length ∧ p.typeAlias.isSome = q.typeAlias.isSome ∧
  p.reexport = q.reexport

/-- The documented preference: "Failing all else, choose the lexicographically smallest path". -/
def Better (str : Nat → String) (p q : Path) : Prop :=
  Prefer p q ∨ SameKind p q ∧
    (p.path.map str < q.path.map str ∨ p.path.map str = q.path.map str ∧ str p.name < str q.name)

/-- Who owns an item (`CrateOwnershipRank`, `lib.rs:635–674`): the crate that defines it, then `std` and `alloc`
for items of `core` and `alloc`, then any crate. -/
def ownership (t : Tcx) (d krate : Nat) : Nat :=
  if krate = t.crateOf d then 2
  else if t.coreOrAlloc (t.crateOf d) ∧ t.stdOrAlloc krate then 1
  else 0

/-- Facts about Rust.  A module has one module of a name, and a definition is there at most once under a name;
`core` is not reachable both as an `extern crate` item and otherwise; modules are no type aliases; the interner
gives one number to a string. -/
structure Names (t : Tcx) : Prop where
  mods : ∀ m name m1 m2, Opens t m name m1 → Opens t m name m2 → m1 = m2
  items : ∀ m, ((t.children m).filterMap fun c => c.res.map fun r => (c.name, t.target r)).Nodup
  core : ∀ m1 m2 c1 c2 d, c1 ∈ t.children m1 → c2 ∈ t.children m2 → Usable t c1 d → Usable t c2 d →
    c1.isMod = true → c2.isMod = true → c1.externCrate = true → t.isCore d = true → c2.externCrate = true
  noAlias : ∀ m c d, c ∈ t.children m → c.isMod = true → c.res = some d → t.aliasOf d = none
  intern : ∀ a b, t.str a = t.str b → a = b

end Verif.Paths

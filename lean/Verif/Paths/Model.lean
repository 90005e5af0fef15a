import Verif.Paths.Spec
import Verif.Common.AMap

/-!
# Names of Rust items in C++: the code

Sources: `cc_bindings_from_rs/generate_bindings/lib.rs:475–724` and `2169–2204`,
`database/fully_qualified_name.rs:150–330`.
-/

namespace Verif.Paths
open Verif

/-- `Ord for ExportedPath`, `fully_qualified_name.rs:226–254`.  Paths are compared symbol by symbol; symbols are
ordered by their number in the interner (rustc: "all operations (including hashing, equality, and ordering)
operate on that index"), names by their string. -/
def pathCmp (str : Nat → String) : Path → Path → Ordering :=
  compareLex (compareOn fun p => p.hidden)
    (compareLex (compareOn fun p => p.path.length)
      (compareLex (compareOn fun p => p.typeAlias.isSome)
        (compareLex (compareOn fun p => p.reexport)
          (compareLex (compareOn fun p => p.path)
            (compareOn fun p => str p.name)))))

/-- `PublicPaths`, `fully_qualified_name.rs:262–272`. -/
structure PublicPaths where
  canonical : Path
  aliases : List Path
deriving DecidableEq, Repr

/-- Documented behaviour of library functions: `slice::binary_search` (on a sorted slice: `Ok` with the position
of some equal element, or else `Err` with the position where the element can be inserted), and
`itertools::kmerge` of two iterators (all elements; in order if both are). -/
structure Lib (cmp : Path → Path → Ordering) where
  search : List Path → Path → Except Nat Nat
  found : ∀ l x i, l.Pairwise (fun a b => cmp a b = .lt) → search l x = .ok i → ∃ y, l[i]? = some y ∧ cmp y x = .eq
  missing : ∀ l x i, l.Pairwise (fun a b => cmp a b = .lt) → search l x = .error i →
    i ≤ l.length ∧ (∀ j y, l[j]? = some y → j < i → cmp y x = .lt) ∧ (∀ j y, l[j]? = some y → i ≤ j → cmp x y = .lt)
  kmerge : List Path → List Path → List Path
  kmerge_perm : ∀ a b, (kmerge a b).Perm (a ++ b)
  kmerge_sorted : ∀ a b, a.Pairwise (fun x y => cmp x y ≠ .gt) → b.Pairwise (fun x y => cmp x y ≠ .gt) →
    (kmerge a b).Pairwise (fun x y => cmp x y ≠ .gt)

/-- `PublicPaths::new`. -/
def PublicPaths.new (p : Path) : PublicPaths := ⟨p, []⟩

/-- `PublicPaths::insert`, `fully_qualified_name.rs:278–287`. -/
def PublicPaths.insert {cmp : Path → Path → Ordering} (lib : Lib cmp) (pp : PublicPaths) (p : Path) : PublicPaths :=
  let (canonical, other) := if cmp p pp.canonical = .lt then (p, pp.canonical) else (pp.canonical, p)
  match lib.search pp.aliases other with
  | .ok _ => ⟨canonical, pp.aliases⟩
  | .error i => ⟨canonical, pp.aliases.insertIdx i other⟩

/-- `PublicPaths::into_extern_aliases`. -/
def PublicPaths.all (pp : PublicPaths) : List Path := pp.canonical :: pp.aliases

/-- `PublicPaths::insert_aliases`, `fully_qualified_name.rs:289–297`. -/
def PublicPaths.insertAliases {cmp : Path → Path → Ordering} (lib : Lib cmp) (self other : PublicPaths) : PublicPaths :=
  let others := if other.canonical = self.canonical then other.aliases else other.all
  ⟨self.canonical, lib.kmerge self.aliases others⟩

/-- `PublicPaths::merge`, `fully_qualified_name.rs:299–304`. -/
def PublicPaths.merge {cmp : Path → Path → Ordering} (lib : Lib cmp) (self other : PublicPaths) : PublicPaths :=
  if cmp self.canonical other.canonical = .gt then
    PublicPaths.insertAliases lib ⟨other.canonical, self.aliases⟩ ⟨self.canonical, other.aliases⟩
  else PublicPaths.insertAliases lib self other

/-! ## One crate -/

/-- `ModLikeDef`, `lib.rs:493–497`. -/
structure Mod where
  path : List Nat
  hidden : Bool
  mod : Nat
deriving DecidableEq, Repr

/-- The state of `public_paths_by_def_id`. -/
structure State where
  map : List (Nat × PublicPaths)
  queue : List Mod
  seen : List Nat

/-- `visible_parent_map.entry(def_id)`, `lib.rs:602–608`. -/
def record {cmp : Path → Path → Ordering} (lib : Lib cmp) (map : List (Nat × PublicPaths)) (d : Nat) (p : Path) :
    List (Nat × PublicPaths) :=
  match AMap.get? map d with
  | none => AMap.insert map d (.new p)
  | some pp => AMap.insert map d (pp.insert lib p)

/-- `add_child`, `lib.rs:505–625`. -/
def addChild (t : Tcx) (krate : Nat) (lib : Lib (pathCmp t.str)) (parent : List Nat) (hidden : Bool) (s : State)
    (c : Child) : State :=
  if !c.isPublic || c.name == t.underscore then s else
  match c.res with
  | none => s
  | some res =>
      if t.foreign res then s else
      if c.isCtor then s else
      if t.unstable res then s else
      let d := (t.aliasOf res).getD res
      let typeAlias := if (t.aliasOf res).isSome then some res else none
      if t.inStdOs d then s else
      let map := record lib s.map d ⟨parent, c.name, typeAlias, hidden, c.reexport, krate⟩
      if c.isMod then
        if d ∈ s.seen then { s with map := map }
        else if c.externCrate && t.isCore d then { s with map := map, seen := d :: s.seen }
        else { map := map
               seen := d :: s.seen
               queue := s.queue ++ [⟨parent ++ [c.name], hidden, d⟩] }
      else { s with map := map }

/-- The loop, `lib.rs:627–633`. -/
def bfs (t : Tcx) (krate : Nat) (lib : Lib (pathCmp t.str)) : Nat → State → Option (List (Nat × PublicPaths))
  | 0, s => if s.queue = [] then some s.map else none
  | n + 1, s => match s.queue with
      | [] => some s.map
      | q :: rest =>
          let hidden := q.hidden || t.docHidden q.mod
          bfs t krate lib n ((t.children q.mod).foldl (addChild t krate lib q.path hidden) { s with queue := rest })

/-- `public_paths_by_def_id`; `none`: not finished within `fuel` rounds. -/
def publicPaths (t : Tcx) (krate root : Nat) (lib : Lib (pathCmp t.str)) (fuel : Nat) :
    Option (List (Nat × PublicPaths)) :=
  bfs t krate lib fuel ⟨[], [⟨[], false, root⟩], []⟩

/-! ## All crates -/

/-- `CrateOwnershipRank::new`, `lib.rs:657–672`. -/
def rank (t : Tcx) (d krate : Nat) : Nat :=
  if krate = t.crateOf d then 2
  else if t.coreOrAlloc (t.crateOf d) && t.stdOrAlloc krate then 1
  else 0

/-- `lib.rs:692–720`. -/
def mergeRanked (t : Tcx) (lib : Lib (pathCmp t.str)) (d : Nat) (existing paths : PublicPaths) : PublicPaths :=
  match compare (rank t d paths.canonical.krate) (rank t d existing.canonical.krate) with
  | .gt => PublicPaths.insertAliases lib paths existing
  | .lt => PublicPaths.insertAliases lib existing paths
  | .eq => PublicPaths.merge lib existing paths

/-- The inner loop over the paths of one crate (in the order of a hash map). -/
def addCrate (t : Tcx) (lib : Lib (pathCmp t.str)) (out crateMap : List (Nat × PublicPaths)) :
    List (Nat × PublicPaths) :=
  crateMap.foldl (fun out e => match AMap.get? out e.1 with
    | none => AMap.insert out e.1 e.2
    | some existing => AMap.insert out e.1 (mergeRanked t lib e.1 existing e.2)) out

/-- `all_public_paths_by_def_id`, `lib.rs:676–724`, for the maps of the importable crates in order. -/
def allPaths (t : Tcx) (lib : Lib (pathCmp t.str)) (crates : List (List (Nat × PublicPaths))) :
    List (Nat × PublicPaths) :=
  crates.foldl (addCrate t lib) []

/-- `formatted_items_in_crate`, `lib.rs:2169–2204`: what the header of crate `source` says about an item: the path
of its definition, if it is there, and the paths of `using` declarations; for items that receive bindings without
an error. -/
def headerNames (source : Nat) (all crateMap : List (Nat × PublicPaths)) (d : Nat) : Option (Option Path × List Path) :=
  match AMap.get? crateMap d, AMap.get? all d with
  | some paths, some global =>
      if global.canonical.krate = source then some (some global.canonical, paths.aliases)
      else some (none, paths.all)
  | _, _ => none

end Verif.Paths

import Verif.Header.Spec
import Verif.Toposort.Model

/-!
# The generated C++ header: the code

Sources: `cc_bindings_from_rs/generate_bindings/lib.rs:2030–2570` (`generate_crate` and what it uses),
`lib.rs:437–473` (`format_with_cc_body`), `database/code_snippet.rs:48–420`.

The generators of the single items are inputs: what they return for each item and each specialization.
Sort keys (`NodeSortKey`, `lib.rs:2207–2280`: a path string and a hash) are numbers.
-/

namespace Verif.Header
open Verif.Toposort (Dependency Runtime toposort)

/-- `CcSnippet`, `code_snippet.rs:384–388`. -/
structure Snippet where
  toks : List Nat
  pre : Prereqs
deriving DecidableEq, Repr

/-- `ApiSnippets`: the definition, the details, the Rust thunks and their `extern "C"` declarations
(numbers: `BTreeSet<ExternCDecl>`). -/
structure Api where
  main : Snippet
  details : Snippet
  rs : List Nat
  decls : List Nat
deriving DecidableEq, Repr

/-- A further path of an item, and the `using` declaration generated for it (`lib.rs:2308–2319`). -/
structure Alias where
  ns : List String
  using_ : Snippet
deriving DecidableEq, Repr

/-- `FormattedItem`, `lib.rs:2095–2099`; `api = none`: an item of another crate that is only re-exported. -/
structure Item where
  id : Nat
  api : Option Api
  aliases : List Alias
deriving DecidableEq, Repr

/-- What the rest of the generator says: items (in the order of a hash map), the specializations of trait
implementations (`append_trait_impls`), what is generated for a specialization, sort keys, the canonical
namespace and parent of an item, whether its crate asks for leading colons, which modules are deprecated, and
the crate's own namespace. -/
structure Input where
  items : List Item
  traitImpls : List Nat
  gen : Nat → Api
  dkey : Nat → Nat
  skey : Nat → Nat
  nsOf : Nat → List String
  parent : Nat → Option Nat
  colons : Nat → Bool
  crateColons : Bool
  top : List String

/-- Insertion in a sorted set (`BTreeSet::insert`). -/
def insertSet (x : Nat) : List Nat → List Nat
  | [] => [x]
  | y :: ys => if x < y then x :: y :: ys else if x = y then y :: ys else y :: insertSet x ys

/-- `BTreeSet::append`/`extend`. -/
def unionSet (a b : List Nat) : List Nat := b.foldl (fun s x => insertSet x s) a

/-- `HashSet::extend`. -/
def extendSet (a b : List Nat) : List Nat := b.foldl (fun s x => if x ∈ s then s else s ++ [x]) a

/-- Insertion in a list sorted by a key. -/
def insertBy (key : α → Nat) (x : α) : List α → List α
  | [] => [x]
  | y :: ys => if key x ≤ key y then x :: y :: ys else y :: insertBy key x ys

/-- Stable sorting by a key (`sorted_by_def`, `sort_by_cached_key`). -/
def sortBy (key : α → Nat) (l : List α) : List α := l.foldr (insertBy key) []

/-! ## Specializations -/

/-- The state of `generate_specializations_fixpoint`, `lib.rs:2108–2166`. -/
structure Acc where
  seen : List Nat
  specs : List (Nat × Snippet)
  impls : List (Nat × Snippet)
  includes : List Nat
  rs : List Nat
  decls : List Nat
  next : List Nat

/-- What a snippet asks for. -/
def Prereqs.wanted (p : Prereqs) : List Nat := p.specs ++ p.lazies

/-- The body of the inner loop, `lib.rs:2124–2158`. -/
def procSpec (gen : Nat → Api) (a : Acc) (s : Nat) : Acc :=
  if s ∈ a.seen then a else
    let api := gen s
    let seen := s :: a.seen
    { seen := seen
      specs := a.specs ++ [(s, api.main)]
      impls := a.impls ++ [(s, api.details)]
      includes := unionSet a.includes api.details.pre.includes
      rs := a.rs ++ api.rs
      decls := unionSet a.decls api.decls
      next := a.next ++ api.main.pre.wanted.filter (fun x => x ∉ seen) ++
        api.details.pre.wanted.filter (fun x => x ∉ seen) }

/-- The outer loop; `none`: not finished within `fuel` rounds. -/
def fixpoint (w : Input) : Nat → Acc → List Nat → Option Acc
  | 0, a, [] => some a
  | 0, _, _ :: _ => none
  | n + 1, a, wl =>
      if wl = [] then some a
      else
        let a' := (sortBy w.skey wl).foldl (procSpec w.gen) { a with next := [] }
        fixpoint w n a' a'.next

/-! ## The order -/

/-- The preferred order, `lib.rs:2421–2435`. -/
def nodeCmp (w : Input) : Node → Node → Ordering
  | .item a, .item b => compare (w.dkey a) (w.dkey b)
  | .spec a, .spec b => compare (w.skey a) (w.skey b)
  | .item _, .spec _ => .lt
  | .spec _, .item _ => .gt

/-- `lib.rs:2397–2417`: the dependencies of one node. -/
def nodeDeps (ids : List Nat) (n : Node) (p : Prereqs) : List (Dependency Node) :=
  (((p.defs.filter (fun d => d ∈ ids)).map Node.item ++ p.specs.map Node.spec).filter (fun m => m ≠ n)).map
    fun m => ⟨m, n⟩

/-- How hash maps and the sort's runtime enumerate things. -/
structure Rt (w : Input) where
  values : List (Nat × Snippet) → List (Nat × Snippet)
  values_perm : ∀ l, (values l).Perm l
  topo : Runtime Node (nodeCmp w)

/-- Ways to fail. -/
inductive Err where
  /-- `assert!(old_item.is_none())` -/
  | duplicate
  /-- out of fuel -/
  | diverges
  /-- `toposort` panicked -/
  | unknownNode
  /-- `assert_eq!(0, failed_ids.len())` -/
  | cycle
deriving DecidableEq, Repr

/-- The state of the loop over items, `lib.rs:2302–2345`. -/
structure Gather where
  mains : List (Nat × Snippet)
  details : List Piece
  wanted : List Nat
  includes : List Nat
  rs : List Nat
  decls : List Nat

/-- Pieces of `cc_details` are put in the crate's namespace (`lib.rs:2521–2533`). -/
def detailsPiece (w : Input) (label : Label) (d : Nat) (ns : List String) (s : Snippet) : Piece :=
  ⟨label, w.parent d, w.top ++ ns, w.colons d, s.toks, s.pre⟩

/-- The loop over the aliases of an item, `lib.rs:2308–2319`. -/
def gatherAlias (w : Input) (d : Nat) (g : Gather) (a : Alias) : Gather :=
  { g with
    details := g.details ++ [detailsPiece w (.alias d) d a.ns a.using_]
    wanted := g.wanted ++ a.using_.pre.wanted
    includes := unionSet g.includes a.using_.pre.includes }

/-- `lib.rs:2320–2344`. -/
def gatherApi (w : Input) (d : Nat) (g : Gather) (api : Api) : Gather :=
  { mains := g.mains ++ [(d, api.main)]
    details := g.details ++ [detailsPiece w (.details (.item d)) d (w.nsOf d) api.details]
    wanted := g.wanted ++ api.details.pre.wanted
    includes := unionSet g.includes api.details.pre.includes
    rs := g.rs ++ api.rs
    decls := unionSet g.decls api.decls }

/-- One item. -/
def gatherItem (w : Input) (g : Gather) (i : Item) : Except Err Gather :=
  let g1 := i.aliases.foldl (gatherAlias w i.id) g
  match i.api with
  | none => .ok g1
  | some api => if i.id ∈ g1.mains.map Prod.fst then .error .duplicate else .ok (gatherApi w i.id g1 api)

/-- All items. -/
def gather (w : Input) : Gather → List Item → Except Err Gather
  | g, [] => .ok g
  | g, i :: is => match gatherItem w g i with
      | .error e => .error e
      | .ok g' => gather w g' is

/-! ## Forward declarations -/

/-- The state of the loop of `lib.rs:2448–2474`. -/
structure FwdAcc where
  declared : List Nat
  fwds : List Nat

/-- One iteration: what is not yet declared gets a forward declaration. -/
def fwdStep (a : FwdAcc) (n : Node) (p : Prereqs) : FwdAcc :=
  { fwds := extendSet a.fwds (p.fwds.filter fun d => d ∉ a.declared)
    declared := (match n with | .item d => [d] | .spec _ => []) ++ (p.fwds ++ a.declared) }

/-- The snippet of a node (`main_apis.remove(..).unwrap()`). -/
def snippetOf (mains specs : List (Nat × Snippet)) : Node → Snippet
  | .item d => (AMap.get? mains d).getD ⟨[], .none⟩
  | .spec s => (AMap.get? specs s).getD ⟨[], .none⟩

/-- The loop. -/
def fwdLoop (snip : Node → Snippet) : FwdAcc → List Node → FwdAcc
  | a, [] => a
  | a, n :: ns => fwdLoop snip (fwdStep a n (snip n).pre) ns

/-- `lib.rs:2492–2520`. -/
def mainPiece (w : Input) (snip : Node → Snippet) : Node → Piece
  | .item d => ⟨.main (.item d), w.parent d, w.top ++ w.nsOf d, w.colons d, (snip (.item d)).toks, (snip (.item d)).pre⟩
  | .spec s => ⟨.main (.spec s), none, [], w.crateColons, (snip (.spec s)).toks, (snip (.spec s)).pre⟩

/-- `generate_fwd_decl`, `lib.rs:1763–1783`: one token. -/
def fwdPiece (w : Input) (d : Nat) : Piece :=
  ⟨.fwd d, w.parent d, w.top ++ w.nsOf d, w.colons d, [d], .none⟩

/-- `#(#impls_cc_details)__NEWLINE__*`, outside any namespace. -/
def implPiece (w : Input) (p : Nat × Snippet) : Piece :=
  ⟨.details (.spec p.1), none, [], w.crateColons, p.2.toks, p.2.pre⟩

/-! ## The header -/

/-- The result of `generate_crate`: `#include`s, the pieces inside namespaces, the details of
specializations, the Rust thunks and their declarations. -/
structure Output where
  includes : List Nat
  body : List Piece
  impls : List Piece
  rs : List Nat
  decls : List Nat
deriving DecidableEq, Repr

/-- The header's pieces from top to bottom. -/
def Output.pieces (o : Output) : List Piece := o.body ++ o.impls

/-- `lib.rs:2346–2358`: the first worklist. -/
def firstWorklist (w : Input) (rt : Rt w) (g : Gather) : List Nat :=
  g.wanted ++ (rt.values g.mains).flatMap (fun m => m.2.pre.wanted) ++ w.traitImpls

/-- `lib.rs:2371–2445`: the order. -/
def order (w : Input) (rt : Rt w) (g : Gather) (a : Acc) : Except Err (List Node) :=
  let ids := g.mains.map Prod.fst
  let ms := rt.values g.mains
  let ss := rt.values a.specs
  let nodes := ms.map (fun m => Node.item m.1) ++ ss.map (fun s => Node.spec s.1)
  let deps := ms.flatMap (fun m => nodeDeps ids (.item m.1) m.2.pre) ++
    ss.flatMap (fun s => nodeDeps ids (.spec s.1) s.2.pre)
  match toposort rt.topo nodes deps with
  | .error _ => .error .unknownNode
  | .ok r => if r.failed = [] then .ok r.ordered else .error .cycle

/-- `lib.rs:2446–2538`. -/
def assemble (w : Input) (g : Gather) (a : Acc) (ordered : List Node) : Output :=
  let snip := snippetOf g.mains a.specs
  let f := fwdLoop snip ⟨[], []⟩ ordered
  { includes := ordered.foldl (fun s n => unionSet s (snip n).pre.includes) a.includes
    body := (sortBy w.dkey f.fwds).map (fwdPiece w) ++ ordered.map (mainPiece w snip) ++ g.details
    impls := a.impls.map (implPiece w)
    rs := a.rs
    decls := a.decls }

/-- `generate_crate`, `lib.rs:2283–2570`. -/
def generate (w : Input) (rt : Rt w) (fuel : Nat) : Except Err Output :=
  match gather w ⟨[], [], [], [], [], []⟩ (sortBy (fun i => w.dkey i.id) w.items) with
  | .error e => .error e
  | .ok g =>
      match fixpoint w fuel ⟨[], [], [], g.includes, g.rs, g.decls, []⟩ (firstWorklist w rt g) with
      | none => .error .diverges
      | some a =>
          match order w rt g a with
          | .error e => .error e
          | .ok ordered => .ok (assemble w g a ordered)

/-! ## Namespaces -/

/-- `format_with_cc_body`, `lib.rs:437–473` (where all names can be formatted). -/
def withBody (ns : List String) (deprecated : Bool) (toks : List Nat) : List Cc :=
  if toks = [] then [] else
    let body := toks.map Cc.text
    let (ns1, body1) :=
      if deprecated && ns ≠ [] then (ns.dropLast, [Cc.ns true [ns.getLast?.getD ""] body]) else (ns, body)
    if ns1 = [] then body1 else [Cc.ns false ns1 body1]

/-- A group of pieces. -/
structure Group where
  parent : Option Nat
  ns : List String
  colons : Bool
  toks : List Nat

/-- `coalesce`, `lib.rs:2037–2045`. -/
def coalesce : List Group → List Group
  | [] => []
  | [g] => [g]
  | g :: h :: r =>
      if g.parent = h.parent ∧ g.ns = h.ns ∧ g.colons = h.colons then
        coalesce (⟨g.parent, g.ns, g.colons, g.toks ++ h.toks⟩ :: r)
      else g :: coalesce (h :: r)
termination_by l => l.length

/-- `format_namespace_bound_cc_tokens`, `lib.rs:2030–2067` (newlines left out). -/
def formatPieces (deprecated : Nat → Bool) (ps : List Piece) : List Cc :=
  (coalesce (ps.map fun p => ⟨p.parent, p.ns, p.colons, p.toks⟩)).flatMap fun g =>
    withBody g.ns ((g.parent.map deprecated).getD false) g.toks

end Verif.Header

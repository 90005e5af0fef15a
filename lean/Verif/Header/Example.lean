import Verif.Header.Det
import Verif.Header.Fail

/-!
# The generated C++ header: the text as a whole, and an example
-/

namespace Verif.Header
open Verif Verif.Toposort

/-- C92: the text of the header is the same. -/
theorem header_text_deterministic {w v : Input} (h : w.Same v) (hid : (w.items.map Item.id).Nodup)
    (hdk : ∀ d e, w.dkey d = w.dkey e → d = e) (hsk : ∀ d e, w.skey d = w.skey e → d = e)
    (rt : Rt w) (rv : Rt v) (n m : Nat) (o p : Output)
    (ho : generate w rt n = .ok o) (hp : generate v rv m = .ok p) (dep : Nat → Bool) :
    formatPieces dep o.body = formatPieces dep p.body ∧
    o.impls.flatMap Piece.toks = p.impls.flatMap Piece.toks := by
  obtain ⟨-, hb, hi, -⟩ := header_deterministic h hid hdk hsk rt rv n m o p ho hp
  constructor
  · apply formatPieces_congr
    have := congrArg (List.map fun x : Label × Option Nat × List String × Bool × List Nat => x.2) hb
    simpa [Function.comp_def, Piece.printed] using this
  · have := congrArg (List.flatMap fun x : Label × Option Nat × List String × Bool × List Nat => x.2.2.2.2) hi
    simpa [List.flatMap_map, Piece.printed] using this

/-! ## An example

`struct S { t: Option<Box<T>>, .. }`, `struct T { v: Vec<S> }`; `Vec<S>` is specialization 7, which mentions
`Option<S>`, specialization 8, whose thunks mention specialization 9.  `T` also has a second name. -/

/-- Requirements. -/
def pre0 (includes defs fwds specs lazies : List Nat) : Prereqs := ⟨includes, defs, fwds, specs, lazies⟩

/-- The two structs. -/
def items0 : List Item :=
  [ ⟨1, some ⟨⟨[11], pre0 [] [0] [] [7] []⟩, ⟨[12], pre0 [3] [0] [0] [] []⟩, [101], [201]⟩,
      [⟨["other"], ⟨[13], pre0 [] [] [1] [] []⟩⟩]⟩,
    ⟨0, some ⟨⟨[10], pre0 [5] [] [1, 44] [] []⟩, ⟨[14], pre0 [] [] [] [] []⟩, [100], [200]⟩, []⟩,
    ⟨2, none, [⟨[], ⟨[15], pre0 [] [] [] [] []⟩⟩]⟩ ]

/-- The specializations. -/
def gen0 (s : Nat) : Api :=
  if s = 7 then ⟨⟨[17], pre0 [6] [0] [] [] [8]⟩, ⟨[27], pre0 [] [] [] [8] []⟩, [107], []⟩
  else if s = 8 then ⟨⟨[18], pre0 [] [] [] [] []⟩, ⟨[28], pre0 [2] [] [] [] [9, 7]⟩, [108], [208]⟩
  else ⟨⟨[19], pre0 [] [] [] [] []⟩, ⟨[29], pre0 [] [] [] [] []⟩, [], []⟩

/-- The input. -/
def w0 : Input where
  items := items0
  traitImpls := []
  gen := gen0
  dkey := id
  skey := id
  nsOf := fun d => if d = 1 then ["inner"] else []
  parent := fun d => some (if d = 1 then 60 else 50)
  colons := fun _ => false
  crateColons := false
  top := ["krate"]

/-- A runtime. -/
def rt0 (w : Input) : Rt w where
  values := id
  values_perm := fun _ => .refl _
  topo := mkRuntime (nodeCmp w) id (fun _ => .refl _)

/-- The header. -/
example : (generate w0 (rt0 w0) 5).toOption.map (fun o => o.pieces.map fun p => (p.label, p.ns, p.toks)) =
    some
      [ (.fwd 1, ["krate", "inner"], [1]),
        (.fwd 44, ["krate"], [44]),
        (.main (.item 0), ["krate"], [10]),
        (.main (.spec 7), [], [17]),
        (.main (.item 1), ["krate", "inner"], [11]),
        (.main (.spec 8), [], [18]),
        (.main (.spec 9), [], [19]),
        (.details (.item 0), ["krate"], [14]),
        (.alias 1, ["krate", "other"], [13]),
        (.details (.item 1), ["krate", "inner"], [12]),
        (.alias 2, ["krate"], [15]),
        (.details (.spec 7), [], [27]),
        (.details (.spec 8), [], [28]),
        (.details (.spec 9), [], [29]) ] := by
  decide +kernel

example : (generate w0 (rt0 w0) 5).toOption.map (fun o => [o.includes, o.rs, o.decls]) =
    some [[2, 3, 5, 6], [100, 101, 107, 108], [200, 201, 208]] := by
  decide +kernel

/-- The hypothesis of `header_compiles` holds. -/
theorem detailsOk0 : DetailsOk w0 where
  use := by decide +kernel
  item := by
    have : ∀ i ∈ w0.items, ∀ api ∈ i.api, ∀ d ∈ api.details.pre.fwds, d ∈ w0.ids := by decide +kernel
    exact fun i hi api h => this i hi api h
  spec := by
    intro s _ d hd
    exfalso
    revert hd
    simp only [w0, gen0]
    split
    · simp [pre0]
    · split <;> simp [pre0]

theorem run0 : ∃ o, generate w0 (rt0 w0) 5 = .ok o := by
  have : (generate w0 (rt0 w0) 5).isOk = true := by decide +kernel
  cases h : generate w0 (rt0 w0) 5 with
  | ok o => exact ⟨o, rfl⟩
  | error e => simp [h, Except.isOk, Except.toBool] at this

/-- The theorems apply. -/
example : ∃ o, generate w0 (rt0 w0) 5 = .ok o ∧ Compiles w0.ids o.includes o.pieces := by
  obtain ⟨o, ho⟩ := run0
  exact ⟨o, ho, header_compiles w0 (rt0 w0) 5 o ho detailsOk0⟩

/-- The same input with the items the other way round. -/
def w1 : Input := { w0 with items := items0.reverse }

/-- Another runtime. -/
def rt1 (w : Input) : Rt w where
  values := List.reverse
  values_perm := List.reverse_perm
  topo := mkRuntime (nodeCmp w) List.reverse List.reverse_perm

theorem Prereqs.same_rfl (p : Prereqs) : p.Same p := ⟨.refl _, .refl _, .refl _, .refl _, .refl _⟩
theorem Snippet.same_rfl (p : Snippet) : p.Same p := ⟨rfl, p.pre.same_rfl⟩
theorem Api.same_rfl (p : Api) : p.Same p := ⟨p.main.same_rfl, p.details.same_rfl, rfl, .refl _⟩
theorem Item.same_rfl (i : Item) : i.Same i where
  id := rfl
  api := by cases i.api <;> simp [Api.same_rfl]
  aliases := by
    rw [List.forall₂_same]
    exact fun a _ => ⟨rfl, a.using_.same_rfl⟩

theorem w0_same : w0.Same w1 where
  items := ⟨id, fun i _ => i.same_rfl, by simpa [w0, w1] using List.reverse_perm items0⟩
  traitImpls := .refl _
  gen := fun s => (w0.gen s).same_rfl
  dkey := rfl
  skey := rfl
  nsOf := rfl
  parent := rfl
  colons := rfl
  crateColons := rfl
  top := rfl

example : (w0.items.map Item.id).Nodup := by decide +kernel
example : ∃ o p, generate w0 (rt0 w0) 5 = .ok o ∧ generate w1 (rt1 w1) 9 = .ok p ∧ o.includes = p.includes := by
  obtain ⟨o, ho⟩ := run0
  have : (generate w1 (rt1 w1) 9).isOk = true := by decide +kernel
  cases h : generate w1 (rt1 w1) 9 with
  | error e => simp [h, Except.isOk, Except.toBool] at this
  | ok p =>
      exact ⟨o, p, ho, rfl, (header_deterministic w0_same (by decide +kernel) (fun _ _ h => h) (fun _ _ h => h)
        (rt0 w0) (rt1 w1) 5 9 o p ho h).1⟩

/-- Two structs that contain each other (or a specialization that contains itself through another). -/
def w2 : Input := { w0 with
  items := [⟨0, some ⟨⟨[10], pre0 [] [1] [] [] []⟩, ⟨[], pre0 [] [] [] [] []⟩, [], []⟩, []⟩,
            ⟨1, some ⟨⟨[11], pre0 [] [0] [] [] []⟩, ⟨[], pre0 [] [] [] [] []⟩, [], []⟩, []⟩] }

theorem w2_none (s : Nat) : ¬ Needed w2 s := by
  intro h
  induction h with
  | item i sn x hi hs hx =>
      simp only [w2, List.mem_cons, List.not_mem_nil, or_false] at hi
      rcases hi with rfl | rfl <;>
      · simp only [Item.snippets, List.map_nil, List.nil_append, List.mem_cons, List.not_mem_nil, or_false] at hs
        rcases hs with rfl | rfl <;> simp [pre0] at hx
  | impl x hx => simp [w2, w0] at hx
  | spec s x _ _ ih => exact ih

example : generate w2 (rt0 w2) 5 = .error .cycle := by
  refine (header_fails_iff w2 (rt0 w2) 5 (by decide +kernel) [] (fun s h => absurd h (w2_none s)) (by simp)).2.2 ?_
  refine ⟨.item 0, .trans (.single (b := .item 1) ?_) (.single ?_)⟩
  · exact ⟨by simp, _, .item (w2.items[1]) _ (by simp [w2]) rfl, by decide +kernel, by decide +kernel⟩
  · exact ⟨by simp, _, .item (w2.items[0]) _ (by simp [w2]) rfl, by decide +kernel, by decide +kernel⟩

/-- And the first input has finitely many specializations. -/
theorem w0_needs (s : Nat) (h : Needed w0 s) : s ∈ [7, 8, 9] := by
  have hi : ∀ i ∈ w0.items, ∀ sn ∈ i.snippets, ∀ x ∈ sn.pre.specs ++ sn.pre.lazies, x ∈ [7, 8, 9] := by
    decide +kernel
  induction h with
  | item i sn x h1 h2 h3 => exact hi i h1 sn h2 x (List.mem_append.2 h3)
  | impl x hx => simp [w0] at hx
  | spec s x _ hx ih =>
      simp only [List.mem_cons, List.not_mem_nil, or_false] at ih
      rcases ih with rfl | rfl | rfl <;> simp [w0, gen0, pre0] at hx <;> simp <;> omega

/-- The namespaces of the example. -/
example : (generate w0 (rt0 w0) 5).toOption.map (fun o => Cc.flat [] [] (formatPieces (fun m => m = 60) o.body)) =
    some [ (["krate", "inner"], [["krate", "inner"]], 1), (["krate"], [], 44), (["krate"], [], 10), ([], [], 17),
          (["krate", "inner"], [["krate", "inner"]], 11), ([], [], 18), ([], [], 19), (["krate"], [], 14),
          (["krate", "other"], [["krate", "other"]], 13), (["krate", "inner"], [["krate", "inner"]], 12),
          (["krate"], [], 15) ] := by
  simp only [namespaces_kept]
  have e : ∀ p : Piece, ((∃ m, p.parent = some m ∧ decide (m = 60) = true) ∧ p.ns ≠ []) ↔
      (p.parent = some 60 ∧ p.ns ≠ []) := by
    intro p
    simp
  simp only [e]
  decide +kernel

end Verif.Header

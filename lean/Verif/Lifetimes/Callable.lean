import Verif.Lifetimes.Apply
import Mathlib.Data.List.Forall2
import Mathlib.Order.CompleteLattice.Basic
/-
C50-C51: constraints for using one callable as another, and merging the signatures of overriding methods into the base.
Model of lifetime_analysis/lifetime_constraints.cc lines 178-335 and analyze.cc lines 408-413, 1428-1435.
-/
namespace Verif.Lifetimes

mutual
/-- `ValueLifetimes` (and `ObjectLifetimes`, `FunctionLifetimes` inside it): the lifetimes of a value of some type.
`record` has the lifetimes of its template arguments (all nesting levels; arguments that are types) and of its lifetime
parameters; `fn` has parameters, return value and, as a list of length at most one, `this`. -/
inductive VL (α : Type)
  | leaf
  | ptr (const : Bool) (l : α) (pointee : VL α)
  | record (args : VLs α) (params : List α)
  | fn (params : VLs α) (ret : VL α) (this : VLs α)
inductive VLs (α : Type)
  | nil
  | cons (v : VL α) (vs : VLs α)
end

mutual
/-- `SubstituteLifetimes`, type_lifetimes.cc lines 592-612, function_lifetimes.cc lines 219-228. -/
def VL.map {α β : Type} (f : α → β) : VL α → VL β
  | .leaf => .leaf
  | .ptr k l v => .ptr k (f l) (v.map f)
  | .record args ps => .record (args.map f) (ps.map f)
  | .fn ps r t => .fn (ps.map f) (r.map f) (t.map f)
def VLs.map {α β : Type} (f : α → β) : VLs α → VLs β
  | .nil => .nil
  | .cons v vs => .cons (v.map f) (vs.map f)
end

mutual
/-- The lifetimes visited by `Traverse`, type_lifetimes.cc lines 614-645, function_lifetimes.cc lines 230-239. -/
def VL.lifetimes {α : Type} : VL α → List α
  | .leaf => []
  | .ptr _ l v => v.lifetimes ++ [l]
  | .record args ps => args.lifetimes ++ ps
  | .fn ps r t => ps.lifetimes ++ r.lifetimes ++ t.lifetimes
def VLs.lifetimes {α : Type} : VLs α → List α
  | .nil => []
  | .cons v vs => v.lifetimes ++ vs.lifetimes
end

/-- `LifetimeRequirement`, lifetime_constraints.cc lines 182-186. -/
inductive Req
  | ge | le | eq
deriving DecidableEq

/-- `Compose`, lines 193-203. -/
def Req.compose (a b : Req) : Req := if a = .eq ∨ b = .eq then .eq else if a ≠ b then .ge else .le

/-- `AddConstraint`, lines 205-213. -/
def addConstraint (req : Req) (obj replacement : Lifetime) : Constraints :=
  (if req = .le ∨ req = .eq then [(replacement, obj)] else []) ++ (if req = .ge ∨ req = .eq then [(obj, replacement)] else [])

/-- The loop of lines 270-276 over the lifetime parameters. -/
def addConstraints (req : Req) : List Lifetime → List Lifetime → Constraints
  | l :: ls, l' :: ls' => addConstraint req l l' ++ addConstraints req ls ls'
  | _, _ => []

mutual
/-- `CollectLifetimeConstraints`, lines 226-301, for values of the same type (asserted, lines 241-242); the constraints are
listed instead of being inserted in a set. -/
def collect (req : Req) : VL Lifetime → VL Lifetime → Constraints
  | .leaf, _ => []
  | .ptr k l v, y => match y with
    | .ptr _ l' v' => addConstraint req l l' ++ collect (Req.compose (if k then .le else .eq) req) v v'
    | _ => []
  | .record args ps, y => match y with
    | .record args' ps' => collects .eq args args' ++ addConstraints req ps ps'
    | _ => []
  | .fn ps r t, y => match y with
    | .fn ps' r' t' => collects (Req.compose .ge req) ps ps' ++ collect (Req.compose .le req) r r' ++ collects (Req.compose .ge req) t t'
    | _ => []
def collects (req : Req) : VLs Lifetime → VLs Lifetime → Constraints
  | .nil, _ => []
  | .cons v vs, y => match y with
    | .cons v' vs' => collect req v v' ++ collects req vs vs'
    | .nil => []
end

/-- `ForCallableSubstitutionFull`, lines 326-335. -/
def forCallableFull (callable replacement : VL Lifetime) : Constraints := collect .le callable replacement

/-- `ForCallableSubstitution`, lines 303-324. -/
def forCallable (callable replacement : VL Lifetime) : Option Constraints :=
  callable.lifetimes.foldlM (fun ret l =>
    ((forCallableFull callable replacement).outliving l).map fun out =>
      (out.filter (· ∈ callable.lifetimes)).foldl (fun ret o => Constraints.addOutlives ret l o) ret) []

/-- `ConstrainLifetimes`, analyze.cc lines 408-413; results as for `applyTo`, with the new lifetimes put back in place. -/
def constrainLifetimes (ord : List Lifetime → List Lifetime) (base constraining : VL Lifetime) : Option (Option (VL Lifetime)) := do
  let c ← forCallable base constraining
  let out ← c.applyTo ord base.lifetimes
  return out.map fun out => base.map fun l => (AMap.get? (base.lifetimes.zip out) l).getD l

/-- The loop of `UpdateFunctionLifetimesWithOverrides`, analyze.cc lines 990-1011: all overriding methods, one after the
other. (`ForOverriddenMethod` only replaces the type of `this`.) -/
def constrainAll (ord : List Lifetime → List Lifetime) (base : VL Lifetime) : List (VL Lifetime) → Option (Option (VL Lifetime))
  | [] => some (some base)
  | o :: os => do
    match ← constrainLifetimes ord base o with
    | none => return none
    | some base => constrainAll ord base os

/-- `IsIsomorphic`, analyze.cc lines 1428-1435. -/
def isIsomorphic (a b : VL Lifetime) : Option Bool := do
  let x ← forCallable a b
  let y ← forCallable b a
  return x.isEmpty && y.isEmpty

/-! ### Specification -/

/-- Same type: equal up to the lifetimes. -/
def SameType (x y : VL Lifetime) : Prop := x.map (fun _ => ()) = y.map (fun _ => ())

mutual
/-- `Conv le x y`: a value with lifetimes `x` may be used where one with lifetimes `y` is expected, if `le a b` means that
`b` outlives `a`. Pointers may be used as pointers to shorter-lived objects, what a non-const pointer or a template argument
refers to must not change, functions accept more and return less. -/
inductive Conv {α : Type} (le : α → α → Prop) : VL α → VL α → Prop
  | leaf : Conv le .leaf .leaf
  | ptrConst {l l' v v'} : le l' l → Conv le v v' → Conv le (.ptr true l v) (.ptr true l' v')
  | ptrMut {l l' v v'} : le l' l → Conv le v v' → Conv le v' v → Conv le (.ptr false l v) (.ptr false l' v')
  | record {as as' ps ps'} : ConvAll le as as' → ConvAll le as' as → List.Forall₂ (fun l l' => le l' l) ps ps' →
      Conv le (.record as ps) (.record as' ps')
  | fn {ps ps' r r' t t'} : ConvAll le ps' ps → Conv le r r' → ConvAll le t' t → Conv le (.fn ps r t) (.fn ps' r' t')
inductive ConvAll {α : Type} (le : α → α → Prop) : VLs α → VLs α → Prop
  | nil : ConvAll le .nil .nil
  | cons {v v' vs vs'} : Conv le v v' → ConvAll le vs vs' → ConvAll le (.cons v vs) (.cons v' vs')
end

/-- What a requirement asks for. -/
def Req.Asks (le : Lifetime → Lifetime → Prop) (req : Req) (x y : VL Lifetime) : Prop := match req with
  | .le => Conv le x y
  | .ge => Conv le y x
  | .eq => Conv le x y ∧ Conv le y x

def Req.AsksAll (le : Lifetime → Lifetime → Prop) (req : Req) (x y : VLs Lifetime) : Prop := match req with
  | .le => ConvAll le x y
  | .ge => ConvAll le y x
  | .eq => ConvAll le x y ∧ ConvAll le y x

/-! ### Proofs -/

theorem holds_append {c d : Constraints} {le} : Constraints.Holds (c ++ d) le ↔ c.Holds le ∧ d.Holds le := by
  unfold Constraints.Holds
  constructor
  · intro h; exact ⟨fun p hp => h p (by simp [hp]), fun p hp => h p (by simp [hp])⟩
  · rintro ⟨h1, h2⟩ p hp
    rcases List.mem_append.mp hp with h | h
    · exact h1 p h
    · exact h2 p h

theorem holds_addConstraint {req : Req} {a b : Lifetime} {le} : (addConstraint req a b).Holds le ↔
    ((req = .le ∨ req = .eq) → le b a) ∧ ((req = .ge ∨ req = .eq) → le a b) := by
  cases req <;> simp [addConstraint, Constraints.Holds]

theorem holds_addConstraints {req : Req} {le} : ∀ {as bs : List Lifetime}, as.length = bs.length → ((addConstraints req as bs).Holds le ↔
    ((req = .le ∨ req = .eq) → List.Forall₂ (fun l l' => le l' l) as bs) ∧ ((req = .ge ∨ req = .eq) → List.Forall₂ (fun l l' => le l' l) bs as)) := by
  intro as
  induction as with
  | nil =>
    intro bs h
    cases bs with
    | nil => simp [addConstraints, Constraints.Holds]
    | cons => simp at h
  | cons a as ih =>
    intro bs h
    cases bs with
    | nil => simp at h
    | cons b bs =>
      simp only [List.length_cons, Nat.add_right_cancel_iff] at h
      simp only [addConstraints, holds_append, holds_addConstraint, ih h, List.forall₂_cons]
      constructor
      · rintro ⟨⟨h1, h2⟩, h3, h4⟩
        exact ⟨fun e => ⟨h1 e, h3 e⟩, fun e => ⟨h2 e, h4 e⟩⟩
      · rintro ⟨h1, h2⟩
        exact ⟨⟨fun e => (h1 e).1, fun e => (h2 e).1⟩, fun e => (h1 e).2, fun e => (h2 e).2⟩

theorem conv_ptr {le : Lifetime → Lifetime → Prop} {k : Bool} {l l' v v'} : Conv le (.ptr k l v) (.ptr k l' v') ↔ le l' l ∧ Conv le v v' ∧ (k = false → Conv le v' v) := by
  constructor
  · intro h
    cases h with
    | ptrConst h1 h2 => exact ⟨h1, h2, by simp⟩
    | ptrMut h1 h2 h3 => exact ⟨h1, h2, fun _ => h3⟩
  · rintro ⟨h1, h2, h3⟩
    cases k with
    | true => exact .ptrConst h1 h2
    | false => exact .ptrMut h1 h2 (h3 rfl)

theorem conv_record {le : Lifetime → Lifetime → Prop} {as as' ps ps'} : Conv le (.record as ps) (.record as' ps') ↔
    ConvAll le as as' ∧ ConvAll le as' as ∧ List.Forall₂ (fun l l' => le l' l) ps ps' :=
  ⟨fun h => by cases h with | record h1 h2 h3 => exact ⟨h1, h2, h3⟩, fun ⟨h1, h2, h3⟩ => .record h1 h2 h3⟩

theorem conv_fn {le : Lifetime → Lifetime → Prop} {ps ps' r r' t t'} : Conv le (.fn ps r t) (.fn ps' r' t') ↔ ConvAll le ps' ps ∧ Conv le r r' ∧ ConvAll le t' t :=
  ⟨fun h => by cases h with | fn h1 h2 h3 => exact ⟨h1, h2, h3⟩, fun ⟨h1, h2, h3⟩ => .fn h1 h2 h3⟩

theorem convAll_cons {le : Lifetime → Lifetime → Prop} {v v' vs vs'} : ConvAll le (.cons v vs) (.cons v' vs') ↔ Conv le v v' ∧ ConvAll le vs vs' :=
  ⟨fun h => by cases h with | cons h1 h2 => exact ⟨h1, h2⟩, fun ⟨h1, h2⟩ => .cons h1 h2⟩

mutual
theorem collect_iff (le : Lifetime → Lifetime → Prop) (req : Req) : ∀ (x y : VL Lifetime), x.map (fun _ => ()) = y.map (fun _ => ()) →
    ((collect req x y).Holds le ↔ req.Asks le x y)
  | .leaf, y, h => by
    cases y <;> simp [VL.map] at h
    cases req <;> simp [collect, Constraints.Holds, Req.Asks, Conv.leaf]
  | .ptr k l v, y, h => by
    cases y with
    | leaf => simp [VL.map] at h
    | record => simp [VL.map] at h
    | fn => simp [VL.map] at h
    | ptr k' l' v' =>
      simp only [VL.map, VL.ptr.injEq, true_and] at h
      obtain ⟨rfl, h⟩ := h
      have ih := fun req => collect_iff le req v v' h
      simp only [collect, holds_append, holds_addConstraint, ih]
      cases req <;> cases k <;> simp [Req.Asks, Req.compose, conv_ptr, and_assoc, and_comm, and_left_comm]
  | .record as ps, y, h => by
    cases y with
    | leaf => simp [VL.map] at h
    | ptr => simp [VL.map] at h
    | fn => simp [VL.map] at h
    | record as' ps' =>
      simp only [VL.map, VL.record.injEq] at h
      have hl : ps.length = ps'.length := by have := congrArg List.length h.2; simpa using this
      simp only [collect, holds_append, collects_iff le _ as as' h.1, holds_addConstraints hl]
      cases req <;> simp [Req.Asks, Req.AsksAll, conv_record, and_assoc, and_comm, and_left_comm]
  | .fn ps r t, y, h => by
    cases y with
    | leaf => simp [VL.map] at h
    | ptr => simp [VL.map] at h
    | record => simp [VL.map] at h
    | fn ps' r' t' =>
      simp only [VL.map, VL.fn.injEq] at h
      simp only [collect, holds_append, collects_iff le _ ps ps' h.1, collect_iff le _ r r' h.2.1, collects_iff le _ t t' h.2.2]
      cases req <;> simp [Req.Asks, Req.AsksAll, Req.compose, conv_fn, and_assoc, and_comm, and_left_comm]
theorem collects_iff (le : Lifetime → Lifetime → Prop) (req : Req) : ∀ (x y : VLs Lifetime), x.map (fun _ => ()) = y.map (fun _ => ()) →
    ((collects req x y).Holds le ↔ req.AsksAll le x y)
  | .nil, y, h => by
    cases y <;> simp [VLs.map] at h
    cases req <;> simp [collects, Constraints.Holds, Req.AsksAll, ConvAll.nil]
  | .cons v vs, y, h => by
    cases y with
    | nil => simp [VLs.map] at h
    | cons v' vs' =>
      simp only [VLs.map, VLs.cons.injEq] at h
      simp only [collects, holds_append, collect_iff le _ v v' h.1, collects_iff le _ vs vs' h.2]
      cases req <;> simp [Req.Asks, Req.AsksAll, convAll_cons, and_assoc, and_comm, and_left_comm]
end

/-- C50: the constraints for callable substitution are exact: they hold iff `callable` can be used where `replacement` is
expected. (Disagreement: the documentation of the function says that they allow `replacement` to be used where `callable` is
requested.) -/
theorem callable_constraints_exact (le : Lifetime → Lifetime → Prop) (callable replacement : VL Lifetime) (h : SameType callable replacement) :
    (forCallableFull callable replacement).Holds le ↔ Conv le callable replacement :=
  collect_iff le .le callable replacement h

/-! ### Projection -/

theorem mem_foldl_addOutlives (l : Lifetime) : ∀ (os : List Lifetime) (ret : Constraints) (p : Lifetime × Lifetime),
    p ∈ os.foldl (fun ret o => Constraints.addOutlives ret l o) ret ↔ p ∈ ret ∨ (p.1 = l ∧ p.2 ∈ os) := by
  intro os
  induction os with
  | nil => simp
  | cons o os ih =>
    intro ret p
    rw [List.foldl_cons, ih]
    unfold Constraints.addOutlives
    rw [mem_setInsert]
    obtain ⟨a, b⟩ := p
    simp only [Prod.mk.injEq, List.mem_cons]
    constructor
    · rintro ((h | h) | h)
      · exact Or.inl h
      · exact Or.inr ⟨h.1, Or.inl h.2⟩
      · exact Or.inr ⟨h.1, Or.inr h.2⟩
    · rintro (h | ⟨h1, h2 | h2⟩)
      · exact Or.inl (Or.inl h)
      · exact Or.inl (Or.inr ⟨h1, h2⟩)
      · exact Or.inr ⟨h1, h2⟩

theorem forCallable_mem (callable replacement : VL Lifetime) : ∃ c, forCallable callable replacement = some c ∧
    ∀ p, p ∈ c ↔ p.1 ∈ callable.lifetimes ∧ p.2 ∈ callable.lifetimes ∧ p.2 ≠ p.1 ∧ (forCallableFull callable replacement).Implies p.1 p.2 := by
  unfold forCallable
  have gen : ∀ (ls : List Lifetime) (ret : Constraints), ∃ c, ls.foldlM (fun ret l =>
      ((forCallableFull callable replacement).outliving l).map fun out =>
      (out.filter (· ∈ callable.lifetimes)).foldl (fun ret o => Constraints.addOutlives ret l o) ret) ret = some c ∧
      ∀ p, p ∈ c ↔ p ∈ ret ∨ (p.1 ∈ ls ∧ p.2 ∈ callable.lifetimes ∧ p.2 ≠ p.1 ∧ (forCallableFull callable replacement).Implies p.1 p.2) := by
    intro ls
    induction ls with
    | nil => intro ret; exact ⟨ret, rfl, by simp⟩
    | cons l ls ih =>
      intro ret
      obtain ⟨out, ho, -, hm⟩ := outliving_exact (forCallableFull callable replacement) l
      rw [List.foldlM_cons, ho]
      obtain ⟨c, hc, hcm⟩ := ih ((out.filter (· ∈ callable.lifetimes)).foldl (fun ret o => Constraints.addOutlives ret l o) ret)
      refine ⟨c, hc, fun p => ?_⟩
      rw [hcm, mem_foldl_addOutlives, List.mem_filter, hm]
      simp only [decide_eq_true_eq, List.mem_cons]
      constructor
      · rintro ((h | ⟨h1, ⟨h2, h3⟩, h4⟩) | h)
        · exact Or.inl h
        · rw [h1]; exact Or.inr ⟨Or.inl rfl, h4, h2, h3⟩
        · exact Or.inr ⟨Or.inr h.1, h.2⟩
      · rintro (h | ⟨h1 | h1, h2, h3, h4⟩)
        · exact Or.inl (Or.inl h)
        · exact Or.inl (Or.inr ⟨h1, ⟨h1 ▸ h3, h1 ▸ h4⟩, h2⟩)
        · exact Or.inr ⟨h1, h2, h3, h4⟩
  obtain ⟨c, h1, h2⟩ := gen callable.lifetimes []
  exact ⟨c, h1, fun p => by rw [h2]; simp⟩

theorem path_decompose {c full : Constraints} {A : List Lifetime} {le : Lifetime → Lifetime → Prop} (ho : IsOrder le)
    (hm : ∀ p, p ∈ c ↔ p.1 ∈ A ∧ p.2 ∈ A ∧ p.2 ≠ p.1 ∧ full.Implies p.1 p.2) (hh : c.Holds le) {a b : Lifetime} (ha : a ∈ A)
    (hp : Relation.ReflTransGen (fun a b => (a, b) ∈ full ∨ (a ∈ A ∧ b ∈ A ∧ le a b)) a b) : ∃ z ∈ A, le a z ∧ full.Below z b := by
  induction hp with
  | refl => exact ⟨a, ha, ho.refl a, .refl⟩
  | tail _ hstep ih =>
    rename_i y w _
    obtain ⟨z, hz, h1, h2⟩ := ih
    rcases hstep with h | ⟨hy, hw, h⟩
    · exact ⟨z, hz, h1, h2.tail h⟩
    · refine ⟨w, hw, ?_, .refl⟩
      have : le z y := by
        by_cases e : y = z
        · rw [e]; exact ho.refl z
        · exact hh (z, y) ((hm _).mpr ⟨hz, hy, e, (full.implies_iff _ _).mpr h2⟩)
      exact ho.trans _ _ _ (ho.trans _ _ _ h1 this) h

theorem below_in {c full : Constraints} {A : List Lifetime} {le : Lifetime → Lifetime → Prop} (ho : IsOrder le)
    (hm : ∀ p, p ∈ c ↔ p.1 ∈ A ∧ p.2 ∈ A ∧ p.2 ≠ p.1 ∧ full.Implies p.1 p.2) (hh : c.Holds le) {a b : Lifetime} (ha : a ∈ A) (hb : b ∈ A)
    (h : full.Below a b) : le a b := by
  by_cases e : b = a
  · rw [e]; exact ho.refl a
  · exact hh (a, b) ((hm _).mpr ⟨ha, hb, e, (full.implies_iff _ _).mpr h⟩)

/-- C50: `ForCallableSubstitution` speaks about the lifetimes of `callable` only, and says all there is to say about them: an
ordering of lifetimes satisfies it iff some ordering that agrees with it on the lifetimes of `callable` makes `callable`
usable where `replacement` is expected. -/
theorem callable_projection_exact (callable replacement : VL Lifetime) (h : SameType callable replacement) :
    ∃ c, forCallable callable replacement = some c ∧ ∀ le, IsOrder le →
      (c.Holds le ↔ ∃ le', IsOrder le' ∧ (∀ a ∈ callable.lifetimes, ∀ b ∈ callable.lifetimes, le' a b ↔ le a b) ∧
        Conv le' callable replacement) := by
  obtain ⟨c, hc, hm⟩ := forCallable_mem callable replacement
  refine ⟨c, hc, fun le ho => ?_⟩
  constructor
  · intro hh
    refine ⟨Relation.ReflTransGen fun a b => (a, b) ∈ forCallableFull callable replacement ∨ (a ∈ callable.lifetimes ∧ b ∈ callable.lifetimes ∧ le a b),
      ⟨fun _ => .refl, fun _ _ _ h1 h2 => h1.trans h2⟩, ?_, ?_⟩
    · intro a ha b hb
      constructor
      · intro hp
        obtain ⟨z, hz, h1, h2⟩ := path_decompose ho hm hh ha hp
        exact ho.trans _ _ _ h1 (below_in ho hm hh hz hb h2)
      · intro h; exact .single (Or.inr ⟨ha, hb, h⟩)
    · rw [← callable_constraints_exact _ _ _ h]
      intro p hp; exact .single (Or.inl hp)
  · rintro ⟨le', ho', ha, hcv⟩ p hp
    obtain ⟨h1, h2, -, h4⟩ := (hm p).mp hp
    exact (ha _ h1 _ h2).mp (h4 le' ho' ((callable_constraints_exact _ _ _ h).mpr hcv))

/-- C50: `IsIsomorphic` says that each signature can be used as the other, whatever is assumed about its own lifetimes. -/
theorem isomorphic_iff (a b : VL Lifetime) (h : SameType a b) : ∃ r, isIsomorphic a b = some r ∧
    (r = true ↔
      (∀ le, IsOrder le → ∃ le', IsOrder le' ∧ (∀ x ∈ a.lifetimes, ∀ y ∈ a.lifetimes, le' x y ↔ le x y) ∧ Conv le' a b) ∧
      (∀ le, IsOrder le → ∃ le', IsOrder le' ∧ (∀ x ∈ b.lifetimes, ∀ y ∈ b.lifetimes, le' x y ↔ le x y) ∧ Conv le' b a)) := by
  have key : ∀ (a b : VL Lifetime), SameType a b → ∃ c, forCallable a b = some c ∧ (c.isEmpty = true ↔
      (∀ le, IsOrder le → ∃ le', IsOrder le' ∧ (∀ x ∈ a.lifetimes, ∀ y ∈ a.lifetimes, le' x y ↔ le x y) ∧ Conv le' a b)) := by
    intro a b h
    obtain ⟨c, hc, hp⟩ := callable_projection_exact a b h
    obtain ⟨c', hc', hm⟩ := forCallable_mem a b
    rw [hc, Option.some.injEq] at hc'; subst hc'
    refine ⟨c, hc, ?_⟩
    constructor
    · intro he le ho
      rw [List.isEmpty_iff] at he
      exact (hp le ho).mp (by rw [he]; intro p hp; simp at hp)
    · intro hall
      cases c with
      | nil => rfl
      | cons p c =>
        exfalso
        have ho : IsOrder (Eq : Lifetime → Lifetime → Prop) := ⟨fun _ => rfl, fun _ _ _ h1 h2 => h1.trans h2⟩
        have := (hp Eq ho).mpr (hall Eq ho) p (by simp)
        exact ((hm p).mp (by simp)).2.2.1 this.symm
  obtain ⟨c, hc, h1⟩ := key a b h
  obtain ⟨d, hd, h2⟩ := key b a (by unfold SameType at h ⊢; exact h.symm)
  refine ⟨c.isEmpty && d.isEmpty, ?_, by rw [Bool.and_eq_true, h1, h2]⟩
  unfold isIsomorphic
  rw [hc, hd]; rfl

/-- Disagreement: `IsIsomorphic` is documented to compare where lifetimes recur, but takes `f('static)` and `f('z)` for the
same (so that a recursive function found to need 'static keeps its old signature), and `f('x, 'y)` and `f('z, 'z)`. -/
theorem static_isomorphic_to_variable :
    isIsomorphic (.fn (.cons (.ptr false .static .leaf) .nil) .leaf .nil) (.fn (.cons (.ptr false ⟨2⟩ .leaf) .nil) .leaf .nil) = some true ∧
    isIsomorphic (.fn (.cons (.ptr false ⟨2⟩ .leaf) (.cons (.ptr false ⟨3⟩ .leaf) .nil)) .leaf .nil)
      (.fn (.cons (.ptr false ⟨4⟩ .leaf) (.cons (.ptr false ⟨4⟩ .leaf) .nil)) .leaf .nil) = some true := by decide

/-! ### Overriding methods -/

mutual
theorem VL.map_congr {α β : Type} {f g : α → β} : ∀ (x : VL α), (∀ l ∈ x.lifetimes, f l = g l) → x.map f = x.map g
  | .leaf, _ => rfl
  | .ptr k l v, h => by
    simp only [VL.map, h l (by simp [VL.lifetimes]), VL.map_congr v fun l hl => h l (by simp [VL.lifetimes, hl])]
  | .record as ps, h => by
    simp only [VL.map, VLs.map_congr as fun l hl => h l (by simp [VL.lifetimes, hl])]
    rw [List.map_congr_left fun l hl => h l (by simp [VL.lifetimes, hl])]
  | .fn ps r t, h => by
    simp only [VL.map, VLs.map_congr ps fun l hl => h l (by simp [VL.lifetimes, hl]),
      VL.map_congr r fun l hl => h l (by simp [VL.lifetimes, hl]), VLs.map_congr t fun l hl => h l (by simp [VL.lifetimes, hl])]
theorem VLs.map_congr {α β : Type} {f g : α → β} : ∀ (x : VLs α), (∀ l ∈ x.lifetimes, f l = g l) → x.map f = x.map g
  | .nil, _ => rfl
  | .cons v vs, h => by
    simp only [VLs.map, VL.map_congr v fun l hl => h l (by simp [VLs.lifetimes, hl]), VLs.map_congr vs fun l hl => h l (by simp [VLs.lifetimes, hl])]
end

mutual
theorem VL.map_map {α β γ : Type} (f : α → β) (g : β → γ) : ∀ x : VL α, (x.map f).map g = x.map (g ∘ f)
  | .leaf => rfl
  | .ptr k l v => by simp only [VL.map, VL.map_map f g v, Function.comp]
  | .record as ps => by simp only [VL.map, VLs.map_map f g as, List.map_map]
  | .fn ps r t => by simp only [VL.map, VLs.map_map f g ps, VL.map_map f g r, VLs.map_map f g t]
theorem VLs.map_map {α β γ : Type} (f : α → β) (g : β → γ) : ∀ x : VLs α, (x.map f).map g = x.map (g ∘ f)
  | .nil => rfl
  | .cons v vs => by simp only [VLs.map, VL.map_map f g v, VLs.map_map f g vs]
end

mutual
theorem VL.map_id {α : Type} : ∀ x : VL α, x.map id = x
  | .leaf => rfl
  | .ptr k l v => by simp only [VL.map, VL.map_id v, id]
  | .record as ps => by simp only [VL.map, VLs.map_id as, List.map_id]
  | .fn ps r t => by simp only [VL.map, VLs.map_id ps, VL.map_id r, VLs.map_id t]
theorem VLs.map_id {α : Type} : ∀ x : VLs α, x.map id = x
  | .nil => rfl
  | .cons v vs => by simp only [VLs.map, VL.map_id v, VLs.map_id vs]
end

mutual
theorem VL.lifetimes_map {α β : Type} (f : α → β) : ∀ x : VL α, (x.map f).lifetimes = x.lifetimes.map f
  | .leaf => rfl
  | .ptr k l v => by simp [VL.map, VL.lifetimes, VL.lifetimes_map f v]
  | .record as ps => by simp [VL.map, VL.lifetimes, VLs.lifetimes_map f as]
  | .fn ps r t => by simp [VL.map, VL.lifetimes, VLs.lifetimes_map f ps, VL.lifetimes_map f r, VLs.lifetimes_map f t]
theorem VLs.lifetimes_map {α β : Type} (f : α → β) : ∀ x : VLs α, (x.map f).lifetimes = x.lifetimes.map f
  | .nil => rfl
  | .cons v vs => by simp [VLs.map, VLs.lifetimes, VL.lifetimes_map f v, VLs.lifetimes_map f vs]
end

theorem forall2_swap {α β : Type} {R : α → β → Prop} {as bs} (h : List.Forall₂ R as bs) : List.Forall₂ (fun b a => R a b) bs as := by
  induction h with
  | nil => exact .nil
  | cons h _ ih => exact .cons h ih

mutual
/-- Reversing the order of lifetimes reverses convertibility. -/
theorem conv_flip {α : Type} {le : α → α → Prop} : ∀ {x y : VL α}, Conv le x y → Conv (fun a b => le b a) y x
  | _, _, .leaf => .leaf
  | _, _, .ptrConst h1 h2 => .ptrConst h1 (conv_flip h2)
  | _, _, .ptrMut h1 h2 h3 => .ptrMut h1 (conv_flip h2) (conv_flip h3)
  | _, _, .record h1 h2 h3 => .record (convAll_flip h1) (convAll_flip h2) (forall2_swap h3)
  | _, _, .fn h1 h2 h3 => .fn (convAll_flip h1) (conv_flip h2) (convAll_flip h3)
theorem convAll_flip {α : Type} {le : α → α → Prop} : ∀ {x y : VLs α}, ConvAll le x y → ConvAll (fun a b => le b a) y x
  | _, _, .nil => .nil
  | _, _, .cons h1 h2 => .cons (conv_flip h1) (convAll_flip h2)
end

theorem forall2_map {α β : Type} {le : β → β → Prop} {f : α → β} {as bs : List α} (h : List.Forall₂ (fun a b => le (f b) (f a)) as bs) :
    List.Forall₂ (fun l l' => le l' l) (as.map f) (bs.map f) := by
  induction h with
  | nil => exact .nil
  | cons h _ ih => exact .cons h ih

mutual
theorem conv_map {α β : Type} {le : β → β → Prop} {f : α → β} : ∀ {x y : VL α}, Conv (fun a b => le (f a) (f b)) x y → Conv le (x.map f) (y.map f)
  | _, _, .leaf => .leaf
  | _, _, .ptrConst h1 h2 => .ptrConst h1 (conv_map h2)
  | _, _, .ptrMut h1 h2 h3 => .ptrMut h1 (conv_map h2) (conv_map h3)
  | _, _, .record h1 h2 h3 => .record (convAll_map h1) (convAll_map h2) (forall2_map h3)
  | _, _, .fn h1 h2 h3 => .fn (convAll_map h1) (conv_map h2) (convAll_map h3)
theorem convAll_map {α β : Type} {le : β → β → Prop} {f : α → β} : ∀ {x y : VLs α}, ConvAll (fun a b => le (f a) (f b)) x y → ConvAll le (x.map f) (y.map f)
  | _, _, .nil => .nil
  | _, _, .cons h1 h2 => .cons (conv_map h1) (convAll_map h2)
end

/-- A constraint relates a lifetime of the one signature with one of the other. -/
def Bip (x y : List Lifetime) (p : Lifetime × Lifetime) : Prop := (p.1 ∈ x ∧ p.2 ∈ y) ∨ (p.1 ∈ y ∧ p.2 ∈ x)

theorem Bip.mono {x y x' y' : List Lifetime} {p} (h : Bip x y p) (hx : ∀ l ∈ x, l ∈ x') (hy : ∀ l ∈ y, l ∈ y') : Bip x' y' p := by
  rcases h with ⟨h1, h2⟩ | ⟨h1, h2⟩
  · exact Or.inl ⟨hx _ h1, hy _ h2⟩
  · exact Or.inr ⟨hy _ h1, hx _ h2⟩

theorem addConstraint_bip {req a b p} (h : p ∈ addConstraint req a b) : Bip [a] [b] p := by
  unfold Bip
  cases req <;> simp [addConstraint] at h <;> (try rcases h with h | h) <;> subst_vars <;> simp

theorem addConstraints_bip {req p} : ∀ {as bs : List Lifetime}, p ∈ addConstraints req as bs → Bip as bs p := by
  intro as
  induction as with
  | nil => intro bs h; simp [addConstraints] at h
  | cons a as ih =>
    intro bs h
    cases bs with
    | nil => simp [addConstraints] at h
    | cons b bs =>
      simp only [addConstraints, List.mem_append] at h
      rcases h with h | h
      · exact (addConstraint_bip h).mono (by simp) (by simp)
      · exact (ih h).mono (fun _ h => by simp [h]) (fun _ h => by simp [h])

mutual
theorem collect_bip (p : Lifetime × Lifetime) : ∀ (x y : VL Lifetime) (req : Req), p ∈ collect req x y → Bip x.lifetimes y.lifetimes p
  | .leaf, y, req, h => by simp [collect] at h
  | .ptr k l v, y, req, h => by
    cases y with
    | leaf => simp [collect] at h
    | record => simp [collect] at h
    | fn => simp [collect] at h
    | ptr k' l' v' =>
      simp only [collect, List.mem_append] at h
      rcases h with h | h
      · exact (addConstraint_bip h).mono (by simp [VL.lifetimes]) (by simp [VL.lifetimes])
      · exact (collect_bip p v v' _ h).mono (fun _ h => by simp [VL.lifetimes, h]) (fun _ h => by simp [VL.lifetimes, h])
  | .record as ps, y, req, h => by
    cases y with
    | leaf => simp [collect] at h
    | ptr => simp [collect] at h
    | fn => simp [collect] at h
    | record as' ps' =>
      simp only [collect, List.mem_append] at h
      rcases h with h | h
      · exact (collects_bip p as as' _ h).mono (fun _ h => by simp [VL.lifetimes, h]) (fun _ h => by simp [VL.lifetimes, h])
      · exact (addConstraints_bip h).mono (fun _ h => by simp [VL.lifetimes, h]) (fun _ h => by simp [VL.lifetimes, h])
  | .fn ps r t, y, req, h => by
    cases y with
    | leaf => simp [collect] at h
    | ptr => simp [collect] at h
    | record => simp [collect] at h
    | fn ps' r' t' =>
      simp only [collect, List.mem_append] at h
      rcases h with (h | h) | h
      · exact (collects_bip p ps ps' _ h).mono (fun _ h => by simp [VL.lifetimes, h]) (fun _ h => by simp [VL.lifetimes, h])
      · exact (collect_bip p r r' _ h).mono (fun _ h => by simp [VL.lifetimes, h]) (fun _ h => by simp [VL.lifetimes, h])
      · exact (collects_bip p t t' _ h).mono (fun _ h => by simp [VL.lifetimes, h]) (fun _ h => by simp [VL.lifetimes, h])
theorem collects_bip (p : Lifetime × Lifetime) : ∀ (x y : VLs Lifetime) (req : Req), p ∈ collects req x y → Bip x.lifetimes y.lifetimes p
  | .nil, y, req, h => by simp [collects] at h
  | .cons v vs, y, req, h => by
    cases y with
    | nil => simp [collects] at h
    | cons v' vs' =>
      simp only [collects, List.mem_append] at h
      rcases h with h | h
      · exact (collect_bip p v v' _ h).mono (fun _ h => by simp [VLs.lifetimes, h]) (fun _ h => by simp [VLs.lifetimes, h])
      · exact (collects_bip p vs vs' _ h).mono (fun _ h => by simp [VLs.lifetimes, h]) (fun _ h => by simp [VLs.lifetimes, h])
end

/-- A signature all of whose lifetimes are variables. -/
def AllVars (x : VL Lifetime) : Prop := ∀ l ∈ x.lifetimes, l.isVariable = true

/-- An override (with lifetimes of its own to choose) can be called through the base signature: for every meaning `ι` of the
lifetimes of the base there is a meaning `τ` of those of the override such that the override is usable as the base. -/
def UsableAs (o base : VL Lifetime) : Prop :=
  ∀ (L : Type) [CompleteLattice L] (ι : Lifetime → L), ∃ τ : Lifetime → L, Conv (· ≤ ·) (o.map τ) (base.map ι)

theorem get?_zip_map (σ : Lifetime → Lifetime) : ∀ (ls : List Lifetime) (l : Lifetime), l ∈ ls → AMap.get? (ls.zip (ls.map σ)) l = some (σ l) := by
  intro ls
  induction ls with
  | nil => simp
  | cons a ls ih =>
    intro l hl
    simp only [List.map_cons, List.zip_cons_cons, AMap.get?]
    by_cases e : a = l
    · rw [if_pos e, e]
    · rw [if_neg e]
      exact ih l ((List.mem_cons.mp hl).resolve_left (fun h => e h.symm))

/-- C51: constraining a base method by an override with the same parameter types, where all lifetimes are variables and the
two signatures share none. It succeeds, replaces lifetimes of the base by lifetimes of the base, merging exactly those that
the constraints link, and afterwards the override is usable as the base for every meaning of the base's lifetimes. -/
theorem constrain_sound (ord : List Lifetime → List Lifetime) (hord : ∀ l, (ord l).Perm l) (base o : VL Lifetime) (h : SameType base o)
    (hb : AllVars base) (hd : ∀ l ∈ base.lifetimes, l ∉ o.lifetimes) :
    ∃ σ, constrainLifetimes ord base o = some (some (base.map σ)) ∧ (∀ l ∈ base.lifetimes, σ l ∈ base.lifetimes) ∧
      (∀ a ∈ base.lifetimes, ∀ b ∈ base.lifetimes, σ a = σ b ↔
        Relation.EqvGen (fun x y => x ∈ base.lifetimes ∧ y ∈ base.lifetimes ∧ (forCallableFull base o).Implies x y) a b) ∧
      UsableAs o (base.map σ) := by
  classical
  obtain ⟨c, hc, hm⟩ := forCallable_mem base o
  have hvalid : c.Valid := by
    intro p hp l hl
    obtain ⟨h1, h2, -, -⟩ := (hm p).mp hp
    simp only [List.mem_cons, List.not_mem_nil, or_false] at hl
    rcases hl with rfl | rfl
    · exact Or.inl (hb _ h1)
    · exact Or.inl (hb _ h2)
  have hsig : SigOk base.lifetimes := fun l hl => Or.inl (hb l hl)
  -- from a lifetime only variables of the base can be reached
  have hreach : ∀ {x y}, c.Below x y → x = y ∨ (x ∈ base.lifetimes ∧ y ∈ base.lifetimes) := by
    intro x y hxy
    induction hxy with
    | refl => exact Or.inl rfl
    | tail _ hs ih =>
      obtain ⟨h1, h2, -, -⟩ := (hm _).mp hs
      rcases ih with rfl | ih
      · exact Or.inr ⟨h1, h2⟩
      · exact Or.inr ⟨ih.1, h2⟩
  have hnst : Lifetime.static ∉ base.lifetimes := fun h => by have := hb _ h; simp [static_not_var] at this
  have hfree : ∀ a ∈ base.lifetimes, c.Free base.lifetimes a := by
    intro a ha
    refine ⟨ha, fun h => ?_, ?_⟩
    · rcases hreach ((c.implies_iff _ _).mp h) with e | e
      · exact hnst (e ▸ ha)
      · exact hnst e.1
    · rintro ⟨l, hl, hal⟩
      rcases hreach ((c.implies_iff _ _).mp hal) with e | e
      · rw [← e, var_not_local (hb a ha)] at hl; simp at hl
      · rw [var_not_local (hb l e.2)] at hl; simp at hl
  rcases apply_spec ord hord c hvalid base.lifetimes hsig with ⟨⟨l, hl, hsl⟩, -⟩ | ⟨-, σ, e, -, -, h3, h4⟩
  · exfalso
    rcases hreach ((c.implies_iff _ _).mp hsl) with e | e
    · rw [← e, static_not_local] at hl; simp at hl
    · exact hnst e.1
  have hmerge : ∀ a ∈ base.lifetimes, ∀ b ∈ base.lifetimes, (forCallableFull base o).Implies a b → σ a = σ b := by
    intro a ha b hb' hab
    by_cases e : b = a
    · rw [e]
    · refine (h4 a b (hfree a ha) (hfree b hb')).mpr (.rel _ _ ⟨hfree a ha, hfree b hb', ?_⟩)
      rw [c.implies_iff]
      exact .single ((hm (a, b)).mpr ⟨ha, hb', e, hab⟩)
  have hcompl : ∀ {x y}, c.Implies x y → (forCallableFull base o).Implies x y := by
    intro x y hxy
    rw [c.implies_iff] at hxy
    induction hxy with
    | refl => exact fun le ho _ => ho.refl _
    | tail _ hs ih =>
      have := ((hm _).mp hs).2.2.2
      exact fun le ho hh => ho.trans _ _ _ (ih le ho hh) (this le ho hh)
  refine ⟨σ, ?_, fun l hl => (h3 l (hfree l hl)).1.1, fun a ha b hb' => ?_, ?_⟩
  · unfold constrainLifetimes
    rw [hc]
    simp only [Option.bind_eq_bind, Option.bind_some, e, Option.map_some]
    have : (base.map fun l => (AMap.get? (base.lifetimes.zip (base.lifetimes.map σ)) l).getD l) = base.map σ :=
      VL.map_congr base fun l hl => by rw [get?_zip_map σ _ l hl]; rfl
    rw [this]; rfl
  · rw [h4 a b (hfree a ha) (hfree b hb')]
    constructor
    · exact eqv_mono fun x y h => ⟨h.1.1, h.2.1.1, hcompl h.2.2⟩
    · have gen : ∀ {x y}, Relation.EqvGen (fun x y => x ∈ base.lifetimes ∧ y ∈ base.lifetimes ∧ (forCallableFull base o).Implies x y) x y →
          c.Linked base.lifetimes x y := by
        intro x y hxy
        induction hxy with
        | rel x y h => exact (h4 x y (hfree x h.1) (hfree y h.2.1)).mp (hmerge x h.1 y h.2.1 h.2.2)
        | refl => exact .refl _
        | symm _ _ _ ih => exact ih.symm _ _
        | trans _ _ _ _ _ ih1 ih2 => exact ih1.trans _ _ _ ih2
      exact gen
  · intro L _ ι
    let full := forCallableFull base o
    let τ : Lifetime → L := fun z => sInf {v | ∃ a ∈ base.lifetimes, (a, z) ∈ full ∧ v = ι (σ a)}
    let I : Lifetime → L := fun l => if l ∈ base.lifetimes then ι (σ l) else τ l
    refine ⟨τ, ?_⟩
    have e1 : o.map τ = o.map I := VL.map_congr o fun l hl => by
      have : l ∉ base.lifetimes := fun h => hd l h hl
      simp only [I, if_neg this]
    have e2 : (base.map σ).map ι = base.map I := by
      rw [VL.map_map]
      exact VL.map_congr base fun l hl => by simp only [I, if_pos hl, Function.comp]
    rw [e1, e2]
    apply conv_map
    have : Conv (fun a b => I b ≤ I a) base o := by
      rw [← callable_constraints_exact _ _ _ h]
      intro p hp
      rcases collect_bip p base o .le hp with ⟨h1, h2⟩ | ⟨h1, h2⟩
      · have h2' : p.2 ∉ base.lifetimes := fun h => hd _ h h2
        simp only [I, if_pos h1, if_neg h2']
        exact sInf_le ⟨p.1, h1, hp, rfl⟩
      · have h1' : p.1 ∉ base.lifetimes := fun h => hd _ h h1
        simp only [I, if_pos h2, if_neg h1']
        refine le_sInf ?_
        rintro v ⟨a, ha, hap, rfl⟩
        have : (forCallableFull base o).Implies a p.2 := by
          rw [Constraints.implies_iff]
          exact (Relation.ReflTransGen.single hap).tail hp
        rw [hmerge a ha p.2 h2 this]
    exact conv_flip this

theorem UsableAs.subst {o base : VL Lifetime} (h : UsableAs o base) (σ : Lifetime → Lifetime) : UsableAs o (base.map σ) := by
  intro L _ ι
  obtain ⟨τ, hτ⟩ := h L (ι ∘ σ)
  exact ⟨τ, by rw [VL.map_map]; exact hτ⟩

/-- C51: after constraining a base method by any list of overrides (variables only, none shared with the base), whatever their
number and order, every one of them is usable as the base; the lifetimes of the result are lifetimes the base had before. -/
theorem constrain_all_sound (ord : List Lifetime → List Lifetime) (hord : ∀ l, (ord l).Perm l) : ∀ (os : List (VL Lifetime)) (base : VL Lifetime),
    (∀ o ∈ os, SameType base o) → AllVars base → (∀ o ∈ os, ∀ l ∈ base.lifetimes, l ∉ o.lifetimes) →
    ∃ σ, constrainAll ord base os = some (some (base.map σ)) ∧ (∀ l ∈ base.lifetimes, σ l ∈ base.lifetimes) ∧
      ∀ o ∈ os, UsableAs o (base.map σ) := by
  intro os
  induction os with
  | nil =>
    intro base _ _ _
    refine ⟨id, ?_, fun l hl => hl, by simp⟩
    have : ∀ x : VL Lifetime, x.map id = x := VL.map_id
    rw [this]; rfl
  | cons o os ih =>
    intro base h hb hd
    obtain ⟨σ, h1, h2, -, h4⟩ := constrain_sound ord hord base o (h o (by simp)) hb (hd o (by simp))
    have hmem : ∀ l ∈ (base.map σ).lifetimes, l ∈ base.lifetimes := by
      intro l hl
      rw [VL.lifetimes_map, List.mem_map] at hl
      obtain ⟨a, ha, rfl⟩ := hl
      exact h2 a ha
    obtain ⟨σ', g1, g2, g3⟩ := ih (base.map σ)
      (fun o' ho' => by
        have := h o' (by simp [ho'])
        unfold SameType at this ⊢
        rw [VL.map_map]; exact this)
      (fun l hl => hb l (hmem l hl))
      (fun o' ho' l hl => hd o' (by simp [ho']) l (hmem l hl))
    refine ⟨σ' ∘ σ, ?_, fun l hl => hmem _ (g2 _ ?_), ?_⟩
    · rw [← VL.map_map, ← g1]
      conv => lhs; unfold constrainAll
      rw [h1]; rfl
    · rw [VL.lifetimes_map]; exact List.mem_map_of_mem hl
    · intro o' ho'
      rw [← VL.map_map]
      rcases List.mem_cons.mp ho' with rfl | ho'
      · exact h4.subst σ'
      · exact g3 o' ho'

/-- Disagreement: an override that needs a `'static` argument does not change the base, so it is called through the base with
arguments that do not live that long. -/
theorem override_static_lost :
    let base : VL Lifetime := .fn (.cons (.ptr true ⟨2⟩ .leaf) .nil) .leaf .nil
    let o : VL Lifetime := .fn (.cons (.ptr true .static .leaf) .nil) .leaf .nil
    constrainLifetimes id base o = some (some base) ∧
    ∀ (τ : Lifetime → Bool), τ .static = true → ¬ Conv (· ≤ ·) (o.map τ) (base.map fun l => decide (l = .static)) := by
  refine ⟨by rfl, ?_⟩
  intro τ hτ hc
  simp only [VL.map, VLs.map] at hc
  cases hc with
  | fn h1 h2 h3 =>
    cases h1 with
    | cons h1 _ =>
      cases h1 with
      | ptrConst h _ =>
        rw [hτ] at h
        exact absurd h (by decide)

/-- `f(x: &'2, y: &'3) -> &'2` overridden by `f(x: &'4, y: &'4) -> &'4`: the two lifetimes of the base are merged. -/
example : ∃ l : Lifetime, constrainLifetimes id
    (.fn (.cons (.ptr true ⟨2⟩ .leaf) (.cons (.ptr true ⟨3⟩ .leaf) .nil)) (.ptr true ⟨2⟩ .leaf) .nil)
    (.fn (.cons (.ptr true ⟨4⟩ .leaf) (.cons (.ptr true ⟨4⟩ .leaf) .nil)) (.ptr true ⟨4⟩ .leaf) .nil) =
    some (some (.fn (.cons (.ptr true l .leaf) (.cons (.ptr true l .leaf) .nil)) (.ptr true l .leaf) .nil)) := ⟨⟨3⟩, by rfl⟩

end Verif.Lifetimes

import Verif.Paths.All

/-!
# Names of Rust items in C++: instances of the hypotheses, and disagreements
-/

namespace Verif.Paths
open Verif Std

/-! ## The library functions exist -/

section lib
variable (cmp : Path → Path → Ordering) [TransCmp cmp]

/-- A search. -/
def searchFrom (cmp : Path → Path → Ordering) : List Path → Path → Nat → Except Nat Nat
  | [], _, i => .error i
  | y :: l, x, i => match cmp y x with
      | .lt => searchFrom cmp l x (i + 1)
      | .eq => .ok i
      | .gt => .error i

/-- A merge of two lists: the smaller head goes first. -/
def mrg (cmp : Path → Path → Ordering) : List Path → List Path → List Path
  | [], b => b
  | a :: l, b => (b.takeWhile fun x => cmp x a == .lt) ++ a :: mrg cmp l (b.dropWhile fun x => cmp x a == .lt)

theorem search_ok (l : List Path) (x : Path) (i k : Nat) (h : searchFrom cmp l x i = .ok k) :
    i ≤ k ∧ ∃ y, l[k - i]? = some y ∧ cmp y x = .eq := by
  induction l generalizing i with
  | nil => cases h
  | cons y l ih =>
      simp only [searchFrom] at h
      split at h
      · obtain ⟨h1, h2⟩ := ih (i + 1) h
        refine ⟨by omega, ?_⟩
        have : k - i = (k - (i + 1)) + 1 := by omega
        rw [this]; simpa using h2
      · cases h; rename_i he; exact ⟨Nat.le_refl _, y, by simp, he⟩
      · cases h

theorem search_error (l : List Path) (x : Path) (i k : Nat) (hs : l.Pairwise fun a b => cmp a b = .lt)
    (h : searchFrom cmp l x i = .error k) : i ≤ k ∧ k - i ≤ l.length ∧
      (∀ j y, l[j]? = some y → j < k - i → cmp y x = .lt) ∧ (∀ j y, l[j]? = some y → k - i ≤ j → cmp x y = .lt) := by
  induction l generalizing i with
  | nil => cases h; simp
  | cons y l ih =>
      rw [List.pairwise_cons] at hs
      simp only [searchFrom] at h
      split at h
      · rename_i hy
        obtain ⟨h1, h2, h3, h4⟩ := ih (i + 1) hs.2 h
        refine ⟨by omega, by simp; omega, ?_, ?_⟩
        · intro j z hz hj
          cases j with
          | zero => simp at hz; rw [← hz]; exact hy
          | succ j => exact h3 j z (by simpa using hz) (by omega)
        · intro j z hz hj
          cases j with
          | zero => omega
          | succ j => exact h4 j z (by simpa using hz) (by omega)
      · cases h
      · cases h
        rename_i hy
        have hxy : cmp x y = .lt := OrientedCmp.gt_iff_lt.1 hy
        refine ⟨Nat.le_refl _, by simp, fun j z _ hj => by omega, ?_⟩
        intro j z hz _
        cases j with
        | zero => simp at hz; rw [← hz]; exact hxy
        | succ j => exact TransCmp.lt_trans hxy (hs.1 z (List.mem_of_getElem? (by simpa using hz)))

omit [TransCmp cmp] in
theorem mrg_perm (a b : List Path) : (mrg cmp a b).Perm (a ++ b) := by
  induction a generalizing b with
  | nil => exact .refl _
  | cons x a ih =>
      simp only [mrg]
      refine List.perm_middle.trans (List.Perm.cons _ ?_)
      have h1 := (ih (b.dropWhile fun y => cmp y x == .lt)).append_left (b.takeWhile fun y => cmp y x == .lt)
      refine h1.trans ?_
      rw [← List.append_assoc]
      refine (List.perm_append_comm.append_right _).trans ?_
      rw [List.append_assoc, List.takeWhile_append_dropWhile]
      exact .refl _

theorem le_trans' (a b c : Path) (h1 : cmp a b ≠ .gt) (h2 : cmp b c ≠ .gt) : cmp a c ≠ .gt :=
  Ordering.isLE_iff_ne_gt.1 (TransCmp.isLE_trans (Ordering.isLE_iff_ne_gt.2 h1) (Ordering.isLE_iff_ne_gt.2 h2))

theorem mrg_sorted (a b : List Path) (ha : a.Pairwise fun x y => cmp x y ≠ .gt) (hb : b.Pairwise fun x y => cmp x y ≠ .gt) :
    (mrg cmp a b).Pairwise fun x y => cmp x y ≠ .gt := by
  induction a generalizing b with
  | nil => exact hb
  | cons x a ih =>
      rw [List.pairwise_cons] at ha
      simp only [mrg]
      have hsplit : (b.takeWhile (fun y => cmp y x == .lt) ++ b.dropWhile fun y => cmp y x == .lt).Pairwise
          (fun x y => cmp x y ≠ .gt) := by rw [List.takeWhile_append_dropWhile]; exact hb
      rw [List.pairwise_append] at hsplit
      have hd : ∀ y ∈ b.dropWhile (fun y => cmp y x == .lt), cmp x y ≠ .gt := by
        intro y hy
        rcases hdw : b.dropWhile (fun y => cmp y x == .lt) with _ | ⟨z, rest⟩
        · rw [hdw] at hy; simp at hy
        · have hz : (cmp z x == .lt) = false := by
            have := List.head?_dropWhile_not (fun y => cmp y x == .lt) b
            rw [hdw] at this
            simpa using this
          have hxz : cmp x z ≠ .gt := by
            intro h
            have : cmp z x = .lt := OrientedCmp.gt_iff_lt.1 h
            simp [this] at hz
          rw [hdw] at hy hsplit
          rcases List.mem_cons.1 hy with rfl | hy
          · exact hxz
          · exact le_trans' cmp x z y hxz ((List.pairwise_cons.1 hsplit.2.1).1 y hy)
      have htw : ∀ y ∈ b.takeWhile (fun y => cmp y x == .lt), cmp y x ≠ .gt := by
        intro y hy
        have := List.all_eq_true.1 (List.all_takeWhile (l := b) (p := fun y => cmp y x == .lt)) y hy
        have : cmp y x = .lt := by simpa using this
        rw [this]; simp
      have hm : ∀ y, y ∈ mrg cmp a (b.dropWhile fun y => cmp y x == .lt) → cmp x y ≠ .gt := by
        intro y hy
        rcases List.mem_append.1 ((mrg_perm cmp _ _).mem_iff.1 hy) with h | h
        · exact ha.1 y h
        · exact hd y h
      rw [List.pairwise_append]
      refine ⟨hsplit.1, List.pairwise_cons.2 ⟨hm, ih _ ha.2 hsplit.2.1⟩, ?_⟩
      intro y hy z hz
      rcases List.mem_cons.1 hz with rfl | hz
      · exact htw y hy
      · exact le_trans' cmp y x z (htw y hy) (hm z hz)

/-- The library functions. -/
def theLib : Lib cmp where
  search l x := searchFrom cmp l x 0
  found l x i _ h := by
    obtain ⟨_, h⟩ := search_ok cmp l x 0 i h
    simpa using h
  missing l x i hs h := by
    obtain ⟨_, h1, h2, h3⟩ := search_error cmp l x 0 i hs h
    exact ⟨h1, h2, h3⟩
  kmerge := mrg cmp
  kmerge_perm := mrg_perm cmp
  kmerge_sorted := mrg_sorted cmp

end lib

/-! ## Programs -/

/-- Strings, in the order of their numbers. -/
def strA (n : Nat) : String := String.ofList (List.replicate n 'a')

theorem strA_inj (a b : Nat) (h : strA a = strA b) : a = b := by
  have := congrArg (fun s => s.toList.length) h
  simpa [strA] using this

/-- Symbols 1 and 2 change places. -/
def swap12 (n : Nat) : Nat := if n = 1 then 2 else if n = 2 then 1 else n

def strB (n : Nat) : String := strA (swap12 n)

theorem strB_inj (a b : Nat) (h : strB a = strB b) : a = b := by
  have := strA_inj _ _ h
  unfold swap12 at this
  grind

theorem strA_agrees : Agrees strA := by
  intro a b
  have h : ∀ a b : Nat, List.replicate a 'a' < List.replicate b 'a' ↔ a < b := by
    intro a
    induction a with
    | zero => intro b; cases b <;> simp [List.replicate_succ]
    | succ a ih =>
        intro b
        cases b with
        | zero => simp
        | succ b => simp only [List.replicate_succ, List.cons_lt_cons_iff, ih b]; simp
  unfold strA
  have h2 : ∀ x y : String, x < y ↔ x.toList < y.toList := fun x y => Iff.rfl
  rw [h2]
  simp [h]

/-- A program with module table `tab`. -/
def prog (tab : List (List Child)) (str : Nat → String) (hidden : List Nat) : Tcx where
  children m := tab.getD m []
  underscore := 0
  foreign _ := false
  unstable d := d == 99
  aliasOf d := if d = 50 then some 40 else none
  inStdOs _ := false
  isCore d := d == 98
  docHidden m := hidden.contains m
  str := str
  crateOf d := d / 1000
  coreOrAlloc k := k == 3
  stdOrAlloc k := k == 4

/-- What to check of a table. -/
def tabOk (tab : List (List Child)) : Bool :=
  (tab.all fun l => l.all fun c1 => l.all fun c2 =>
    !(c1.isMod && c2.isMod && c1.name == c2.name) || c1.res == c2.res) &&
  (tab.all fun l => (l.filterMap fun c => c.res.map fun r => (c.name, (if r = 50 then some 40 else none).getD r)).Nodup) &&
  (tab.all fun l => l.all fun c => !c.isMod || (c.res != some 50 && (c.res != some 98 || c.externCrate)))

theorem prog_names (tab : List (List Child)) (str : Nat → String) (hidden : List Nat)
    (inj : ∀ a b, str a = str b → a = b) (ok : tabOk tab = true) : Names (prog tab str hidden) := by
  simp only [tabOk, Bool.and_eq_true, List.all_eq_true, decide_eq_true_eq] at ok
  obtain ⟨⟨ok1, ok2⟩, ok3⟩ := ok
  have sub : ∀ m c, c ∈ (prog tab str hidden).children m → tab.getD m [] ∈ tab := by
    intro m c hc
    simp only [prog, List.getD_eq_getElem?_getD] at hc ⊢
    cases h : tab[m]? with
    | none => rw [h] at hc; simp at hc
    | some l => simpa using List.mem_of_getElem? h
  refine ⟨?_, ?_, ?_, ?_, inj⟩
  · rintro m name m1 m2 ⟨c1, h1, u1, n1, i1, _⟩ ⟨c2, h2, u2, n2, i2, _⟩
    have := ok1 _ (sub m c1 h1) c1 h1 c2 h2
    simp [i1, i2, n1, n2, u1.2.2.1, u2.2.2.1] at this
    exact this
  · intro m
    by_cases h : tab.getD m [] ∈ tab
    · exact ok2 _ h
    · have : tab.getD m [] = [] := by
        rcases hm : tab.getD m [] with _ | ⟨c, l⟩
        · rfl
        · exact absurd (sub m c (by simp only [prog]; rw [hm]; simp)) h
      simp only [prog]; rw [this]; simp
  · intro m1 m2 c1 c2 d h1 h2 u1 u2 i1 i2 e1 hd
    have := ok3 _ (sub m2 c2 h2) c2 h2
    have hd' : d = 98 := by simpa [prog] using hd
    subst hd'
    simpa [i2, u2.2.2.1] using this
  · intro m c d hc hm hr
    have := ok3 _ (sub m c hc) c hc
    simp [hm, hr] at this
    simp [prog, this.1]

/-- A public module. -/
def modC (name m : Nat) (reexport := false) : Child :=
  { name := name, isPublic := true, res := some m, isMod := true, isCtor := false, reexport := reexport, externCrate := false }

/-- A public item. -/
def itemC (name d : Nat) (reexport := false) : Child :=
  { name := name, isPublic := true, res := some d, isMod := false, isCtor := false, reexport := reexport, externCrate := false }

/-- The crate
```
pub mod a { pub struct X; pub type Y = X; struct Private; pub mod b { pub use crate as top; pub use super::X; } }
pub use a::X as Z;
```
with symbols a = 1, b = 2, top = 3, X = 4, Y = 5, Z = 6; X is 40, Y is 50. -/
def crate1 : Tcx := prog
  [ [modC 1 1, itemC 6 40 true],
    [itemC 4 40, itemC 5 50, { itemC 7 41 with isPublic := false }, modC 2 2],
    [modC 3 0 true, itemC 4 40 true] ] strA []

theorem crate1_names : Names crate1 := prog_names _ strA [] strA_inj (by decide +kernel)

/-- The paths found: `Z`, then `a::X`, `a::Y`, `a::b::X`; then those through `a::b::top`. -/
theorem crate1_run : (publicPaths crate1 0 0 (theLib _) 10).map (fun m => AMap.get? m 40) = some (some
    ⟨⟨[], 6, none, false, true, 0⟩,
      [⟨[1], 4, none, false, false, 0⟩, ⟨[1], 5, some 50, false, false, 0⟩, ⟨[1, 2], 4, none, false, true, 0⟩,
        ⟨[1, 2, 3], 6, none, false, true, 0⟩]⟩) := by decide +kernel

/-- The hypotheses of `paths_end` hold. -/
theorem crate1_modules : ∀ m ∈ [0, 1, 2], ∀ name m', Opens crate1 m name m' → m' ∈ [0, 1, 2] := by
  rintro m hm name m' ⟨c, hc, hu, _, hi, _⟩
  have key : ∀ m ∈ [0, 1, 2], ∀ c ∈ crate1.children m, c.isMod = true → ∀ r ∈ c.res, r ∈ [0, 1, 2] := by decide +kernel
  exact key m hm c hc hi m' hu.2.2.1

/-- All modules of the crate are plain: the hypothesis of `canonical_shortest`. -/
theorem crate1_plain : ∀ x, crate1.docHidden x = false := by intro x; simp [crate1, prog]

theorem crate1_agrees : Agrees crate1.str := strA_agrees

/-- A crate with nothing in it but re-exports of item 2040 of a crate that nobody imports, and of item 1040 of
crate 1. -/
def reexporter (name : Nat) : Tcx := prog [[itemC name 2040 true, itemC 5 1040 true]] strA []

/-- Crate 1: `pub mod m { pub struct S; }`, S = 1040. -/
def definer : Tcx := prog [[modC 1 1], [itemC 5 1040]] strA []

/-- The maps of crates 1, 5 and 6. -/
def maps3 : List (Nat × List (Nat × PublicPaths)) :=
  [(5, (publicPaths (reexporter 4) 5 0 (theLib _) 5).getD []),
   (1, (publicPaths definer 1 0 (theLib _) 5).getD []),
   (6, (publicPaths (reexporter 4) 6 0 (theLib _) 5).getD [])]

theorem maps3_crates : Crates maps3 := by
  have nr : Names (reexporter 4) := prog_names _ strA [] strA_inj (by decide +kernel)
  have nd : Names definer := prog_names _ strA [] strA_inj (by decide +kernel)
  refine ⟨by decide +kernel, ?_⟩
  intro m hm
  rcases List.mem_cons.1 hm with rfl | hm
  · obtain ⟨m, h⟩ := Option.isSome_iff_exists.1
      (show (publicPaths (reexporter 4) 5 0 (theLib _) 5).isSome = true by decide +kernel)
    simp only [h, Option.getD_some]
    exact publicPaths_crateMap _ nr 5 0 _ 5 m h
  rcases List.mem_cons.1 hm with rfl | hm
  · obtain ⟨m, h⟩ := Option.isSome_iff_exists.1
      (show (publicPaths definer 1 0 (theLib _) 5).isSome = true by decide +kernel)
    simp only [h, Option.getD_some]
    exact publicPaths_crateMap _ nd 1 0 _ 5 m h
  rcases List.mem_cons.1 hm with rfl | hm
  · obtain ⟨m, h⟩ := Option.isSome_iff_exists.1
      (show (publicPaths (reexporter 4) 6 0 (theLib _) 5).isSome = true by decide +kernel)
    simp only [h, Option.getD_some]
    exact publicPaths_crateMap _ nr 6 0 _ 5 m h
  · simp at hm

/-- The item of crate 1 is `m::S` of crate 1, although other crates have shorter paths to it. -/
theorem maps3_definer : (AMap.get? (allPaths definer (theLib _) (maps3.map (·.2))) 1040).map (·.canonical) =
    some ⟨[1], 5, none, false, false, 1⟩ := by decide +kernel

/-- What the headers of crates 5 and 1 say of it. -/
theorem maps3_headers :
    headerNames 5 (allPaths definer (theLib _) (maps3.map (·.2))) ((publicPaths (reexporter 4) 5 0 (theLib _) 5).getD []) 1040 =
      some (none, [⟨[], 5, none, false, true, 5⟩]) ∧
    headerNames 1 (allPaths definer (theLib _) (maps3.map (·.2))) ((publicPaths definer 1 0 (theLib _) 5).getD []) 1040 =
      some (some ⟨[1], 5, none, false, false, 1⟩, []) := by decide +kernel

/-! ## Disagreements -/

/-- C96: "Failing all else, choose the lexicographically smallest path" does not hold: module names are compared by
their number in the interner.  The item is chosen as `b::X` where `a::X` is the same kind of path (symbol 1 is the
longer string here). -/
theorem not_lexicographic : ∃ t, Names t ∧ ∃ m pp p, publicPaths t 0 0 (theLib _) 10 = some m ∧
    AMap.get? m 40 = some pp ∧ p ∈ pp.all ∧ Better t.str p pp.canonical := by
  refine ⟨prog [[modC 1 1, modC 2 2], [itemC 4 40 true], [itemC 4 40 true]] strB [],
    prog_names _ strB [] strB_inj (by decide +kernel), ?_⟩
  have hrun : (publicPaths (prog [[modC 1 1, modC 2 2], [itemC 4 40 true], [itemC 4 40 true]] strB []) 0 0 (theLib _) 10).map
      (fun m => AMap.get? m 40) = some (some ⟨⟨[1], 4, none, false, true, 0⟩, [⟨[2], 4, none, false, true, 0⟩]⟩) := by
    decide +kernel
  rcases hp : publicPaths (prog [[modC 1 1, modC 2 2], [itemC 4 40 true], [itemC 4 40 true]] strB []) 0 0 (theLib _) 10 with _ | m
  · rw [hp] at hrun; cases hrun
  · rw [hp] at hrun
    refine ⟨m, ⟨⟨[1], 4, none, false, true, 0⟩, [⟨[2], 4, none, false, true, 0⟩]⟩, ⟨[2], 4, none, false, true, 0⟩, rfl,
      Option.some.inj hrun, by simp [PublicPaths.all], ?_⟩
    refine .inr ⟨⟨rfl, rfl, rfl, rfl⟩, .inl ?_⟩
    decide +kernel

/-- C96: a path through a hidden module is chosen although there is one that is not hidden: a module is visited only
where it is first found.  `#[doc(hidden)] pub mod h { pub use crate::a::b::c as c; }` and `pub mod a { pub mod b { pub
mod c { pub struct X; } } }`. -/
theorem hidden_chosen : ∃ t, Names t ∧ Agrees t.str ∧ ∃ m pp p, publicPaths t 0 0 (theLib _) 10 = some m ∧
    AMap.get? m 40 = some pp ∧ Spells t 0 0 p 40 ∧ p.hidden = false ∧ pp.canonical.hidden = true ∧
    Prefer p pp.canonical := by
  let t := prog [[modC 1 1, modC 2 2], [modC 3 3 true], [modC 4 4], [itemC 5 40], [modC 3 3]] strA [1]
  refine ⟨t, prog_names _ strA [1] strA_inj (by decide +kernel), strA_agrees, ?_⟩
  have hrun : (publicPaths t 0 0 (theLib _) 10).map (fun m => AMap.get? m 40) =
      some (some ⟨⟨[1, 3], 5, none, true, false, 0⟩, []⟩) := by decide +kernel
  rcases hp : publicPaths t 0 0 (theLib _) 10 with _ | m
  · rw [hp] at hrun; cases hrun
  · rw [hp] at hrun
    refine ⟨m, ⟨⟨[1, 3], 5, none, true, false, 0⟩, []⟩, ⟨[2, 4, 3], 5, none, false, false, 0⟩, rfl, Option.some.inj hrun, ?_,
      rfl, rfl, .inl ⟨rfl, rfl⟩⟩
    have us : ∀ c : Child, c.isPublic = true → c.name ≠ 0 → ∀ r, c.res = some r → c.isCtor = false → r ≠ 99 → Usable t c r := by
      intro c h1 h2 r h3 h4 h5
      exact ⟨h1, h2, h3, rfl, h4, by simp [t, prog, h5], rfl⟩
    refine ⟨rfl, 3, ?_, itemC 5 40, by decide +kernel, 40, us _ rfl (by decide) _ rfl rfl (by decide), rfl, rfl, rfl, rfl⟩
    have w0 : Walk t 0 [] false 0 := Walk.nil
    have w1 : Walk t 0 [2] false 2 := Walk.snoc [] false 0 2 2 w0
      ⟨modC 2 2, by decide +kernel, us _ rfl (by decide) _ rfl rfl (by decide), rfl, rfl, by decide⟩
    have w2 : Walk t 0 [2, 4] false 4 := Walk.snoc [2] false 2 4 4 w1
      ⟨modC 4 4, by decide +kernel, us _ rfl (by decide) _ rfl rfl (by decide), rfl, rfl, by decide⟩
    exact Walk.snoc [2, 4] false 4 3 3 w2
      ⟨modC 3 3, by decide +kernel, us _ rfl (by decide) _ rfl rfl (by decide), rfl, rfl, by decide⟩

/-- C97: two crates tie, and the crate that comes first wins: the crate that has the definition depends on the order
in which crates are used. -/
theorem tie_by_order :
    (AMap.get? (allPaths definer (theLib _) (maps3.map (·.2))) 2040).map (·.canonical.krate) = some 5 ∧
    (AMap.get? (allPaths definer (theLib _) (maps3.reverse.map (·.2))) 2040).map (·.canonical.krate) = some 6 := by
  decide +kernel

/-- "Aliases are sorted" does not hold after `merge`: the canonical path that is replaced is put before the aliases
of the other crate. -/
theorem merge_unsorted : ∃ a b : PublicPaths,
    a.aliases.Pairwise (fun x y => pathCmp strA x y = .lt) ∧ b.aliases.Pairwise (fun x y => pathCmp strA x y = .lt) ∧
    (∀ x ∈ a.aliases, pathCmp strA a.canonical x = .lt) ∧ (∀ x ∈ b.aliases, pathCmp strA b.canonical x = .lt) ∧
    ¬ (PublicPaths.merge (theLib (pathCmp strA)) a b).aliases.Pairwise (fun x y => pathCmp strA x y ≠ .gt) := by
  refine ⟨⟨⟨[1, 2, 3], 4, none, false, true, 5⟩, []⟩,
    ⟨⟨[1], 4, none, false, true, 6⟩, [⟨[1, 2], 4, none, false, true, 6⟩]⟩, ?_⟩
  decide +kernel

end Verif.Paths

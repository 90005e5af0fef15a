import Verif.Paths.Bfs
import Mathlib.Data.List.Induction

/-!
# The preferred path: proofs
-/

namespace Verif.Paths
open Verif Std

section insert
variable {cmp : Path → Path → Ordering} [TransCmp cmp] (lib : Lib cmp)

/-- What `PublicPaths` holds of the paths inserted. -/
structure Good (cmp : Path → Path → Ordering) (l : List Path) (pp : PublicPaths) : Prop where
  mem : ∀ p ∈ pp.all, p ∈ l
  least : ∀ p ∈ l, cmp pp.canonical p ≠ .gt
  sorted : pp.aliases.Pairwise fun a b => cmp a b = .lt
  cover : ∀ p ∈ l, ∃ a ∈ pp.all, cmp a p = .eq
  exact_ : l.Pairwise (fun a b => cmp a b ≠ .eq) → pp.all.Perm l

theorem good_new (p : Path) : Good cmp [p] (.new p) where
  mem := by simp [PublicPaths.all, PublicPaths.new]
  least := by simp [PublicPaths.new, ReflCmp.compare_self]
  sorted := by simp [PublicPaths.new]
  cover := by simp [PublicPaths.all, PublicPaths.new, ReflCmp.compare_self]
  exact_ := by intro; simp [PublicPaths.all, PublicPaths.new]

theorem insertIdx_split (al : List Path) (i : Nat) (x : Path) (hi : i ≤ al.length) :
    al.insertIdx i x = al.take i ++ x :: al.drop i := by
  induction al generalizing i with
  | nil =>
      have : i = 0 := by simpa using hi
      subst this; rfl
  | cons a al ih =>
      cases i with
      | zero => rfl
      | succ i => simp only [List.insertIdx_succ_cons, List.take_succ_cons, List.drop_succ_cons, List.cons_append,
          ih i (by simpa using hi)]

theorem self_ne_gt (p : Path) : cmp p p ≠ .gt := by
  have : cmp p p = .eq := ReflCmp.compare_self
  rw [this]; simp

/-- Inserting `other` among the aliases. -/
theorem search_insert (al : List Path) (h : al.Pairwise fun a b => cmp a b = .lt) (x : Path) :
    (∃ i y, lib.search al x = .ok i ∧ y ∈ al ∧ cmp y x = .eq) ∨
    (∃ i, lib.search al x = .error i ∧ (al.insertIdx i x).Pairwise (fun a b => cmp a b = .lt) ∧
      (al.insertIdx i x).Perm (x :: al)) := by
  rcases hs : lib.search al x with i | i
  · obtain ⟨hi, lo, hi'⟩ := lib.missing al x i h hs
    have hsplit : al.insertIdx i x = al.take i ++ x :: al.drop i := by
      exact insertIdx_split al i x hi
    refine .inr ⟨i, rfl, ?_, by rw [hsplit]; exact List.perm_middle.trans (by rw [List.take_append_drop])⟩
    rw [hsplit]
    have hpw : (al.take i ++ al.drop i).Pairwise (fun a b => cmp a b = .lt) := by rw [List.take_append_drop]; exact h
    rw [List.pairwise_append] at hpw ⊢
    refine ⟨hpw.1, List.pairwise_cons.2 ⟨?_, hpw.2.1⟩, ?_⟩
    · intro a ha
      obtain ⟨k, hk⟩ := List.mem_iff_getElem?.1 ha
      rw [List.getElem?_drop] at hk
      exact hi' _ _ hk (by omega)
    · intro a ha b hb
      rcases List.mem_cons.1 hb with rfl | hb
      · obtain ⟨k, hk⟩ := List.mem_iff_getElem?.1 ha
        rw [List.getElem?_take] at hk
        split at hk
        · exact lo _ _ hk (by assumption)
        · cases hk
      · exact hpw.2.2 a ha b hb
  · obtain ⟨y, hy, he⟩ := lib.found al x i h hs
    exact .inl ⟨i, y, rfl, List.mem_of_getElem? hy, he⟩

theorem good_insert (l : List Path) (pp : PublicPaths) (p : Path) (g : Good cmp l pp) :
    Good cmp (l ++ [p]) (pp.insert lib p) := by
  have hc : ∃ c o, (if cmp p pp.canonical = .lt then (p, pp.canonical) else (pp.canonical, p)) = (c, o) ∧
      [c, o].Perm [p, pp.canonical] ∧ cmp c p ≠ .gt ∧ cmp c pp.canonical ≠ .gt := by
    by_cases h : cmp p pp.canonical = .lt
    · exact ⟨p, pp.canonical, by rw [if_pos h], .refl _, self_ne_gt _, by rw [h]; simp⟩
    · refine ⟨pp.canonical, p, by rw [if_neg h], List.Perm.swap _ _ _, ?_, self_ne_gt _⟩
      intro hg; exact h (OrientedCmp.gt_iff_lt.1 hg)
  obtain ⟨c, o, hco, hperm, hcp, hcc⟩ := hc
  have mem2 : ∀ x, x ∈ [c, o] ↔ x ∈ [p, pp.canonical] := fun x => hperm.mem_iff
  have hcl : c ∈ l ++ [p] := by
    have := (mem2 c).1 (by simp)
    rcases List.mem_cons.1 this with rfl | h
    · simp
    · have : c = pp.canonical := by simpa using h
      rw [this]; exact List.mem_append_left _ (g.mem _ (by simp [PublicPaths.all]))
  have hol : o ∈ l ++ [p] := by
    have := (mem2 o).1 (by simp)
    rcases List.mem_cons.1 this with rfl | h
    · simp
    · have : o = pp.canonical := by simpa using h
      rw [this]; exact List.mem_append_left _ (g.mem _ (by simp [PublicPaths.all]))
  have hleast : ∀ x ∈ l ++ [p], cmp c x ≠ .gt := by
    intro x hx
    rcases List.mem_append.1 hx with hx | hx
    · have h1 := g.least x hx
      exact Ordering.isLE_iff_ne_gt.1 (TransCmp.isLE_trans (Ordering.isLE_iff_ne_gt.2 hcc) (Ordering.isLE_iff_ne_gt.2 h1))
    · have : x = p := by simpa using hx
      subst this; exact hcp
  have hins : pp.insert lib p = match lib.search pp.aliases o with
      | .ok _ => ⟨c, pp.aliases⟩
      | .error i => ⟨c, pp.aliases.insertIdx i o⟩ := by
    simp only [PublicPaths.insert, hco]
    rfl
  have hcov : ∀ A : List Path, (∀ a ∈ pp.aliases, a ∈ A) → (∃ a ∈ A, cmp a o = .eq) →
      ∀ x ∈ l ++ [p], ∃ a ∈ c :: A, cmp a x = .eq := by
    intro A hA ⟨a0, ha0, he0⟩ x hx
    have key : ∀ z ∈ [p, pp.canonical], cmp z x = .eq → ∃ a ∈ c :: A, cmp a x = .eq := by
      intro z hz he
      rcases List.mem_cons.1 ((mem2 z).2 hz) with rfl | hz
      · exact ⟨z, by simp, he⟩
      · have : z = o := by simpa using hz
        subst this
        exact ⟨a0, List.mem_cons_of_mem _ ha0, TransCmp.eq_trans he0 he⟩
    rcases List.mem_append.1 hx with hx | hx
    · obtain ⟨a, ha, he⟩ := g.cover x hx
      rcases List.mem_cons.1 ha with rfl | ha
      · exact key _ (by simp) he
      · exact ⟨a, List.mem_cons_of_mem _ (hA a ha), he⟩
    · have : x = p := by simpa using hx
      subst this
      exact key x (by simp) ReflCmp.compare_self
  rcases search_insert lib pp.aliases g.sorted o with ⟨i, y, hs, hy, he⟩ | ⟨i, hs, hsrt, hpm⟩
  · rw [hs] at hins
    simp only at hins
    rw [hins]
    refine ⟨?_, hleast, g.sorted, hcov _ (fun a h => h) ⟨y, hy, he⟩, ?_⟩
    · intro x hx
      rcases List.mem_cons.1 hx with rfl | hx
      · exact hcl
      · exact List.mem_append_left _ (g.mem x (by simp [PublicPaths.all, hx]))
    · intro hd
      exfalso
      have hd' := hd
      rw [List.pairwise_append] at hd
      have hyl := g.mem y (by simp [PublicPaths.all, hy])
      have hperm' := g.exact_ hd.1
      have hpw : pp.all.Pairwise (fun a b => cmp a b ≠ .eq) :=
        hperm'.symm.pairwise hd.1 (fun h h' => h (OrientedCmp.eq_symm h'))
      rcases List.mem_cons.1 ((mem2 o).1 (by simp)) with rfl | h
      · exact hd.2.2 y hyl o (by simp) he
      · have : o = pp.canonical := by simpa using h
        subst this
        exact (List.pairwise_cons.1 hpw).1 y hy (OrientedCmp.eq_symm he)
  · rw [hs] at hins
    simp only at hins
    rw [hins]
    refine ⟨?_, hleast, hsrt, hcov _ (fun a h => hpm.mem_iff.2 (List.mem_cons_of_mem _ h))
      ⟨o, hpm.mem_iff.2 (by simp), ReflCmp.compare_self⟩, ?_⟩
    · intro x hx
      rcases List.mem_cons.1 hx with rfl | hx
      · exact hcl
      · rcases List.mem_cons.1 (hpm.mem_iff.1 hx) with rfl | hx
        · exact hol
        · exact List.mem_append_left _ (g.mem x (by simp [PublicPaths.all, hx]))
    · intro hd
      rw [List.pairwise_append] at hd
      have hperm' := g.exact_ hd.1
      have h1 : (c :: pp.aliases.insertIdx i o).Perm (c :: o :: pp.aliases) := List.Perm.cons _ hpm
      have h2 : (c :: o :: pp.aliases).Perm (p :: pp.canonical :: pp.aliases) := by
        have := hperm.append_right pp.aliases
        simpa using this
      have h3 : (p :: pp.canonical :: pp.aliases).Perm (l ++ [p]) := by
        have := List.Perm.cons p hperm'
        exact this.trans (List.perm_append_singleton p l).symm
      exact h1.trans (h2.trans h3)

/-- The paths recorded for `d`. -/
def pathsOf (l : List (Nat × Path)) (d : Nat) : List Path := (l.filter fun e => e.1 == d).map (·.2)

theorem mem_pathsOf (l : List (Nat × Path)) (d : Nat) (p : Path) : p ∈ pathsOf l d ↔ (d, p) ∈ l := by
  simp only [pathsOf, List.mem_map, List.mem_filter, beq_iff_eq]
  constructor
  · rintro ⟨⟨a, b⟩, ⟨h, rfl⟩, rfl⟩; exact h
  · intro h; exact ⟨(d, p), ⟨h, rfl⟩, rfl⟩

/-- The map after recording. -/
theorem recAll_get (l : List (Nat × Path)) (d : Nat) :
    match AMap.get? (recAll lib [] l) d with
    | none => pathsOf l d = []
    | some pp => Good cmp (pathsOf l d) pp := by
  induction l using List.reverseRecOn with
  | nil => simp [recAll, pathsOf]
  | append_singleton l e ih =>
      have hr : recAll lib [] (l ++ [e]) = record lib (recAll lib [] l) e.1 e.2 := by simp [recAll]
      have hp : pathsOf (l ++ [e]) d = pathsOf l d ++ (if e.1 = d then [e.2] else []) := by
        simp only [pathsOf, List.filter_append, List.map_append]
        congr 1
        by_cases h : e.1 = d <;> simp [h]
      rw [hr, hp]
      by_cases h : e.1 = d
      · subst h
        simp only [if_true]
        unfold record
        rcases hg : AMap.get? (recAll lib [] l) e.1 with _ | pp
        · rw [hg] at ih
          simp only at ih
          simp only [AMap.get?_insert_self, ih]
          exact good_new e.2
        · rw [hg] at ih
          simp only at ih
          simp only [AMap.get?_insert_self]
          exact good_insert lib _ _ _ ih
      · have : AMap.get? (record lib (recAll lib [] l) e.1 e.2) d = AMap.get? (recAll lib [] l) d := by
          unfold record
          split <;> rw [AMap.get?_insert_ne _ _ h]
        rw [this]
        simpa [h] using ih

theorem recAll_nodup (l : List (Nat × Path)) : (AMap.keys (recAll lib [] l)).Nodup := by
  induction l using List.reverseRecOn with
  | nil => simp [recAll, AMap.keys]
  | append_singleton l e ih =>
      have hr : recAll lib [] (l ++ [e]) = record lib (recAll lib [] l) e.1 e.2 := by simp [recAll]
      rw [hr]
      unfold record
      split <;> exact AMap.nodup_insert _ _ _ ih

end insert

/-! ## The order -/

instance (str : Nat → String) : TransCmp (pathCmp str) := by unfold pathCmp; infer_instance

theorem pathCmp_eq (str : Nat → String) (inj : ∀ a b, str a = str b → a = b) (p q : Path)
    (h : pathCmp str p q = .eq) : SameKind p q ∧ p.path = q.path ∧ p.name = q.name := by
  simp only [pathCmp, compareLex, compareOn, Ordering.then_eq_eq] at h
  obtain ⟨h1, h2, h3, h4, h5, h6⟩ := h
  exact ⟨⟨LawfulEqCmp.compare_eq_iff_eq.1 h1, LawfulEqCmp.compare_eq_iff_eq.1 h2, LawfulEqCmp.compare_eq_iff_eq.1 h3,
    LawfulEqCmp.compare_eq_iff_eq.1 h4⟩, LawfulEqCmp.compare_eq_iff_eq.1 h5, inj _ _ (LawfulEqCmp.compare_eq_iff_eq.1 h6)⟩

theorem bool_lt (a b : Bool) : compare a b = .lt ↔ a = false ∧ b = true := by cases a <;> cases b <;> decide
theorem bool_eq (a b : Bool) : compare a b = .eq ↔ a = b := by cases a <;> cases b <;> decide
theorem nat_lt (a b : Nat) : compare a b = .lt ↔ a < b := Nat.compare_eq_lt
theorem nat_eq (a b : Nat) : compare a b = .eq ↔ a = b := Nat.compare_eq_eq

/-- The order, in full. -/
theorem pathCmp_lt (str : Nat → String) (p q : Path) : pathCmp str p q = .lt ↔
    Prefer p q ∨ SameKind p q ∧ (compare p.path q.path = .lt ∨ p.path = q.path ∧ str p.name < str q.name) := by
  simp only [pathCmp, compareLex, compareOn, Ordering.then_eq_lt, bool_lt, bool_eq, nat_lt, nat_eq, Prefer, SameKind]
  have e1 : compare p.path q.path = .eq ↔ p.path = q.path := LawfulEqCmp.compare_eq_iff_eq
  have e2 : compare (str p.name) (str q.name) = .lt ↔ str p.name < str q.name := by
    exact compareOfLessAndEq_eq_lt
  rw [e1, e2]
  simp only [and_or_left, or_assoc, and_assoc]

end Verif.Paths

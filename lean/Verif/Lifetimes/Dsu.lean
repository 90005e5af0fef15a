import Verif.Lifetimes.Constraints
/- The union-find structure of lifetime_analysis/lifetime_constraints.cc lines 40-58. -/
namespace Verif.Lifetimes.Dsu
open Chain

/-- `parent_`, line 57. -/
abbrev Parents := List (Lifetime × Lifetime)

/-- `MakeSet`, line 44. -/
def makeSet (p : Parents) (l : Lifetime) : Parents := AMap.insert p l l

/-- `Find`, lines 45-48, with path compression; `none` if the recursion is deeper than `fuel` or reads a missing parent. -/
def find : Nat → Parents → Lifetime → Option (Lifetime × Parents)
  | 0, _, _ => none
  | fuel + 1, p, l => match AMap.get? p l with
    | none => none
    | some q => if l = q then some (l, p) else (find fuel p q).map fun (r, p) => (r, AMap.insert p l r)

/-- `Find` with enough fuel for any structure without circles. -/
def findRoot (p : Parents) (l : Lifetime) : Option (Lifetime × Parents) := find (p.length + 1) p l

/-- `Union`, lines 49-55. -/
def union (p : Parents) (a b : Lifetime) : Option Parents := do
  let (a, p) ← findRoot p a
  let (b, p) ← findRoot p b
  if a ≠ b then some (AMap.insert p a b) else some p

/-! ### Roots -/

/-- The parent, for a lifetime that is not its own parent. -/
def up (p : Parents) (l : Lifetime) : Option Lifetime := match AMap.get? p l with
  | none => none
  | some q => if q = l then none else some q

/-- Following parents from `l` ends at `r`. -/
def Root (p : Parents) (l r : Lifetime) : Prop := ∃ n, Ends (up p) l n r

/-- No circles, and every parent has a parent. -/
structure Inv (p : Parents) : Prop where
  ends : ∀ l, ∃ r, Root p l r
  closed : ∀ l q, AMap.get? p l = some q → q ∈ AMap.keys p

theorem Root.unique {p l r s} (h : Root p l r) (h' : Root p l s) : r = s := by
  obtain ⟨n, h⟩ := h; obtain ⟨m, h'⟩ := h'; exact (h.unique h').2

theorem Root.self {p l r} (h : Root p l r) : up p r = none := by obtain ⟨n, h⟩ := h; exact h.end_stops

theorem leads_ends {α : Type} {step : α → Option α} {x v n r} (h : Leads step x v) (h' : Ends step v n r) : ∃ m, Ends step x m r := by
  induction h with
  | refl => exact ⟨n, h'⟩
  | next h1 _ ih => obtain ⟨m, hm⟩ := ih h'; exact ⟨m + 1, .next h1 hm⟩

theorem ends_leads {α : Type} {step : α → Option α} {x n v} (h : Ends step x n v) : Leads step x v := by
  induction h with
  | stop => exact .refl _
  | next h1 _ ih => exact .next h1 ih

theorem up_insert {p : Parents} {v r : Lifetime} (h : r ≠ v) (x : Lifetime) :
    up (AMap.insert p v r) x = if x = v then some r else up p x := by
  unfold up
  rw [AMap.get?_insert]
  by_cases e : v = x
  · subst e; simp [h]
  · rw [if_neg e, if_neg (fun e' => e e'.symm)]

/-- Making `v` point to a root. -/
theorem root_insert {p : Parents} (i : Inv p) {v r : Lifetime} (hr : up p r = none) (hv : v ≠ r) (x : Lifetime) :
    (Leads (up p) x v → Root (AMap.insert p v r) x r) ∧ (¬ Leads (up p) x v → ∀ s, Root p x s → Root (AMap.insert p v r) x s) := by
  refine ⟨fun hx => ?_, fun hx s hs => ?_⟩
  · obtain ⟨s, n, hs⟩ := i.ends x
    exact (ends_redirect hr hv (up_insert (Ne.symm hv)) hs).1 hx
  · obtain ⟨n, hs⟩ := hs
    exact ⟨n, (ends_redirect hr hv (up_insert (Ne.symm hv)) hs).2 hx⟩

theorem inv_insert {p : Parents} (i : Inv p) {v r : Lifetime} (hr : up p r = none) (hrk : r ∈ AMap.keys p) (hv : v ≠ r) :
    Inv (AMap.insert p v r) := by
  refine ⟨fun x => ?_, fun l q h => ?_⟩
  · by_cases hx : Leads (up p) x v
    · exact ⟨r, (root_insert i hr hv x).1 hx⟩
    · obtain ⟨s, hs⟩ := i.ends x
      exact ⟨s, (root_insert i hr hv x).2 hx s hs⟩
  · rw [AMap.get?_insert] at h
    rw [AMap.keys_insert_mem]
    by_cases e : v = l
    · rw [if_pos e, Option.some.injEq] at h; subst h; exact Or.inr hrk
    · rw [if_neg e] at h; exact Or.inr (i.closed l q h)

/-- `Find` returns the root and changes no root. -/
theorem find_spec {n : Nat} {l r : Lifetime} {p : Parents} (h : Ends (up p) l n r) : ∀ fuel, n < fuel → Inv p → l ∈ AMap.keys p →
    ∃ p', find fuel p l = some (r, p') ∧ Inv p' ∧ r ∈ AMap.keys p ∧ (∀ x, x ∈ AMap.keys p' ↔ x ∈ AMap.keys p) ∧
      (∀ x s, Root p' x s ↔ Root p x s) := by
  induction h with
  | @stop l h =>
    intro fuel hf i hl
    cases fuel with
    | zero => omega
    | succ f =>
      obtain ⟨q, hq⟩ := (AMap.mem_keys_iff p l).mp hl
      have e : l = q := by
        unfold up at h
        rw [hq] at h
        by_cases hne : q = l
        · exact hne.symm
        · simp [hne] at h
      refine ⟨p, ?_, i, hl, fun _ => Iff.rfl, fun _ _ => Iff.rfl⟩
      unfold find
      rw [hq]
      simp only
      rw [if_pos e]
  | @next l q n r h1 h2 ih =>
    intro fuel hf i hl
    cases fuel with
    | zero => omega
    | succ f =>
      have hq : AMap.get? p l = some q ∧ q ≠ l := by
        unfold up at h1
        split at h1
        · simp at h1
        · rename_i q' hq'
          split at h1
          · simp at h1
          · simp only [Option.some.injEq] at h1
            subst h1
            exact ⟨hq', by assumption⟩
      obtain ⟨p', e1, i', hrk, hk, hroot⟩ := ih f (by omega) i (i.closed l q hq.1)
      have hlr : l ≠ r := by
        intro e
        have := h2.end_stops
        rw [← e, h1] at this; simp at this
      have hlroot : Root p' l r := (hroot l r).mpr ⟨n + 1, .next h1 h2⟩
      have hrstop : up p' r = none := hlroot.self
      refine ⟨AMap.insert p' l r, ?_, inv_insert i' hrstop ((hk r).mpr hrk) hlr, hrk, fun x => ?_, fun x s => ?_⟩
      · unfold find
        rw [hq.1]
        simp only
        rw [if_neg (Ne.symm hq.2), e1]
        rfl
      · rw [AMap.keys_insert_mem, hk]
        exact ⟨fun h => h.elim (fun e => e ▸ hl) id, Or.inr⟩
      · rw [← hroot]
        have key : ∀ s, Root p' x s → Root (AMap.insert p' l r) x s := by
          intro s hs
          by_cases hx : Leads (up p') x l
          · obtain ⟨k, hk'⟩ := hlroot
            obtain ⟨m, hm⟩ := leads_ends hx hk'
            have : s = r := hs.unique ⟨m, hm⟩
            rw [this]
            exact (root_insert i' hrstop hlr x).1 hx
          · exact (root_insert i' hrstop hlr x).2 hx s hs
        constructor
        · intro h
          obtain ⟨s', hs'⟩ := i'.ends x
          rw [h.unique (key s' hs')]
          exact hs'
        · exact key s

theorem findRoot_spec {l : Lifetime} {p : Parents} (i : Inv p) (hl : l ∈ AMap.keys p) :
    ∃ r p', findRoot p l = some (r, p') ∧ Root p l r ∧ Inv p' ∧ r ∈ AMap.keys p ∧ (∀ x, x ∈ AMap.keys p' ↔ x ∈ AMap.keys p) ∧
      (∀ x s, Root p' x s ↔ Root p x s) := by
  obtain ⟨r, n, h⟩ := i.ends l
  have hb : n ≤ (AMap.keys p).length := ends_bound (fun x hx => by
    rw [AMap.mem_keys_iff]
    unfold up at hx
    cases hg : AMap.get? p x with
    | none => rw [hg] at hx; simp at hx
    | some q => exact ⟨q, rfl⟩) h
  obtain ⟨p', h1, h2, h3, h4, h5⟩ := find_spec h (p.length + 1) (by simp [AMap.keys] at hb; omega) i hl
  exact ⟨r, p', h1, ⟨n, h⟩, h2, h3, h4, h5⟩

/-- `x` and `y` are in the same set. -/
def Same (p : Parents) (x y : Lifetime) : Prop := ∃ r, Root p x r ∧ Root p y r

theorem Same.refl {p : Parents} (i : Inv p) (x) : Same p x x := by obtain ⟨r, h⟩ := i.ends x; exact ⟨r, h, h⟩
theorem Same.symm {p : Parents} {x y} (h : Same p x y) : Same p y x := by obtain ⟨r, h1, h2⟩ := h; exact ⟨r, h2, h1⟩
theorem Same.trans {p : Parents} {x y z} (h : Same p x y) (h' : Same p y z) : Same p x z := by
  obtain ⟨r, h1, h2⟩ := h; obtain ⟨s, h3, h4⟩ := h'
  exact ⟨r, h1, by rw [h2.unique h3]; exact h4⟩

/-- `Union(a, b)` merges exactly the sets of `a` and `b`. -/
theorem union_spec {p : Parents} (i : Inv p) {a b : Lifetime} (ha : a ∈ AMap.keys p) (hb : b ∈ AMap.keys p) :
    ∃ p', union p a b = some p' ∧ Inv p' ∧ (∀ x, x ∈ AMap.keys p' ↔ x ∈ AMap.keys p) ∧
      ∀ x y, Same p' x y ↔ Same p x y ∨ (Same p x a ∧ Same p y b) ∨ (Same p x b ∧ Same p y a) := by
  obtain ⟨ra, p1, e1, r1, i1, rk1, k1, s1⟩ := findRoot_spec i ha
  obtain ⟨rb, p2, e2, r2, i2, rk2, k2, s2⟩ := findRoot_spec i1 ((k1 b).mpr hb)
  have hroots : ∀ x s, Root p2 x s ↔ Root p x s := fun x s => (s2 x s).trans (s1 x s)
  have r2' : Root p b rb := (s1 b rb).mp r2
  have ra2 : Root p2 a ra := (hroots a ra).mpr r1
  have rb2 : Root p2 b rb := (hroots b rb).mpr r2'
  by_cases e : ra = rb
  · refine ⟨p2, ?_, i2, fun x => (k2 x).trans (k1 x), fun x y => ?_⟩
    · unfold union; rw [e1]; simp [e2, e]
    · have hab : Same p a b := ⟨ra, r1, e ▸ r2'⟩
      have : Same p2 x y ↔ Same p x y := by
        constructor <;> rintro ⟨r, h1, h2⟩
        · exact ⟨r, (hroots _ _).mp h1, (hroots _ _).mp h2⟩
        · exact ⟨r, (hroots _ _).mpr h1, (hroots _ _).mpr h2⟩
      rw [this]
      constructor
      · exact Or.inl
      · rintro (h | ⟨h1, h2⟩ | ⟨h1, h2⟩)
        · exact h
        · exact h1.trans (hab.trans h2.symm)
        · exact h1.trans (hab.symm.trans h2.symm)
  · have hkb : rb ∈ AMap.keys p2 := (k2 rb).mpr rk2
    have ub : up p2 rb = none := rb2.self
    have ua : up p2 ra = none := ra2.self
    have lead_iff : ∀ x, Leads (up p2) x ra ↔ Root p2 x ra := by
      intro x
      constructor
      · intro h; exact leads_ends h (.stop ua)
      · rintro ⟨n, h⟩; exact ends_leads h
    have hnew : ∀ x, (Root p2 x ra → Root (AMap.insert p2 ra rb) x rb) ∧
        (∀ s, ¬ Root p2 x ra → Root p2 x s → Root (AMap.insert p2 ra rb) x s) := by
      intro x
      refine ⟨fun h => (root_insert i2 ub e x).1 ((lead_iff x).mpr h), fun s h hs => ?_⟩
      exact (root_insert i2 ub e x).2 (fun hh => h ((lead_iff x).mp hh)) s hs
    refine ⟨AMap.insert p2 ra rb, ?_, inv_insert i2 ub hkb e, fun x => ?_, fun x y => ?_⟩
    · unfold union; rw [e1]; simp [e2, e]
    · rw [AMap.keys_insert_mem, k2, k1]
      refine ⟨fun h => h.elim (fun e' => ?_) id, Or.inr⟩
      rw [e']; exact rk1
    · have toSame : ∀ {z w r}, Root p2 z r → Root p2 w r → Same p z w := fun h1 h2 => ⟨_, (hroots _ _).mp h1, (hroots _ _).mp h2⟩
      obtain ⟨sx, hx⟩ := i2.ends x
      obtain ⟨sy, hy⟩ := i2.ends y
      have cx : ∀ {z sz}, Root p2 z sz → (sz = ra ∧ Root (AMap.insert p2 ra rb) z rb) ∨ (sz ≠ ra ∧ Root (AMap.insert p2 ra rb) z sz) := by
        intro z sz hz
        by_cases h : sz = ra
        · exact Or.inl ⟨h, (hnew z).1 (h ▸ hz)⟩
        · exact Or.inr ⟨h, (hnew z).2 sz (fun hh => h (hz.unique hh)) hz⟩
      constructor
      · rintro ⟨r, h1, h2⟩
        rcases cx hx with ⟨e1, g1⟩ | ⟨e1, g1⟩ <;> rcases cx hy with ⟨e2, g2⟩ | ⟨e2, g2⟩
        · exact Or.inl (toSame hx (e1 ▸ e2 ▸ hy))
        · have : sy = rb := g2.unique (h1.unique g1 ▸ h2)
          exact Or.inr (Or.inl ⟨toSame (e1 ▸ hx) ra2, toSame (this ▸ hy) rb2⟩)
        · have : sx = rb := g1.unique (h2.unique g2 ▸ h1)
          exact Or.inr (Or.inr ⟨toSame (this ▸ hx) rb2, toSame (e2 ▸ hy) ra2⟩)
        · have : sx = sy := g1.unique (h2.unique g2 ▸ h1)
          exact Or.inl (toSame (this ▸ hx) hy)
      · have fromSame : ∀ {z w}, Same p z w → ∃ r, Root p2 z r ∧ Root p2 w r := by
          rintro z w ⟨r, h1, h2⟩; exact ⟨r, (hroots _ _).mpr h1, (hroots _ _).mpr h2⟩
        have toB : ∀ {z}, Same p z b → Root (AMap.insert p2 ra rb) z rb := by
          intro z hz
          obtain ⟨r, g1, g2⟩ := fromSame hz
          have : r = rb := g2.unique rb2
          subst this
          exact (hnew z).2 r (fun hh => e (hh.unique g1)) g1
        have toA : ∀ {z}, Same p z a → Root (AMap.insert p2 ra rb) z rb := by
          intro z hz
          obtain ⟨r, g1, g2⟩ := fromSame hz
          exact (hnew z).1 (g2.unique ra2 ▸ g1)
        rintro (h | ⟨h1, h2⟩ | ⟨h1, h2⟩)
        · obtain ⟨r, g1, g2⟩ := fromSame h
          rcases cx g1 with ⟨e1, g1'⟩ | ⟨e1, g1'⟩
          · exact ⟨rb, g1', (hnew y).1 (e1 ▸ g2)⟩
          · exact ⟨r, g1', (hnew y).2 r (fun hh => e1 (g2.unique hh)) g2⟩
        · exact ⟨rb, toA h1, toB h2⟩
        · exact ⟨rb, toB h1, toA h2⟩

end Verif.Lifetimes.Dsu

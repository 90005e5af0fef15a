import Verif.Ops.Compare
import Mathlib.Data.Nat.Digits.Defs
import Mathlib.Data.List.Nodup
import Mathlib.Data.Finset.Card
/-
C153: indexing. C154: lifetimes made up for parameters that are materialized in the caller.
-/
namespace Verif.Ops

theorem shapeIndex_cases {f : Func} {s : Shape} {e : Bool} (h : shapeIndex f = (some s, e)) :
    ∃ isConst m l r idx out, f.method = some isConst ∧ f.params = [.ref m l (.record r), idx] ∧
      f.ccRet.isPtr = true ∧ f.ccRet.isConst = isConst ∧ e = !f.ccRet.isLRef ∧
      ((∃ m' l', f.ret = .ref m' l' out) ∨ ∃ m' l', f.ret = .rval m' l' out) ∧
      s = (if isConst then .trait r (.ccIndex idx out) none "cc_index" false false
        else .trait r (.ccIndexMut idx out) none "cc_index_mut" false false) := by
  unfold shapeIndex at h
  split at h
  · rename_i isConst m l r idx hm hp
    split at h
    · simp at h
    · rename_i hptr
      have hptr : f.ccRet.isPtr = true := by simpa using hptr
      have key : ∀ out, (if (f.ccRet.isConst && isConst) = true then
            (some (Shape.trait r (.ccIndex idx out) none "cc_index" false false), !f.ccRet.isLRef)
          else if (!f.ccRet.isConst && !isConst) = true then
            (some (Shape.trait r (.ccIndexMut idx out) none "cc_index_mut" false false), !f.ccRet.isLRef)
          else (none, true)) = (some s, e) → f.ccRet.isConst = isConst ∧ e = !f.ccRet.isLRef ∧
          s = (if isConst then .trait r (.ccIndex idx out) none "cc_index" false false
            else .trait r (.ccIndexMut idx out) none "cc_index_mut" false false) := by
        intro out h
        cases hc : f.ccRet.isConst <;> cases isConst <;> simp [hc] at h <;> simp [h]
      split at h
      · rename_i m' l' out hr
        obtain ⟨h1, h2, h3⟩ := key out h
        exact ⟨isConst, m, l, r, idx, out, hm, hp, hptr, h1, h2, Or.inl ⟨m', l', hr⟩, h3⟩
      · rename_i m' l' out hr
        obtain ⟨h1, h2, h3⟩ := key out h
        exact ⟨isConst, m, l, r, idx, out, hm, hp, hptr, h1, h2, Or.inr ⟨m', l', hr⟩, h3⟩
      · simp at h
  · simp at h

theorem shape_index {env : Env} {lib : List Func} {f : Func} {s : Shape} {e : Bool}
    (h : shape env lib f = (some s, e)) (hi : s.isIndex = true) : f.op = "[]" ∧ shapeIndex f = (some s, e) := by
  rcases shape_cases h with ⟨_, _, h1, _⟩ | ⟨_, _, h1, _⟩ | ⟨_, _, h1, _⟩ | ⟨_, _, h1, _⟩ | ⟨_, _, h1, _⟩ |
      ⟨_, h1, _⟩ | ⟨_, _, _, h1, ho⟩ | ⟨_, _, _, h1, ho⟩ | ⟨r', en, p, ps', impl', hl, hm, h1, _⟩
  all_goals try (rw [h1] at hi; simp [Shape.isIndex] at hi; done)
  all_goals
    refine ⟨ho, ?_⟩
    unfold shape at h
    split at h
    · simp at h
    · simpa [ho] using h

/-- C153: shared access to a container gives shared access to its elements, and exclusive access exclusive
access: `cc_index` (which takes `&self`) is always a const C++ method that returns a reference to const,
`cc_index_mut` (which takes a pinned `&mut self`) a non-const one that returns a reference to non-const. -/
theorem index_access (env : Env) (lib : List Func) (f : Func) (s : Shape)
    (h : emitted env lib f = some (s, true)) (hi : s.isIndex = true) :
    f.op = "[]" ∧ f.rvalueThis = false ∧ f.ccRet.isLRef = true ∧
    ∃ isConst r idx out, f.method = some isConst ∧ f.ccRet.isConst = isConst ∧
      s = (if isConst then .trait r (.ccIndex idx out) none "cc_index" false false
        else .trait r (.ccIndexMut idx out) none "cc_index_mut" false false) := by
  obtain ⟨hgen, _⟩ := generate_of_emitted h
  obtain ⟨_, e, hsh, hc, _⟩ := generate_some hgen
  have he : e = false := by
    cases e
    · rfl
    · simp at hc
  subst he
  obtain ⟨ho, hsi⟩ := shape_index hsh hi
  obtain ⟨isConst, m, l, r, idx, out, h1, h2, h3, h4, h5, h6, h7⟩ := shapeIndex_cases hsi
  refine ⟨ho, ?_, by simpa using h5.symm, isConst, r, idx, out, h1, h4, h7⟩
  unfold generate at hgen
  rw [hsh] at hgen
  split at hgen
  · simp at hgen
  · simp only [hi] at hgen
    cases hr : f.rvalueThis
    · rfl
    · rw [hr] at hgen; simp at hgen

/-- C153: `container[i] = x` is offered only beside a reading `container[i]` with the same index type. -/
theorem indexMut_has_index (env : Env) (children : List Func) (s : Shape) (i o : Ty)
    (h : stdIndex env children s = some ("IndexMut", i, o)) :
    ∃ g ∈ children, g.op = "[]" ∧ g.method = some true ∧
      ∃ r i' o' e, shape env children g = (some (.trait r (.ccIndex i' o') none "cc_index" false false), e) ∧
        i'.erase = i.erase ∧
        stdIndex env children (.trait r (.ccIndex i' o') none "cc_index" false false) = some ("Index", i', o') := by
  unfold stdIndex at h
  split at h
  · simp at h
  · rename_i i0 o0 _ _ _ _
    have hm : hasMatchingCcIndex children i = true := by
      cases hq : hasMatchingCcIndex children i0
      · simp [hq] at h
      · have : i0 = i := by
          rw [hq] at h
          simp only [Bool.not_true, Bool.or_false] at h
          split at h
          · simp at h; exact h.2.1
          · simp at h; exact h.1
        rw [← this, hq]
    · clear h
      unfold hasMatchingCcIndex at hm
      rw [List.any_eq_true] at hm
      obtain ⟨g, hg, hgc⟩ := hm
      simp only [Bool.and_eq_true] at hgc
      obtain ⟨⟨⟨⟨h1, h2⟩, h3⟩, h4⟩, h5⟩ := hgc
      refine ⟨g, hg, by simpa using h1, by simpa using h2, ?_⟩
      have ho : g.op = "[]" := by simpa using h1
      have hsk : skipped g = false := by simpa using h4
      split at h5
      · rename_i r i' o' impl m' d fc hsi
        have hsi' : shapeIndex g = (some (.trait r (.ccIndex i' o') impl m' d fc), (shapeIndex g).2) := by rw [← hsi]
        obtain ⟨isConst, m, l, r', idx, out, q1, q2, q3, q4, q5, q6, q7⟩ := shapeIndex_cases hsi'
        have : isConst = true := by
          have : g.method = some true := by simpa using h2
          rw [this] at q1; simpa using q1.symm
        subst this
        simp at q7
        obtain ⟨rfl, ⟨rfl, rfl⟩, rfl, rfl, rfl, rfl⟩ := q7
        refine ⟨r, i', o', (shapeIndex g).2, ?_, by simpa using h5, rfl⟩
        unfold shape
        rw [hsk, ho]
        simpa using hsi'
      · simp at h5
  · simp at h

/-- A class with both `operator[]`: `const int& operator[](long) const` and `int& operator[](long)`. -/
def indexOp (item : Nat) (isConst : Bool) (out : Ty) : Func :=
  { item, op := "[]", params := [.ref (!isConst) ['_'] (.record 1), .prim 5], names := [['s'], ['i']],
    ccRet := ⟨true, true, isConst⟩, ret := .ref (!isConst) ['_'] out, method := some isConst,
    rvalueThis := false, parent := .record 1, adlRecord := none, deprecated := false, fatal := false, soft := false }

theorem index_example :
    let lib := [indexOp 1 true (.prim 3), indexOp 2 false (.prim 3)]
    emitted plainEnv lib (indexOp 1 true (.prim 3)) =
      some (.trait 1 (.ccIndex (.prim 5) (.prim 3)) none "cc_index" false false, true) ∧
    emitted plainEnv lib (indexOp 2 false (.prim 3)) =
      some (.trait 1 (.ccIndexMut (.prim 5) (.prim 3)) none "cc_index_mut" false false, true) ∧
    stdIndex plainEnv lib (.trait 1 (.ccIndexMut (.prim 5) (.prim 3)) none "cc_index_mut" false false) =
      some ("IndexMut", .prim 5, .prim 3) := by decide +kernel

/-- C153, disagreement: the element types of the two operators are not compared, but `IndexMut` inherits `Output`
from `Index`: the generated `index_mut` does not type-check, and the crate does not compile. -/
theorem index_outputs_differ :
    let lib := [indexOp 1 true (.prim 3), indexOp 2 false (.prim 4)]
    ∃ s t, emitted plainEnv lib (indexOp 1 true (.prim 3)) = some (s, true) ∧
      emitted plainEnv lib (indexOp 2 false (.prim 4)) = some (t, true) ∧
      stdIndex plainEnv lib s = some ("Index", .prim 5, .prim 3) ∧
      stdIndex plainEnv lib t = some ("IndexMut", .prim 5, .prim 4) :=
  ⟨.trait 1 (.ccIndex (.prim 5) (.prim 3)) none "cc_index" false false,
   .trait 1 (.ccIndexMut (.prim 5) (.prim 4)) none "cc_index_mut" false false,
   by decide +kernel, by decide +kernel, by decide +kernel, by decide +kernel⟩

/-! ### Fresh lifetimes -/

theorem toDigits_inj {a b : Nat} (h : Nat.toDigits 10 a = Nat.toDigits 10 b) : a = b := by
  have ha := Nat.ofDigitChars_toDigits (b := 10) (n := a) (by decide) (by decide)
  have hb := Nat.ofDigitChars_toDigits (b := 10) (n := b) (by decide) (by decide)
  rw [← ha, ← hb, h]

theorem candidate_inj (base : Name) {a b : Nat} (h : candidate base a = candidate base b) : a = b := by
  unfold candidate at h
  split at h
  · rename_i ha
    split at h
    · rename_i hb; omega
    · exact absurd (congrArg List.length h) (by simp)
  · split at h
    · exact absurd (congrArg List.length h) (by simp)
    · have := List.append_cancel_left h
      simp at this
      have := toDigits_inj this
      omega

theorem freshFrom_spec (used : List Name) (base : Name) (fuel k : Nat)
    (hex : ∃ j, k ≤ j ∧ j ≤ k + fuel ∧ candidate base j ∉ used) : freshFrom used base fuel k ∉ used := by
  induction fuel generalizing k with
  | zero =>
    obtain ⟨j, h1, h2, h3⟩ := hex
    have : j = k := by omega
    subst this
    exact h3
  | succ fuel ih =>
    unfold freshFrom
    split
    · rename_i hin
      apply ih
      obtain ⟨j, h1, h2, h3⟩ := hex
      refine ⟨j, ?_, by omega, h3⟩
      rcases Nat.lt_or_ge k j with h | h
      · exact h
      · have : j = k := by omega
        subst this
        exact absurd hin h3
    · rename_i hin; exact hin

/-- C154: the search for a name ends, with a name that is not taken. -/
theorem fresh_not_used (used : List Name) (base : Name) : fresh used base ∉ used := by
  apply freshFrom_spec
  by_contra hno
  have hall : ∀ j ≤ used.length, candidate base j ∈ used := by
    intro j hj
    by_contra h
    exact hno ⟨j, by omega, by omega, h⟩
  have hsub : (Finset.range (used.length + 1)).image (candidate base) ⊆ used.toFinset := by
    intro x hx
    simp only [Finset.mem_image, Finset.mem_range] at hx
    obtain ⟨j, hj, rfl⟩ := hx
    exact List.mem_toFinset.2 (hall j (by omega))
  have hcard := Finset.card_le_card hsub
  rw [Finset.card_image_of_injective _ (fun a b h => candidate_inj base h), Finset.card_range] at hcard
  have := List.toFinset_card_le used
  omega

/-- The lifetimes added to a parameter list. -/
def addedLifetimes (after before : List Ty) : List Name :=
  (after.zip before).filterMap fun (a, b) =>
    if a = b then none else match a with
      | .rval _ l _ => some l
      | _ => none

theorem materializeGo_fresh (env : Env) (ts : List Ty) : ∀ (used ns : List Name),
    (addedLifetimes (materializeGo env used ns ts) ts).Nodup ∧
    ∀ l ∈ addedLifetimes (materializeGo env used ns ts) ts, l ∉ used := by
  induction ts with
  | nil => intro used ns; cases ns <;> simp [materializeGo, addedLifetimes]
  | cons t ts ih =>
    intro used ns
    cases ns with
    | nil =>
      have : ∀ ts : List Ty, addedLifetimes ts ts = [] := by
        intro ts
        induction ts with
        | nil => rfl
        | cons t ts ih =>
          have ih' := ih
          unfold addedLifetimes at ih' ⊢
          simpa using ih'
      simp [materializeGo, this]
    | cons n ns =>
      simp only [materializeGo]
      split
      · have := ih used ns
        unfold addedLifetimes at this ⊢
        simpa using this
      · have h := ih (fresh used n :: used) ns
        have hne : Ty.rval true (fresh used n) t ≠ t := by
          intro h
          have := congrArg sizeOf h
          simp at this
        have hl : addedLifetimes (.rval true (fresh used n) t :: materializeGo env (fresh used n :: used) ns ts) (t :: ts) =
            fresh used n :: addedLifetimes (materializeGo env (fresh used n :: used) ns ts) ts := by
          simp [addedLifetimes, hne]
        simp only [hl]
        refine ⟨List.nodup_cons.2 ⟨fun hin => ?_, h.1⟩, ?_⟩
        · exact h.2 _ hin (by simp)
        · intro l hl
          rcases List.mem_cons.1 hl with rfl | hl
          · exact fresh_not_used _ _
          · intro hu; exact h.2 l hl (by simp [hu])

theorem mem_lifetimes (l : Name) : ∀ t : Ty, LifetimeIn l t → l ∈ t.lifetimes
  | _, .ref m t => by simp [Ty.lifetimes]
  | _, .rval m t => by simp [Ty.lifetimes]
  | _, .inNamed n t h => by simpa [Ty.lifetimes] using mem_lifetimes l t h
  | _, .inRef m k t h => by simp [Ty.lifetimes, mem_lifetimes l t h]
  | _, .inRval m k t h => by simp [Ty.lifetimes, mem_lifetimes l t h]
  | _, .inPtr m t h => by simpa [Ty.lifetimes] using mem_lifetimes l t h

/-- C154: when parameters that cannot be moved in Rust are turned into rvalue references, each gets a
lifetime of its own, different from every lifetime of the signature; all other parameters stay. -/
theorem materialized_lifetimes_fresh (env : Env) (names : List Name) (ts : List Ty) :
    (addedLifetimes (materialize env names ts) ts).Nodup ∧
    (∀ l ∈ addedLifetimes (materialize env names ts) ts, ∀ t ∈ ts, ¬ LifetimeIn l t) ∧
    (names.length = ts.length → ∀ i (h : i < ts.length),
      if ts[i].isUnpin env then (materialize env names ts)[i]? = some ts[i]
      else ∃ l, (materialize env names ts)[i]? = some (.rval true l ts[i])) := by
  have h := materializeGo_fresh env ts (ts.flatMap Ty.lifetimes) names
  refine ⟨h.1, fun l hl t ht hlt => h.2 l hl (List.mem_flatMap.2 ⟨t, ht, mem_lifetimes l t hlt⟩), ?_⟩
  unfold materialize
  generalize ts.flatMap Ty.lifetimes = used
  clear h
  induction ts generalizing used names with
  | nil => intro _ i h; simp at h
  | cons t ts ih =>
    intro hlen i hi
    cases names with
    | nil => simp at hlen
    | cons n ns =>
      simp only [materializeGo]
      cases i with
      | zero =>
        cases hu : t.isUnpin env <;> simp [hu]
      | succ i =>
        cases hu : t.isUnpin env
        · have := ih ns (fresh used n :: used) (by simpa using hlen) i (by simpa using hi)
          simpa [hu] using this
        · have := ih ns used (by simpa using hlen) i (by simpa using hi)
          simpa [hu] using this

/-- Two parameters named `x`-something of a class that cannot be moved, with a lifetime `x` already there. -/
theorem materialize_example :
    materialize ⟨fun _ => false, fun _ => true, fun _ => false⟩ [['t'], ['x'], ['x']]
      [.ref false ['x'] (.record 1), .record 2, .record 3] =
    [.ref false ['x'] (.record 1), .rval true ['x', '_', '2'] (.record 2), .rval true ['x', '_', '3'] (.record 3)] := by
  decide +kernel

end Verif.Ops

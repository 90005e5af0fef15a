import Verif.TypeVis.Model

/-!
# Visibility of bindings: theorems
-/

namespace Verif.TypeVis

/-! ## The iterator -/

theorem pushed_eq_parts (k : Kind) : pushed k = k.parts := by cases k <;> rfl

theorem counts_append (l m : List Kind) : counts (l ++ m) = counts l + counts m := by
  induction l with
  | nil => simp [counts]
  | cons k l ih => simp only [List.cons_append, counts, ih]; omega

theorem count_parts (k : Kind) : k.count = counts k.parts + 1 := by
  cases k <;> simp [Kind.count, Kind.parts, counts, counts_append]

theorem count_pos (k : Kind) : 0 < k.count := by rw [count_parts]; omega

theorem mem_iterate : ∀ (n : Nat) (todo : List Kind) (s : Kind), counts todo ≤ n →
    (s ∈ iterate n todo ↔ ∃ k ∈ todo, Sees k s)
  | 0, [], s, _ => by simp [iterate]
  | 0, k :: todo, s, h => by
      have := count_pos k
      simp only [counts] at h; omega
  | n + 1, [], s, _ => by simp [iterate]
  | n + 1, k :: todo, s, h => by
      have hc : counts (pushed k ++ todo) ≤ n := by
        rw [counts_append, pushed_eq_parts]
        simp only [counts, count_parts k] at h
        omega
      have ih := mem_iterate n _ s hc
      rw [pushed_eq_parts] at ih
      rw [iterate, pushed_eq_parts, List.mem_cons, ih]
      simp only [List.mem_append, List.mem_cons, exists_eq_or_imp]
      constructor
      · rintro (rfl | ⟨p, hp | hp, hs⟩)
        · exact .inl (.self _)
        · exact .inl (.part hp hs)
        · exact .inr ⟨p, hp, hs⟩
      · rintro (hs | ⟨p, hp, hs⟩)
        · cases hs with
          | self => exact .inl rfl
          | part hp hs => exact .inr ⟨_, .inl hp, hs⟩
        · exact .inr ⟨p, .inr hp, hs⟩

/-- The iterator visits exactly the types that occur outside of arguments of generic Rust types. -/
theorem mem_dfs (k s : Kind) : s ∈ dfs k ↔ Sees k s := by
  have := mem_iterate k.count [k] s (by simp [counts])
  simpa [dfs] using this

theorem dfs_ne_nil (k : Kind) : dfs k ≠ [] := by
  intro h
  have := (mem_dfs k k).2 (.self k)
  rw [h] at this
  simp at this

theorem sees_trans {a b c : Kind} (h : Sees a b) (h' : Sees b c) : Sees a c := by
  induction h with
  | self => exact h'
  | part hp _ ih => exact .part hp (ih h')

theorem mentions_of_sees {a b : Kind} (h : Sees a b) : Mentions a b := by
  induction h with
  | self => exact .self _
  | part hp _ ih => exact .part hp ih

/-- Without generic Rust types, all that is mentioned is visited. -/
theorem sees_of_mentions {a b : Kind} (ha : Plain a) (h : Mentions a b) : Sees a b := by
  induction h with
  | self => exact .self _
  | part hp _ ih => exact .part hp (ih fun s hs => ha s (.part hp hs))
  | arg hp _ _ =>
      rw [ha _ (.self _)] at hp
      simp at hp

/-! ## The restriction -/

theorem sees_unalias : ∀ k : Kind, Sees k (unalias k)
  | .alias o k => by
      have h := sees_unalias k
      rw [unalias]
      exact .part (p := k) (by simp [Kind.parts]) h
  | .error .. | .prim | .incomplete | .record .. | .enum | .bridge _ | .existing _ | .ptr _ | .ref _ | .rref _
  | .optional _ | .co _ | .fnPtr .. | .callable .. | .pair .. => by simp only [unalias]; exact .self _

theorem restriction_record (F : Features) (r : Rec) (args : List Kind) (t : Target) :
    restriction F (.record r args) = some t ↔ r.Private F ∧ r.target = t := by
  simp only [restriction, unalias, Rec.Private]
  cases hu : r.unique <;> cases hf : r.uniform <;> cases h1 : F r.target .templateInstantiation <;>
    cases h2 : F r.target .experimental <;> simp

theorem restriction_some {F : Features} {k : Kind} {t : Target} (h : restriction F k = some t) :
    ∃ r args, unalias k = .record r args ∧ r.Private F ∧ r.target = t := by
  unfold restriction at h
  split at h
  · rename_i r args hk
    have : restriction F (.record r args) = some t := by simpa [restriction, unalias] using h
    obtain ⟨h1, h2⟩ := (restriction_record F r args t).1 this
    exact ⟨r, args, hk, h1, h2⟩
  · simp at h

/-- `k` sees a struct that is `pub(crate)` in `t`. -/
def SeesPrivate (F : Features) (k : Kind) (t : Target) : Prop :=
  ∃ r args, Sees k (.record r args) ∧ r.Private F ∧ r.target = t

theorem exists_restriction (F : Features) (k : Kind) (t : Target) :
    (∃ s ∈ dfs k, restriction F s = some t) ↔ SeesPrivate F k t := by
  constructor
  · rintro ⟨s, hs, hr⟩
    obtain ⟨r, args, hu, hp, ht⟩ := restriction_some hr
    exact ⟨r, args, sees_trans ((mem_dfs k s).1 hs) (hu ▸ sees_unalias s), hp, ht⟩
  · rintro ⟨r, args, hs, hp, ht⟩
    exact ⟨_, (mem_dfs k _).2 hs, (restriction_record F r args t).2 ⟨hp, ht⟩⟩

theorem intersectAll_some {F : Features} : ∀ {acc : Option Target} {l : List Kind} {res : Option Target},
    intersectAll F acc l = some res →
      (∀ t, (acc = some t ∨ ∃ s ∈ l, restriction F s = some t) ↔ res = some t)
  | acc, [], res, h => by
      simp only [intersectAll, Option.some.injEq] at h
      subst h; simp
  | acc, k :: l, res, h => by
      simp only [intersectAll] at h
      split at h
      · simp at h
      · rename_i acc' hacc
        intro t
        rw [← intersectAll_some h t]
        have : acc' = some t ↔ (acc = some t ∨ restriction F k = some t) := by
          unfold intersect at hacc
          split at hacc
          · rename_i o n hn
            split at hacc
            · simp at hacc
            · rename_i hon
              obtain rfl : o = n := Decidable.not_not.1 hon
              simp only [Option.some.injEq] at hacc
              subst hacc
              simp [hn]
          · rename_i o hn
            simp only [Option.some.injEq] at hacc
            subst hacc; simp [hn]
          · simp only [Option.some.injEq] at hacc
            subst hacc; simp
        rw [this]
        simp only [List.mem_cons, exists_eq_or_imp, or_assoc]

theorem intersectAll_none {F : Features} : ∀ {acc : Option Target} {l : List Kind},
    intersectAll F acc l = none → ∃ t t', t ≠ t' ∧ (acc = some t ∨ ∃ s ∈ l, restriction F s = some t) ∧
      (acc = some t' ∨ ∃ s ∈ l, restriction F s = some t')
  | acc, [], h => by simp [intersectAll] at h
  | acc, k :: l, h => by
      simp only [intersectAll] at h
      split at h
      · rename_i hacc
        unfold intersect at hacc
        split at hacc
        · rename_i o n hn
          split at hacc
          · rename_i hne
            exact ⟨o, n, hne, .inl rfl, .inr ⟨k, by simp, hn⟩⟩
          · simp at hacc
        · simp at hacc
        · simp at hacc
      · rename_i acc' hacc
        obtain ⟨t, t', hne, h1, h2⟩ := intersectAll_none h
        have : ∀ t, acc' = some t → (acc = some t ∨ restriction F k = some t) := by
          intro t ht
          subst ht
          unfold intersect at hacc
          split at hacc
          · split at hacc
            · simp at hacc
            · simp only [Option.some.injEq] at hacc; exact .inl (by simpa using hacc)
          · simp only [Option.some.injEq] at hacc; exact .inl (by simpa using hacc)
          · simp only [Option.some.injEq] at hacc; exact .inr (by simpa using hacc)
        refine ⟨t, t', hne, ?_, ?_⟩
        · rcases h1 with h | ⟨s, hs, h⟩
          · rcases this t h with h | h
            · exact .inl h
            · exact .inr ⟨k, by simp, h⟩
          · exact .inr ⟨s, by simp [hs], h⟩
        · rcases h2 with h | ⟨s, hs, h⟩
          · rcases this t' h with h | h
            · exact .inl h
            · exact .inr ⟨k, by simp, h⟩
          · exact .inr ⟨s, by simp [hs], h⟩

/-- There is a restriction exactly if a struct in the type is `pub(crate)` there. -/
theorem targetRestriction_some {F : Features} {k : Kind} {res : Option Target} (h : targetRestriction F k = some res)
    (t : Target) : SeesPrivate F k t ↔ res = some t := by
  unfold targetRestriction at h
  rw [← exists_restriction]
  split at h
  · simp at h
  · rename_i k0 ks hd
    rw [hd, ← intersectAll_some h t]
    simp

/-- The error: structs that are `pub(crate)` in different targets. -/
theorem targetRestriction_none (F : Features) (k : Kind) :
    targetRestriction F k = none ↔ ∃ t t', t ≠ t' ∧ SeesPrivate F k t ∧ SeesPrivate F k t' := by
  constructor
  · intro h
    unfold targetRestriction at h
    split at h
    · rename_i hd; exact absurd hd (dfs_ne_nil k)
    · rename_i k0 ks hd
      obtain ⟨t, t', hne, h1, h2⟩ := intersectAll_none h
      refine ⟨t, t', hne, ?_, ?_⟩
      · rw [← exists_restriction, hd]; simpa using h1
      · rw [← exists_restriction, hd]; simpa using h2
  · rintro ⟨t, t', hne, h1, h2⟩
    cases hr : targetRestriction F k with
    | none => rfl
    | some res =>
        have e1 := (targetRestriction_some hr t).1 h1
        have e2 := (targetRestriction_some hr t').1 h2
        rw [e1] at e2
        simp only [Option.some.injEq] at e2
        exact absurd e2 hne

/-! ## The visibility of a type -/

/-- A type is refused exactly if a struct in it is `pub(crate)` in another target. -/
theorem refused_iff (F : Features) (L : Target) (k : Kind) :
    typeVisibility F L k = none ↔ ∃ t, t ≠ L ∧ SeesPrivate F k t := by
  unfold typeVisibility
  cases hr : targetRestriction F k with
  | none =>
      simp only [true_iff]
      obtain ⟨t, t', hne, h1, h2⟩ := (targetRestriction_none F k).1 hr
      by_cases h : t = L
      · exact ⟨t', fun h' => hne (h.trans h'.symm), h2⟩
      · exact ⟨t, h, h1⟩
  | some res =>
      have hs := targetRestriction_some hr
      simp only [hs]
      cases res with
      | none => simp
      | some l =>
          simp only [ne_eq, ite_not, Option.some.injEq]
          constructor
          · intro h
            refine ⟨l, ?_, rfl⟩
            intro he
            simp [he] at h
          · rintro ⟨t, ht, rfl⟩
            simp [ht]

theorem errorVis_pub {l : List Kind} (h : ∀ o m, Kind.error o m ∉ l) : errorVis l = .pub := by
  induction l with
  | nil => rfl
  | cons k l ih =>
      have ih := ih fun o m hm => h o m (List.mem_cons_of_mem _ hm)
      cases k with
      | error o m => exact absurd (List.mem_cons_self ..) (h o m)
      | _ => simpa [errorVis] using ih

theorem errorVis_iff {l : List Kind} :
    errorVis l = .pubCrate ↔ ∃ a b o m, l = a ++ .error o m :: b ∧ (∀ o m, Kind.error o m ∉ a) ∧ o ≠ some .pub := by
  induction l with
  | nil => simp [errorVis]
  | cons k l ih =>
      by_cases hk : ∃ o m, k = .error o m
      · obtain ⟨o, m, rfl⟩ := hk
        constructor
        · intro h
          refine ⟨[], l, o, m, rfl, by simp, ?_⟩
          rintro rfl
          simp [errorVis] at h
        · rintro ⟨a, b, o', m', he, ha, ho⟩
          cases a with
          | nil =>
              simp only [List.nil_append, List.cons.injEq, Kind.error.injEq] at he
              rw [← he.1.1] at ho
              match o, ho with
              | none, _ => rfl
              | some .pubCrate, _ => rfl
              | some .pub, h => simp at h
          | cons x a =>
              simp only [List.cons_append, List.cons.injEq] at he
              exact absurd (he.1 ▸ List.mem_cons_self ..) (ha o m)
      · have hne : errorVis (k :: l) = errorVis l := by
          cases k with
          | error o m => exact absurd ⟨o, m, rfl⟩ hk
          | _ => rfl
        rw [hne, ih]
        constructor
        · rintro ⟨a, b, o, m, he, ha, ho⟩
          refine ⟨k :: a, b, o, m, by rw [he]; rfl, ?_, ho⟩
          intro o' m' hm
          rcases List.mem_cons.1 hm with h | h
          · exact hk ⟨o', m', h.symm⟩
          · exact ha o' m' h
        · rintro ⟨a, b, o, m, he, ha, ho⟩
          cases a with
          | nil =>
              simp only [List.nil_append, List.cons.injEq] at he
              exact absurd ⟨o, m, he.1⟩ hk
          | cons x a =>
              simp only [List.cons_append, List.cons.injEq] at he
              exact ⟨a, b, o, m, he.2, fun o m hm => ha o m (List.mem_cons_of_mem _ hm), ho⟩

/-- The type is public: no struct in it is `pub(crate)`, and the first type without bindings, if there is one, is
declared public. -/
theorem public_iff (F : Features) (L : Target) (k : Kind) :
    typeVisibility F L k = some .pub ↔ (∀ t, ¬ SeesPrivate F k t) ∧
      ∀ a b o m, dfs k = a ++ .error o m :: b → (∀ o m, Kind.error o m ∉ a) → o = some .pub := by
  have hev : errorVis (dfs k) = .pub ↔ ∀ a b o m, dfs k = a ++ .error o m :: b → (∀ o m, Kind.error o m ∉ a) →
      o = some .pub := by
    constructor
    · intro h a b o m he ha
      by_cases ho : o = some .pub
      · exact ho
      · have := errorVis_iff.2 ⟨a, b, o, m, he, ha, ho⟩
        rw [h] at this
        simp at this
    · intro h
      cases hv : errorVis (dfs k) with
      | pub => rfl
      | pubCrate =>
          obtain ⟨a, b, o, m, he, ha, ho⟩ := errorVis_iff.1 hv
          exact absurd (h a b o m he ha) ho
  rw [← hev]
  unfold typeVisibility
  cases hr : targetRestriction F k with
  | none =>
      simp only [reduceCtorEq, false_iff, not_and]
      obtain ⟨t, t', hne, h1, h2⟩ := (targetRestriction_none F k).1 hr
      exact fun h => absurd h1 (h t)
  | some res =>
      have hs := targetRestriction_some hr
      cases res with
      | none =>
          simp only [hs]
          simp
      | some l =>
          have hl := (hs l).2 rfl
          constructor
          · intro h
            simp only at h
            split at h <;> simp at h
          · rintro ⟨h, -⟩
            exact absurd hl (h l)

/-- Without types that lack bindings, a type is public exactly if no struct in it is `pub(crate)`. -/
theorem public_iff_of_no_error (F : Features) (L : Target) (k : Kind) (he : ∀ o m, ¬ Sees k (.error o m)) :
    typeVisibility F L k = some .pub ↔ ∀ t, ¬ SeesPrivate F k t := by
  rw [public_iff]
  refine ⟨And.left, fun h => ⟨h, fun a b o m hd _ => ?_⟩⟩
  exact absurd ((mem_dfs k _).1 (by rw [hd]; simp)) (he o m)

/-! ## Items mentioned in a type -/

/-- The visibility of a class or an alias in its own target. -/
def itemVisibility (F : Features) : Kind → Option (Target × Option Vis)
  | .record r args => some (r.target, typeVisibility F r.target (.record r args))
  | .alias o k => some (o, typeVisibility F o (.alias o k))
  | _ => none

/-- The struct of a class gets bindings, and is `pub(crate)` exactly if it is a private instantiation. -/
theorem record_visibility (F : Features) (r : Rec) (args : List Kind) :
    (typeVisibility F r.target (.record r args) = some .pubCrate ↔ r.Private F) ∧
    typeVisibility F r.target (.record r args) ≠ none := by
  have hsees : ∀ s, Sees (.record r args) s → s = .record r args := by
    intro s hs
    cases hs with
    | self => rfl
    | part hp _ => simp [Kind.parts] at hp
  have hpriv : ∀ t, SeesPrivate F (.record r args) t → t = r.target ∧ r.Private F := by
    rintro t ⟨r', args', hs, hp, ht⟩
    have := hsees _ hs
    simp only [Kind.record.injEq] at this
    obtain ⟨rfl, -⟩ := this
    exact ⟨ht.symm, hp⟩
  have h2 : typeVisibility F r.target (.record r args) ≠ none := by
    intro h
    obtain ⟨t, ht, hs⟩ := (refused_iff F r.target _).1 h
    exact ht (hpriv t hs).1
  have h3 := public_iff_of_no_error F r.target (.record r args) (by
    intro o m h; have := hsees _ h; simp at this)
  refine ⟨?_, h2⟩
  constructor
  · intro h
    by_cases hp : r.Private F
    · exact hp
    · rw [h3.2 fun t ht => hp (hpriv t ht).2] at h
      simp at h
  · intro hp
    cases hv : typeVisibility F r.target (.record r args) with
    | none => exact absurd hv h2
    | some v =>
        cases v with
        | pubCrate => rfl
        | pub => exact absurd ⟨r, args, .self _, hp, rfl⟩ (h3.1 hv r.target)

/-- A binding in target `L` with visibility `v` whose type sees the item can use the item, and does not expose it:
the item is public or belongs to `L`, and it is public if the binding is.  (The item is a class, or an alias, with
bindings, for a type with bindings.) -/
theorem uses_accessible {F : Features} {L : Target} {k s : Kind} {v w : Vis} (h : typeVisibility F L k = some v)
    (hs : Sees k s) {o : Target} (hi : itemVisibility F s = some (o, some w)) (he : ∀ ov m, ¬ Sees s (.error ov m)) :
    (o = L ∨ w = .pub) ∧ (v = .pub → w = .pub) := by
  have hpriv : ∀ t, SeesPrivate F s t → SeesPrivate F k t := by
    rintro t ⟨r, args, h1, h2, h3⟩
    exact ⟨r, args, sees_trans hs h1, h2, h3⟩
  have hL : ∀ t, SeesPrivate F k t → t = L := by
    intro t ht
    by_cases he : t = L
    · exact he
    · rw [(refused_iff F L k).2 ⟨t, he, ht⟩] at h; simp at h
  have hv : v = .pub → ∀ t, ¬ SeesPrivate F k t := by
    rintro rfl
    exact ((public_iff F L k).1 h).1
  have hiv : some w = typeVisibility F o s := by
    cases s <;> simp only [itemVisibility, Option.some.injEq, Prod.mk.injEq, reduceCtorEq] at hi
    all_goals obtain ⟨rfl, h⟩ := hi; exact h.symm
  have hpub := public_iff_of_no_error F o s he
  by_cases hp : ∃ t, SeesPrivate F s t
  · obtain ⟨t, ht⟩ := hp
    have htL := hL t (hpriv t ht)
    refine ⟨?_, fun hvp => absurd (hpriv t ht) (hv hvp t)⟩
    by_cases hoL : o = L
    · exact .inl hoL
    · have : ∃ t, t ≠ o ∧ SeesPrivate F s t := ⟨t, by rw [htL]; exact fun h => hoL h.symm, ht⟩
      rw [(refused_iff F o s).2 this] at hiv
      simp at hiv
  · rw [not_exists] at hp
    rw [hpub.2 hp] at hiv
    simp only [Option.some.injEq] at hiv
    exact ⟨.inr hiv, fun _ => hiv⟩

/-- The same for all that is mentioned, if there are no generic Rust types. -/
theorem mentions_accessible {F : Features} {L : Target} {k s : Kind} {v w : Vis} (h : typeVisibility F L k = some v)
    (hk : Plain k) (hs : Mentions k s) {o : Target} (hi : itemVisibility F s = some (o, some w))
    (he : ∀ ov m, ¬ Mentions s (.error ov m)) : (o = L ∨ w = .pub) ∧ (v = .pub → w = .pub) :=
  uses_accessible h (sees_of_mentions hk hs) hi fun ov m hm => he ov m (mentions_of_sees hm)

/-! ## Functions -/

theorem signature_spec (F : Features) (L : Target) : ∀ (l : List Kind) (acc : Vis),
    (signatureVisibility F L acc l = none ↔ ∃ k ∈ l, typeVisibility F L k = none) ∧
    (signatureVisibility F L acc l = some .pub ↔ acc = .pub ∧ ∀ k ∈ l, typeVisibility F L k = some .pub)
  | [], acc => by simp [signatureVisibility]
  | k :: l, acc => by
      simp only [signatureVisibility]
      cases hk : typeVisibility F L k with
      | none =>
          simp only [true_iff, List.mem_cons, forall_eq_or_imp, hk]
          exact ⟨⟨k, .inl rfl, hk⟩, by simp⟩
      | some v =>
          obtain ⟨h1, h2⟩ := signature_spec F L l (acc.or v)
          simp only [h1, h2, List.mem_cons, exists_eq_or_imp, forall_eq_or_imp, hk]
          refine ⟨by simp, ?_⟩
          cases acc <;> cases v <;> simp [Vis.or]

/-- A function is refused exactly if one of its types is; it is public exactly if all its types are; otherwise it is
`pub(crate)`. -/
theorem function_visibility (F : Features) (L : Target) (params : List Kind) (ret : Kind) :
    (functionVisibility F L params ret = none ↔ ∃ k ∈ params ++ [ret], typeVisibility F L k = none) ∧
    (functionVisibility F L params ret = some .pub ↔ ∀ k ∈ params ++ [ret], typeVisibility F L k = some .pub) := by
  obtain ⟨h1, h2⟩ := signature_spec F L (params ++ [ret]) .pub
  exact ⟨h1, by rw [functionVisibility, h2]; simp⟩

/-- Nothing depends on the order of the parameters. -/
theorem function_order (F : Features) (L : Target) {params params' : List Kind} (h : params.Perm params') (ret : Kind) :
    functionVisibility F L params ret = functionVisibility F L params' ret := by
  obtain ⟨a1, a2⟩ := function_visibility F L params ret
  obtain ⟨b1, b2⟩ := function_visibility F L params' ret
  have hm : ∀ k, k ∈ params ++ [ret] ↔ k ∈ params' ++ [ret] := by
    intro k; simp [h.mem_iff]
  simp only [hm] at a1 a2
  rw [← b1] at a1
  rw [← b2] at a2
  match hx : functionVisibility F L params ret, hy : functionVisibility F L params' ret with
  | none, none => rfl
  | some .pub, some .pub => rfl
  | some .pubCrate, some .pubCrate => rfl
  | none, some _ => rw [hx, hy] at a1; simp at a1
  | some _, none => rw [hx, hy] at a1; simp at a1
  | some .pub, some .pubCrate => rw [hx, hy] at a2; simp at a2
  | some .pubCrate, some .pub => rw [hx, hy] at a2; simp at a2

/-! ## Features -/

theorem mem_require (f : Feature → Bool) (any : List Feature) (x y : Reason) (l : List Reason) :
    x ∈ require f any y l ↔ x ∈ l ∨ (x = y ∧ ∀ a ∈ any, f a = false) := by
  unfold require
  split
  · rename_i h
    rw [List.any_eq_true] at h
    obtain ⟨a, ha, hfa⟩ := h
    constructor
    · exact .inl
    · rintro (h | ⟨-, h⟩)
      · exact h
      · rw [h a ha] at hfa; simp at hfa
  · rename_i h
    have h' : ∀ a ∈ any, f a = false := by simpa [List.any_eq_true] using h
    split
    · rename_i hy
      constructor
      · exact .inl
      · rintro (h | ⟨rfl, -⟩)
        · exact h
        · exact hy
    · simp only [List.mem_append, List.mem_singleton]
      constructor
      · rintro (h | h)
        · exact .inl h
        · exact .inr ⟨h, h'⟩
      · rintro (h | h)
        · exact .inl h
        · exact .inr h.1

theorem mem_missingStep (f : Feature → Bool) (l : List Reason) (k : Kind) (x : Reason) :
    x ∈ missingStep f l k ↔ x ∈ l ∨ (Lacks f k ∧ Explains x k) := by
  cases k with
  | error o m =>
      cases o <;> cases x <;> simp [missingStep, Lacks, mem_require, Explains, and_comm]
      rename_i n
      rw [eq_comm (a := n)]
  | ref k => cases x <;> simp [missingStep, Lacks, mem_require, Explains]
  | rref k => cases x <;> simp [missingStep, Lacks, mem_require, Explains]
  | fnPtr c ps r => cases c <;> cases x <;> simp [missingStep, Lacks, mem_require, Explains]
  | incomplete => cases x <;> simp [missingStep, Lacks, mem_require, Explains]
  | record r args =>
      cases hu : r.unique <;> cases hf : r.uniform <;> cases x <;>
        simp [missingStep, Lacks, mem_require, Explains, hu, hf]
  | _ => simp [missingStep, Lacks]

theorem mem_foldl (f : Feature → Bool) (x : Reason) : ∀ (ks : List Kind) (l : List Reason),
    x ∈ ks.foldl (missingStep f) l ↔ x ∈ l ∨ ∃ k ∈ ks, Lacks f k ∧ Explains x k
  | [], l => by simp
  | k :: ks, l => by
      rw [List.foldl_cons, mem_foldl f x ks, mem_missingStep]
      simp only [List.mem_cons, exists_eq_or_imp, or_assoc]

/-- The reasons reported: that Crubit is not enabled, and for each type seen for which the features do not suffice
its reason; nothing else. -/
theorem reasons_iff (t : Target) (f : Feature → Bool) (k : Kind) (x : Reason) : x ∈ missingOfType t f k ↔
    (x = .disabled t ∧ f .types = false) ∨ ∃ s, Sees k s ∧ Lacks f s ∧ Explains x s := by
  unfold missingOfType
  rw [mem_foldl]
  have h1 : (x ∈ if f .types = true then [] else require f [.types] (.disabled t) []) ↔
      x = .disabled t ∧ f .types = false := by
    split
    · rename_i h; simp [h]
    · rename_i h; simp [mem_require]
  simp only [h1, mem_dfs]

theorem lacks_explained {f : Feature → Bool} {s : Kind} (h : Lacks f s) : ∃ x, Explains x s := by
  cases s with
  | error o m =>
      cases o with
      | none => exact ⟨.error m, rfl⟩
      | some v => simp [Lacks] at h
  | ref k => exact ⟨.references, .inl ⟨k, rfl⟩⟩
  | rref k => exact ⟨.references, .inr ⟨k, rfl⟩⟩
  | fnPtr c ps r =>
      cases c with
      | false => exact ⟨.callingConvention, ps, r, rfl⟩
      | true => simp [Lacks] at h
  | incomplete => exact ⟨.forwardDeclared, rfl⟩
  | record r args => exact ⟨.template, r, args, rfl⟩
  | _ => simp [Lacks] at h

/-- A type needs no further features exactly if Crubit is enabled and the features suffice for every type seen. -/
theorem no_reasons_iff (t : Target) (f : Feature → Bool) (k : Kind) :
    missingOfType t f k = [] ↔ f .types = true ∧ ∀ s, Sees k s → ¬ Lacks f s := by
  rw [List.eq_nil_iff_forall_not_mem]
  constructor
  · intro h
    constructor
    · cases ht : f .types with
      | true => rfl
      | false => exact absurd ((reasons_iff t f k _).2 (.inl ⟨rfl, ht⟩)) (h _)
    · intro s hs hl
      obtain ⟨x, hx⟩ := lacks_explained hl
      exact h x ((reasons_iff t f k x).2 (.inr ⟨s, hs, hl, hx⟩))
  · rintro ⟨h1, h2⟩ x hx
    rcases (reasons_iff t f k x).1 hx with ⟨-, h⟩ | ⟨s, hs, hl, -⟩
    · rw [h1] at h; simp at h
    · exact h2 s hs hl

/-- A function gets past the check exactly if this holds for each of its types in the target that defines it and in
the target that owns it. -/
theorem signature_features (F : Features) (targets : List Target) (params : List Kind) (ret : Kind) :
    missingOfSignature F targets params ret = [] ↔ ∀ k ∈ params ++ [ret], ∀ t ∈ targets,
      F t .types = true ∧ ∀ s, Sees k s → ¬ Lacks (F t) s := by
  have h1 : ∀ (k : Kind) (ts : List Target), missingOfTargets F k ts = none ↔
      ∀ t ∈ ts, F t .types = true ∧ ∀ s, Sees k s → ¬ Lacks (F t) s := by
    intro k ts
    induction ts with
    | nil => simp [missingOfTargets]
    | cons t ts ih =>
        simp only [missingOfTargets, List.mem_cons, forall_eq_or_imp]
        rw [← no_reasons_iff t (F t) k]
        split
        · rename_i h; rw [ih]; simp [h]
        · rename_i h; simp [h]
  unfold missingOfSignature
  rw [List.filterMap_eq_nil_iff]
  simp only [h1]

/-- Enabling more features never removes bindings. -/
theorem features_monotone {f g : Feature → Bool} (h : ∀ x, f x = true → g x = true) (t t' : Target) (k : Kind)
    (hk : missingOfType t f k = []) : missingOfType t' g k = [] := by
  rw [no_reasons_iff] at hk ⊢
  refine ⟨h _ hk.1, fun s hs hl => hk.2 s hs ?_⟩
  have hn : ∀ x, g x = false → f x = false := by
    intro x hx
    cases hf : f x with
    | false => rfl
    | true => rw [h x hf] at hx; simp at hx
  cases s with
  | error o m => cases o <;> simp [Lacks] at hl ⊢; exact hn _ hl
  | ref k => exact hn _ hl
  | rref k => exact hn _ hl
  | fnPtr c ps r => cases c <;> simp [Lacks] at hl ⊢; exact hn _ hl
  | incomplete => exact hn _ hl
  | record r args => exact ⟨hl.1, hl.2.1, hn _ hl.2.2.1, hn _ hl.2.2.2⟩
  | _ => exact hl

end Verif.TypeVis

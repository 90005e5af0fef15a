import Verif.Defaults.Func
/-
C55: `[[clang::lifetimebound]]`, records and methods.
-/
namespace Verif.Defaults

/-- The outermost place of a return type that takes a lifetime. -/
def retTop (ar : Arity) : Ty → Option (List Name)
  | .ptr .lvalueRef l _ => some l
  | .decl id l => if ar id = some 1 then some l else none
  | .spec id l _ => if ar id = some 1 then some l else none
  | _ => none

/-- The lifetimes written by the user on the result and on the bound parameters. -/
def annotations (f : Func) : List (List Name) := (f.ret.lts :: (f.params.filter (·.bound)).map (·.ty.lts)).filter (· ≠ [])

theorem scan_spec (isCtor : Bool) : ∀ (ps : List Param) (first : Bool) (rl rl' : List Name) (h0 h1 : Bool), scanBound isCtor first (rl, h0) ps = some (rl', h1) →
    (rl ≠ [] → rl' = rl) ∧ (∀ p ∈ ps, p.bound = true → p.ty.lts = [] ∨ p.ty.lts = rl') ∧
    (rl' = [] ∨ rl' = rl ∨ ∃ p ∈ ps, (p.bound = true ∨ isCtor = true) ∧ p.ty.lts = rl') ∧ (h1 = true ↔ h0 = true ∨ ∃ p ∈ ps, p.bound = true) := by
  intro ps
  induction ps with
  | nil =>
    intro first rl rl' h0 h1 h
    simp only [scanBound, Option.some.injEq, Prod.mk.injEq] at h
    exact ⟨fun _ => h.1.symm, by simp, Or.inr (Or.inl h.1.symm), by simp [h.2]⟩
  | cons p ps ih =>
    intro first rl rl' h0 h1 h
    unfold scanBound at h
    split at h
    · rename_i hc
      simp only at h
      split at h
      · rename_i hrl
        obtain ⟨i1, i2, i3, i4⟩ := ih _ _ _ _ _ h
        refine ⟨fun h => absurd hrl h, ?_, ?_, ?_⟩
        · intro q hq hb
          rcases List.mem_cons.mp hq with rfl | hq
          · by_cases e : q.ty.lts = []
            · exact Or.inl e
            · exact Or.inr (i1 e).symm
          · exact i2 q hq hb
        · rcases i3 with i3 | i3 | ⟨q, hq, i3⟩
          · exact Or.inl i3
          · exact Or.inr (Or.inr ⟨p, by simp, hc.imp id And.left, i3.symm⟩)
          · exact Or.inr (Or.inr ⟨q, by simp [hq], i3⟩)
        · rw [i4, Bool.or_eq_true]; simp [or_assoc]
      · rename_i hrl
        split at h
        · cases h
        · rename_i hmis
          obtain ⟨i1, i2, i3, i4⟩ := ih _ _ _ _ _ h
          refine ⟨i1, ?_, ?_, ?_⟩
          · intro q hq hb
            rcases List.mem_cons.mp hq with rfl | hq
            · by_cases e : q.ty.lts = []
              · exact Or.inl e
              · refine Or.inr ?_
                rw [i1 hrl]
                exact Decidable.not_not.mp fun hne => hmis ⟨e, hne⟩
            · exact i2 q hq hb
          · rcases i3 with i3 | i3 | ⟨q, hq, i3⟩
            · exact Or.inl i3
            · exact Or.inr (Or.inl i3)
            · exact Or.inr (Or.inr ⟨q, by simp [hq], i3⟩)
          · rw [i4, Bool.or_eq_true]; simp [or_assoc]
    · rename_i hc
      obtain ⟨i1, i2, i3, i4⟩ := ih _ _ _ _ _ h
      have hp : p.bound = false := by
        cases hb : p.bound with
        | false => rfl
        | true => exact absurd (Or.inl hb) hc
      refine ⟨i1, ?_, ?_, ?_⟩
      · intro q hq hb
        rcases List.mem_cons.mp hq with rfl | hq
        · rw [hp] at hb; cases hb
        · exact i2 q hq hb
      · rcases i3 with i3 | i3 | ⟨q, hq, i3⟩
        · exact Or.inl i3
        · exact Or.inr (Or.inl i3)
        · exact Or.inr (Or.inr ⟨q, by simp [hq], i3⟩)
      · rw [i4]; simp [hp]

/-- What lowering gives when something is bound. -/
theorem lower_spec {ar : Arity} {c : Ctx} {f g : Func} {names : List Name} (h : lower ar c f names = some g) (hb : ∃ p ∈ f.params, p.bound = true) :
    ∃ rl0 rl, scanBound f.isCtor true (f.ret.lts, false) f.params = some (rl0, true) ∧ boundLts ar c f names rl0 = some rl ∧
      applyBound f.isCtor ((f.params.head?.map (·.name)) = some sThis) names rl true f.params = some g.params ∧
      (if f.isCtor then g.ret = f.ret else ∃ n, lifetimeArity ar f.ret = some n ∧ g.ret = f.ret.setLts (if n ≠ rl.length then [] else rl)) := by
  unfold lower at h
  simp only [Option.bind_eq_bind, Option.bind_eq_some_iff, Prod.exists] at h
  obtain ⟨rl0, has, h1, h⟩ := h
  have ht : has = true := (scan_spec _ _ _ _ _ _ _ h1).2.2.2.mpr (Or.inr hb)
  subst ht
  simp only [Bool.true_eq_false, if_false, Option.bind_eq_some_iff] at h
  obtain ⟨rl, h2, ps, h3, h⟩ := h
  refine ⟨rl0, rl, h1, h2, ?_, ?_⟩
  · rw [h3]
    split at h
    · simp only [Option.pure_def, Option.some.injEq] at h; subst h; rfl
    · rw [Option.bind_eq_some_iff] at h
      obtain ⟨n, -, h⟩ := h
      simp only [Option.pure_def, Option.some.injEq] at h; subst h; rfl
  · by_cases ec : f.isCtor = true
    · rw [if_pos ec] at h ⊢
      simp only [Option.pure_def, Option.some.injEq] at h; subst h; rfl
    · rw [if_neg ec, Option.bind_eq_some_iff] at h
      rw [if_neg ec]
      obtain ⟨n, hn, h⟩ := h
      simp only [Option.pure_def, Option.some.injEq] at h; subst h
      exact ⟨n, hn, rfl⟩

/-- C55: conflicting annotations on bound parameters and the result are rejected. -/
theorem lifetimebound_conflict (ar : Arity) (encl : List Encl) (f : Func) (hb : ∃ p ∈ f.params, p.bound = true)
    (a b : List Name) (ha : a ∈ annotations f) (hb' : b ∈ annotations f) (hne : a ≠ b) : addFunc ar encl f = none := by
  rw [addFunc_eq]
  simp only [Option.map_eq_none_iff]
  cases hl : lower ar _ _ _ with
  | none => rfl
  | some g =>
    exfalso
    obtain ⟨rl0, rl, h1, -, -, -⟩ := lower_spec hl hb
    obtain ⟨i1, i2, -, -⟩ := scan_spec _ _ _ _ _ _ _ h1
    have key : ∀ x ∈ annotations f, x = rl0 := by
      intro x hx
      unfold annotations at hx
      rw [List.mem_filter] at hx
      obtain ⟨hx, hxn⟩ := hx
      simp only [decide_eq_true_eq] at hxn
      rcases List.mem_cons.mp hx with rfl | hx
      · exact (i1 hxn).symm
      · obtain ⟨p, hp, rfl⟩ := List.mem_map.mp hx
        rw [List.mem_filter] at hp
        exact (i2 p hp.1 hp.2).resolve_left hxn
    exact hne ((key a ha).trans (key b hb').symm)

theorem Filled.length {ρ os ns fs} (h : Filled ρ os ns fs) : os.length = ns.length := by
  induction h with
  | nil => rfl
  | fresh _ ih => simp [ih]
  | named _ _ ih => simp [ih]
  | unknown _ _ ih => simp [ih]
  | several _ ih => simp [ih]

theorem Filled.split {ρ} : ∀ {os ns os' ns' : List (List Name)} {fs}, Filled ρ (os ++ os') (ns ++ ns') fs → os.length = ns.length →
    ∃ f1 f2, Filled ρ os ns f1 ∧ Filled ρ os' ns' f2 := by
  intro os
  induction os with
  | nil =>
    intro ns os' ns' fs h hl
    have : ns = [] := List.length_eq_zero_iff.mp hl.symm
    subst this
    exact ⟨[], fs, .nil, h⟩
  | cons o os ih =>
    intro ns os' ns' fs h hl
    cases ns with
    | nil => simp at hl
    | cons n ns =>
      simp only [List.length_cons, Nat.add_right_cancel_iff] at hl
      simp only [List.cons_append] at h
      cases h with
      | fresh h => obtain ⟨f1, f2, h1, h2⟩ := ih h hl; exact ⟨_, f2, .fresh h1, h2⟩
      | named h0 h => obtain ⟨f1, f2, h1, h2⟩ := ih h hl; exact ⟨_, f2, .named h0 h1, h2⟩
      | unknown h0 h => obtain ⟨f1, f2, h1, h2⟩ := ih h hl; exact ⟨_, f2, .unknown h0 h1, h2⟩
      | several h => obtain ⟨f1, f2, h1, h2⟩ := ih h hl; exact ⟨_, f2, .several h1, h2⟩

/-- A place after the transformation. -/
def SlotAfter (ρ : Name → Name) (o n : List Name) : Prop :=
  match o with
  | [] => ∃ x, n = [x]
  | [id] => if ρ id = sUnknown then n = [] else n = [ρ id]
  | _ => n = []

theorem Filled.last {ρ os ns fs} (h : Filled ρ os ns fs) : ∀ o, os.getLast? = some o → ∃ n, ns.getLast? = some n ∧ SlotAfter ρ o n := by
  induction h with
  | nil => intro o h; simp at h
  | @fresh n os ns fs h ih =>
    intro o ho
    cases h with
    | nil => simp at ho; subst ho; exact ⟨[n], rfl, n, rfl⟩
    | _ => rw [List.getLast?_cons_cons] at ho ⊢; exact ih o ho
  | @named id os ns fs h0 h ih =>
    intro o ho
    cases h with
    | nil => simp at ho; subst ho; exact ⟨[ρ id], rfl, by simp [SlotAfter, h0]⟩
    | _ => rw [List.getLast?_cons_cons] at ho ⊢; exact ih o ho
  | @unknown id os ns fs h0 h ih =>
    intro o ho
    cases h with
    | nil => simp at ho; subst ho; exact ⟨[], rfl, by simp [SlotAfter, h0]⟩
    | _ => rw [List.getLast?_cons_cons] at ho ⊢; exact ih o ho
  | several h ih =>
    intro o ho
    cases h with
    | nil => simp at ho; subst ho; exact ⟨[], rfl, rfl⟩
    | _ => rw [List.getLast?_cons_cons] at ho ⊢; exact ih o ho

theorem slots_length {ar : Arity} : ∀ (a b : Ty) (isThis : Bool), a.erase = b.erase → (inputSlots ar isThis a).length = (inputSlots ar isThis b).length := by
  intro a
  induction a with
  | prim | fnptr | error => intro b isThis h; cases b <;> simp [Ty.erase] at h <;> rfl
  | decl id l =>
    intro b isThis h
    cases b <;> simp [Ty.erase] at h
    subst h; simp only [inputSlots]; split <;> rfl
  | spec id l a ih =>
    intro b isThis h
    cases b with
    | spec id' l' a' =>
      simp only [Ty.erase, Ty.spec.injEq] at h
      obtain ⟨rfl, -, h⟩ := h
      simp only [inputSlots]; split
      · simp [ih _ false h]
      · rfl
    | _ => simp [Ty.erase] at h
  | ptr k l p ih =>
    intro b isThis h
    cases b with
    | ptr k' l' p' =>
      simp only [Ty.erase, Ty.ptr.injEq] at h
      obtain ⟨rfl, -, h⟩ := h
      simp only [inputSlots]; split
      · simp [ih _ false h]
      · rfl
    | _ => simp [Ty.erase] at h

theorem slots_asRef {ar : Arity} (a : Ty) : inputSlots ar true a.asRef = inputSlots ar true a := by
  cases a <;> simp [Ty.asRef, inputSlots]

theorem erase_asRef (a : Ty) : a.asRef.erase = a.erase.asRef := by cases a <;> rfl

theorem filled_param {ar : Arity} {isCtor : Bool} {ρ} : ∀ {ps ps' : List Param} {first fs}, Filled ρ (paramSlots ar isCtor first ps) (paramSlots ar isCtor first ps') fs →
    paramShapes isCtor first ps' = paramShapes isCtor first ps → ∀ i p p', ps[i]? = some p → ps'[i]? = some p' →
    p'.name = p.name ∧ ∃ fs', Filled ρ (inputSlots ar (isThisParam isCtor (first && i = 0) p) p.ty) (inputSlots ar (isThisParam isCtor (first && i = 0) p) p'.ty) fs' := by
  intro ps
  induction ps with
  | nil => intro ps' first fs _ _ i p p' h; simp at h
  | cons q ps ih =>
    intro ps' first fs h hs i p p' hp hp'
    cases ps' with
    | nil => simp at hp'
    | cons q' ps' =>
      simp only [paramShapes, List.cons.injEq, Prod.mk.injEq] at hs
      obtain ⟨⟨hn, -, ht⟩, hs⟩ := hs
      have hthis : isThisParam isCtor first q' = isThisParam isCtor first q := by unfold isThisParam; rw [hn]
      simp only [paramSlots, hthis] at h
      have hlen : (inputSlots ar (isThisParam isCtor first q) q.ty).length = (inputSlots ar (isThisParam isCtor first q) q'.ty).length := by
        rw [hthis] at ht
        by_cases e : isThisParam isCtor first q = true
        · rw [if_pos e, if_pos e, ← erase_asRef, ← erase_asRef] at ht
          have := slots_length (ar := ar) _ _ true ht
          rw [slots_asRef, slots_asRef] at this
          rw [e, this]
        · rw [if_neg e, if_neg e] at ht
          exact (slots_length _ _ _ ht).symm
      obtain ⟨f1, f2, h1, h2⟩ := h.split hlen
      cases i with
      | zero =>
        simp only [List.getElem?_cons_zero, Option.some.injEq] at hp hp'
        subst hp; subst hp'
        simp only [decide_true, Bool.and_true]
        exact ⟨hn, f1, h1⟩
      | succ i =>
        simp only [List.getElem?_cons_succ] at hp hp'
        have := ih h2 hs i p p' hp hp'
        simpa using this

theorem apply_spec {isCtor isMember : Bool} {names rl : List Name} : ∀ {ps ps' : List Param} {first : Bool}, applyBound isCtor isMember names rl first ps = some ps' →
    ps'.length = ps.length ∧ ∀ i p p', ps[i]? = some p → ps'[i]? = some p' → p'.name = p.name ∧
      (p.bound = true → ¬ (isMember = true ∧ (first && i = 0) = true ∧ names ≠ []) → p'.ty = p.ty.setLts rl) ∧
      (p.bound = true → (isMember = true ∧ (first && i = 0) = true ∧ names ≠ []) → injectThis rl p.ty = some p'.ty) := by
  intro ps
  induction ps with
  | nil =>
    intro ps' first h
    simp only [applyBound, Option.some.injEq] at h
    subst h; simp
  | cons q ps ih =>
    intro ps' first h
    simp only [applyBound, Option.bind_eq_bind, Option.pure_def] at h
    rw [Option.bind_eq_some_iff] at h
    obtain ⟨q', hq, h⟩ := h
    unfold applyOne at hq
    rw [Option.bind_eq_some_iff] at h
    obtain ⟨ps1, h1, h⟩ := h
    simp only [Option.some.injEq] at h
    subst h
    obtain ⟨i1, i2⟩ := ih h1
    refine ⟨by simp [i1], ?_⟩
    intro i p p' hp hp'
    cases i with
    | zero =>
      simp only [List.getElem?_cons_zero, Option.some.injEq] at hp hp'
      subst hp; subst hp'
      simp only [decide_true, Bool.and_true]
      split at hq
      · split at hq
        · rename_i hinj
          simp only [Option.map_eq_some_iff] at hq
          obtain ⟨ty, hty, rfl⟩ := hq
          exact ⟨rfl, fun _ hn => absurd hinj hn, fun _ _ => hty⟩
        · rename_i hinj
          simp only [Option.some.injEq] at hq
          subst hq
          exact ⟨rfl, fun _ _ => rfl, fun _ hy => absurd hy hinj⟩
      · rename_i hc
        simp only [Option.some.injEq] at hq
        subst hq
        exact ⟨rfl, fun hb => absurd (Or.inl hb) hc, fun hb => absurd (Or.inl hb) hc⟩
    | succ i =>
      simp only [List.getElem?_cons_succ] at hp hp'
      have := i2 i p p' hp hp'
      simpa using this

theorem bindEnclosing_append : ∀ (es : List Encl) (e : Encl) (c : Ctx) (names : List Name),
    bindEnclosing c names (es ++ [e]) = bindItem (bindEnclosing c names es).2 e := by
  intro es
  induction es with
  | nil => intro e c names; rfl
  | cons x es ih => intro e c names; simp only [List.cons_append, bindEnclosing, ih]

theorem pushAll_length (ids : List Name) : ∀ (c : Ctx), (c.pushAll ids).1.length = ids.length := by
  induction ids with
  | nil => intro c; rfl
  | cons id ids ih => intro c; simp [Ctx.pushAll, ih]

/-- The lifetime parameters of the record a method belongs to, as written. -/
def recordBinders (encl : List Encl) : List Name := match encl.getLast? with
  | some (.record a i) => (Encl.record a i).binders
  | _ => []

theorem enclosing_names (encl : List Encl) : (bindEnclosing .new [] encl).1.length = (recordBinders encl).length := by
  rcases List.eq_nil_or_concat encl with rfl | ⟨es, e, rfl⟩
  · rfl
  · rw [List.concat_eq_append, bindEnclosing_append]
    unfold recordBinders
    rw [List.getLast?_append]
    cases e with
    | func i => rfl
    | other => rfl
    | record a i => simp only [bindItem, pushAll_length, Encl.binders, List.getLast?_singleton, Option.some_or]

theorem topSlot_setLts {ar : Arity} {isThis : Bool} {t : Ty} {l s : List Name} (h : topSlot ar isThis t = some s) : topSlot ar isThis (t.setLts l) = some l := by
  unfold topSlot at h ⊢
  cases t with
  | ptr k l' p =>
    simp only [inputSlots] at h
    simp only [Ty.setLts, inputSlots]
    split at h
    · rename_i e; rw [if_pos e]; simp
    · simp at h
  | decl id l' =>
    simp only [inputSlots] at h
    simp only [Ty.setLts, inputSlots]
    split at h
    · rename_i e; rw [if_pos e]; simp
    · simp at h
  | spec id l' a =>
    simp only [inputSlots] at h
    simp only [Ty.setLts, inputSlots]
    split at h
    · rename_i e; rw [if_pos e]; simp
    · simp at h
  | _ => simp [inputSlots] at h

theorem retTop_arity {ar : Arity} {t : Ty} {x : List Name} (h : retTop ar t = some x) : lifetimeArity ar t = some 1 := by
  cases t with
  | ptr k l p => rfl
  | decl id l =>
    simp only [retTop] at h; split at h
    · assumption
    · cases h
  | spec id l a =>
    simp only [retTop] at h; split at h
    · assumption
    · cases h
  | _ => simp [retTop] at h

theorem retTop_out {ar : Arity} {t t' : Ty} {x h : List Name} {ρ id} (ht : retTop ar t = some x) (ho : Out ar ρ h (t.setLts [id]) t') (hu : ρ id ≠ sUnknown) :
    retTop ar t' = some [ρ id] := by
  have hu' : ¬ sUnknown = ρ id := fun e => hu e.symm
  cases t with
  | ptr k l p =>
    cases k <;> simp [retTop] at ht
    cases ho with
    | rawPtr h => exact absurd rfl h
    | refNamed h => rfl
  | decl i l =>
    simp only [retTop] at ht; split at ht
    · rename_i e
      cases ho with
      | declNone h => exact absurd e h
      | declNamed h1 h2 => simp [retTop, e, hu']
    · cases ht
  | spec i l a =>
    simp only [retTop] at ht; split at ht
    · rename_i e
      cases ho with
      | specNone h => exact absurd e h
      | specNamed h1 h2 => simp [retTop, e, hu']
    · cases ht
  | _ => simp [retTop] at ht

theorem chosen_nonempty {ar : Arity} {c : Ctx} {f : Func} {names rl0 rl : List Name} (hc : f.isCtor = false) (hr : lifetimeArity ar f.ret = some 1)
    (h : boundLts ar c f names rl0 = some rl) : rl ≠ [] := by
  unfold boundLts at h
  split at h
  · unfold chooseBound at h
    rw [if_neg (by simp [hc])] at h
    split at h
    · cases h
    · split at h
      · split at h
        · rename_i e; cases h; exact e
        · split at h
          · rename_i e; cases h; exact e
          · cases h; simp
      · rw [hr] at h; simp at h; subst h; simp
  · rename_i e; cases h; exact e

theorem promote_get {isCtor : Bool} {ps : List Param} {i : Nat} {p : Param} (h : (promoteThis isCtor ps)[i]? = some p) :
    ∃ q, ps[i]? = some q ∧ q.name = p.name ∧ inputSlots ar (isThisParam isCtor (i = 0) q) q.ty = inputSlots ar (isThisParam isCtor (i = 0) q) p.ty := by
  cases ps with
  | nil => simp [promoteThis] at h
  | cons q ps =>
    obtain ⟨name, bound, ty⟩ := q
    simp only [promoteThis] at h
    split at h
    · rename_i e
      cases ty with
      | ptr k l t =>
        simp only at h
        cases i with
        | zero =>
          simp only [List.getElem?_cons_zero, Option.some.injEq] at h
          subst h
          refine ⟨_, rfl, rfl, ?_⟩
          have : isThisParam isCtor (decide (0 = 0)) ⟨name, bound, .ptr k l t⟩ = true := by
            simp [isThisParam, e.1, e.2.1]
          rw [this]; simp [inputSlots]
        | succ i => exact ⟨p, by simpa using h, rfl, rfl⟩
      | _ => exact ⟨p, h, rfl, rfl⟩
    · exact ⟨p, h, rfl, rfl⟩

/-- C55: `[[clang::lifetimebound]]` on a parameter of a function that is no constructor: if the parameter gets the lifetime `n`,
the result gets the lifetime `n`, whatever is annotated. (The implicit object parameter of a method of a record with lifetimes
is the subject of `lifetimebound_view`.) -/
theorem lifetimebound_unifies (ar : Arity) (encl : List Encl) (f f' : Func) (h : addFunc ar encl f = some f') (hc : f.isCtor = false)
    (i : Nat) (p p' : Param) (hp : f.params[i]? = some p) (hb : p.bound = true) (hp' : f'.params[i]? = some p')
    (hthis : i = 0 → p.name = sThis → recordBinders encl = []) (x : List Name) (hr : retTop ar f.ret = some x)
    (n : Name) (hn : topSlot ar (isThisParam f.isCtor (i = 0) p) p'.ty = some [n]) : retTop ar f'.ret = some [n] := by
  have hex : ∃ p ∈ f.params, p.bound = true := ⟨p, List.mem_of_getElem? hp, hb⟩
  have hnames := enclosing_names encl
  rw [addFunc_eq] at h
  simp only [Option.map_eq_some_iff] at h
  obtain ⟨g, hg, rfl⟩ := h
  obtain ⟨rl0, rl, -, hrl, happ, hret⟩ := lower_spec hg hex
  rw [if_neg (by simp [hc])] at hret
  obtain ⟨m, hm, hret⟩ := hret
  have har := retTop_arity hr
  simp only at hm
  rw [har] at hm
  simp only [Option.some.injEq] at hm
  subst hm
  have hne := chosen_nonempty hc har hrl
  obtain ⟨ρ, extra, fs, h1, h2, h3, h4, h5, h6, h7, h8, h9, -⟩ := after_lower ar (encl.flatMap Encl.binders) f.inputs f.isCtor g.params g.ret
  simp only at hp'
  obtain ⟨q', hq', hqn, hqs⟩ := promote_get (ar := ar) hp'
  obtain ⟨hlen, hap⟩ := apply_spec happ
  have hig : i < g.params.length := by
    rw [hlen]; exact (List.getElem?_eq_some_iff.mp hp).1
  obtain ⟨an, as, -⟩ := hap i p g.params[i] hp (List.getElem?_eq_getElem hig)
  have hty : g.params[i].ty = p.ty.setLts rl := by
    refine as hb fun hx => ?_
    simp only [Bool.true_and, decide_eq_true_eq] at hx
    obtain ⟨hx1, hx2, hx3⟩ := hx
    subst hx2
    have : p.name = sThis := by
      rw [List.head?_eq_getElem?, hp] at hx1
      simpa using hx1
    rw [hthis rfl this] at hnames
    exact hx3 (List.length_eq_zero_iff.mp hnames)
  obtain ⟨hqg, fs', hf⟩ := filled_param h5 h7 i _ q' (List.getElem?_eq_getElem hig) hq'
  have hith : isThisParam f.isCtor (true && decide (i = 0)) g.params[i] = isThisParam f.isCtor (decide (i = 0)) p := by
    unfold isThisParam; rw [an, Bool.true_and]
  rw [hith, hty] at hf
  have hqt : isThisParam f.isCtor (decide (i = 0)) q' = isThisParam f.isCtor (decide (i = 0)) p := by
    unfold isThisParam; rw [hqg, an]
  rw [hqt] at hqs
  have hn' : (inputSlots ar (isThisParam f.isCtor (decide (i = 0)) p) q'.ty).getLast? = some [n] := by
    rw [hqs]; exact hn
  have hl := hf.length
  obtain ⟨o, ho⟩ : ∃ o, topSlot ar (isThisParam f.isCtor (decide (i = 0)) p) (p.ty.setLts rl) = some o := by
    unfold topSlot
    cases e : inputSlots ar (isThisParam f.isCtor (decide (i = 0)) p) (p.ty.setLts rl) with
    | nil =>
      rw [e] at hl
      rw [List.length_eq_zero_iff.mp hl.symm] at hn'
      simp at hn'
    | cons a l => exact ⟨_, List.getLast?_eq_some_getLast (by simp)⟩
  have ho' := topSlot_setLts (l := rl) ho
  have hss : (p.ty.setLts rl).setLts rl = p.ty.setLts rl := by cases p.ty <;> rfl
  rw [hss] at ho'
  obtain ⟨n', hn'', hsl⟩ := hf.last rl ho'
  rw [hn'] at hn''
  simp only [Option.some.injEq] at hn''
  subst hn''
  match rl, hne, hsl, hret, h9 with
  | [id], _, hsl, hret, h9 =>
    simp only [SlotAfter] at hsl
    split at hsl
    · cases hsl
    · rename_i hu
      simp only [List.cons.injEq, and_true] at hsl
      subst hsl
      simp only [List.length_singleton, ne_eq, not_true_eq_false, if_false] at hret
      rw [hret] at h9
      have := retTop_out hr h9 hu
      simpa [hret] using this
  | _ :: _ :: _, _, hsl, _, _ => cases hsl

theorem lookup_pushAll : ∀ (ids : List Name) (c : Ctx) (x : Name), x ∉ ids → (c.pushAll ids).2.lookup x = c.lookup x := by
  intro ids
  induction ids with
  | nil => intros; rfl
  | cons id ids ih =>
    intro c x hx
    simp only [List.mem_cons, not_or] at hx
    simp only [Ctx.pushAll, ih _ _ hx.2, lookup_push]
    rw [if_neg fun e => hx.1 e.symm]

/-- C55: a record and its methods agree about the names of the lifetimes of the record, whatever they are written as. -/
theorem record_names_agree (encl : List Encl) (a : Nat) (i : List Name) (h : i = [] ∨ a = i.length) :
    (bindEnclosing .new [] (encl ++ [.record a i])).1 = addRecord encl a i := by
  rw [bindEnclosing_append]
  simp only [bindItem, addRecord]
  rcases h with rfl | rfl
  · cases a with
    | zero => rfl
    | succ a => simp
  · by_cases e : i = []
    · subst e; rfl
    · rw [if_neg e, if_neg (by simp)]

/-- C55: `[[clang::lifetimebound]]` on a method of a record with one lifetime parameter `a` that keeps its name: without
annotations, `*this` and the result get the lifetime `a`. -/
theorem lifetimebound_view (ar : Arity) (encl : List Encl) (arity : Nat) (inputs : List Name) (a : Name) (f f' : Func)
    (hrec : inputs = [] ∨ arity = inputs.length) (hw : (Encl.record arity inputs).binders = [a]) (hk : addRecord encl arity inputs = [a])
    (h : addFunc ar (encl ++ [.record arity inputs]) f = some f') (hc : f.isCtor = false) (ha : a ∉ f.inputs)
    (k : Kind) (l : List Name) (t : Ty) (ps : List Param) (hps : f.params = ⟨sThis, true, .ptr k l t⟩ :: ps)
    (hann : annotations f = []) (x s : List Name) (hr : retTop ar f.ret = some x) (ht : topSlot ar false t = some s) :
    retTop ar f'.ret = some [a] ∧ ∃ p k' l' t' rest, f'.params = p :: rest ∧ p.ty = .ptr k' l' t' ∧ topSlot ar false t' = some [a] := by
  have hex : ∃ p ∈ f.params, p.bound = true := ⟨_, by rw [hps]; exact List.mem_cons_self, rfl⟩
  have hnames := record_names_agree encl arity inputs hrec
  have har := retTop_arity hr
  rw [hk] at hnames
  rw [addFunc_eq] at h
  simp only [Option.map_eq_some_iff] at h
  obtain ⟨g, hg, rfl⟩ := h
  rw [hnames] at hg
  obtain ⟨rl0, rl, hs, hrl, happ, hret⟩ := lower_spec hg hex
  obtain ⟨s1, s2, s3, -⟩ := scan_spec _ _ _ _ _ _ _ hs
  have hrl0 : rl0 = [] := by
    refine Decidable.byContradiction fun hne => ?_
    have hm : rl0 ∈ annotations f := by
      unfold annotations
      rw [List.mem_filter]
      refine ⟨?_, by simpa using hne⟩
      rcases s3 with e | e | ⟨p, hp, hb, e⟩
      · exact absurd e hne
      · rw [e]; exact List.mem_cons_self
      · refine List.mem_cons_of_mem _ (List.mem_map.mpr ⟨p, List.mem_filter.mpr ⟨hp, ?_⟩, e⟩)
        rcases hb with hb | hb
        · exact hb
        · rw [show f.isCtor = true from hb] at hc; cases hc
    rw [hann] at hm; simp at hm
  subst hrl0
  have hrla : rl = [a] := by
    unfold boundLts chooseBound at hrl
    rw [if_pos rfl, if_neg (by simp [hc])] at hrl
    simp only [hps] at hrl
    rw [if_pos ⟨trivial, trivial⟩, if_pos (by simp)] at hrl
    simpa using hrl.symm
  subst hrla
  rw [if_neg (by simp [hc])] at hret
  obtain ⟨m, hm, hret⟩ := hret
  simp only at hm
  rw [har] at hm
  simp only [Option.some.injEq] at hm
  subst hm
  simp only [List.length_singleton, ne_eq, not_true_eq_false, if_false] at hret
  obtain ⟨hlen, hap⟩ := apply_spec happ
  obtain ⟨g0, gs, hgp⟩ : ∃ g0 gs, g.params = g0 :: gs := by
    simp only [hps] at hlen
    cases e : g.params with
    | nil => rw [e] at hlen; simp at hlen
    | cons g0 gs => exact ⟨g0, gs, rfl⟩
  obtain ⟨hgn, -, hgt⟩ := hap 0 ⟨sThis, true, .ptr k l t⟩ g0 (by simp [hps]) (by simp [hgp])
  have hgt := hgt rfl ⟨by simp [hps], by simp, by simp⟩
  have hg0 : g0.ty = .ptr k l (t.setLts [a]) := by
    simp only [injectThis] at hgt
    split at hgt
    · cases hgt
    · simpa using hgt.symm
  -- the name `a`
  have hids : (encl ++ [Encl.record arity inputs]).flatMap Encl.binders = encl.flatMap Encl.binders ++ [a] := by
    simp [hw]
  obtain ⟨-, -, -, -, -, hcn, -, -⟩ := binders_spec (encl.flatMap Encl.binders) []
  have hka : ((Ctx.new.pushAll (encl.flatMap Encl.binders)).2.push a).1 = a := by
    have : (bindEnclosing .new [] (encl ++ [.record arity inputs])).1 = [a] := hnames
    rw [bindEnclosing_append] at this
    have hb2 : bindItem (bindEnclosing Ctx.new [] encl).2 (Encl.record arity inputs) = (bindEnclosing Ctx.new [] encl).2.pushAll (Encl.record arity inputs).binders := rfl
    rw [hb2, hw, bindEnclosing_ctx] at this
    simpa [Ctx.pushAll] using this
  have hau : a ≠ sUnknown := by
    have := fresh_not_mem (Ctx.new.pushAll (encl.flatMap Encl.binders)).2 a
    rw [hcn] at this
    intro e
    have e2 : (Ctx.new.pushAll (encl.flatMap Encl.binders)).2.fresh a = a := hka
    rw [e2, e] at this
    simp at this
  obtain ⟨ρ, extra, fs, h1, h2, h3, h4, h5, h6, h7, h8, h9, -⟩ :=
    after_lower ar ((encl ++ [Encl.record arity inputs]).flatMap Encl.binders) f.inputs f.isCtor g.params g.ret
  have hρ : ρ a = a := by
    refine h3 a a ?_
    rw [lookup_pushAll _ _ _ ha, hids, pushAll_append]
    simp only [Ctx.pushAll, lookup_push, if_true, hka]
  refine ⟨?_, ?_⟩
  · rw [hret] at h9
    have := retTop_out hr h9 (by rw [hρ]; exact hau)
    rw [hρ] at this
    simpa [hret] using this
  · simp only
    generalize (addParams ar f.isCtor true (.unseen, .unseen) _ g.params).1 = qs at h5 h7 ⊢
    cases qs with
    | nil => rw [hgp] at h7; simp [paramShapes] at h7
    | cons q qs =>
      obtain ⟨hqn, fs', hf⟩ := filled_param h5 h7 0 g0 q (by simp [hgp]) rfl
      have hth : isThisParam f.isCtor (true && decide (0 = 0)) g0 = true := by
        simp [isThisParam, hgn, hc]
      rw [hth, hg0] at hf
      rw [hgp] at h7
      simp only [paramShapes, List.cons.injEq, Prod.mk.injEq] at h7
      have hsh := h7.1.2.2
      have hth0 : isThisParam f.isCtor true g0 = true := by simpa using hth
      have hthq : isThisParam f.isCtor true q = true := by
        unfold isThisParam at hth0 ⊢; rw [hqn]; exact hth0
      rw [hthq, hth0, if_pos rfl, if_pos rfl, hg0] at hsh
      obtain ⟨qn, qb, qt⟩ := q
      cases qt with
      | ptr k' l' t' =>
        simp only [Ty.erase, Ty.asRef, Ty.ptr.injEq, true_and] at hsh
        simp only [inputSlots, true_or, if_true] at hf
        obtain ⟨f1, f2, hf1, -⟩ := hf.split (slots_length _ _ false hsh.symm)
        have hts := topSlot_setLts (l := [a]) ht
        obtain ⟨n, hn, hsl⟩ := hf1.last _ hts
        simp only [SlotAfter, hρ, if_neg hau] at hsl
        subst hsl
        simp only [promoteThis]
        split
        · exact ⟨_, _, _, _, _, rfl, rfl, hn⟩
        · exact ⟨_, _, _, _, _, rfl, rfl, hn⟩
      | _ => simp [Ty.erase, Ty.asRef] at hsh

theorem scan_accepts (isCtor : Bool) (a : List Name) : ∀ (ps : List Param) (first : Bool) (rl : List Name) (h0 : Bool), (rl = [] ∨ rl = a) →
    (isCtor = false ∨ first = false) → (∀ p ∈ ps, p.bound = true → p.ty.lts = [] ∨ p.ty.lts = a) → ∃ r, scanBound isCtor first (rl, h0) ps = some r := by
  intro ps
  induction ps with
  | nil => intros; exact ⟨_, rfl⟩
  | cons p ps ih =>
    intro first rl h0 hrl hc hp
    have hps : ∀ q ∈ ps, q.bound = true → q.ty.lts = [] ∨ q.ty.lts = a := fun q hq => hp q (by simp [hq])
    unfold scanBound
    split
    · rename_i hb
      have hb : p.bound = true := by
        rcases hb with hb | hb
        · exact hb
        · rcases hc with hc | hc
          · rw [hc] at hb; exact absurd hb.1 (by simp)
          · rw [hc] at hb; exact absurd hb.2 (by simp)
      have hpl := hp p (by simp) hb
      split
      · exact ih _ _ _ hpl (Or.inr rfl) hps
      · rename_i hne
        split
        · rename_i hmis
          rcases hpl with e | e
          · exact absurd e hmis.1
          · exact absurd (e.trans (hrl.resolve_left hne).symm) hmis.2
        · exact ih _ _ _ hrl (Or.inr rfl) hps
    · exact ih _ _ _ hrl (Or.inr rfl) hps

theorem apply_accepts {isCtor isMember : Bool} {names rl : List Name} : ∀ (ps : List Param) (first : Bool), (isMember = false ∨ names = [] ∨ first = false) →
    ∃ r, applyBound isCtor isMember names rl first ps = some r := by
  intro ps
  induction ps with
  | nil => intros; exact ⟨_, rfl⟩
  | cons p ps ih =>
    intro first h
    obtain ⟨r, hr⟩ := ih false (Or.inr (Or.inr rfl))
    have : ∃ q, applyOne isCtor isMember names rl first p = some q := by
      unfold applyOne
      split
      · split
        · rename_i hx
          rcases h with h | h | h
          · rw [h] at hx; exact absurd hx.1 (by simp)
          · exact absurd h hx.2.2
          · rw [h] at hx; exact absurd hx.2.1 (by simp)
        · exact ⟨_, rfl⟩
      · exact ⟨_, rfl⟩
    obtain ⟨q, hq⟩ := this
    exact ⟨q :: r, by simp [applyBound, hq, hr]⟩

/-- C55: a function that is no constructor and no method of a record with lifetimes is accepted if the annotations on its bound
parameters and its result agree and the result is a type with known lifetimes. -/
theorem lifetimebound_accepted (ar : Arity) (encl : List Encl) (f : Func) (hc : f.isCtor = false) (hrec : recordBinders encl = [])
    (hp : f.params ≠ []) (a : List Name) (ha : ∀ x ∈ annotations f, x = a) (n : Nat) (hr : lifetimeArity ar f.ret = some n) :
    ∃ f', addFunc ar encl f = some f' := by
  have hnames := enclosing_names encl
  rw [hrec] at hnames
  have hnames := List.length_eq_zero_iff.mp hnames
  rw [addFunc_eq, hnames]
  simp only
  have hmem : ∀ x, x ≠ [] → (x = f.ret.lts ∨ ∃ p ∈ f.params, p.bound = true ∧ p.ty.lts = x) → x = a := by
    intro x hx h
    refine ha x ?_
    unfold annotations
    rw [List.mem_filter]
    refine ⟨?_, by simpa using hx⟩
    rcases h with e | ⟨p, hp, hb, e⟩
    · rw [e]; exact List.mem_cons_self
    · exact List.mem_cons_of_mem _ (List.mem_map.mpr ⟨p, List.mem_filter.mpr ⟨hp, hb⟩, e⟩)
  obtain ⟨⟨rl0, has⟩, hs⟩ := scan_accepts f.isCtor a f.params true f.ret.lts false
    (by
      by_cases e : f.ret.lts = []
      · exact Or.inl e
      · exact Or.inr (hmem _ e (Or.inl rfl)))
    (Or.inl hc)
    (fun p hp hb => by
      by_cases e : p.ty.lts = []
      · exact Or.inl e
      · exact Or.inr (hmem _ e (Or.inr ⟨p, hp, hb, rfl⟩)))
  suffices h : ∀ c inputs, ∃ g, lower ar c { f with inputs := inputs } [] = some g by
    obtain ⟨g, hg⟩ := h ((Ctx.new.pushAll (List.flatMap Encl.binders encl)).2.pushAll f.inputs).2 ((Ctx.new.pushAll (List.flatMap Encl.binders encl)).2.pushAll f.inputs).1
    rw [hg]; exact ⟨_, rfl⟩
  intro c inputs
  unfold lower
  simp only [hs, Option.bind_eq_bind, Option.bind_some]
  by_cases eh : has = false
  · rw [if_pos eh]; exact ⟨_, rfl⟩
  · rw [if_neg eh]
    have : ∃ rl, boundLts ar c { f with inputs := inputs } [] rl0 = some rl := by
      unfold boundLts
      split
      · unfold chooseBound
        rw [if_neg (by simp [hc])]
        cases e : f.params with
        | nil => exact absurd e hp
        | cons t ts =>
          simp only
          split
          · rw [if_neg (by simp)]
            split <;> exact ⟨_, rfl⟩
          · rw [hr]; exact ⟨_, rfl⟩
      · exact ⟨_, rfl⟩
    obtain ⟨rl, hrl⟩ := this
    obtain ⟨ps, hps⟩ := apply_accepts (isCtor := f.isCtor) (isMember := (f.params.head?.map (·.name)) = some sThis) (names := []) (rl := rl) f.params true (Or.inr (Or.inl rfl))
    rw [hrl, Option.bind_some, hps, Option.bind_some, if_neg (by simp [hc]), hr]
    exact ⟨_, rfl⟩

/-! ### Cases -/

private def A1 : Arity := fun id => if id = 7 then some 1 else if id = 0 then some 0 else none
private def na : Name := ['a']
private def nb : Name := ['b']
private def int : Ty := .prim []
private def ref (l : List Name) : Ty := .ptr .lvalueRef l int

/-- Meets the hypotheses of `lifetimes_declared` and `defaults_function`: `int& f(int& a, int b)` gives
`fn f<'a>(a: &'a i32, b: i32) -> &'a i32`. -/
example : addFunc A1 [] ⟨false, [], [⟨na, false, ref []⟩, ⟨nb, false, int⟩], ref []⟩ =
    some ⟨false, [na], [⟨na, false, ref [na]⟩, ⟨nb, false, int⟩], ref [na]⟩ := by decide

/-- Two references: the result is a raw pointer. -/
example : addFunc A1 [] ⟨false, [], [⟨na, false, ref []⟩, ⟨nb, false, ref []⟩], ref []⟩ =
    some ⟨false, [na, nb], [⟨na, false, ref [na]⟩, ⟨nb, false, ref [nb]⟩], .ptr .nonNull [] int⟩ := by decide

/-- Meets the hypotheses of `lifetimebound_unifies` and `lifetimebound_accepted`. -/
example : addFunc A1 [] ⟨false, [], [⟨na, false, ref []⟩, ⟨nb, true, ref []⟩], ref []⟩ =
    some ⟨false, [na, sRv], [⟨na, false, ref [na]⟩, ⟨nb, true, ref [sRv]⟩], ref [sRv]⟩ := by decide

/-- Meets the hypotheses of `lifetimebound_conflict`. -/
example : addFunc A1 [] ⟨false, [], [⟨na, true, ref [na]⟩, ⟨nb, true, ref [nb]⟩], ref []⟩ = none := by decide

/-- Meets the hypotheses of `lifetimebound_view`: a method of a record with the lifetime `a`. -/
example : addFunc A1 [.record 1 [na]] ⟨false, [], [⟨sThis, true, .ptr .nullable [] (.decl 7 [])⟩], ref []⟩ =
    some ⟨false, [sThis], [⟨sThis, true, .ptr .lvalueRef [sThis] (.decl 7 [na])⟩], ref [na]⟩ ∧ addRecord [] 1 [na] = [na] := by decide

/-! ### What does not hold -/

/-- C55: a record nested in a record, both with an unnamed lifetime. The inner record declares `__implicit_0`, but a bound
method of it gives `*this` and the result a lifetime of its own, `__implicit_0_0`, as names are renamed twice. -/
theorem nested_records_disagree :
    addRecord [.record 1 []] 1 [] = [numbered sImplicit 0] ∧
    addFunc A1 [.record 1 [], .record 1 []] ⟨false, [], [⟨sThis, true, .ptr .nullable [] (.decl 7 [])⟩], ref []⟩ =
      some ⟨false, [numbered (numbered sImplicit 0) 0, sThis], [⟨sThis, true, .ptr .lvalueRef [sThis] (.decl 7 [numbered (numbered sImplicit 0) 0])⟩],
        ref [numbered (numbered sImplicit 0) 0]⟩ := by decide

/-- C54: a lifetime invented for the parameter `a` captures the undeclared annotation `$a` of a later parameter, which does not
happen if the parameters are in the other order. -/
theorem undeclared_annotation_captured :
    addFunc A1 [] ⟨false, [], [⟨na, false, ref []⟩, ⟨nb, false, ref [na]⟩], int⟩ =
      some ⟨false, [na], [⟨na, false, ref [na]⟩, ⟨nb, false, ref [na]⟩], int⟩ ∧
    addFunc A1 [] ⟨false, [], [⟨nb, false, ref [na]⟩, ⟨na, false, ref []⟩], int⟩ =
      some ⟨false, [na, numbered na 0], [⟨nb, false, ref [na]⟩, ⟨na, false, ref [numbered na 0]⟩], int⟩ := by decide

/-- C53: a result annotated `$unknown` keeps the lifetime `'unknown`, which nobody declares, if it is a reference, but none if
it is a record. -/
theorem unknown_result :
    addFunc A1 [] ⟨false, [], [], ref [sUnknown]⟩ = some ⟨false, [], [], ref [sUnknown]⟩ ∧
    addFunc A1 [] ⟨false, [], [], .decl 7 [sUnknown]⟩ = some ⟨false, [], [], .decl 7 []⟩ := by decide

/-- C53: a reference parameter annotated `$unknown` stays a reference, without a lifetime. -/
theorem unknown_parameter :
    addFunc A1 [] ⟨false, [], [⟨na, false, ref [sUnknown]⟩], int⟩ = some ⟨false, [], [⟨na, false, ref []⟩], int⟩ := by decide

/-- C53: lifetimes below an annotated reference of a result are neither renamed nor declared; the hypothesis `PlainRefs` of
`lifetimes_declared` cannot be dropped. -/
theorem nested_annotation_undeclared :
    addFunc A1 [.record 1 [na]] ⟨false, [na], [], .ptr .lvalueRef [na] (.ptr .lvalueRef [nb] int)⟩ =
      some ⟨false, [numbered na 0], [], .ptr .lvalueRef [numbered na 0] (.ptr .lvalueRef [nb] int)⟩ := by decide

end Verif.Defaults

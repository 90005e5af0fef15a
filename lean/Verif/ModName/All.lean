import Verif.ModName.Resolve

/-!
# The module for the items nested in a C++ class: theorems
-/

namespace Verif.ModName

/-! ## Which uses of a name go together -/

def NoNs (l : List Use) : Prop := ∀ c, Use.namespace c ∉ l
def nonValues (l : List Use) : List Use := l.filter fun u => u != .value

theorem noNs_cons (u : Use) (l : List Use) : NoNs (u :: l) ↔ (∀ c, u ≠ .namespace c) ∧ NoNs l := by
  simp only [NoNs, List.mem_cons, not_or]
  constructor
  · intro h; exact ⟨fun c hc => (h c).1 hc.symm, fun c => (h c).2⟩
  · rintro ⟨h1, h2⟩ c; exact ⟨fun hc => h1 c hc.symm, h2 c⟩

theorem run_ns (c : Nat) : ∀ l : List Use, (State.ns c).run l = true ↔ ∀ u ∈ l, u = .namespace c
  | [] => by simp [State.run]
  | u :: l => by
      cases u with
      | «namespace» d =>
          by_cases h : c = d
          · subst h
            simp [State.run, State.next, run_ns c l]
          · simp [State.run, State.next, h]
            intro h'; exact absurd h'.symm h
      | _ => simp [State.run, State.next]

theorem run_existing : ∀ l : List Use, (State.types .existing).run l = true ↔
    NoNs l ∧ ∀ u ∈ nonValues l, u = .existing
  | [] => by simp [State.run, NoNs, nonValues]
  | u :: l => by
      have ih := run_existing l
      rw [noNs_cons]
      cases u <;> simp [State.run, State.next, ih, nonValues]

theorem run_defined : ∀ l : List Use, (State.types .defined).run l = true ↔
    NoNs l ∧ ∀ u ∈ nonValues l, u = .declared
  | [] => by simp [State.run, NoNs, nonValues]
  | u :: l => by
      have ih := run_defined l
      rw [noNs_cons]
      cases u <;> simp [State.run, State.next, ih, nonValues]

theorem run_other : ∀ l : List Use, (State.types .other).run l = true ↔ NoNs l ∧ nonValues l = []
  | [] => by simp [State.run, NoNs, nonValues]
  | u :: l => by
      have ih := run_other l
      rw [noNs_cons]
      cases u <;> simp [State.run, State.next, ih, nonValues]

theorem run_declared : ∀ l : List Use, (State.types .declared).run l = true ↔
    NoNs l ∧ TypesOk (.declared :: nonValues l)
  | [] => by simp [State.run, NoNs, nonValues, TypesOk]
  | u :: l => by
      have ih := run_declared l
      have ihd := run_defined l
      rw [noNs_cons]
      cases u with
      | value => simpa [State.run, State.next, nonValues] using ih
      | defined => simp [State.run, State.next, ihd, nonValues, TypesOk]
      | _ => simp [State.run, State.next, nonValues, TypesOk]

theorem typesOk_existing (l : List Use) : TypesOk (.existing :: l) ↔ ∀ u ∈ l, u = .existing := by
  cases l <;> simp [TypesOk]

theorem typesOk_defined (l : List Use) : TypesOk (.defined :: l) ↔ ∀ u ∈ l, u = .declared := by
  cases l <;> simp [TypesOk]

theorem typesOk_other (l : List Use) : TypesOk (.other :: l) ↔ l = [] := by
  cases l <;> simp [TypesOk]

theorem run_value : ∀ l : List Use, State.value.run l = true ↔ NoNs l ∧ TypesOk (nonValues l)
  | [] => by simp [State.run, NoNs, nonValues, TypesOk]
  | u :: l => by
      have ih := run_value l
      rw [noNs_cons]
      cases u with
      | value => simpa [State.run, State.next, nonValues] using ih
      | existing => simpa [State.run, State.next, nonValues, typesOk_existing] using run_existing l
      | defined => simpa [State.run, State.next, nonValues, typesOk_defined] using run_defined l
      | declared => simpa [State.run, State.next, nonValues] using run_declared l
      | other => simpa [State.run, State.next, nonValues, typesOk_other] using run_other l
      | «namespace» c => simp [State.run, State.next]

theorem compatible_iff (l : List Use) :
    Compatible l ↔ match l with
      | [] => True
      | u :: l => u.state.run l = true := by
  cases l with
  | nil => simp [Compatible]
  | cons u l =>
      have hns : ∀ c, (∀ d, u ≠ .namespace d) → ¬ ∀ x ∈ u :: l, x = .namespace c := by
        intro c h h'; exact h c (h' u (by simp))
      show Compatible (u :: l) ↔ u.state.run l = true
      unfold Compatible
      change _ ∨ (NoNs (u :: l) ∧ TypesOk (nonValues (u :: l))) ↔ _
      rw [noNs_cons]
      cases u with
      | «namespace» c =>
          simp only [Use.state, run_ns]
          constructor
          · rintro (⟨d, h⟩ | ⟨⟨h, -⟩, -⟩)
            · have := h (.namespace c) (by simp)
              simp only [Use.namespace.injEq] at this
              subst this
              exact fun x hx => h x (List.mem_cons_of_mem _ hx)
            · exact absurd rfl (h c)
          · intro h
            exact .inl ⟨c, by intro x hx; rcases List.mem_cons.1 hx with rfl | hx; rfl; exact h x hx⟩
      | value =>
          rw [show (Use.value).state = .value from rfl, run_value]
          have := fun c => hns c (by simp)
          simp [nonValues]
      | existing =>
          rw [show (Use.existing).state = .types .existing from rfl, run_existing]
          simp [nonValues, typesOk_existing]
      | defined =>
          rw [show (Use.defined).state = .types .defined from rfl, run_defined]
          simp [nonValues, typesOk_defined]
      | declared =>
          rw [show (Use.declared).state = .types .declared from rfl, run_declared]
          simp [nonValues]
      | other =>
          rw [show (Use.other).state = .types .other from rfl, run_other]
          simp [nonValues, typesOk_other]

/-- Names are resolved, without a panic, exactly if the uses of every name go together. -/
theorem resolves_iff (decl : Nat → Item) (snake : Name → Name) (items : List Item) (hd : ∀ i ∈ items, decl i.id = i) :
    (∃ names, resolveNames decl snake items = some names) ↔ ∀ n, Compatible (uses n items) := by
  have h1 : (∃ names, resolveNames decl snake items = some names) ↔ ∃ m, pass1 decl [] items = some m := by
    simp only [resolveNames, Option.bind_eq_some_iff]
    constructor
    · rintro ⟨_, m, h, _⟩; exact ⟨m, h⟩
    · rintro ⟨m, h⟩
      obtain ⟨m', h'⟩ := pass2_some snake items m
      exact ⟨m', m, h, h'⟩
  rw [h1, (pass1_runs decl items []).1]
  refine forall_congr' fun n => ?_
  rw [compatible_iff]
  have hu : ((items.filter fun i => i.name == n).filter Item.named).map Item.use = uses n items := by
    rw [List.filter_filter]; rfl
  rw [← hu]
  refine runs_start decl n _ ?_
  intro i hi
  simp only [List.mem_filter, beq_iff_eq] at hi
  exact ⟨hd i hi.1, hi.2⟩

/-! ## The modules -/

/-- Pass 1 gives names to items only. -/
theorem pass1_keys (decl : Nat → Item) : ∀ (items : List Item) (m m' : Names), pass1 decl m items = some m' →
    (∀ n, n ∈ AMap.keys m' ↔ n ∈ AMap.keys m ∨ ∃ i ∈ items, i.named = true ∧ i.name = n) ∧
    ((AMap.keys m).Nodup → (AMap.keys m').Nodup)
  | [], m, m', h => by
      simp only [pass1, Option.some.injEq] at h
      subst h; simp
  | i :: is, m, m', h => by
      simp only [pass1] at h
      cases hr : resolved i with
      | none =>
          rw [hr] at h
          have hnm : i.named = false := by rw [← resolved_isSome, hr]; rfl
          obtain ⟨h1, h2⟩ := pass1_keys decl is m m' h
          exact ⟨fun n => by rw [h1]; simp [hnm], h2⟩
      | some r =>
          rw [hr] at h
          have hnm : i.named = true := by rw [← resolved_isSome, hr]; rfl
          simp only at h
          split at h
          · simp at h
          · rename_i m1 hm1
            simp only [insertName, Option.map_eq_some_iff] at hm1
            obtain ⟨v, _, rfl⟩ := hm1
            obtain ⟨h1, h2⟩ := pass1_keys decl is _ m' h
            refine ⟨fun n => ?_, fun hn => h2 (AMap.nodup_insert _ _ _ hn)⟩
            rw [h1, AMap.keys_insert_mem]
            simp only [List.mem_cons, exists_eq_or_imp, hnm, true_and]
            constructor
            · rintro ((rfl | h) | h)
              · exact .inr (.inl rfl)
              · exact .inl h
              · exact .inr (.inr h)
            · rintro (h | h | h)
              · exact .inl (.inr h)
              · exact .inl (.inl h.symm)
              · exact .inr h

theorem pass1_noModules (decl : Nat → Item) : ∀ (items : List Item) (m m' : Names), pass1 decl m items = some m' →
    (∀ n ps, AMap.get? m n ≠ some (.recordNestedItems ps)) → ∀ n ps, AMap.get? m' n ≠ some (.recordNestedItems ps)
  | [], m, m', h, hm => by
      simp only [pass1, Option.some.injEq] at h
      subst h; exact hm
  | i :: is, m, m', h, hm => by
      simp only [pass1] at h
      cases hr : resolved i with
      | none => rw [hr] at h; exact pass1_noModules decl is m m' h hm
      | some r =>
          rw [hr] at h
          simp only at h
          split at h
          · simp at h
          · rename_i m1 hm1
            simp only [insertName, Option.map_eq_some_iff] at hm1
            obtain ⟨v, hv, rfl⟩ := hm1
            refine pass1_noModules decl is _ m' h fun n ps => ?_
            rw [AMap.get?_insert]
            split
            · have hrn : ∀ ps, r ≠ .recordNestedItems ps := by
                intro ps hps
                subst hps
                unfold resolved at hr
                cases ht : i.tag <;> rw [ht] at hr <;> simp at hr
              intro hv'
              simp only [Option.some.injEq] at hv'
              subst hv'
              unfold combine at hv
              split at hv
              · simp only [Option.some.injEq] at hv
                exact hrn _ hv
              · rename_i old ho
                have hold : ∀ ps, old ≠ .recordNestedItems ps := fun ps h => hm _ ps (by rw [ho, h])
                split at hv
                · simp only [Option.some.injEq] at hv; exact hold _ hv
                · simp only [Option.some.injEq] at hv; exact hrn _ hv
                · cases old <;> cases r <;> simp [coalesce] at hv <;> simp_all
            · exact hm n ps

/-- The name of the module of a class is the name reserved for it.  It is the name of no item of the scope, and of
no other module. -/
theorem module_reserved {decl : Nat → Item} {snake : Name → Name} {items : List Item} {names : Names}
    (h : resolveNames decl snake items = some names) (hid : (items.map Item.id).Nodup) {i : Item} (hi : i ∈ items)
    (hn : i.needsModule = true) :
    AMap.get? names (associatedModuleName snake names i) = some (.recordNestedItems [i.id]) ∧
    (∀ j ∈ items, j.named = true → j.name ≠ associatedModuleName snake names i) ∧
    (∀ j ∈ items, j.needsModule = true → j.id ≠ i.id →
      associatedModuleName snake names j ≠ associatedModuleName snake names i) := by
  simp only [resolveNames, Option.bind_eq_some_iff] at h
  obtain ⟨m, h1, h2⟩ := h
  have hno := pass1_noModules decl items [] m h1 (by simp)
  have key : ∀ i ∈ items, i.needsModule = true → ∃ m₁,
      AMap.get? names (moduleName snake m₁ i) = some (.recordNestedItems [i.id]) ∧
      associatedModuleName snake names i = moduleName snake m₁ i ∧
      AMap.get? m₁ (moduleName snake m₁ i) = none ∧ (∀ n v, AMap.get? m n = some v → AMap.get? m₁ n = some v) := by
    intro i hi hn
    obtain ⟨before, after, m₁, hsp, hb, ha⟩ := pass2_module snake items m names h2 i hi hn
    have hf := moduleName_free snake m₁ i
    obtain ⟨k1, k2, -⟩ := pass2_keeps snake after _ names ha
    have hg : AMap.get? names (moduleName snake m₁ i) = some (.recordNestedItems [i.id]) :=
      k1 _ _ (AMap.get?_insert_self _ _ _)
    refine ⟨m₁, hg, ?_, hf, (pass2_keeps snake before m m₁ hb).1⟩
    refine pickName_mono (u := fun n => (AMap.get? m₁ n).isSome) ?_ ?_ ?_
    · intro n hnn
      obtain ⟨v, hv⟩ := Option.isSome_iff_exists.1 hnn
      have hv' : AMap.get? names n = some v := by
        refine k1 n v ?_
        rw [AMap.get?_insert_ne]
        · exact hv
        · rintro rfl; rw [hf] at hv; simp at hv
      unfold usedByOther
      rw [hv']
      cases v with
      | recordNestedItems ps =>
          rcases pass2_adds snake before m m₁ hb n _ hv with h | ⟨j, hj, -, h⟩
          · exact absurd h (hno n ps)
          · simp only [Resolved.recordNestedItems.injEq] at h
            subst h
            have hne : i.id ≠ j.id := by
              rw [hsp] at hid
              simp only [List.map_append, List.map_cons, List.nodup_append] at hid
              exact fun he => hid.2.2 j.id (List.mem_map_of_mem hj) i.id (by simp) he.symm
            simp [hne]
      | _ => rfl
    · rw [insert_length_of_none _ _ _ hf] at k2; omega
    · show usedByOther names i.id (moduleName snake m₁ i) = false
      unfold usedByOther
      rw [hg]
      simp
  obtain ⟨m₁, hg, he, hf, hm⟩ := key i hi hn
  rw [he]
  refine ⟨hg, ?_, ?_⟩
  · intro j hj hjn heq
    have : j.name ∈ AMap.keys m := ((pass1_keys decl items [] m h1).1 j.name).2 (.inr ⟨j, hj, hjn, rfl⟩)
    obtain ⟨v, hv⟩ := (AMap.mem_keys_iff m j.name).1 this
    rw [← heq, hm _ _ hv] at hf
    simp at hf
  · intro j hj hjn hne heq
    obtain ⟨m₂, hg2, he2, -, -⟩ := key j hj hjn
    rw [he2] at heq
    rw [heq, hg] at hg2
    simp only [Option.some.injEq, Resolved.recordNestedItems.injEq, List.cons.injEq, and_true] at hg2
    exact hne hg2.symm

theorem findModule_of {parent : Nat} {n : Name} : ∀ {l : Names}, (n, Resolved.recordNestedItems [parent]) ∈ l →
    (∀ n' ps, (n', Resolved.recordNestedItems ps) ∈ l → parent ∈ ps → n' = n ∧ ps = [parent]) →
    findModule parent l = some (n, [parent])
  | [], h, _ => by simp at h
  | (k, r) :: l, h, hu => by
      have hu' : ∀ n' ps, (n', Resolved.recordNestedItems ps) ∈ l → parent ∈ ps → n' = n ∧ ps = [parent] :=
        fun n' ps h => hu n' ps (List.mem_cons_of_mem _ h)
      cases r with
      | recordNestedItems ps =>
          simp only [findModule]
          split
          · rename_i hp
            obtain ⟨h1, h2⟩ := hu k ps (by simp) hp
            rw [h1, h2]
          · rename_i hp
            refine findModule_of ?_ hu'
            simp only [List.mem_cons, Prod.mk.injEq, Resolved.recordNestedItems.injEq] at h
            rcases h with ⟨-, rfl⟩ | h
            · simp at hp
            · exact h
      | _ =>
          simp only [findModule]
          refine findModule_of ?_ hu'
          simpa using h

theorem get?_of_mem {m : Names} (hn : (AMap.keys m).Nodup) {n : Name} {v : Resolved} (h : (n, v) ∈ m) :
    AMap.get? m n = some v := by
  induction m with
  | nil => simp at h
  | cons p m ih =>
      obtain ⟨k, w⟩ := p
      simp only [AMap.keys, List.map_cons, List.nodup_cons] at hn
      simp only [List.mem_cons, Prod.mk.injEq] at h
      simp only [AMap.get?]
      rcases h with ⟨rfl, rfl⟩ | h
      · simp
      · rw [if_neg]
        · exact ih hn.2 h
        · rintro rfl
          exact hn.1 (List.mem_map.2 ⟨_, h, rfl⟩)

theorem mem_of_get? {m : Names} {n : Name} {v : Resolved} (h : AMap.get? m n = some v) : (n, v) ∈ m := by
  induction m with
  | nil => simp [AMap.get?] at h
  | cons p m ih =>
      obtain ⟨k, w⟩ := p
      simp only [AMap.get?] at h
      split at h
      · rename_i hk
        simp only [Option.some.injEq] at h
        simp [hk, h]
      · exact List.mem_cons_of_mem _ (ih h)

/-- In whatever order the names are enumerated, an item nested in a class of the scope is never refused because of
the module, and the module found is the one that is generated. -/
theorem nested_items_fine {decl : Nat → Item} {snake : Name → Name} {items : List Item} {names : Names}
    (h : resolveNames decl snake items = some names) (hid : (items.map Item.id).Nodup) {i : Item} (hi : i ∈ items)
    (ht : i.tag = .record) {child : Tag} (hc : child ∈ i.children) {order : Names} (ho : order.Perm names) :
    nestedVerdict i.id child order = .fine ∧
      (placed child = true → findModule i.id order = some (associatedModuleName snake names i, [i.id])) := by
  unfold nestedVerdict
  by_cases hp : placed child = true
  · have hn : i.needsModule = true := (needsModule_iff i).1 ⟨ht, List.any_eq_true.2 ⟨child, hc, hp⟩⟩
    obtain ⟨hg, -, -⟩ := module_reserved h hid hi hn
    have hall : ∀ n ps, AMap.get? names n = some (.recordNestedItems ps) →
        ∃ j ∈ items, j.needsModule = true ∧ ps = [j.id] := by
      intro n ps hps
      simp only [resolveNames, Option.bind_eq_some_iff] at h
      obtain ⟨m, h1, h2⟩ := h
      rcases pass2_adds snake items m names h2 n _ hps with h3 | ⟨j, hj, hjn, h3⟩
      · exact absurd h3 (pass1_noModules decl items [] m h1 (by simp) n ps)
      · exact ⟨j, hj, hjn, by simpa using h3⟩
    have hnd : (AMap.keys names).Nodup := by
      simp only [resolveNames, Option.bind_eq_some_iff] at h
      obtain ⟨m, h1, h2⟩ := h
      exact (pass2_keeps snake items m names h2).2.2 ((pass1_keys decl items [] m h1).2 (by simp [AMap.keys]))
    -- a module of the class has the name of the module of the class
    have huniq : ∀ n ps, AMap.get? names n = some (.recordNestedItems ps) → i.id ∈ ps →
        n = associatedModuleName snake names i ∧ ps = [i.id] := by
      intro n ps hps hmem
      obtain ⟨j, hj, hjn, rfl⟩ := hall n ps hps
      simp only [List.mem_singleton] at hmem
      refine ⟨?_, by rw [hmem]⟩
      rw [← hmem] at hps
      simp only [resolveNames, Option.bind_eq_some_iff] at h
      obtain ⟨m, h1, h2⟩ := h
      obtain ⟨before, after, m₁, hsp, hb, ha⟩ := pass2_module snake items m names h2 i hi hn
      have hfree := moduleName_free snake m₁ i
      rw [hsp] at hid
      simp only [List.map_append, List.map_cons, List.nodup_append, List.nodup_cons] at hid
      obtain ⟨k1, k2, -⟩ := pass2_keeps snake after _ names ha
      have hmod : AMap.get? names (moduleName snake m₁ i) = some (.recordNestedItems [i.id]) :=
        k1 _ _ (AMap.get?_insert_self _ _ _)
      have only : ∀ n', AMap.get? names n' = some (.recordNestedItems [i.id]) → n' = moduleName snake m₁ i := by
        intro n' hn'
        rcases pass2_adds snake after _ names ha n' _ hn' with h3 | ⟨j', hj', -, h3⟩
        · rw [AMap.get?_insert] at h3
          split at h3
          · rename_i he; exact he.symm
          · rcases pass2_adds snake before m m₁ hb n' _ h3 with h4 | ⟨j', hj', -, h4⟩
            · exact absurd h4 (pass1_noModules decl items [] m h1 (by simp) n' _)
            · simp only [Resolved.recordNestedItems.injEq, List.cons.injEq, and_true] at h4
              exact absurd h4.symm (hid.2.2 j'.id (List.mem_map_of_mem hj') i.id (by simp))
        · simp only [Resolved.recordNestedItems.injEq, List.cons.injEq, and_true] at h3
          exact absurd (h3 ▸ List.mem_map_of_mem hj') hid.2.1.1
      rw [only n hps, only _ hg]
    have hfind : findModule i.id order = some (associatedModuleName snake names i, [i.id]) := by
      refine findModule_of (ho.mem_iff.2 (mem_of_get? hg)) ?_
      intro n' ps hm hmem
      exact huniq n' ps (get?_of_mem hnd (ho.mem_iff.1 hm)) hmem
    rw [if_pos hp, hfind]
    exact ⟨by simp, fun _ => rfl⟩
  · rw [if_neg hp]
    exact ⟨rfl, fun h => absurd h hp⟩

/-- For any class, the module name is used neither by an item nor as the module of another class that needs one. -/
theorem module_free {snake : Name → Name} {names : Names} {i : Item} :
    match AMap.get? names (associatedModuleName snake names i) with
    | none => True
    | some r => ∃ ps, r = .recordNestedItems ps ∧ i.id ∈ ps := by
  have hlen : (AMap.keys names).length = names.length := by simp [AMap.keys]
  have := pickName_free (usedByOther names i.id) (AMap.keys names) (by
    intro n hn
    unfold usedByOther at hn
    cases hg : AMap.get? names n with
    | none => rw [hg] at hn; simp at hn
    | some v => exact (AMap.mem_keys_iff names n).2 ⟨v, hg⟩) (baseName snake i.name)
  rw [hlen] at this
  change usedByOther names i.id (associatedModuleName snake names i) = false at this
  unfold usedByOther at this
  cases hg : AMap.get? names (associatedModuleName snake names i) with
  | none => trivial
  | some v =>
      rw [hg] at this
      cases v with
      | recordNestedItems ps => exact ⟨ps, rfl, by simpa using this⟩
      | _ => simp at this

end Verif.ModName

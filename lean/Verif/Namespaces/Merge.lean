import Verif.Namespaces.Spec
/- Merging namespace hierarchies: properties C30, C31. -/
namespace Verif.Namespaces
open Verif

/-- map keys are the names, at every level, without repetition -/
inductive WF : List (String × Merged) → Prop
  | mk {m : List (String × Merged)} : (AMap.keys m).Nodup → (∀ k c, AMap.get? m k = some c → c.name = k) →
    (∀ (k : String) (c : Merged), AMap.get? m k = some c → WF c.children) → WF m

theorem WF.nodup {m : List (String × Merged)} (h : WF m) : (AMap.keys m).Nodup := by cases h; assumption
theorem WF.name {m : List (String × Merged)} {k : String} {c : Merged} (h : WF m) (hg : AMap.get? m k = some c) : c.name = k := by
  cases h with | mk _ h _ => exact h k c hg
theorem WF.children {m : List (String × Merged)} {k : String} {c : Merged} (h : WF m) (hg : AMap.get? m k = some c) : WF c.children := by
  cases h with | mk _ _ h => exact h k c hg

/-! ### `addChildren` -/

@[simp] theorem addChild_name (s c : Merged) : (addChild s c).name = s.name := by
  obtain ⟨n, ch, ls⟩ := s; obtain ⟨n', ch', ls'⟩ := c; simp [addChild, Merged.name]

@[simp] theorem addChild_labels (s c : Merged) : (addChild s c).labels = s.labels ++ c.labels := by
  obtain ⟨n, ch, ls⟩ := s; obtain ⟨n', ch', ls'⟩ := c; simp [addChild, Merged.labels]

theorem addChild_get (s c : Merged) (k : String) :
    AMap.get? (addChild s c).children k =
      if c.name = k then
        some (match AMap.get? s.children k with | some d => addChildren d c.children | none => c)
      else AMap.get? s.children k := by
  obtain ⟨n, ch, ls⟩ := s; obtain ⟨n', ch', ls'⟩ := c
  simp only [addChild, Merged.children, Merged.name]
  by_cases h : n' = k
  · subst h
    cases hg : AMap.get? ch n' <;> simp [AMap.get?_insert]
  · cases hg : AMap.get? ch n' <;> simp [AMap.get?_insert, h]

theorem addChildren_name (cs : List (String × Merged)) : ∀ s, (addChildren s cs).name = s.name := by
  induction cs with
  | nil => intro s; simp [addChildren]
  | cons p cs ih => intro s; simp [addChildren, ih]

theorem addChildren_labels (cs : List (String × Merged)) : ∀ s l,
    l ∈ (addChildren s cs).labels ↔ l ∈ s.labels ∨ ∃ p ∈ cs, l ∈ p.2.labels := by
  induction cs with
  | nil => intro s l; simp [addChildren]
  | cons p cs ih => intro s l; simp [addChildren, ih, or_assoc]

theorem addChildren_get (cs : List (String × Merged)) (hn : (AMap.keys cs).Nodup)
    (hname : ∀ p ∈ cs, p.2.name = p.1) : ∀ s k,
    AMap.get? (addChildren s cs).children k =
      match AMap.get? cs k with
      | none => AMap.get? s.children k
      | some g => some (match AMap.get? s.children k with | some d => addChildren d g.children | none => g) := by
  induction cs with
  | nil => intro s k; simp [addChildren]
  | cons p cs ih =>
    intro s k
    obtain ⟨kp, c⟩ := p
    have hc : c.name = kp := hname (kp, c) (by simp)
    simp only [AMap.keys, List.map_cons, List.nodup_cons] at hn
    simp only [addChildren, AMap.get?]
    rw [ih hn.2 (fun p hp => hname p (by simp [hp]))]
    rw [addChild_get, hc]
    by_cases h : kp = k
    · subst h
      have : AMap.get? cs kp = none := (AMap.get?_eq_none_iff cs kp).mpr hn.1
      simp [this]
    · simp [h]

theorem get?_of_mem {m : List (String × Merged)} (hn : (AMap.keys m).Nodup) {p : String × Merged} (hp : p ∈ m) : AMap.get? m p.1 = some p.2 := by
  induction m with
  | nil => simp at hp
  | cons q m ih =>
    obtain ⟨a, b⟩ := q
    simp only [AMap.keys, List.map_cons, List.nodup_cons] at hn
    simp only [AMap.get?]
    rcases List.mem_cons.mp hp with rfl | hp'
    · simp
    · have : a ≠ p.1 := by
        intro e; exact hn.1 (e ▸ List.mem_map.mpr ⟨p, hp', rfl⟩)
      simp [this, ih hn.2 hp']

theorem mem_of_get? {m : List (String × Merged)} {k c} (h : AMap.get? m k = some c) : (k, c) ∈ m := by
  induction m with
  | nil => simp at h
  | cons q m ih =>
    obtain ⟨a, b⟩ := q
    simp only [AMap.get?] at h
    split at h
    · simp at h; simp [*]
    · simp [ih h]

theorem WF.names {m : List (String × Merged)} (h : WF m) : ∀ p ∈ m, p.2.name = p.1 := fun p hp => h.name (get?_of_mem h.nodup hp)

/-! ### Paths -/

def Has (m : List (String × Merged)) (p : List String) : Prop := ∃ c, look m p = some c
def LabelAt (m : List (String × Merged)) (p : List String) (l : String) : Prop := ∃ c, look m p = some c ∧ l ∈ c.labels

theorem Has.nil (m) : ¬ Has m [] := by simp [Has, look]
theorem Has.one (m k) : Has m [k] ↔ ∃ c, AMap.get? m k = some c := by simp [Has, look]
theorem Has.more (m k k' ks) : Has m (k :: k' :: ks) ↔ ∃ c, AMap.get? m k = some c ∧ Has c.children (k' :: ks) := by
  simp only [Has, look]
  cases AMap.get? m k <;> simp
theorem LabelAt.one (m k l) : LabelAt m [k] l ↔ ∃ c, AMap.get? m k = some c ∧ l ∈ c.labels := by simp [LabelAt, look]
theorem LabelAt.more (m k k' ks l) : LabelAt m (k :: k' :: ks) l ↔ ∃ c, AMap.get? m k = some c ∧ LabelAt c.children (k' :: ks) l := by
  simp only [LabelAt, look]
  cases AMap.get? m k <;> simp

theorem LabelAt.has {m p l} (h : LabelAt m p l) : Has m p := by obtain ⟨c, h, -⟩ := h; exact ⟨c, h⟩

/-- labels of the children of a node, as label at paths one longer -/
theorem child_labels {m : List (String × Merged)} (hn : (AMap.keys m).Nodup) (l : String) :
    (∃ p ∈ m, l ∈ p.2.labels) ↔ ∃ k, LabelAt m [k] l := by
  constructor
  · rintro ⟨p, hp, hl⟩; exact ⟨p.1, (LabelAt.one ..).mpr ⟨p.2, get?_of_mem hn hp, hl⟩⟩
  · rintro ⟨k, h⟩
    obtain ⟨c, hc, hl⟩ := (LabelAt.one ..).mp h
    exact ⟨(k, c), mem_of_get? hc, hl⟩

/-- The effect of `addChildren` on paths below the node. -/
theorem addChildren_paths (p : List String) : ∀ (s : Merged) (cs : List (String × Merged)), WF cs →
    (Has (addChildren s cs).children p ↔ Has s.children p ∨ Has cs p) ∧
    (∀ l, LabelAt (addChildren s cs).children p l ↔
      LabelAt s.children p l ∨ (¬ Has s.children p ∧ LabelAt cs p l) ∨
      (Has s.children p ∧ Has cs p ∧ ∃ k, LabelAt cs (p ++ [k]) l)) := by
  induction p with
  | nil => intro s cs _; simp [Has.nil, LabelAt, look]
  | cons k ks ih =>
    intro s cs hw
    have hget := addChildren_get cs hw.nodup hw.names s k
    cases ks with
    | nil =>
      simp only [Has.one, LabelAt.one, hget, List.cons_append, List.nil_append, LabelAt.more]
      cases hg : AMap.get? cs k with
      | none => simp
      | some g =>
        have hwg := hw.children hg
        cases hs : AMap.get? s.children k with
        | none => simp
        | some d =>
          simp only [Option.some.injEq, exists_eq_left', true_or, exists_eq', true_and, not_true_eq_false, false_and, false_or,
            addChildren_labels, child_labels hwg.nodup]
          simp only [LabelAt.one, implies_true]
    | cons k' ks =>
      simp only [Has.more, LabelAt.more, hget, List.cons_append]
      cases hg : AMap.get? cs k with
      | none => simp
      | some g =>
        have hwg := hw.children hg
        cases hs : AMap.get? s.children k with
        | none => simp
        | some d =>
          have := ih d g.children hwg
          simp only [Option.some.injEq, exists_eq_left']
          simpa using this

/-! ### One hierarchy -/

theorem fromJsons_get (label : String) (js : List Json) : ∀ (acc : List (String × Merged)), (js.map Json.name).Nodup →
    ∀ k, AMap.get? (fromJsons label acc js) k =
      match js.find? (fun j => j.name = k) with
      | some j => some (fromJson label j)
      | none => AMap.get? acc k := by
  induction js with
  | nil => intro acc _ k; simp [fromJsons]
  | cons j js ih =>
    intro acc hn k
    obtain ⟨n, cs⟩ := j
    simp only [List.map_cons, List.nodup_cons] at hn
    simp only [fromJsons]
    rw [ih _ hn.2, AMap.get?_insert]
    have hnm : (Json.mk n cs).name = n := rfl
    rw [hnm] at hn
    simp only [List.find?_cons, hnm]
    by_cases h : n = k
    · subst h
      have : js.find? (fun j => decide (Json.name j = n)) = none := by
        rw [List.find?_eq_none]
        intro j hj; simp
        intro he; exact hn.1 (List.mem_map.mpr ⟨j, hj, he⟩)
      simp [this]
    · simp [h]

theorem fromJsons_nodup (label : String) (js : List Json) : ∀ (acc : List (String × Merged)), (AMap.keys acc).Nodup →
    (AMap.keys (fromJsons label acc js)).Nodup := by
  induction js with
  | nil => intro acc h; simpa [fromJsons]
  | cons j js ih => intro acc h; obtain ⟨n, cs⟩ := j; simp only [fromJsons]; exact ih _ (AMap.nodup_insert _ _ _ h)

theorem fromJson_children (label : String) (j : Json) : (fromJson label j).children = fromJsons label [] j.children := by
  obtain ⟨n, cs⟩ := j; simp [fromJson, Merged.children, Json.children]
theorem fromJson_name (label : String) (j : Json) : (fromJson label j).name = j.name := by
  obtain ⟨n, cs⟩ := j; simp [fromJson, Merged.name, Json.name]
theorem fromJson_labels (label : String) (j : Json) : (fromJson label j).labels = [label] := by
  obtain ⟨n, cs⟩ := j; simp [fromJson, Merged.labels]

theorem fromJsons_WF {js : List Json} (h : Distinct js) (label : String) : WF (fromJsons label [] js) := by
  induction h with
  | @mk js hn _ ih =>
    have key : ∀ k c, AMap.get? (fromJsons label [] js) k = some c → c.name = k ∧ WF c.children := by
      intro k c hg
      rw [fromJsons_get label js [] hn] at hg
      cases hf : js.find? (fun j => j.name = k) with
      | none => simp [hf] at hg
      | some j =>
        simp [hf] at hg
        subst hg
        have hj := List.mem_of_find?_eq_some hf
        have hk : j.name = k := by simpa using List.find?_some hf
        rw [fromJson_name, fromJson_children]
        exact ⟨hk, ih j hj⟩
    exact .mk (fromJsons_nodup label js [] (by simp [AMap.keys])) (fun k c hg => (key k c hg).1) (fun k c hg => (key k c hg).2)

theorem find_name {js : List Json} (hn : (js.map Json.name).Nodup) {j} (hj : j ∈ js) :
    js.find? (fun i => i.name = j.name) = some j := by
  induction js with
  | nil => simp at hj
  | cons i js ih =>
    simp only [List.map_cons, List.nodup_cons] at hn
    simp only [List.find?_cons]
    rcases List.mem_cons.mp hj with rfl | hj
    · simp
    · have : i.name ≠ j.name := by intro e; exact hn.1 (e ▸ List.mem_map.mpr ⟨j, hj, rfl⟩)
      simp [this, ih hn.2 hj]

theorem declares_iff (js : List Json) (p : List String) :
    Declares js p ↔ ∃ j ∈ js, ∃ q, p = j.name :: q ∧ (q = [] ∨ Declares j.children q) := by
  constructor
  · rintro (⟨hj⟩ | ⟨hj, hd⟩)
    · exact ⟨_, hj, [], rfl, .inl rfl⟩
    · exact ⟨_, hj, _, rfl, .inr hd⟩
  · rintro ⟨j, hj, q, rfl, rfl | hd⟩
    · exact .here hj
    · exact .inside hj hd

theorem fromJsons_paths (p : List String) : ∀ (js : List Json) (label : String), Distinct js →
    (Has (fromJsons label [] js) p ↔ Declares js p) ∧
    (∀ l, LabelAt (fromJsons label [] js) p l ↔ l = label ∧ Declares js p) := by
  induction p with
  | nil =>
    intro js label _
    have : ¬ Declares js [] := by rw [declares_iff]; rintro ⟨j, -, q, h, -⟩; simp at h
    simp [Has.nil, LabelAt, look, this]
  | cons k ks ih =>
    intro js label hd
    have hd' := hd
    cases hd' with
    | mk hn hc =>
    have hget := fromJsons_get label js [] hn k
    cases hf : js.find? (fun j => j.name = k) with
    | none =>
      simp only [hf, AMap.get?_nil] at hget
      have hno : ∀ q, ¬ Declares js (k :: q) := by
        intro q h
        obtain ⟨j, hj, q', he, -⟩ := (declares_iff ..).mp h
        simp at he
        have := List.find?_eq_none.mp hf j hj
        simp [he.1] at this
      cases ks with
      | nil => simp [Has.one, LabelAt.one, hget, hno]
      | cons k' ks => simp [Has.more, LabelAt.more, hget, hno]
    | some j =>
      simp only [hf] at hget
      have hj := List.mem_of_find?_eq_some hf
      have hk : j.name = k := by simpa using List.find?_some hf
      subst hk
      cases ks with
      | nil => simp [Has.one, LabelAt.one, hget, Declares.here hj, fromJson_labels]
      | cons k' ks =>
        have hiff : Declares js (j.name :: k' :: ks) ↔ Declares j.children (k' :: ks) := by
          constructor
          · intro h
            obtain ⟨j', hj', q, he, hq⟩ := (declares_iff ..).mp h
            simp at he
            have e1 := find_name hn hj'
            rw [← he.1, hf] at e1
            simp at e1; subst e1
            rw [← he.2] at hq
            simpa using hq
          · exact .inside hj
        have := ih j.children label (hc j hj)
        simp only [Has.more, LabelAt.more, hget, Option.some.injEq, exists_eq_left', fromJson_children, hiff]
        exact this

/-! ### Merging hierarchies -/

/-- top-level map entries are named by their key -/
def TopNames (m : List (String × Merged)) : Prop := ∀ k c, AMap.get? m k = some c → c.name = k

theorem merge_get (g : List (String × Merged)) (hn : (AMap.keys g).Nodup) (hname : ∀ p ∈ g, p.2.name = p.1) :
    ∀ f, TopNames f → ∃ r, merge f g = some r ∧ TopNames r ∧ ∀ k, AMap.get? r k =
      match AMap.get? g k with
      | none => AMap.get? f k
      | some c => some (match AMap.get? f k with
        | some d => addChildren (.mk d.name d.children (d.labels ++ c.labels)) c.children
        | none => c) := by
  induction g with
  | nil => intro f hf; exact ⟨f, by simp [merge], hf, by simp⟩
  | cons p g ih =>
    intro f hf
    obtain ⟨kp, c⟩ := p
    have hc : c.name = kp := hname (kp, c) (by simp)
    simp only [AMap.keys, List.map_cons, List.nodup_cons] at hn
    have hnone : AMap.get? g kp = none := (AMap.get?_eq_none_iff g kp).mpr hn.1
    simp only [merge]
    cases hg : AMap.get? f kp with
    | none =>
      obtain ⟨r, h1, h2, h3⟩ := ih hn.2 (fun p hp => hname p (by simp [hp])) (AMap.insert f kp c) (by
        intro k d hd; rw [AMap.get?_insert] at hd
        split at hd
        · simp at hd; subst hd; rw [hc]; assumption
        · exact hf k d hd)
      refine ⟨r, h1, h2, fun k => ?_⟩
      rw [h3, AMap.get?_insert]
      simp only [AMap.get?]
      by_cases h : kp = k
      · subst h; simp [hnone, hg]
      · simp [h]
    | some d =>
      have hdn := hf kp d hg
      have hm : mergeNs d c = some (addChildren (.mk d.name d.children (d.labels ++ c.labels)) c.children) := by
        simp [mergeNs, hdn, hc]
      simp only [hm]
      obtain ⟨r, h1, h2, h3⟩ := ih hn.2 (fun p hp => hname p (by simp [hp])) (AMap.insert f kp (addChildren (.mk d.name d.children (d.labels ++ c.labels)) c.children)) (by
        intro k d' hd; rw [AMap.get?_insert] at hd
        split at hd
        · simp only [Option.some.injEq] at hd; subst hd
          rw [addChildren_name]; simp [Merged.name] at hdn ⊢; rw [hdn]; assumption
        · exact hf k d' hd)
      refine ⟨r, h1, h2, fun k => ?_⟩
      rw [h3, AMap.get?_insert]
      simp only [AMap.get?]
      by_cases h : kp = k
      · subst h; simp [hnone, hg]
      · simp [h]

theorem merge_paths (f g : List (String × Merged)) (hf : TopNames f) (hg : WF g) :
    ∃ r, merge f g = some r ∧ TopNames r ∧ ∀ p,
      (Has r p ↔ Has f p ∨ Has g p) ∧
      ∀ l, LabelAt r p l ↔ LabelAt f p l ∨ (¬ Has f p ∧ LabelAt g p l) ∨
        (Has f p ∧ Has g p ∧ ((p.length = 1 ∧ LabelAt g p l) ∨ ∃ k, LabelAt g (p ++ [k]) l)) := by
  obtain ⟨r, h1, h2, h3⟩ := merge_get g hg.nodup hg.names f hf
  refine ⟨r, h1, h2, fun p => ?_⟩
  cases p with
  | nil => simp [Has.nil, LabelAt, look]
  | cons k ks =>
    have hget := h3 k
    cases ks with
    | nil =>
      simp only [Has.one, LabelAt.one, hget, List.cons_append, List.nil_append, LabelAt.more]
      cases hgk : AMap.get? g k with
      | none => simp
      | some c =>
        have hwc := hg.children hgk
        cases hfk : AMap.get? f k with
        | none => simp
        | some d =>
          simp only [Option.some.injEq, exists_eq_left', true_or, exists_eq', true_and, not_true_eq_false, false_and, false_or,
            addChildren_labels, child_labels hwc.nodup]
          intro l
          simp [or_assoc, Merged.labels, LabelAt.one]
    | cons k' ks =>
      simp only [Has.more, LabelAt.more, hget, List.cons_append, List.length_cons]
      cases hgk : AMap.get? g k with
      | none => simp
      | some c =>
        have hwc := hg.children hgk
        cases hfk : AMap.get? f k with
        | none => simp
        | some d =>
          have := addChildren_paths (k' :: ks) (.mk d.name d.children (d.labels ++ c.labels)) c.children hwc
          simp only [Option.some.injEq, exists_eq_left']
          simpa [Merged.children] using this

/-- `h` contributes its label at `p`, given the targets merged before it. -/
def Contributes (pre : List Hierarchy) (h : Hierarchy) (p : List String) : Prop :=
  h.declares p ∧ (p.length = 1 ∨ (∃ k, h.declares (p ++ [k])) ∨ ∀ h' ∈ pre, ¬ h'.declares p)

theorem mergeRest_spec (hs : List Hierarchy) : ∀ (pre : List Hierarchy) (acc : List (String × Merged)),
    (∀ h ∈ hs, Distinct h.namespaces) → TopNames acc →
    (∀ p, (Has acc p ↔ ∃ h ∈ pre, h.declares p) ∧
      ∀ l, LabelAt acc p l ↔ ∃ a h b, pre = a ++ h :: b ∧ h.label = l ∧ Contributes a h p) →
    ∃ r, mergeRest acc hs = some r ∧ ∀ p, (Has r p ↔ ∃ h ∈ pre ++ hs, h.declares p) ∧
      ∀ l, LabelAt r p l ↔ ∃ a h b, pre ++ hs = a ++ h :: b ∧ h.label = l ∧ Contributes a h p := by
  induction hs with
  | nil => intro pre acc _ _ hinv; exact ⟨acc, by simp [mergeRest], by simpa using hinv⟩
  | cons h hs ih =>
    intro pre acc hd ht hinv
    have hdh := hd h (by simp)
    obtain ⟨r, e1, e2, e3⟩ := merge_paths acc (fromHierarchy h) ht (fromJsons_WF hdh h.label)
    obtain ⟨r', e4, e5⟩ := ih (pre ++ [h]) r (fun x hx => hd x (by simp [hx])) e2 (by
      intro p
      obtain ⟨a1, a2⟩ := hinv p
      obtain ⟨b1, b2⟩ := fromJsons_paths p h.namespaces h.label hdh
      have b3 : ∀ k l, LabelAt (fromHierarchy h) (p ++ [k]) l ↔ l = h.label ∧ Declares h.namespaces (p ++ [k]) :=
        fun k l => (fromJsons_paths (p ++ [k]) h.namespaces h.label hdh).2 l
      obtain ⟨c1, c2⟩ := e3 p
      constructor
      · rw [c1, a1, show Has (fromHierarchy h) p ↔ _ from b1]
        simp only [List.mem_append, List.mem_singleton]
        constructor
        · rintro (⟨x, hx, hxd⟩ | hh)
          · exact ⟨x, .inl hx, hxd⟩
          · exact ⟨h, .inr rfl, hh⟩
        · rintro ⟨x, hx | rfl, hxd⟩
          · exact .inl ⟨x, hx, hxd⟩
          · exact .inr hxd
      · intro l
        rw [c2, a2, a1, show LabelAt (fromHierarchy h) p l ↔ _ from b2 l, show Has (fromHierarchy h) p ↔ _ from b1]
        simp only [b3]
        constructor
        · rintro (⟨a, x, b, rfl, hl, hc⟩ | ⟨hno, rfl, hdd⟩ | ⟨-, hdd, hx⟩)
          · exact ⟨a, x, b ++ [h], by simp, hl, hc⟩
          · exact ⟨pre, h, [], rfl, rfl, hdd, .inr (.inr fun h' hm hd' => hno ⟨h', hm, hd'⟩)⟩
          · rcases hx with ⟨hlen, rfl, -⟩ | ⟨k, rfl, hk⟩
            · exact ⟨pre, h, [], rfl, rfl, hdd, .inl hlen⟩
            · exact ⟨pre, h, [], rfl, rfl, hdd, .inr (.inl ⟨k, hk⟩)⟩
        · rintro ⟨a, x, b, he, hl, hdd, hc⟩
          rcases List.eq_nil_or_concat b with rfl | ⟨b', y, rfl⟩
          · obtain ⟨rfl, hx⟩ := List.append_inj' he rfl
            simp at hx; subst hx
            by_cases hpre : ∃ h' ∈ pre, h'.declares p
            · refine .inr (.inr ⟨hpre, hdd, ?_⟩)
              rcases hc with hc | ⟨k, hk⟩ | hc
              · exact .inl ⟨hc, hl.symm, hdd⟩
              · exact .inr ⟨k, hl.symm, hk⟩
              · obtain ⟨h', hm, hd'⟩ := hpre; exact absurd hd' (hc h' hm)
            · exact .inr (.inl ⟨hpre, hl.symm, hdd⟩)
          · left
            have he' : pre ++ [h] = (a ++ x :: b') ++ [y] := by simpa using he
            obtain ⟨rfl, -⟩ := List.append_inj' he' rfl
            exact ⟨a, x, b', rfl, hl, hdd, hc⟩)
    refine ⟨r', by simp [mergeRest, e1, e4], ?_⟩
    simpa using e5

theorem mergeAll_spec (hs : List Hierarchy) (hne : hs ≠ []) (hd : ∀ h ∈ hs, Distinct h.namespaces) :
    ∃ r, mergeAll hs = some r ∧ ∀ p, (Has r p ↔ ∃ h ∈ hs, h.declares p) ∧
      ∀ l, LabelAt r p l ↔ ∃ a h b, hs = a ++ h :: b ∧ h.label = l ∧ Contributes a h p := by
  cases hs with
  | nil => simp at hne
  | cons h hs =>
    have hdh := hd h (by simp)
    have hw := fromJsons_WF hdh h.label
    obtain ⟨r, h1, h2⟩ := mergeRest_spec hs [h] (fromHierarchy h) (fun x hx => hd x (by simp [hx])) (fun k c hg => hw.name hg) (by
      intro p
      obtain ⟨b1, b2⟩ := fromJsons_paths p h.namespaces h.label hdh
      refine ⟨by simpa [Hierarchy.declares, fromHierarchy] using b1, fun l => ?_⟩
      rw [show LabelAt (fromHierarchy h) p l ↔ _ from b2 l]
      constructor
      · rintro ⟨rfl, hdd⟩
        exact ⟨[], h, [], rfl, rfl, hdd, .inr (.inr (by simp))⟩
      · rintro ⟨a, x, b, he, rfl, hdd, -⟩
        cases a with
        | nil => simp at he; obtain ⟨rfl, rfl⟩ := he; exact ⟨rfl, hdd⟩
        | cons y a => simp at he)
    exact ⟨r, h1, by simpa using h2⟩

/-- C30: merging any non-empty sequence of hierarchies (with distinct sibling names, as
`CollectNamespaces` produces them, see `collect_distinct`) never panics, and a namespace path exists in
the result iff some target declares it. -/
theorem merged_paths (hs : List Hierarchy) (hne : hs ≠ []) (hd : ∀ h ∈ hs, Distinct h.namespaces) :
    ∃ r, mergeAll hs = some r ∧ ∀ p, (look r p).isSome ↔ ∃ h ∈ hs, h.declares p := by
  obtain ⟨r, h1, h2⟩ := mergeAll_spec hs hne hd
  refine ⟨r, h1, fun p => ?_⟩
  rw [← (h2 p).1]; simp [Has, Option.isSome_iff_exists]

/-- C31: the exact set of targets listed at a namespace path of the merged tree: a target is listed
iff it declares the path and (the path is top level, or the target declares something inside it, or
no target merged earlier declares it). -/
theorem merged_labels_exact (hs : List Hierarchy) (hd : ∀ h ∈ hs, Distinct h.namespaces)
    (r : List (String × Merged)) (h : mergeAll hs = some r) (p : List String) (m : Merged) (hm : look r p = some m) (l : String) :
    l ∈ m.labels ↔ ∃ before t after, hs = before ++ t :: after ∧ t.label = l ∧ t.declares p ∧
      (p.length = 1 ∨ (∃ k, t.declares (p ++ [k])) ∨ ∀ t' ∈ before, ¬ t'.declares p) := by
  have hne : hs ≠ [] := by rintro rfl; simp [mergeAll] at h
  obtain ⟨r', h1, h2⟩ := mergeAll_spec hs hne hd
  rw [h] at h1; simp at h1; subst h1
  have := (h2 p).2 l
  simp only [LabelAt, hm, Option.some.injEq, exists_eq_left'] at this
  exact this

/-- C31, consequences: only declaring targets are listed; every declaring target is listed at top
level namespaces and wherever it declares something inside. -/
theorem merged_labels_sound (hs : List Hierarchy) (hd : ∀ h ∈ hs, Distinct h.namespaces)
    (r : List (String × Merged)) (h : mergeAll hs = some r) (p : List String) (m : Merged) (hm : look r p = some m) :
    (∀ l ∈ m.labels, ∃ t ∈ hs, t.label = l ∧ t.declares p) ∧
    (∀ t ∈ hs, t.declares p → (p.length = 1 ∨ ∃ k, t.declares (p ++ [k])) → t.label ∈ m.labels) := by
  constructor
  · intro l hl
    obtain ⟨a, t, b, rfl, h1, h2, -⟩ := (merged_labels_exact hs hd r h p m hm l).mp hl
    exact ⟨t, by simp, h1, h2⟩
  · intro t ht hdd hx
    obtain ⟨a, b, rfl⟩ := List.append_of_mem ht
    refine (merged_labels_exact _ hd r h p m hm _).mpr ⟨a, t, b, rfl, rfl, hdd, ?_⟩
    rcases hx with hx | hx
    · exact .inl hx
    · exact .inr (.inl hx)

/-- C31, defect found: a target that reopens an existing nested namespace without nesting anything
inside it is *not* listed there (its contents are not re-exported): targets `//:x` and `//:y` both
declare `a::b`; the merged `a::b` lists only `//:x`. -/
theorem reopened_leaf_label_lost :
    ∃ (hx hy : Hierarchy) (r : List (String × Merged)) (m : Merged), Distinct hx.namespaces ∧ Distinct hy.namespaces ∧
      hy.declares ["a", "b"] ∧ mergeAll [hx, hy] = some r ∧ look r ["a", "b"] = some m ∧ hy.label ∉ m.labels := by
  have hdist : Distinct [Json.mk "a" [Json.mk "b" []]] := by
    refine .mk (by simp) fun j hj => ?_
    simp at hj; subst hj
    refine .mk (by simp [Json.children]) fun j hj => ?_
    simp [Json.children] at hj; subst hj
    exact .mk (by simp [Json.children]) (by simp [Json.children])
  have hdecl : Declares [Json.mk "a" [Json.mk "b" []]] ["a", "b"] :=
    .inside (j := .mk "a" [.mk "b" []]) (by simp) (.here (j := .mk "b" []) (by simp [Json.children]))
  let hx : Hierarchy := ⟨"//:x", [.mk "a" [.mk "b" []]]⟩
  let hy : Hierarchy := ⟨"//:y", [.mk "a" [.mk "b" []]]⟩
  have hd : ∀ h ∈ [hx, hy], Distinct h.namespaces := by
    intro h hm
    rcases List.mem_cons.mp hm with rfl | hm
    · exact hdist
    · rw [List.mem_singleton.mp hm]; exact hdist
  obtain ⟨r, h1, h2⟩ := merged_paths [hx, hy] (by simp) hd
  have h3 := (h2 ["a", "b"]).mpr ⟨hx, by simp, hdecl⟩
  obtain ⟨m, hm⟩ := Option.isSome_iff_exists.mp h3
  refine ⟨hx, hy, r, m, hdist, hdist, hdecl, h1, hm, fun hl => ?_⟩
  obtain ⟨a, t, b, he, hlab, -, hc⟩ := (merged_labels_exact [hx, hy] hd r h1 ["a", "b"] m hm hy.label).mp hl
  have ha : a = [hx] ∧ t = hy := by
    rcases a with - | ⟨x, - | ⟨y, a⟩⟩
    · simp at he; rw [← he.1] at hlab; simp [hx, hy] at hlab
    · simp at he; exact ⟨by rw [he.1], he.2.1.symm⟩
    · simp at he
  obtain ⟨rfl, rfl⟩ := ha
  rcases hc with hc | ⟨k, hk⟩ | hc
  · simp at hc
  · simp only [Hierarchy.declares, hy, List.cons_append, List.nil_append] at hk
    obtain ⟨j, hj, q, e, hq⟩ := (declares_iff ..).mp hk
    simp at hj; subst hj
    simp [Json.name] at e; subst e
    simp at hq
    obtain ⟨j, hj, q, e, hq⟩ := (declares_iff ..).mp hq
    simp [Json.children] at hj; subst hj
    simp [Json.name] at e; subst e
    simp at hq
    obtain ⟨j, hj, -⟩ := (declares_iff ..).mp hq
    simp [Json.children] at hj
  · exact hc hx (by simp) hdecl

end Verif.Namespaces

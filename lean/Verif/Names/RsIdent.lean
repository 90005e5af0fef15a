import Verif.Names.Escape

/-
Rust identifiers for C++ names and names of targets (C170).
-/

namespace Verif.Names

/-! ### Hyphens -/

/-- The parts, with underscores between. -/
def joined : List Str → Str
  | [] => []
  | a :: ps => a ++ ps.flatMap fun p => "_".toList ++ p

theorem joined_split (cur s : Str) :
    joined (split cur s) = cur ++ s.map (fun c => if c = '-' then '_' else c) := by
  induction s generalizing cur with
  | nil => simp [split, joined]
  | cons c s ih =>
    unfold split
    split
    · have := ih []
      rw [List.map_cons, if_pos (by assumption)]
      cases h : split [] s with
      | nil => exact absurd h (by cases s <;> unfold split <;> (try split) <;> simp_all [split_ne])
      | cons a ps =>
        rw [h] at this
        simp only [joined, List.nil_append] at this
        simp only [joined, List.flatMap_cons]
        rw [List.append_assoc, this]
        rfl
    · rw [ih, List.map_cons, if_neg (by assumption)]
      simp
where
  split_ne : ∀ (s cur : Str), split cur s ≠ []
    | [], cur => by simp [split]
    | c :: s, cur => by
        unfold split
        split
        · simp
        · exact split_ne s _

/-- C170: Hyphens become underscores and everything else stays. -/
theorem hyphens_eq (s : Str) : hyphens s = s.map fun c => if c = '-' then '_' else c := by
  have := joined_split [] s
  rw [List.nil_append] at this
  rw [← this]
  unfold hyphens
  cases split [] s with
  | nil => rfl
  | cons a ps => cases ps with
    | nil => simp [joined]
    | cons b ps => simp [joined]

theorem hyphens_none {s : Str} (h : '-' ∉ s) : hyphens s = s := by
  rw [hyphens_eq]
  conv => rhs; rw [← List.map_id s]
  refine List.map_congr_left fun c hc => ?_
  rw [if_neg]
  · rfl
  · rintro rfl; exact h hc

theorem ident_no {X : Xid} {s : Str} (h : IsIdent X s) : '#' ∉ s ∧ '-' ∉ s := by
  constructor
  · intro hm
    have := ident_cont h _ hm
    rw [X.nohash] at this
    cases this
  · intro hm
    have := ident_cont h _ hm
    rw [X.nohyphen] at this
    cases this

/-! ### Identifiers -/

/-- What is known of syn's keywords: they are those of Rust, with the possible exception of five. -/
def SynKeywords (kw : List Str) : Prop :=
  ∀ w ∈ rustKeywords, w ∉ ["gen", "async", "await", "try", "dyn"] → w.toList ∈ kw

theorem notRaw_listed : ∀ w ∈ notRaw, w ∈ rustKeywords ∧ w ∉ ["gen", "async", "await", "try", "dyn"] := by decide +kernel

theorem special_ident : ∀ w ∈ ["gen", "async", "await", "try", "dyn"].map String.toList,
    w ≠ [] ∧ (∀ c ∈ w, c.isAlpha = true ∨ c = '_') ∧ w ∉ notRaw.map String.toList ∧ '-' ∉ w ∧ '#' ∉ w := by decide +kernel

theorem parse_plain {X : Xid} {kw : List Str} {s : Str} (h : '#' ∉ s) :
    parseIdent X kw s = if IsIdent X s ∧ s ∉ kw then some (.plain s) else none := by
  unfold parseIdent
  split
  · rfl
  · split
    · simp at h
    · rfl

theorem parse_raw {X : Xid} {kw : List Str} (s : Str) :
    parseIdent X kw ("r#".toList ++ s) = if IsIdent X s ∧ s ∉ notRaw.map String.toList then some (.raw s) else none := by
  have : ¬ IsIdent X ("r#".toList ++ s) := fun h => (ident_no h).1 (by simp)
  unfold parseIdent
  rw [if_neg fun h => this h.1]
  rfl

/-- C170: A name is turned into a Rust identifier exactly if it is an identifier after hyphens have become underscores,
and not `crate`, `self`, `super`, `Self` or `_`. -/
theorem rs_ident_iff {X : Xid} {kw : List Str} (hk : SynKeywords kw) {s : Str} (h : '#' ∉ s) :
    (rsIdent X kw s).isSome ↔ IsIdent X (hyphens s) ∧ hyphens s ∉ notRaw.map String.toList := by
  have hh : '#' ∉ hyphens s := by
    rw [hyphens_eq]
    intro hm
    obtain ⟨c, hc, he⟩ := List.mem_map.mp hm
    split at he
    · cases he
    · exact h (he ▸ hc)
  unfold rsIdent
  simp only
  split
  · rename_i hs
    obtain ⟨h1, h2, h3, -, -⟩ := special_ident _ hs
    simp only [Option.isSome_some, true_iff]
    exact ⟨ascii_ident X h1 h2, h3⟩
  · rw [parse_plain hh, parse_raw]
    by_cases hi : IsIdent X (hyphens s)
    · by_cases hn : hyphens s ∈ notRaw.map String.toList
      · obtain ⟨w, hw, e⟩ := List.mem_map.mp hn
        have hkw := hk w (notRaw_listed w hw).1 (notRaw_listed w hw).2
        rw [e] at hkw
        simp [hkw, hn]
      · by_cases hkw : hyphens s ∈ kw <;> simp [hi, hn, hkw]
    · simp [hi]

/-- C170: The identifier is one that Rust accepts, and it stands for the name with hyphens as underscores. -/
theorem rs_ident_valid {X : Xid} {kw : List Str} (hk : SynKeywords kw) {s : Str} (h : '#' ∉ s) {r : RsId}
    (hr : rsIdent X kw s = some r) : r.Valid X ∧ r.name = hyphens s := by
  have hh : '#' ∉ hyphens s := by
    rw [hyphens_eq]
    intro hm
    obtain ⟨c, hc, he⟩ := List.mem_map.mp hm
    split at he
    · cases he
    · exact h (he ▸ hc)
  unfold rsIdent at hr
  simp only at hr
  split at hr
  · rename_i hs
    cases hr
    obtain ⟨h1, h2, h3, -, -⟩ := special_ident _ hs
    exact ⟨⟨ascii_ident X h1 h2, h3⟩, rfl⟩
  · rename_i hs
    rw [parse_plain hh, parse_raw] at hr
    split at hr
    · rename_i hc
      cases hr
      refine ⟨⟨hc.1, fun hm => ?_⟩, rfl⟩
      obtain ⟨w, hw, e⟩ := List.mem_map.mp hm
      by_cases hw' : w ∈ ["gen", "async", "await", "try", "dyn"]
      · exact hs (e ▸ List.mem_map_of_mem hw')
      · exact hc.2 (e ▸ hk w hw hw')
    · rw [Option.none_or] at hr
      split at hr
      · rename_i hc
        cases hr
        exact ⟨hc, rfl⟩
      · cases hr

/-- C170: Names without hyphens that are different stay different. -/
theorem rs_ident_injective {X : Xid} {kw : List Str} (hk : SynKeywords kw) {s t : Str} (hs : '#' ∉ s) (ht : '#' ∉ t)
    (hs' : '-' ∉ s) (ht' : '-' ∉ t) {r r' : RsId} (h1 : rsIdent X kw s = some r) (h2 : rsIdent X kw t = some r')
    (h : r.name = r'.name) : s = t := by
  rw [(rs_ident_valid hk hs h1).2, (rs_ident_valid hk ht h2).2, hyphens_none hs', hyphens_none ht'] at h
  exact h

/-- C170: Every C++ identifier that the importer lets through, except `_`, gets a Rust identifier with this name. -/
theorem imported_name_ok {X : Xid} {kw : List Str} (hk : SynKeywords kw) {s n : Str} (hs : IsIdent X s)
    (hn : importName s = some n) (hu : s ≠ ['_']) : ∃ r, rsIdent X kw n = some r ∧ r.Valid X ∧ r.name = s := by
  have e : n = s := by
    unfold importName at hn
    split at hn
    · cases hn
    · split at hn
      · cases hn
      · exact (Option.some.inj hn).symm
  subst e
  obtain ⟨h1, h2⟩ := ident_no hs
  have hsome : (rsIdent X kw n).isSome := by
    rw [rs_ident_iff hk h1, hyphens_none h2]
    refine ⟨hs, fun hm => ?_⟩
    unfold importName at hn
    split at hn
    · cases hn
    · split at hn
      · cases hn
      · rename_i hx
        simp only [notRaw, List.map_cons, List.map_nil, List.mem_cons, List.not_mem_nil, or_false] at hm
        rcases hm with hm | hm | hm | hm | hm
        · exact hx (.inl hm)
        · exact hx (.inr (.inl hm))
        · exact hx (.inr (.inr (.inl hm)))
        · exact hx (.inr (.inr (.inr hm)))
        · exact hu hm
  obtain ⟨r, hr⟩ := Option.isSome_iff_exists.mp hsome
  refine ⟨r, hr, (rs_ident_valid hk h1 hr).1, ?_⟩
  rw [(rs_ident_valid hk h1 hr).2, hyphens_none h2]

/-- C170: The importer refuses exactly the empty name and those four of the identifiers that have no raw form. -/
theorem import_refuses (s : Str) : importName s = none ↔ s = [] ∨ (s ∈ notRaw.map String.toList ∧ s ≠ ['_']) := by
  unfold importName
  by_cases h : s = []
  · simp [h]
  · rw [if_neg h]
    by_cases h2 : s = "crate".toList ∨ s = "self".toList ∨ s = "super".toList ∨ s = "Self".toList
    · rw [if_pos h2]
      rcases h2 with rfl | rfl | rfl | rfl <;> simp [notRaw]
    · rw [if_neg h2]
      simp only [not_or] at h2
      constructor
      · intro h3; cases h3
      · rintro (h3 | ⟨h3, h4⟩)
        · exact absurd h3 h
        · simp only [notRaw, List.map_cons, List.map_nil, List.mem_cons, List.not_mem_nil, or_false] at h3
          rcases h3 with h3 | h3 | h3 | h3 | h3
          · exact absurd h3 h2.1
          · exact absurd h3 h2.2.1
          · exact absurd h3 h2.2.2.1
          · exact absurd h3 h2.2.2.2
          · exact absurd h3 h4

end Verif.Names

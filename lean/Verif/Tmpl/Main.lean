import Verif.Tmpl.Model

/-
`cc_template!` invocations and the instantiations they ask for (C174).
-/

namespace Verif.Tmpl

/-! ### Names -/

theorem spaced_filter {l : List Str} {s : Str} (h : Spaced l s) : s.filter (· ≠ ' ') = l.flatten.filter (· ≠ ' ') := by
  induction h with
  | nil => rfl
  | space _ ih => rw [List.filter_cons_of_neg (by simp)]; exact ih
  | text _ ih => rw [List.flatten_cons, List.filter_append, List.filter_append, ih]

/-- C174: The name is the text of the tokens without spaces, whatever spaces the printer puts between tokens; so the scanner
and the macro, which have different printers, agree. -/
theorem name_eq {pr : List TT → Str} (h : ∀ ts, Spaced (textsL ts) (pr ts)) (ts : List TT) :
    name pr ts = (textsL ts).flatten.filter (· ≠ ' ') := spaced_filter (h ts)

theorem names_agree {pr pr' : List TT → Str} (h : ∀ ts, Spaced (textsL ts) (pr ts)) (h' : ∀ ts, Spaced (textsL ts) (pr' ts))
    (ts : List TT) : name pr ts = name pr' ts := by
  rw [name_eq h, name_eq h']

/-! ### Scanning -/

theorem asMacro_iff {ts body : List TT} : asMacro (ts.take 3) = some body ↔
    ∃ d post, d ≠ .none ∧ ts = .ident "cc_template".toList :: .punct '!' :: .group d body :: post := by
  constructor
  · intro h
    unfold asMacro at h
    split at h
    · rename_i s d us heq
      split at h
      · rename_i hc
        cases h
        refine ⟨d, ts.drop 3, hc.2, ?_⟩
        conv => lhs; rw [← List.take_append_drop 3 ts, heq, hc.1]
        rfl
      · cases h
    · cases h
  · rintro ⟨d, post, hd, rfl⟩
    simp [asMacro, hd]

theorem mem_add {s : List Str} {n m : Str} : m ∈ add s n ↔ m ∈ s ∨ m = n := by
  unfold add
  split
  · constructor
    · exact .inl
    · rintro (h | rfl)
      · exact h
      · assumption
  · rw [List.mem_cons]; exact or_comm

theorem invokes_cons {t : TT} {ts body : List TT} : Invokes (t :: ts) body ↔
    asMacro (t :: ts.take 2) = some body ∨ (∃ d us, t = .group d us ∧ Invokes us body) ∨ Invokes ts body := by
  constructor
  · intro h
    generalize e : t :: ts = l at h
    cases h with
    | @here pre post _ d hd =>
      cases pre with
      | nil =>
        left
        have : t :: ts.take 2 = (t :: ts).take 3 := rfl
        rw [this, e]
        exact asMacro_iff.mpr ⟨d, post, hd, rfl⟩
      | cons p pre =>
        right; right
        cases e
        exact .here hd
    | inside hm hi =>
      right
      subst e
      rcases List.mem_cons.mp hm with rfl | hm
      · exact .inl ⟨_, _, rfl, hi⟩
      · exact .inr (.inside hm hi)
  · rintro (h | ⟨d, us, rfl, h⟩ | h)
    · have : t :: ts.take 2 = (t :: ts).take 3 := rfl
      rw [this] at h
      obtain ⟨d, post, hd, e⟩ := asMacro_iff.mp h
      rw [e]
      exact Invokes.here (pre := []) hd
    · exact .inside (List.mem_cons_self ..) h
    · cases h with
      | @here pre post _ d hd => exact Invokes.here (pre := t :: pre) hd
      | inside hm hi => exact .inside (List.mem_cons_of_mem _ hm) hi

theorem not_invokes_nil {body : List TT} : ¬ Invokes [] body := by
  intro h
  generalize e : ([] : List TT) = l at h
  cases h with
  | here => simp at e
  | inside hm => subst e; cases hm

mutual
theorem findT_mem (pr : List TT → Str) (acc : List Str) (n : Str) : ∀ t : TT, n ∈ findT pr acc t ↔
    n ∈ acc ∨ ∃ d us body, t = .group d us ∧ Invokes us body ∧ n = name pr body
  | .group d us => by
      rw [findT, find_mem pr acc n us]
      constructor
      · rintro (h | ⟨b, h1, h2⟩)
        · exact .inl h
        · exact .inr ⟨d, us, b, rfl, h1, h2⟩
      · rintro (h | ⟨d', us', b, e, h1, h2⟩)
        · exact .inl h
        · cases e; exact .inr ⟨b, h1, h2⟩
  | .ident s => by
      rw [findT]
      · exact ⟨.inl, fun h => h.elim id (by rintro ⟨d, us, b, e, -⟩; cases e)⟩
      · exact nofun
  | .punct c => by
      rw [findT]
      · exact ⟨.inl, fun h => h.elim id (by rintro ⟨d, us, b, e, -⟩; cases e)⟩
      · exact nofun
  | .lit s => by
      rw [findT]
      · exact ⟨.inl, fun h => h.elim id (by rintro ⟨d, us, b, e, -⟩; cases e)⟩
      · exact nofun
theorem find_mem (pr : List TT → Str) (acc : List Str) (n : Str) : ∀ ts : List TT, n ∈ find pr acc ts ↔
    n ∈ acc ∨ ∃ body, Invokes ts body ∧ n = name pr body
  | [] => by
      rw [find]
      exact ⟨.inl, fun h => h.elim id (by rintro ⟨b, h, -⟩; exact absurd h not_invokes_nil)⟩
  | t :: ts => by
      rw [find, find_mem pr _ n ts, findT_mem pr _ n t]
      have hacc : n ∈ note pr acc (asMacro (t :: ts.take 2)) ↔
          n ∈ acc ∨ ∃ body, asMacro (t :: ts.take 2) = some body ∧ n = name pr body := by
        cases asMacro (t :: ts.take 2) with
        | none => simp [note]
        | some b => simp [note, mem_add]
      rw [hacc]
      constructor
      · rintro (((h | ⟨b, h1, h2⟩) | ⟨d, us, b, e, h1, h2⟩) | ⟨b, h1, h2⟩)
        · exact .inl h
        · exact .inr ⟨b, invokes_cons.mpr (.inl h1), h2⟩
        · exact .inr ⟨b, invokes_cons.mpr (.inr (.inl ⟨d, us, e, h1⟩)), h2⟩
        · exact .inr ⟨b, invokes_cons.mpr (.inr (.inr h1)), h2⟩
      · rintro (h | ⟨b, h1, h2⟩)
        · exact .inl (.inl (.inl h))
        · rcases invokes_cons.mp h1 with h | ⟨d, us, e, h⟩ | h
          · exact .inl (.inl (.inr ⟨b, h, h2⟩))
          · exact .inl (.inr ⟨d, us, b, e, h, h2⟩)
          · exact .inr ⟨b, h, h2⟩
end

theorem add_nodup {s : List Str} {n : Str} (h : s.Nodup) : (add s n).Nodup := by
  unfold add
  split
  · exact h
  · exact List.nodup_cons.mpr ⟨by assumption, h⟩

mutual
theorem findT_nodup (pr : List TT → Str) (acc : List Str) (h : acc.Nodup) : ∀ t : TT, (findT pr acc t).Nodup
  | .group d us => by rw [findT]; exact find_nodup pr acc h us
  | .ident s => by rw [findT]; exact h; exact nofun
  | .punct c => by rw [findT]; exact h; exact nofun
  | .lit s => by rw [findT]; exact h; exact nofun
theorem find_nodup (pr : List TT → Str) (acc : List Str) (h : acc.Nodup) : ∀ ts : List TT, (find pr acc ts).Nodup
  | [] => by rw [find]; exact h
  | t :: ts => by
      rw [find]
      refine find_nodup pr _ (findT_nodup pr _ ?_ t) ts
      unfold note
      split
      · exact add_nodup h
      · exact h
end

theorem files_mem (pr : List TT → Str) (n : Str) : ∀ (files : List (List TT)) (acc : List Str),
    n ∈ files.foldl (find pr) acc ↔ n ∈ acc ∨ ∃ f ∈ files, ∃ body, Invokes f body ∧ n = name pr body
  | [], acc => by simp
  | f :: files, acc => by
      rw [List.foldl_cons, files_mem pr n files, find_mem]
      constructor
      · rintro ((h | ⟨b, h1, h2⟩) | ⟨g, hg, b, h1, h2⟩)
        · exact .inl h
        · exact .inr ⟨f, List.mem_cons_self .., b, h1, h2⟩
        · exact .inr ⟨g, List.mem_cons_of_mem _ hg, b, h1, h2⟩
      · rintro (h | ⟨g, hg, b, h1, h2⟩)
        · exact .inl (.inl h)
        · rcases List.mem_cons.mp hg with rfl | hg
          · exact .inl (.inr ⟨b, h1, h2⟩)
          · exact .inr ⟨g, hg, b, h1, h2⟩

theorem files_nodup (pr : List TT → Str) : ∀ (files : List (List TT)) (acc : List Str), acc.Nodup →
    (files.foldl (find pr) acc).Nodup
  | [], acc, h => h
  | f :: files, acc, h => by
      rw [List.foldl_cons]
      exact files_nodup pr files _ (find_nodup pr acc h f)

variable {pr : List TT → Str} {enum : List Str → List Str} {le : Str → Str → Bool}

/-- C174: The names that are collected are exactly those of the invocations of `cc_template!` in the files. -/
theorem collect_mem (he : ∀ l, (enum l).Perm l) (files : List (List TT)) (n : Str) :
    n ∈ collect pr enum le files ↔ ∃ f ∈ files, ∃ body, Invokes f body ∧ n = name pr body := by
  unfold collect
  rw [List.mem_mergeSort, (he _).mem_iff, files_mem]
  simp

/-- C174: No name is collected twice, and they are in order. -/
theorem collect_sorted (he : ∀ l, (enum l).Perm l) (ht : ∀ a b c, le a b = true → le b c = true → le a c = true)
    (hl : ∀ a b, (le a b || le b a) = true) (files : List (List TT)) :
    (collect pr enum le files).Nodup ∧ (collect pr enum le files).Pairwise fun a b => le a b = true := by
  refine ⟨?_, List.pairwise_mergeSort ht hl _⟩
  unfold collect
  rw [(List.mergeSort_perm _ _).nodup_iff, (he _).nodup_iff]
  exact files_nodup pr files [] .nil

/-- C174: What is collected does not depend on the order of the hash set. -/
theorem collect_deterministic {enum' : List Str → List Str} (he : ∀ l, (enum l).Perm l) (he' : ∀ l, (enum' l).Perm l)
    (ht : ∀ a b c, le a b = true → le b c = true → le a c = true) (hl : ∀ a b, (le a b || le b a) = true)
    (ha : ∀ a b, le a b = true → le b a = true → a = b) (files : List (List TT)) :
    collect pr enum le files = collect pr enum' le files := by
  refine List.Perm.eq_of_pairwise (le := fun a b => le a b = true) (fun a b _ _ => ha a b) (collect_sorted he ht hl files).2
    (collect_sorted he' ht hl files).2 ?_
  unfold collect
  exact (List.mergeSort_perm _ _).trans ((he _).trans ((he' _).symm.trans (List.mergeSort_perm _ _).symm))

/-! ### Expansion -/

theorem lookup_snoc (m : List (Str × Str)) (k v q : Str) : (m ++ [(k, v)]).lookup q =
    (m.lookup q).or (if q = k then some v else none) := by
  induction m with
  | nil =>
    simp only [List.nil_append, List.lookup_cons, List.lookup_nil, Option.none_or]
    by_cases h : q = k
    · simp [h]
    · have : (q == k) = false := by simpa using h
      simp [h, this]
  | cons p m ih =>
    obtain ⟨a, b⟩ := p
    rw [List.cons_append, List.lookup_cons, List.lookup_cons]
    cases q == a
    · exact ih
    · rfl

theorem instantiations_lookup (rs : List Rec) (q : Str) :
    (instantiations rs).lookup q = (rs.find? fun r => r.ccName == q).map Rec.rsName := by
  unfold instantiations
  have key : ∀ (rs : List Rec) (m : List (Str × Str)),
      (rs.foldl (fun m r => if (m.lookup r.ccName).isSome then m else m ++ [(r.ccName, r.rsName)]) m).lookup q =
        (m.lookup q).or ((rs.find? fun r => r.ccName == q).map Rec.rsName) := by
    intro rs
    induction rs with
    | nil => intro m; simp
    | cons r rs ih =>
      intro m
      rw [List.foldl_cons, ih]
      by_cases hq : r.ccName = q
      · subst hq
        rw [List.find?_cons_of_pos (by simp)]
        cases hm : m.lookup r.ccName with
        | none => simp [hm, lookup_snoc]
        | some v => simp [hm]
      · rw [List.find?_cons_of_neg (by simpa using hq)]
        congr 1
        split
        · rfl
        · rw [lookup_snoc, if_neg (fun h => hq h.symm), Option.or_none]
  rw [key]
  simp

theorem aliases_cons {resolve : Str → Option Rec} {n : Str} {ns : List Str} {as : List Rec}
    (h : aliases resolve (n :: ns) = some as) : ∃ r rs, as = r :: rs ∧ resolve n = some r ∧ aliases resolve ns = some rs := by
  rw [aliases] at h
  split at h
  · rename_i r rs h1 h2
    exact ⟨r, rs, (Option.some.inj h).symm, h1, h2⟩
  · cases h

theorem aliases_of_name {resolve : Str → Option Rec} : ∀ {ns : List Str} {as : List Rec} {n : Str},
    aliases resolve ns = some as → n ∈ ns → ∃ r ∈ as, resolve n = some r
  | [], _, n, _, h => by cases h
  | x :: ns, _, n, ha, h => by
      obtain ⟨r, rs, rfl, h1, h2⟩ := aliases_cons ha
      rcases List.mem_cons.mp h with rfl | h
      · exact ⟨_, List.mem_cons_self .., h1⟩
      · obtain ⟨r, hr, e⟩ := aliases_of_name h2 h
        exact ⟨r, List.mem_cons_of_mem _ hr, e⟩

theorem aliases_name {resolve : Str → Option Rec} : ∀ {ns : List Str} {as : List Rec} {r : Rec},
    aliases resolve ns = some as → r ∈ as → ∃ n ∈ ns, resolve n = some r
  | [], _, r, ha, h => by
      rw [aliases] at ha
      cases ha
      cases h
  | x :: ns, _, r, ha, h => by
      obtain ⟨r', rs, rfl, h1, h2⟩ := aliases_cons ha
      rcases List.mem_cons.mp h with rfl | h
      · exact ⟨_, List.mem_cons_self .., h1⟩
      · obtain ⟨n, hr, e⟩ := aliases_name h2 h
        exact ⟨n, List.mem_cons_of_mem _ hr, e⟩

/-- C174: If the files are compiled and each requested type has, as canonical spelling, the text of the invocation, and
classes with the same canonical spelling have the same Rust name, every invocation in the files is expanded to the Rust name
of the class that it names. -/
theorem expands {pr' : List TT → Str} (hp : ∀ ts, Spaced (textsL ts) (pr ts)) (hp' : ∀ ts, Spaced (textsL ts) (pr' ts))
    (he : ∀ l, (enum l).Perm l) {resolve : Str → Option Rec} {recs : List Rec} {files : List (List TT)}
    (hc : ∀ n r, resolve n = some r → r ∈ recs ∧ r.ccName = n)
    (hr : ∀ r ∈ recs, ∀ r' ∈ recs, r.ccName = r'.ccName → r.rsName = r'.rsName)
    {m : List (Str × Str)} (hm : pipeline pr enum le resolve recs files = some m) {f body : List TT} (hf : f ∈ files)
    (hi : Invokes f body) : ∃ r, resolve (name pr' body) = some r ∧ expand pr' m body = some r.rsName := by
  obtain ⟨as, ha, e⟩ := Option.map_eq_some_iff.mp hm
  have hn : name pr' body ∈ collect pr enum le files :=
    (collect_mem he files _).mpr ⟨f, hf, body, hi, names_agree hp' hp body⟩
  obtain ⟨r, hr1, hr2⟩ : ∃ r ∈ as, resolve (name pr' body) = some r := by
    exact aliases_of_name ha hn
  obtain ⟨hmem, hcc⟩ := hc _ _ hr2
  refine ⟨r, hr2, ?_⟩
  unfold expand
  rw [← e, instantiations_lookup]
  have hfound : r ∈ found recs as := by
    unfold found
    rw [List.mem_filter]
    exact ⟨hmem, by simpa using ⟨r, hr1, rfl⟩⟩
  cases hx : (found recs as).find? fun r => r.ccName == name pr' body with
  | none =>
    have := List.find?_eq_none.mp hx r hfound
    simp [hcc] at this
  | some r' =>
    have h1 := List.mem_of_find?_eq_some hx
    have h2 := List.find?_some hx
    have h3 : r'.ccName = r.ccName := by rw [hcc]; simpa using h2
    show some r'.rsName = _
    rw [hr r' (List.mem_filter.mp h1).1 r hmem h3]
/-- C174: Only classes that were requested are in the map. -/
theorem only_requested (he : ∀ l, (enum l).Perm l) {resolve : Str → Option Rec} {recs : List Rec} {files : List (List TT)}
    (hid : ∀ r ∈ recs, ∀ n r', resolve n = some r' → r'.id = r.id → r' = r) {m : List (Str × Str)}
    (hm : pipeline pr enum le resolve recs files = some m) {k v : Str} (hv : m.lookup k = some v) :
    ∃ r ∈ recs, r.ccName = k ∧ r.rsName = v ∧ ∃ f ∈ files, ∃ body, Invokes f body ∧ resolve (name pr body) = some r := by
  obtain ⟨as, ha, e⟩ := Option.map_eq_some_iff.mp hm
  rw [← e, instantiations_lookup] at hv
  obtain ⟨r, hx, hv⟩ := Option.map_eq_some_iff.mp hv
  have h1 := List.mem_of_find?_eq_some hx
  have h2 := List.find?_some hx
  obtain ⟨hrec, hid'⟩ := List.mem_filter.mp h1
  obtain ⟨r', hr', he'⟩ : ∃ r' ∈ as, r'.id = r.id := by simpa using hid'
  obtain ⟨n, hn, hres⟩ := aliases_name ha hr'
  obtain ⟨f, hf, b, hi, e⟩ := (collect_mem he files n).mp hn
  refine ⟨r, hrec, by simpa using h2, hv, f, hf, b, hi, ?_⟩
  rw [← e, hres, hid r hrec n r' hres he']
/-- C174, disagreement: a class whose canonical spelling has a space, such as one with two template arguments, is never
found by an invocation. -/
theorem spaces_never_found (rs : List Rec) (hs : ∀ r ∈ rs, ' ' ∈ r.ccName) (body : List TT) :
    expand pr (instantiations rs) body = none := by
  unfold expand
  rw [instantiations_lookup]
  cases hx : rs.find? fun r => r.ccName == name pr body with
  | none => rfl
  | some r =>
    have h1 := hs r (List.mem_of_find?_eq_some hx)
    have h2 : r.ccName = name pr body := by simpa using List.find?_some hx
    rw [h2] at h1
    have := (List.mem_filter.mp h1).2
    simp at this

end Verif.Tmpl

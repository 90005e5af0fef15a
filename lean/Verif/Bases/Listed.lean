import Verif.Bases.Find
/-
Which bases are listed (C138), and where they are (C139).
-/
namespace Verif.Bases

variable {d : Cls} {F : Nat} {st st' : St} {H : List (List Step × PAccess)} {N : List Cls}

/-! ### No path is removed -/

theorem hasVirtBase_way : ∀ (bs : Bases) (v : Nat), bs.hasVirtBase v = true → ∃ s b q c, Bases.Has bs s b ∧ Way b q c ∧ c.id = v
  | .nil, v, h => by simp [Bases.hasVirtBase] at h
  | .cons s (.mk cid bases) rest, v, h => by
    simp only [Bases.hasVirtBase, Bool.or_eq_true, Bool.and_eq_true, beq_iff_eq] at h
    rcases h with (⟨_, h⟩ | h) | h
    · exact ⟨s, _, [], _, .head _ _ _, .nil _, h⟩
    · obtain ⟨s', b, q, c, h1, h2, h3⟩ := hasVirtBase_way bases v h
      exact ⟨s, _, _, c, .head _ _ _, .step (.mk cid bases) s' b q c h1 h2, h3⟩
    · obtain ⟨s', b, q, c, h1, h2, h3⟩ := hasVirtBase_way rest v h
      exact ⟨s', b, q, c, .tail _ _ _ _ _ h1, h2, h3⟩

/-- A way can be cut at any step. -/
theorem Way.split : ∀ {a p c}, Way a p c → ∀ s ∈ p, ∃ p1 p2, p = p1 ++ s :: p2 ∧ Way a (p1 ++ [s]) s.base ∧ Way s.base p2 c
  | _, _, _, .nil _, s, h => by simp at h
  | _, _, _, .step a s' b p c h1 h2, s, h => by
    rcases List.mem_cons.1 h with rfl | h
    · exact ⟨[], p, rfl, .step _ _ _ _ _ h1 (.nil _), h2⟩
    · obtain ⟨p1, p2, e, w1, w2⟩ := h2.split s h
      exact ⟨⟨a.id, s', b⟩ :: p1, p2, by simp [e], .step _ _ _ _ _ h1 w1, w2⟩

theorem not_hidden (hp : d.Proper) (hg : ∀ h ∈ H, Good d F h) {h} (hh : h ∈ H) : hiddenPath H h = false := by
  rw [Bool.eq_false_iff]
  intro hid
  unfold hiddenPath at hid
  rw [List.any_eq_true] at hid
  obtain ⟨s, hs, hid⟩ := hid
  rw [Bool.and_eq_true, List.any_eq_true] at hid
  obtain ⟨_, h', hh', hv⟩ := hid
  obtain ⟨c, hw, hc, hl⟩ := (hg h hh).way
  obtain ⟨c', hw', hc', hl'⟩ := (hg h' hh').way
  rw [hl'] at hv
  have := hp.same _ _ _ _ hw' hw (hc'.trans hc.symm)
  subst this
  obtain ⟨t, b, q, v, h1, h2, h3⟩ := hasVirtBase_way _ _ hv
  obtain ⟨p1, p2, _, w1, w2⟩ := hw.split s hs
  have hcyc : Way s.base (p2 ++ (⟨c'.id, t, b⟩ :: q)) v := w2.append (.step _ _ _ _ _ h1 h2)
  exact hp.acyclic w1 hcyc (by simp) h3

/-! ### One round -/

/-- What a successful round has found. -/
structure Round (d : Cls) (seen : List Nat) (F : Nat) (st : St) : Prop where
  new : F ∉ seen
  base : IsBase d F
  seen : st.seen = F :: seen
  paths : st.paths ≠ []
  good : ∀ h ∈ st.paths, Good d F h
  amb : isAmbiguous st F = false ↔ Unambiguous d F
  cover : ∀ p c, Way d p c → c.id = F → ∃ h ∈ st.paths, subobject h.1 = subobject p

theorem nextClass_true (hp : d.Proper) (seen : List Nat) (h : (nextClass d seen).1 = true) : ∃ F, Round d seen F (nextClass d seen).2 := by
  have hq := lookup_none d.bases d.id [] .pub ⟨none, seen, [], fun _ => 0, []⟩ rfl
  have hr : (d.bases.lookup d.id [] .pub ⟨none, seen, [], fun _ => 0, []⟩).1 = true := by
    unfold nextClass at h
    simp only at h
    split at h
    · assumption
    · exact h
  cases hf : (d.bases.lookup d.id [] .pub ⟨none, seen, [], fun _ => 0, []⟩).2.found with
  | none => rw [(hq.none hf).1] at hr; cases hr
  | some F =>
    obtain ⟨hnew, heq, _⟩ := hq.some F hf
    obtain ⟨H, N, hd, hne⟩ := lookup_done d F d.bases d [] .pub ⟨some F, F :: seen, [], fun _ => 0, []⟩ (.nil d) (fun _ _ h => h)
      (fun h => absurd rfl h) rfl
    simp only at heq
    rw [← heq] at hd hne
    have hpaths : (d.bases.lookup d.id [] .pub ⟨none, seen, [], fun _ => 0, []⟩).2.paths = H := by simpa using hd.paths
    have hst : (nextClass d seen).2 = (d.bases.lookup d.id [] .pub ⟨none, seen, [], fun _ => 0, []⟩).2 := by
      unfold nextClass
      simp only [hr, if_true]
      have : (d.bases.lookup d.id [] .pub ⟨none, seen, [], fun _ => 0, []⟩).2.paths.filter
          (fun p => !hiddenPath (d.bases.lookup d.id [] .pub ⟨none, seen, [], fun _ => 0, []⟩).2.paths p) =
          (d.bases.lookup d.id [] .pub ⟨none, seen, [], fun _ => 0, []⟩).2.paths := by
        rw [hpaths, List.filter_eq_self]
        intro h hh
        simp [not_hidden hp hd.good hh]
      rw [this]
    have hHne : H ≠ [] := hne.1 hr
    have hbase : IsBase d F := by
      obtain ⟨h, hh⟩ := List.exists_mem_of_ne_nil H hHne
      obtain ⟨c, hw, hc, hl⟩ := (hd.good h hh).way
      exact ⟨_, c, hw, by rintro e; rw [e] at hl; simp [lastBase] at hl, hc⟩
    have hFd : F ≠ d.id := by
      obtain ⟨p, c, hw, hpne, hc⟩ := hbase
      exact hc ▸ hp.acyclic (.nil d) hw hpne
    refine ⟨F, ?_⟩
    rw [hst]
    refine ⟨hnew, hbase, hd.seen, hpaths ▸ hHne, hpaths ▸ hd.good, hd.ambiguous_iff hp rfl rfl hFd, fun p c hw hc => ?_⟩
    rw [hpaths]
    refine hd.cover hp rfl hw hc ?_
    rintro rfl
    cases hw
    exact hFd hc.symm

theorem nextClass_false (hp : d.Proper) (seen : List Nat) (h : (nextClass d seen).1 = false) (F : Nat) (hF : IsBase d F) : F ∈ seen := by
  have hq := lookup_none d.bases d.id [] .pub ⟨none, seen, [], fun _ => 0, []⟩ rfl
  have hr : (d.bases.lookup d.id [] .pub ⟨none, seen, [], fun _ => 0, []⟩).1 = false := by
    unfold nextClass at h
    simp only at h
    split at h
    · cases h
    · exact h
  cases hf : (d.bases.lookup d.id [] .pub ⟨none, seen, [], fun _ => 0, []⟩).2.found with
  | some G => rw [(hq.some G hf).2.2] at hr; cases hr
  | none =>
    rcases Classical.em (F ∈ seen) with hin | hin
    · exact hin
    · exfalso
      have he := (hq.none hf).2.2 F seen hin
      obtain ⟨H, N, hd, hne⟩ := lookup_done d F d.bases d [] .pub ⟨some F, seen, [], fun _ => 0, []⟩ (.nil d) (fun _ _ h => h)
        (fun h => absurd rfl h) rfl
      simp only at he
      rw [he] at hne hd
      obtain ⟨p, c, hw, hpne, hc⟩ := hF
      obtain ⟨h, hh, _⟩ := hd.cover hp rfl hw hc hpne
      have : H = [] := by
        rcases Classical.em (H = []) with e | e
        · exact e
        · exact absurd (hne.2 e) (by simp)
      rw [this] at hh
      simp at hh

/-! ### Picking a path -/

theorem pickPath_some {offset : Nat → Nat → Nat} {imported : Nat → Bool} {st : St} {F : Nat} : ∀ {ps : List (List Step × PAccess)} {e},
    (∀ h ∈ ps, Good d F h) → pickPath offset imported st ps = some e →
    e.1 = F ∧ isAmbiguous st F = false ∧ imported F = true ∧ ∃ h ∈ ps, h.2 = .pub ∧ e.2 = pathOffset offset h.1 0
  | [], e, _, h => by simp [pickPath] at h
  | (p, acc) :: rest, e, hg, h => by
    have rec' : pickPath offset imported st rest = some e → e.1 = F ∧ isAmbiguous st F = false ∧ imported F = true ∧
        ∃ h ∈ (p, acc) :: rest, h.2 = .pub ∧ e.2 = pathOffset offset h.1 0 := by
      intro h
      obtain ⟨a, b, c, h', hh', hx⟩ := pickPath_some (fun h hh => hg h (by simp [hh])) h
      exact ⟨a, b, c, h', by simp [hh'], hx⟩
    unfold pickPath at h
    split at h
    · exact rec' h
    · rename_i hacc
      obtain ⟨c, _, hc, hl⟩ := (hg (p, acc) (by simp)).way
      simp only at hl
      simp only [hl] at h
      split at h
      · exact rec' h
      · split at h
        · exact rec' h
        · rename_i h1 h2
          cases h
          rw [hc] at h1 h2
          exact ⟨hc, by simpa using h1, by simpa using h2, (p, acc), by simp, by simpa using hacc, rfl⟩

theorem pickPath_none {offset : Nat → Nat → Nat} {imported : Nat → Bool} {st : St} {F : Nat} : ∀ {ps : List (List Step × PAccess)},
    (∀ h ∈ ps, Good d F h) → isAmbiguous st F = false → imported F = true → (∃ h ∈ ps, h.2 = .pub) →
    ∃ e, pickPath offset imported st ps = some e
  | [], _, _, _, h => by obtain ⟨h, hh, _⟩ := h; simp at hh
  | (p, acc) :: rest, hg, ha, hi, h => by
    obtain ⟨c, _, hc, hl⟩ := (hg (p, acc) (by simp)).way
    simp only at hl
    by_cases hacc : acc = .pub
    · refine ⟨(F, pathOffset offset p 0), ?_⟩
      unfold pickPath
      simp [hacc, hl, hc, ha, hi]
    · have : ∃ h ∈ rest, h.2 = .pub := by
        obtain ⟨h, hh, he⟩ := h
        rcases List.mem_cons.1 hh with rfl | hh
        · exact absurd he hacc
        · exact ⟨h, hh, he⟩
      obtain ⟨e, he⟩ := pickPath_none (offset := offset) (fun h hh => hg h (by simp [hh])) ha hi this
      exact ⟨e, by unfold pickPath; simp [hacc, he]⟩

/-! ### All rounds -/

/-- All classes in the bases. -/
def Bases.all : Bases → List Nat
  | .nil => []
  | .cons _ (.mk cid bases) rest => cid :: (bases.all ++ rest.all)

theorem Bases.length_all : ∀ bs : Bases, bs.all.length = bs.size
  | .nil => rfl
  | .cons _ (.mk cid bases) rest => by simp [Bases.all, Bases.size, bases.length_all, rest.length_all]; omega

theorem Has.sub_all : ∀ {bs s c}, Bases.Has bs s c → c.id ∈ bs.all ∧ ∀ x ∈ c.bases.all, x ∈ bs.all
  | _, _, _, .head s (.mk i b) rest => ⟨by simp [Bases.all, Cls.id], fun x hx => by simp [Bases.all, Cls.bases] at hx ⊢; simp [hx]⟩
  | _, _, _, .tail s (.mk i b) rest s' c' h => by
    have := Has.sub_all h
    exact ⟨by simp [Bases.all, this.1], fun x hx => by simp [Bases.all, this.2 x hx]⟩

theorem Way.mem_all : ∀ {a p c}, Way a p c → p ≠ [] → c.id ∈ a.bases.all ∧ ∀ x ∈ c.bases.all, x ∈ a.bases.all
  | _, _, _, .nil _, h => absurd rfl h
  | _, _, _, .step a s b p c h1 h2, _ => by
    have hb := Has.sub_all h1
    by_cases hp : p = []
    · subst hp; cases h2; exact hb
    · have := h2.mem_all hp
      exact ⟨hb.2 _ this.1, fun x hx => hb.2 _ (this.2 x hx)⟩

theorem length_le_of_nodup_subset : ∀ {l m : List Nat}, l.Nodup → (∀ x ∈ l, x ∈ m) → l.length ≤ m.length
  | [], m, _, _ => by simp
  | x :: l, m, hn, hs => by
    have hx := hs x (by simp)
    rw [List.nodup_cons] at hn
    have : l.length ≤ (m.erase x).length := length_le_of_nodup_subset hn.2 (fun y hy => by
      have hne : y ≠ x := by rintro rfl; exact hn.1 hy
      exact (List.mem_erase_of_ne hne).2 (hs y (by simp [hy])))
    rw [List.length_erase_of_mem hx] at this
    have := List.length_pos_of_mem hx
    simp only [List.length_cons]
    omega

/-- Every base gets its round, and what is listed comes from such a round. -/
theorem collectBases_spec (hp : d.Proper) (offset : Nat → Nat → Nat) (imported : Nat → Bool) : ∀ (n : Nat) (seen : List Nat), seen.Nodup →
    (∀ x ∈ seen, x ∈ d.bases.all) → d.bases.size < n + seen.length →
    (∀ F, IsBase d F → F ∉ seen → ∃ st s', Round d s' F st ∧ ∀ e, pickPath offset imported st st.paths = some e →
      e ∈ collectBases offset imported d n seen) ∧
    (∀ e ∈ collectBases offset imported d n seen, e.1 ∉ seen ∧ ∃ st s', Round d s' e.1 st ∧ pickPath offset imported st st.paths = some e) ∧
    ((collectBases offset imported d n seen).map Prod.fst).Nodup
  | 0, seen, hn, hs, hlt => by
    have := length_le_of_nodup_subset hn hs
    rw [Bases.length_all] at this
    omega
  | n + 1, seen, hn, hs, hlt => by
    unfold collectBases
    simp only
    by_cases hb : (nextClass d seen).1 = true
    · obtain ⟨F, hR⟩ := nextClass_true hp seen hb
      simp only [hb, if_true]
      have hseen' := hR.seen
      obtain ⟨i1, i2, i3⟩ := collectBases_spec hp offset imported n (nextClass d seen).2.seen
        (by rw [hseen', List.nodup_cons]; exact ⟨hR.new, hn⟩)
        (by
          rw [hseen']
          intro x hx
          rcases List.mem_cons.1 hx with rfl | hx
          · obtain ⟨p, c, hw, hpne, hc⟩ := hR.base
            exact hc ▸ (hw.mem_all hpne).1
          · exact hs x hx)
        (by rw [hseen', List.length_cons]; omega)
      refine ⟨fun G hG hGs => ?_, fun e he => ?_, ?_⟩
      · by_cases hGF : G = F
        · subst hGF
          exact ⟨_, _, hR, fun e he => List.mem_append.2 (.inl (by simp [he]))⟩
        · obtain ⟨st, s', h1, h2⟩ := i1 G hG (by rw [hseen']; simp [hGF, hGs])
          exact ⟨st, s', h1, fun e he => List.mem_append.2 (.inr (h2 e he))⟩
      · rcases List.mem_append.1 he with he | he
        · have he : pickPath offset imported (nextClass d seen).2 (nextClass d seen).2.paths = some e := by simpa using he
          have h1 := (pickPath_some hR.good he).1
          exact ⟨h1 ▸ hR.new, _, _, h1.symm ▸ hR, he⟩
        · obtain ⟨h1, h2⟩ := i2 e he
          exact ⟨fun h => h1 (by rw [hseen']; simp [h]), h2⟩
      · rw [List.map_append, List.nodup_append]
        refine ⟨?_, i3, ?_⟩
        · cases pickPath offset imported (nextClass d seen).2 (nextClass d seen).2.paths <;> simp
        · intro a ha b hb' hab
          subst hab
          obtain ⟨e, he, rfl⟩ := List.mem_map.1 ha
          have he : pickPath offset imported (nextClass d seen).2 (nextClass d seen).2.paths = some e := by simpa using he
          have h1 := (pickPath_some hR.good he).1
          obtain ⟨e', he', hee⟩ := List.mem_map.1 hb'
          have := (i2 e' he').1
          rw [hee, h1, hseen'] at this
          simp at this
    · have hb : (nextClass d seen).1 = false := by simpa using hb
      simp only [hb, Bool.false_eq_true, if_false]
      refine ⟨fun F hF hFs => absurd (nextClass_false hp seen hb F hF) hFs, by simp, by simp⟩

/-- C138: each base that is listed is one that everybody can convert to in C++, and is listed once. -/
theorem listed_convertible (d : Cls) (hp : d.Proper) (offset : Nat → Nat → Nat) (imported : Nat → Bool) :
    (∀ e ∈ unambiguousPublicBases offset imported d, Convertible d e.1 ∧ imported e.1 = true) ∧
    ((unambiguousPublicBases offset imported d).map Prod.fst).Nodup := by
  obtain ⟨_, h2, h3⟩ := collectBases_spec hp offset imported (d.bases.size + 1) [] (by simp) (by simp) (by simp)
  refine ⟨fun e he => ?_, h3⟩
  obtain ⟨_, st, s', hR, hpick⟩ := h2 e he
  obtain ⟨_, ha, hi, h, hh, hpub, _⟩ := pickPath_some hR.good hpick
  obtain ⟨c, hw, hc, _⟩ := (hR.good h hh).way
  exact ⟨⟨hR.base, hR.amb.1 ha, h.1, c, hw, hc, (hR.good h hh).acc.1 hpub⟩, hi⟩

theorem Has.unique {bs : Bases} {s s' : BSpec} {b b' : Cls} (hn : bs.ids.Nodup) (h1 : Bases.Has bs s b) (h1' : Bases.Has bs s' b')
    (he : b.id = b'.id) : s = s' ∧ b = b' := by
  induction h1 with
  | head s c rest =>
    cases h1' with
    | head => exact ⟨rfl, rfl⟩
    | tail _ _ _ _ _ h =>
      simp only [Bases.ids, List.nodup_cons] at hn
      exact absurd (he ▸ Has.mem_ids h) hn.1
  | tail s c rest s2 c2 h ih =>
    cases h1' with
    | head =>
      simp only [Bases.ids, List.nodup_cons] at hn
      exact absurd (he ▸ Has.mem_ids h) hn.1
    | tail _ _ _ _ _ h' =>
      simp only [Bases.ids, List.nodup_cons] at hn
      exact ih hn.2 h' he

/-- Between two classes there is only one way to one subobject, without virtual steps. -/
theorem way_unique (hp : d.Proper) (p : List Step) : ∀ {a c q c'} (r : List Step), Way d r a → Way a p c → Way a q c' →
    p.map (fun s => s.base.id) = q.map (fun s => s.base.id) → p = q := by
  induction p with
  | nil =>
    intro a c q c' r _ _ _ he
    cases q with
    | nil => rfl
    | cons _ _ => simp at he
  | cons t p ih =>
    intro a c q c' r hr hw hw' he
    cases q with
    | nil => simp at he
    | cons t' q =>
      simp only [List.map_cons, List.cons.injEq] at he
      cases hw with
      | step _ s b _ _ h1 h2 =>
        cases hw' with
        | step _ s' b' _ _ h1' h2' =>
          obtain ⟨rfl, rfl⟩ := Has.unique (hp.direct _ _ hr) h1 h1' he.1
          rw [ih (r ++ [⟨a.id, s, b⟩]) (hr.snoc h1) h2 h2' he.2]

theorem subobject_nonvirt (p : List Step) (hv : ∀ s ∈ p, s.spec.virt = false) (k : Key) :
    p.foldl Key.step k = (k.1, k.2 ++ p.map (fun s => s.base.id)) := by
  induction p generalizing k with
  | nil => simp
  | cons s p ih =>
    rw [List.foldl_cons, ih (fun t ht => hv t (by simp [ht]))]
    simp [Key.step, hv s (by simp)]

/-- C138: each base that everybody can convert to, and that has been imported, is listed, if no base is virtual or all bases are public. -/
theorem convertible_listed (d : Cls) (hp : d.Proper) (offset : Nat → Nat → Nat) (imported : Nat → Bool)
    (hh : (∀ p c s, Way d p c → s ∈ p → s.spec.virt = false) ∨ (∀ p c s, Way d p c → s ∈ p → s.spec.acc = .pub))
    (F : Nat) (hF : Convertible d F) (hi : imported F = true) : F ∈ (unambiguousPublicBases offset imported d).map Prod.fst := by
  obtain ⟨h1, _, _⟩ := collectBases_spec hp offset imported (d.bases.size + 1) [] (by simp) (by simp) (by simp)
  obtain ⟨st, s', hR, hl⟩ := h1 F hF.1 (by simp)
  have : ∃ h ∈ st.paths, h.2 = .pub := by
    rcases hh with hh | hh
    · obtain ⟨p, c, hw, hc, hpub⟩ := hF.2.2
      obtain ⟨h, hmem, he⟩ := hR.cover p c hw hc
      obtain ⟨c', hw', hc', _⟩ := (hR.good h hmem).way
      refine ⟨h, hmem, (hR.good h hmem).acc.2 ?_⟩
      have v1 := fun s => hh h.1 c' s hw'
      have v2 := fun s => hh p c s hw
      unfold subobject at he
      rw [subobject_nonvirt _ v1, subobject_nonvirt _ v2] at he
      have : h.1 = p := way_unique hp h.1 [] (.nil d) hw' hw (by simpa using he)
      rw [this]
      exact hpub
    · obtain ⟨h, hmem⟩ := List.exists_mem_of_ne_nil _ hR.paths
      obtain ⟨c', hw', _⟩ := (hR.good h hmem).way
      exact ⟨h, hmem, (hR.good h hmem).acc.2 (fun s hs => hh h.1 c' s hw' hs)⟩
  obtain ⟨e, he⟩ := pickPath_none (offset := offset) hR.good (hR.amb.2 hF.2.1) hi this
  exact List.mem_map.2 ⟨e, hl e he, (pickPath_some hR.good he).1⟩

/-! ### Addresses -/

theorem pathOffset_placed {offset : Nat → Nat → Nat} {addr : Key → Nat} (hpl : Placed offset d addr) (p : List Step) :
    ∀ {a c q o o'}, Way d q a → Way a p c →
    pathOffset offset p o = some o' → addr (subobject (q ++ p)) + o = addr (subobject q) + o' := by
  induction p with
  | nil => intro a c q o o' hq hw h; simp [pathOffset] at h; simp [h]
  | cons t p ih =>
    intro a c q o o' hq hw h
    cases hw with
    | step _ s b _ _ h1 h2 =>
      unfold pathOffset at h
      split at h
      · cases h
      · rename_i hv
        have ih := ih (hq.snoc h1) h2 h
        have hp := hpl q a s b hq h1 (by simpa using hv)
        rw [subobject_snoc, hp] at ih
        simp only [List.append_assoc, List.singleton_append] at ih
        omega

/-- C139: in every object in which a `d` is, at whatever address, upcasting gives the address of the one subobject of the base. -/
theorem upcast_address (d : Cls) (hp : d.Proper) (offset : Nat → Nat → Nat) (imported : Nat → Bool) (addr : Key → Nat)
    (hpl : Placed offset d addr) (cxx : Nat → Nat) (hcxx : ∀ f k, Convertible d f → IsSubobject d k f → cxx f = addr k)
    (e : Nat × Option Nat) (he : e ∈ unambiguousPublicBases offset imported d) (k : Key) (hk : IsSubobject d k e.1) :
    upcastPtr cxx e (addr (none, [])) = addr k := by
  obtain ⟨_, h2, _⟩ := collectBases_spec hp offset imported (d.bases.size + 1) [] (by simp) (by simp) (by simp)
  obtain ⟨_, st, s', hR, hpick⟩ := h2 e he
  obtain ⟨_, ha, _, h, hh, _, ho⟩ := pickPath_some hR.good hpick
  obtain ⟨c, hw, hc, _⟩ := (hR.good h hh).way
  have hu := hR.amb.1 ha
  unfold upcastPtr
  cases heo : e.2 with
  | none => exact hcxx _ _ ((listed_convertible d hp offset imported).1 e he).1 hk
  | some o =>
    simp only
    rw [heo] at ho
    have := pathOffset_placed hpl h.1 (.nil d) hw ho.symm
    have hkey : k = subobject h.1 := hu _ _ hk ⟨_, c, hw, hc, rfl⟩
    rw [hkey]
    simp only [List.nil_append, Nat.add_zero] at this
    rw [this]
    rfl

/-- C139: an offset is only used if it is the same in all objects: on the way to the base nothing is virtual. -/
theorem offset_static (d : Cls) (hp : d.Proper) (offset : Nat → Nat → Nat) (imported : Nat → Bool) (f o : Nat)
    (he : (f, some o) ∈ unambiguousPublicBases offset imported d) : ∃ p c, Way d p c ∧ c.id = f ∧ ∀ s ∈ p, s.spec.virt = false := by
  obtain ⟨_, h2, _⟩ := collectBases_spec hp offset imported (d.bases.size + 1) [] (by simp) (by simp) (by simp)
  obtain ⟨_, st, s', hR, hpick⟩ := h2 _ he
  obtain ⟨_, ha, _, h, hh, _, ho⟩ := pickPath_some hR.good hpick
  obtain ⟨c, hw, hc, _⟩ := (hR.good h hh).way
  refine ⟨_, c, hw, hc, ?_⟩
  have : ∀ (p : List Step) (o o' : Nat), pathOffset offset p o = some o' → ∀ s ∈ p, s.spec.virt = false := by
    intro p
    induction p with
    | nil => intro _ _ _ s hs; simp at hs
    | cons s p ih =>
      intro o o' h t ht
      unfold pathOffset at h
      split at h
      · cases h
      · rename_i hv
        rcases List.mem_cons.1 ht with rfl | ht
        · simpa using hv
        · exact ih _ _ h t ht
  exact this _ _ _ ho.symm

end Verif.Bases

import Verif.Bases.Model
/-
What one lookup finds: one path to every subobject of the class it is looking for (C138).
-/
namespace Verif.Bases

/-! ### Ways -/

theorem Way.append : ∀ {a p b q c}, Way a p b → Way b q c → Way a (p ++ q) c
  | _, _, _, _, _, .nil _, h => h
  | _, _, _, _, _, .step _ _ _ _ _ h1 h2, h => .step _ _ _ _ _ h1 (h2.append h)

theorem Way.snoc {a p b s c} (h : Way a p b) (hs : Bases.Has b.bases s c) : Way a (p ++ [⟨b.id, s, c⟩]) c :=
  h.append (.step _ _ _ _ _ hs (.nil _))

theorem subobject_snoc (p : List Step) (s : Step) : subobject (p ++ [s]) = (subobject p).step s := by
  simp [subobject, List.foldl_append]

def Cls.size (c : Cls) : Nat := c.bases.size + 1

theorem Has.size : ∀ {bs s c}, Bases.Has bs s c → c.size ≤ bs.size
  | _, _, _, .head s (.mk i b) rest => by simp [Cls.size, Cls.bases, Bases.size]; omega
  | _, _, _, .tail s (.mk i b) rest s' c' h => by have := Has.size h; simp [Bases.size]; omega

theorem Way.size : ∀ {a p b}, Way a p b → b.size ≤ a.size ∧ (p ≠ [] → b.size < a.size)
  | _, _, _, .nil _ => ⟨Nat.le_refl _, fun h => absurd rfl h⟩
  | _, _, _, .step a s b p c h1 h2 => by
    have := Has.size h1
    have := h2.size.1
    have hs : a.size = a.bases.size + 1 := rfl
    exact ⟨by omega, fun _ => by omega⟩

theorem Has.mem_ids : ∀ {bs s c}, Bases.Has bs s c → c.id ∈ bs.ids
  | _, _, _, .head s c rest => by simp [Bases.ids]
  | _, _, _, .tail s c rest s' c' h => by simp [Bases.ids, Has.mem_ids h]

/-- A class is not its own base. -/
theorem Cls.Proper.acyclic {d : Cls} (hp : d.Proper) {p a q b} (h1 : Way d p a) (h2 : Way a q b) (hq : q ≠ []) : b.id ≠ a.id := by
  intro he
  have := hp.same _ _ _ _ (h1.append h2) h1 he
  have := h2.size.2 hq
  subst b
  omega

/-! ### The parts of a hierarchy between virtual steps -/

/-- The non-virtual subobjects of class `F` below a subobject, with no virtual step between. -/
def Bases.nv (F : Nat) : Bases → Key → List Key
  | .nil, _ => []
  | .cons s (.mk cid bs) rest, k =>
    (if s.virt then [] else if cid = F then [(k.1, k.2 ++ [cid])] else bs.nv F (k.1, k.2 ++ [cid])) ++ rest.nv F k

/-- The virtual bases below a class, with no virtual step (and no class `F`) between. -/
def Bases.vs (F : Nat) : Bases → List Cls
  | .nil => []
  | .cons s (.mk cid bs) rest => (if s.virt then [.mk cid bs] else if cid = F then [] else bs.vs F) ++ rest.vs F

def lastVirt (p : List Step) : Bool := (p.getLast?.map (·.spec.virt)).getD false

/-- What is true of a recorded path. -/
structure Good (d : Cls) (F : Nat) (h : List Step × PAccess) : Prop where
  way : ∃ c, Way d h.1 c ∧ c.id = F ∧ lastBase h.1 = some c
  acc : h.2 = .pub ↔ ∀ s ∈ h.1, s.spec.acc = .pub

/-- What a part of the lookup for class `F` has done: it has gone through bases with non-virtual subobjects `nv` and virtual bases `vs`,
recorded the paths `H`, and gone into the virtual bases `N`. -/
structure Done (d : Cls) (F : Nat) (nv : List Key) (vs : List Cls) (st st' : St) (H : List (List Step × PAccess)) (N : List Cls) : Prop where
  found : st'.found = some F
  seen : st'.seen = st.seen
  paths : st'.paths = st.paths ++ H
  count : st'.nonvirt F = st.nonvirt F + (H.filter (fun h => !lastVirt h.1)).length
  virt : ∀ v, v ∈ st'.virt ↔ v ∈ st.virt ∨ v ∈ N.map Cls.id ∨ (v = F ∧ ∃ h ∈ H, lastVirt h.1 = true)
  nodup : (N.map Cls.id).Nodup
  fresh : ∀ n ∈ N, n.id ∉ st.virt
  visited : ∀ n ∈ N, n.id ≠ F ∧ ∃ q, Way d q n
  good : ∀ h ∈ H, Good d F h
  keys : ((H.filter (fun h => !lastVirt h.1)).map (fun h => subobject h.1)).Perm (nv ++ N.flatMap (fun n => n.bases.nv F (some n.id, [])))
  vs_in : ∀ c ∈ vs, c.id ∈ st'.virt
  closed : ∀ n ∈ N, ∀ c ∈ n.bases.vs F, c.id ∈ st'.virt

theorem Done.comp {d : Cls} {F nv1 vs1 nv2 vs2 st st1 st2 H1 H2 N1 N2} (h1 : Done d F nv1 vs1 st st1 H1 N1)
    (h2 : Done d F nv2 vs2 st1 st2 H2 N2) : Done d F (nv1 ++ nv2) (vs1 ++ vs2) st st2 (H1 ++ H2) (N1 ++ N2) := by
  have mono : ∀ v, v ∈ st1.virt → v ∈ st2.virt := fun v hv => (h2.virt v).2 (.inl hv)
  refine ⟨h2.found, h2.seen.trans h1.seen, ?_, ?_, ?_, ?_, ?_, ?_, ?_, ?_, ?_, ?_⟩
  · rw [h2.paths, h1.paths, List.append_assoc]
  · rw [h2.count, h1.count, List.filter_append, List.length_append, Nat.add_assoc]
  · intro v
    rw [h2.virt, h1.virt]
    simp only [List.map_append, List.mem_append]
    constructor
    · rintro ((h | h | ⟨rfl, h, hh, hv⟩) | h | ⟨rfl, h, hh, hv⟩)
      · exact .inl h
      · exact .inr (.inl (.inl h))
      · exact .inr (.inr ⟨rfl, h, .inl hh, hv⟩)
      · exact .inr (.inl (.inr h))
      · exact .inr (.inr ⟨rfl, h, .inr hh, hv⟩)
    · rintro (h | (h | h) | ⟨rfl, h, hh | hh, hv⟩)
      · exact .inl (.inl h)
      · exact .inl (.inr (.inl h))
      · exact .inr (.inl h)
      · exact .inl (.inr (.inr ⟨rfl, h, hh, hv⟩))
      · exact .inr (.inr ⟨rfl, h, hh, hv⟩)
  · rw [List.map_append, List.nodup_append]
    refine ⟨h1.nodup, h2.nodup, ?_⟩
    intro a ha b hb hab
    subst hab
    obtain ⟨n, hn, rfl⟩ := List.mem_map.1 hb
    exact h2.fresh n hn ((h1.virt _).2 (.inr (.inl ha)))
  · intro n hn hv
    rcases List.mem_append.1 hn with hn | hn
    · exact h1.fresh n hn hv
    · exact h2.fresh n hn ((h1.virt _).2 (.inl hv))
  · intro n hn
    rcases List.mem_append.1 hn with hn | hn
    · exact h1.visited n hn
    · exact h2.visited n hn
  · intro h hh
    rcases List.mem_append.1 hh with hh | hh
    · exact h1.good h hh
    · exact h2.good h hh
  · rw [List.filter_append, List.map_append, List.flatMap_append]
    refine (h1.keys.append h2.keys).trans ?_
    simp only [List.append_assoc]
    refine List.Perm.append_left nv1 ?_
    rw [← List.append_assoc, ← List.append_assoc]
    exact List.Perm.append_right _ List.perm_append_comm
  · intro c hc
    rcases List.mem_append.1 hc with hc | hc
    · exact mono _ (h1.vs_in c hc)
    · exact h2.vs_in c hc
  · intro n hn c hc
    rcases List.mem_append.1 hn with hn | hn
    · exact mono _ (h1.closed n hn c hc)
    · exact h2.closed n hn c hc

theorem stepAccess_pub (scratch : List Step) (acc : PAccess) (s : Step)
    (h : scratch ≠ [] → (acc = .pub ↔ ∀ s ∈ scratch, s.spec.acc = .pub)) :
    stepAccess scratch acc s.spec.acc = .pub ↔ ∀ t ∈ scratch ++ [s], t.spec.acc = .pub := by
  unfold stepAccess
  cases scratch with
  | nil => cases hs : s.spec.acc <;> simp [Access.toP, hs]
  | cons x xs =>
    have h := h (by simp)
    have e : (∀ t ∈ x :: xs ++ [s], t.spec.acc = .pub) ↔ acc = .pub ∧ s.spec.acc = .pub := by
      rw [h]
      simp only [List.mem_append, List.mem_singleton]
      exact ⟨fun g => ⟨fun t ht => g t (.inl ht), g s (.inr rfl)⟩, fun g t ht => ht.elim (g.1 t) (fun e => e ▸ g.2)⟩
    rw [e]
    simp only [List.isEmpty_cons, Bool.false_eq_true, if_false]
    cases acc <;> cases s.spec.acc <;> simp [mergeAccess, PAccess.rank, Access.toP]

theorem countBase_found (s : BSpec) (c : Nat) (st : St) : (countBase s c st).found = st.found ∧ (countBase s c st).seen = st.seen ∧
    (countBase s c st).paths = st.paths := by
  unfold countBase; split <;> exact ⟨rfl, rfl, rfl⟩

theorem lastVirt_snoc (p : List Step) (s : Step) : lastVirt (p ++ [s]) = s.spec.virt := by simp [lastVirt]
theorem lastBase_snoc (p : List Step) (s : Step) : lastBase (p ++ [s]) = some s.base := by simp [lastBase]

/-- The lookup, once the class `F` has been chosen. -/
theorem lookup_done (d : Cls) (F : Nat) : ∀ (bs : Bases) (par : Cls) (scratch : List Step) (acc : PAccess) (st : St),
    Way d scratch par → (∀ s c, Bases.Has bs s c → Bases.Has par.bases s c) →
    (scratch ≠ [] → (acc = .pub ↔ ∀ s ∈ scratch, s.spec.acc = .pub)) → st.found = some F →
    ∃ H N, Done d F (bs.nv F (subobject scratch)) (bs.vs F) st (bs.lookup par.id scratch acc st).2 H N ∧
      ((bs.lookup par.id scratch acc st).1 = true ↔ H ≠ [])
  | .nil, par, scratch, acc, st, hw, hsub, hacc, hf => by
    refine ⟨[], [], ⟨hf, rfl, by simp [Bases.lookup], by simp [Bases.lookup], by simp [Bases.lookup], by simp, by simp, by simp, by simp, ?_, by simp [Bases.vs], by simp⟩, by simp [Bases.lookup]⟩
    simp [Bases.nv]
  | .cons s (.mk cid bases) rest, par, scratch, acc, st, hw, hsub, hacc, hf => by
    have hhas : Bases.Has par.bases s (.mk cid bases) := hsub _ _ (.head _ _ _)
    have hway := hw.snoc hhas
    have hsnoc := subobject_snoc scratch ⟨par.id, s, .mk cid bases⟩
    have hpub := stepAccess_pub scratch acc ⟨par.id, s, .mk cid bases⟩ hacc
    have hcf := countBase_found s cid st
    -- the first base
    have first : ∃ r : Bool × St, ∃ H N,
        Done d F (if s.virt then [] else if cid = F then [((subobject scratch).1, (subobject scratch).2 ++ [cid])]
          else bases.nv F ((subobject scratch).1, (subobject scratch).2 ++ [cid]))
          (if s.virt then [.mk cid bases] else if cid = F then [] else bases.vs F) st r.2 H N ∧ (r.1 = true ↔ H ≠ []) ∧
        (Bases.cons s (.mk cid bases) rest).lookup par.id scratch acc st =
          (r.1 || (rest.lookup par.id scratch acc r.2).1, (rest.lookup par.id scratch acc r.2).2) := by
      refine ⟨(if (isNewClass cid (countBase s cid st)).1 then (true, { (isNewClass cid (countBase s cid st)).2 with
            paths := (isNewClass cid (countBase s cid st)).2.paths ++ [(scratch ++ [⟨par.id, s, .mk cid bases⟩], stepAccess scratch acc s.acc)] })
          else if !(s.virt && st.virt.contains cid) then
            bases.lookup cid (scratch ++ [⟨par.id, s, .mk cid bases⟩]) (stepAccess scratch acc s.acc) (isNewClass cid (countBase s cid st)).2
          else (false, (isNewClass cid (countBase s cid st)).2)), ?_⟩
      · have hn : isNewClass cid (countBase s cid st) = (cid == F, countBase s cid st) := by
          unfold isNewClass; rw [hcf.1, hf]
        rw [hn]
        by_cases hF : cid = F
        · subst hF
          have good : Good d cid (scratch ++ [⟨par.id, s, .mk cid bases⟩], stepAccess scratch acc s.acc) :=
            ⟨⟨_, hway, rfl, lastBase_snoc _ _⟩, hpub⟩
          refine ⟨[(scratch ++ [⟨par.id, s, .mk cid bases⟩], stepAccess scratch acc s.acc)], [], ?_, by simp, by simp [Bases.lookup, hn]⟩
          simp only [beq_self_eq_true, if_true]
          cases hv : s.virt
          · refine ⟨hcf.1.trans hf, hcf.2.1, by simp [hcf.2.2], ?_, ?_, by simp, by simp, by simp, ?_, ?_, by simp, by simp⟩
            · simp [countBase, hv, lastVirt_snoc]
            · simp [countBase, hv, lastVirt_snoc]
            · intro h hh; rw [List.mem_singleton.1 hh]; exact good
            · have hk : subobject (scratch ++ [⟨par.id, s, .mk cid bases⟩]) = ((subobject scratch).1, (subobject scratch).2 ++ [cid]) := by
                rw [hsnoc]; simp only [Key.step, hv, Bool.false_eq_true, if_false, Cls.id]
              simp [lastVirt_snoc, hv, hk]
          · refine ⟨hcf.1.trans hf, hcf.2.1, by simp [hcf.2.2], ?_, ?_, by simp, by simp, by simp, ?_, ?_, ?_, by simp⟩
            · simp [countBase, hv, lastVirt_snoc]
            · intro v
              by_cases hc : cid ∈ st.virt
              · simp only [countBase, hv, if_true, List.contains_iff_mem, hc]
                refine ⟨fun h => .inl h, ?_⟩
                rintro (h | h | ⟨rfl, _⟩)
                · exact h
                · simp at h
                · exact hc
              · simp only [countBase, hv, if_true, List.contains_iff_mem, hc, if_false, List.mem_cons]
                refine ⟨fun h => h.elim (fun h => .inr (.inr ⟨h, _, .inl rfl, by simp [lastVirt_snoc, hv]⟩)) .inl, ?_⟩
                rintro (h | h | ⟨rfl, _⟩)
                · exact .inr h
                · simp at h
                · exact .inl rfl
            · intro h hh; rw [List.mem_singleton.1 hh]; exact good
            · simp [lastVirt_snoc, hv]
            · intro c hc
              have hc : c = .mk cid bases := by simpa using hc
              subst hc
              simp only [countBase, hv, if_true, Cls.id]
              by_cases hc : cid ∈ st.virt <;> simp [hc]
        · have hb : (cid == F) = false := by simpa using hF
          simp only [hb, Bool.false_eq_true, if_false]
          have hcount : (countBase s cid st).nonvirt F = st.nonvirt F := by
            unfold countBase; split
            · rfl
            · simp [Ne.symm hF]
          cases hv : s.virt
          · -- non-virtual: into the class
            obtain ⟨H, N, hd, hr⟩ := lookup_done d F bases (.mk cid bases) (scratch ++ [⟨par.id, s, .mk cid bases⟩])
              (stepAccess scratch acc s.acc) (countBase s cid st) hway (fun _ _ h => h) (fun _ => hpub) (hcf.1.trans hf)
            have hvirt : (countBase s cid st).virt = st.virt := by simp [countBase, hv]
            refine ⟨H, N, ?_, ?_, by simp [Bases.lookup, hn, hb, hv]⟩
            · simp only [hF, if_false, Bool.false_eq_true, Bool.false_and, Bool.not_false, if_true]
              have hk : bases.nv F (subobject (scratch ++ [⟨par.id, s, .mk cid bases⟩])) =
                  bases.nv F ((subobject scratch).1, (subobject scratch).2 ++ [cid]) := by
                rw [hsnoc]; simp [Key.step, hv, Cls.id]
              rw [hk] at hd
              exact ⟨hd.found, hd.seen.trans hcf.2.1, by rw [← hcf.2.2]; exact hd.paths, by rw [← hcount]; exact hd.count,
                by rw [← hvirt]; exact hd.virt, hd.nodup, by rw [← hvirt]; exact hd.fresh, hd.visited, hd.good, hd.keys, hd.vs_in, hd.closed⟩
            · simpa [hv, show (Cls.mk cid bases).id = cid from rfl] using hr
          · by_cases hc : cid ∈ st.virt
            · -- virtual, met before
              refine ⟨[], [], ?_, by simp [hc], by simp [Bases.lookup, hn, hb, hv, hc]⟩
              have hst : (countBase s cid st).virt = st.virt := by simp [countBase, hv, hc]
              simp only [Bool.true_and, List.contains_iff_mem, hc, decide_true, Bool.not_true, Bool.false_eq_true, if_false, if_true]
              refine ⟨by simpa [hc] using hcf.1.trans hf, by simpa [hc] using hcf.2.1, by simpa [hc] using hcf.2.2, by simpa [hc] using hcount,
                by simp [hc, hst], by simp, by simp, by simp, by simp, by simp, ?_, by simp⟩
              intro c hc'
              rw [List.mem_singleton.1 hc']
              simpa [hc, hst, Cls.id] using hc
            · -- virtual, for the first time
              obtain ⟨H, N, hd, hr⟩ := lookup_done d F bases (.mk cid bases) (scratch ++ [⟨par.id, s, .mk cid bases⟩])
                (stepAccess scratch acc s.acc) (countBase s cid st) hway (fun _ _ h => h) (fun _ => hpub) (hcf.1.trans hf)
              have hst : ∀ v, v ∈ (countBase s cid st).virt ↔ v = cid ∨ v ∈ st.virt := by simp [countBase, hv, hc]
              refine ⟨H, .mk cid bases :: N, ?_, by simpa [hv, hc, show (Cls.mk cid bases).id = cid from rfl] using hr, by simp [Bases.lookup, hn, hb, hv, hc]⟩
              have hk : subobject (scratch ++ [⟨par.id, s, .mk cid bases⟩]) = (some cid, []) := by
                rw [hsnoc]; simp [Key.step, hv, Cls.id]
              rw [hk] at hd
              simp only [Bool.true_and, if_true]
              have hcc : st.virt.contains cid = false := by simpa using hc
              simp only [hcc, Bool.not_false, if_true]
              refine ⟨hd.found, hd.seen.trans hcf.2.1, by rw [← hcf.2.2]; exact hd.paths, by rw [← hcount]; exact hd.count, ?_, ?_, ?_, ?_,
                hd.good, ?_, ?_, ?_⟩
              · intro v
                refine (hd.virt v).trans ?_
                rw [hst]
                simp only [List.map_cons, List.mem_cons, Cls.id]
                constructor
                · rintro ((h | h) | h | h)
                  · exact .inr (.inl (.inl h))
                  · exact .inl h
                  · exact .inr (.inl (.inr h))
                  · exact .inr (.inr h)
                · rintro (h | (h | h) | h)
                  · exact .inl (.inr h)
                  · exact .inl (.inl h)
                  · exact .inr (.inl h)
                  · exact .inr (.inr h)
              · rw [List.map_cons, List.nodup_cons]
                refine ⟨?_, hd.nodup⟩
                intro hm
                obtain ⟨n, hn, he⟩ := List.mem_map.1 hm
                exact hd.fresh n hn ((hst _).2 (.inl he))
              · intro n hn
                rcases List.mem_cons.1 hn with rfl | hn
                · exact hc
                · exact fun h => hd.fresh n hn ((hst _).2 (.inr h))
              · intro n hn
                rcases List.mem_cons.1 hn with rfl | hn
                · exact ⟨hF, _, hway⟩
                · exact hd.visited n hn
              · simpa [Cls.id, Cls.bases] using hd.keys
              · intro c hc'
                rw [List.mem_singleton.1 hc']
                exact (hd.virt _).2 (.inl ((hst _).2 (.inl rfl)))
              · intro n hn c hc'
                rcases List.mem_cons.1 hn with rfl | hn
                · exact hd.vs_in c hc'
                · exact hd.closed n hn c hc'
    obtain ⟨r, H1, N1, hd1, hr1, heq⟩ := first
    obtain ⟨H2, N2, hd2, hr2⟩ := lookup_done d F rest par scratch acc r.2 hw (fun _ _ h => hsub _ _ (.tail _ _ _ _ _ h)) hacc hd1.found
    refine ⟨H1 ++ H2, N1 ++ N2, ?_, ?_⟩
    · rw [heq]
      simp only [Bases.nv, Bases.vs]
      exact hd1.comp hd2
    · rw [heq]
      simp only [Bool.or_eq_true, hr1, hr2, ne_eq, List.append_eq_nil_iff]
      by_cases h : H1 = [] <;> simp [h]

end Verif.Bases

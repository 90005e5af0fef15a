import Verif.Bases.Lookup
/-
From one lookup to all of them: which bases are listed (C138), and where they are (C139).
-/
namespace Verif.Bases

/-! ### Every subobject is found -/

theorem nv_sub : ∀ {F : Nat} {bs : Bases} {s : BSpec} {b : Cls} (k : Key), Bases.Has bs s b → s.virt = false → b.id ≠ F →
    ∀ κ ∈ b.bases.nv F (k.1, k.2 ++ [b.id]), κ ∈ bs.nv F k
  | F, _, _, _, k, .head s (.mk i b) rest, hv, hF, κ, h => by
    simp only [Cls.id, Cls.bases] at h hF
    simp [Bases.nv, hv, hF, h]
  | F, _, _, _, k, .tail s (.mk i b) rest s' c' hh, hv, hF, κ, h => by
    simp only [Bases.nv, List.mem_append]
    exact .inr (nv_sub k hh hv hF κ h)

theorem vs_sub : ∀ {F : Nat} {bs : Bases} {s : BSpec} {b : Cls}, Bases.Has bs s b → s.virt = false → b.id ≠ F →
    ∀ c ∈ b.bases.vs F, c ∈ bs.vs F
  | F, _, _, _, .head s (.mk i b) rest, hv, hF, c, h => by
    simp only [Cls.id, Cls.bases] at h hF
    simp [Bases.vs, hv, hF, h]
  | F, _, _, _, .tail s (.mk i b) rest s' c' hh, hv, hF, c, h => by
    simp only [Bases.vs, List.mem_append]
    exact .inr (vs_sub hh hv hF c h)

theorem nv_mem : ∀ {F : Nat} {bs : Bases} {s : BSpec} {b : Cls} (k : Key), Bases.Has bs s b → s.virt = false → b.id = F →
    (k.1, k.2 ++ [F]) ∈ bs.nv F k
  | F, _, _, _, k, .head s (.mk i b) rest, hv, hF => by
    simp only [Cls.id] at hF
    simp [Bases.nv, hv, hF]
  | F, _, _, _, k, .tail s (.mk i b) rest s' c' hh, hv, hF => by
    simp only [Bases.nv, List.mem_append]
    exact .inr (nv_mem k hh hv hF)

theorem vs_mem : ∀ {F : Nat} {bs : Bases} {s : BSpec} {b : Cls}, Bases.Has bs s b → s.virt = true → b ∈ bs.vs F
  | F, _, _, _, .head s (.mk i b) rest, hv => by simp [Bases.vs, hv]
  | F, _, _, _, .tail s (.mk i b) rest s' c' hh, hv => by
    simp only [Bases.vs, List.mem_append]
    exact .inr (vs_mem hh hv)

variable {d : Cls} {F : Nat} {st st' : St} {H : List (List Step × PAccess)} {N : List Cls}

theorem good_key_virt {h : List Step × PAccess} (hg : Good d F h) (hv : lastVirt h.1 = true) : subobject h.1 = (some F, []) := by
  obtain ⟨c, _, hc, hl⟩ := hg.way
  have hne : h.1 ≠ [] := by intro e; simp [e, lastVirt] at hv
  obtain ⟨p, s, he⟩ : ∃ p s, h.1 = p ++ [s] := ⟨_, _, (List.dropLast_concat_getLast hne).symm⟩
  rw [he, lastVirt_snoc] at hv
  rw [he, lastBase_snoc, Option.some.injEq] at hl
  rw [he, subobject_snoc]
  simp [Key.step, hv, hl, hc]

/-- For every subobject of class `F`, a path is recorded. -/
theorem Done.cover (hp : d.Proper) (hd : Done d F (d.bases.nv F (none, [])) (d.bases.vs F) st st' H N) (hst : st.virt = []) :
    ∀ {p c}, Way d p c → c.id = F → p ≠ [] → ∃ h ∈ H, subobject h.1 = subobject p := by
  let Inv (a : Cls) (k : Key) : Prop :=
    (∀ κ ∈ a.bases.nv F k, ∃ h ∈ H, subobject h.1 = κ) ∧ (∀ c ∈ a.bases.vs F, c.id ∈ st'.virt)
  have hkeys : ∀ κ, κ ∈ d.bases.nv F (none, []) ∨ (∃ n ∈ N, κ ∈ n.bases.nv F (some n.id, [])) → ∃ h ∈ H, subobject h.1 = κ := by
    intro κ h
    have : κ ∈ (H.filter (fun h => !lastVirt h.1)).map (fun h => subobject h.1) := by
      rw [hd.keys.mem_iff]
      simpa using h
    obtain ⟨h, hh, he⟩ := List.mem_map.1 this
    exact ⟨h, (List.mem_filter.1 hh).1, he⟩
  have hroot : Inv d (none, []) := ⟨fun κ h => hkeys κ (.inl h), hd.vs_in⟩
  have step : ∀ {a k s b q}, Way d q a → Inv a k → Bases.Has a.bases s b → b.id ≠ F → Inv b (k.step ⟨a.id, s, b⟩) := by
    intro a k s b q hw hi hh hF
    cases hv : s.virt
    · simp only [Key.step, hv, Bool.false_eq_true, if_false]
      exact ⟨fun κ h => hi.1 κ (nv_sub k hh hv hF κ h), fun c h => hi.2 c (vs_sub hh hv hF c h)⟩
    · simp only [Key.step, hv, if_true]
      have hb := (hd.virt _).1 (hi.2 b (vs_mem hh hv))
      rw [hst] at hb
      rcases hb with hb | hb | hb
      · simp at hb
      · obtain ⟨n, hn, he⟩ := List.mem_map.1 hb
        obtain ⟨_, q', hq'⟩ := hd.visited n hn
        have : n = b := hp.same _ _ _ _ hq' (hw.snoc hh) he
        subst this
        exact ⟨fun κ h => hkeys κ (.inr ⟨n, hn, h⟩), hd.closed n hn⟩
      · exact absurd hb.1 hF
  have last : ∀ {a k s b}, Inv a k → Bases.Has a.bases s b → b.id = F → ∃ h ∈ H, subobject h.1 = k.step ⟨a.id, s, b⟩ := by
    intro a k s b hi hh hF
    cases hv : s.virt
    · simp only [Key.step, hv, Bool.false_eq_true, if_false, hF]
      exact hi.1 _ (nv_mem k hh hv hF)
    · simp only [Key.step, hv, if_true, hF]
      have hb := (hd.virt _).1 (hi.2 b (vs_mem hh hv))
      rw [hst, hF] at hb
      rcases hb with hb | hb | hb
      · simp at hb
      · obtain ⟨n, hn, he⟩ := List.mem_map.1 hb
        exact absurd he (hd.visited n hn).1
      · obtain ⟨h, hh, hv⟩ := hb.2
        exact ⟨h, hh, good_key_virt (hd.good h hh) hv⟩
  have main : ∀ (p : List Step) (a : Cls) (q : List Step) (c : Cls), Way d q a → Inv a (subobject q) → Way a p c → c.id = F → p ≠ [] →
      ∃ h ∈ H, subobject h.1 = subobject (q ++ p) := by
    intro p
    induction p with
    | nil => intro a q c _ _ _ _ h; exact absurd rfl h
    | cons s p ih =>
      intro a q c hq hi hw hF _
      cases hw with
      | step _ s b _ _ h1 h2 =>
        by_cases hpe : p = []
        · subst hpe
          cases h2
          obtain ⟨h, hh, he⟩ := last hi h1 hF
          exact ⟨h, hh, by rw [he, subobject_snoc]⟩
        · have hbF : b.id ≠ F := fun e => hp.acyclic (hq.snoc h1) h2 hpe (hF.trans e.symm)
          have := ih b (q ++ [⟨a.id, s, b⟩]) c (hq.snoc h1) (by rw [subobject_snoc]; exact step hq hi h1 hbF) h2 hF hpe
          simpa using this
  intro p c hw hc hne
  simpa using main p d [] c (.nil d) hroot hw hc hne

/-! ### Different paths recorded to non-virtual subobjects lead to different subobjects -/

theorem nv_form : ∀ (F : Nat) (bs : Bases) (k κ : Key), κ ∈ bs.nv F k → ∃ i l, i ∈ bs.ids ∧ κ = (k.1, k.2 ++ i :: l)
  | F, .nil, k, κ, h => by simp [Bases.nv] at h
  | F, .cons s (.mk cid bs) rest, k, κ, h => by
    simp only [Bases.nv, List.mem_append] at h
    rcases h with h | h
    · split at h
      · simp at h
      · split at h
        · exact ⟨cid, [], by simp [Bases.ids, Cls.id], List.mem_singleton.1 h⟩
        · obtain ⟨i, l, _, rfl⟩ := nv_form F bs _ κ h
          exact ⟨cid, i :: l, by simp [Bases.ids, Cls.id], by simp⟩
    · obtain ⟨i, l, hi, rfl⟩ := nv_form F rest k κ h
      exact ⟨i, l, by simp [Bases.ids, hi], rfl⟩

theorem nv_nodup (hp : d.Proper) : ∀ (bs : Bases) (k : Key) (par : Cls) (q : List Step), Way d q par →
    (∀ s c, Bases.Has bs s c → Bases.Has par.bases s c) → bs.ids.Nodup → (bs.nv F k).Nodup
  | .nil, k, par, q, _, _, _ => by simp [Bases.nv]
  | .cons s (.mk cid bs) rest, k, par, q, hw, hsub, hn => by
    simp only [Bases.ids, Cls.id, List.nodup_cons] at hn
    simp only [Bases.nv]
    have hb := hw.snoc (hsub _ _ (.head _ _ _))
    rw [List.nodup_append]
    refine ⟨?_, nv_nodup hp rest k par q hw (fun _ _ h => hsub _ _ (.tail _ _ _ _ _ h)) hn.2, ?_⟩
    · split
      · simp
      · split
        · simp
        · exact nv_nodup hp bs _ _ _ hb (fun _ _ h => h) (hp.direct _ _ hb)
    · intro a ha b hb' hab
      subst hab
      obtain ⟨i, l, hi, he⟩ := nv_form F rest k a hb'
      split at ha
      · simp at ha
      · have : ∃ l', a = (k.1, k.2 ++ cid :: l') := by
          split at ha
          · exact ⟨[], List.mem_singleton.1 ha⟩
          · obtain ⟨i', l', _, he'⟩ := nv_form F bs _ a ha
            exact ⟨i' :: l', by rw [he']; simp⟩
        obtain ⟨l', he'⟩ := this
        rw [he, Prod.mk.injEq] at he'
        have := List.append_cancel_left he'.2
        simp only [List.cons.injEq] at this
        exact hn.1 (this.1 ▸ hi)

theorem Done.keys_nodup (hp : d.Proper) (hd : Done d F (d.bases.nv F (none, [])) (d.bases.vs F) st st' H N) :
    ((H.filter (fun h => !lastVirt h.1)).map (fun h => subobject h.1)).Nodup := by
  rw [hd.keys.nodup_iff, List.nodup_append]
  refine ⟨nv_nodup hp _ _ d [] (.nil d) (fun _ _ h => h) (hp.direct _ _ (.nil d)), ?_, ?_⟩
  · have : ∀ N' : List Cls, (∀ n ∈ N', n ∈ N) → (N'.map Cls.id).Nodup → (N'.flatMap (fun n => n.bases.nv F (some n.id, []))).Nodup := by
      intro N'
      induction N' with
      | nil => intro _ _; simp
      | cons n N' ih =>
        intro hs hnd
        simp only [List.map_cons, List.nodup_cons] at hnd
        obtain ⟨_, q, hq⟩ := hd.visited n (hs n (by simp))
        rw [List.flatMap_cons, List.nodup_append]
        refine ⟨nv_nodup hp _ _ n q hq (fun _ _ h => h) (hp.direct _ _ hq), ih (fun m hm => hs m (by simp [hm])) hnd.2, ?_⟩
        intro a ha b hb hab
        subst hab
        obtain ⟨m, hm, hb⟩ := List.mem_flatMap.1 hb
        obtain ⟨_, _, _, e1⟩ := nv_form F _ _ _ ha
        obtain ⟨_, _, _, e2⟩ := nv_form F _ _ _ hb
        rw [e1] at e2
        simp only [Prod.mk.injEq, Option.some.injEq] at e2
        exact hnd.1 (List.mem_map.2 ⟨m, hm, e2.1.symm⟩)
    exact this N (fun _ h => h) hd.nodup
  · intro a ha b hb hab
    subst hab
    obtain ⟨m, hm, hb⟩ := List.mem_flatMap.1 hb
    obtain ⟨_, _, _, e1⟩ := nv_form F _ _ _ ha
    obtain ⟨_, _, _, e2⟩ := nv_form F _ _ _ hb
    rw [e1] at e2
    simp at e2

theorem good_isSub {h : List Step × PAccess} (hg : Good d F h) : IsSubobject d (subobject h.1) F := by
  obtain ⟨c, hw, hc, _⟩ := hg.way
  exact ⟨_, c, hw, hc, rfl⟩

theorem Done.nonvirt_key (hd : Done d F (d.bases.nv F (none, [])) (d.bases.vs F) st st' H N) {h} (hh : h ∈ H) (hv : lastVirt h.1 = false) :
    (subobject h.1).2 ≠ [] := by
  have : subobject h.1 ∈ (H.filter (fun h => !lastVirt h.1)).map (fun h => subobject h.1) :=
    List.mem_map.2 ⟨h, List.mem_filter.2 ⟨hh, by simp [hv]⟩, rfl⟩
  rw [hd.keys.mem_iff] at this
  rcases List.mem_append.1 this with h | h
  · obtain ⟨_, _, _, e⟩ := nv_form F _ _ _ h; rw [e]; simp
  · obtain ⟨_, _, h⟩ := List.mem_flatMap.1 h
    obtain ⟨_, _, _, e⟩ := nv_form F _ _ _ h; rw [e]; simp

/-- Clang's count tells whether there is more than one subobject. -/
theorem Done.ambiguous_iff (hp : d.Proper) (hd : Done d F (d.bases.nv F (none, [])) (d.bases.vs F) st st' H N) (hst : st.virt = [])
    (hnv : st.nonvirt F = 0) (hF : F ≠ d.id) : isAmbiguous st' F = false ↔ Unambiguous d F := by
  have hcount := hd.count
  rw [hnv, Nat.zero_add] at hcount
  have hvirt : F ∈ st'.virt ↔ ∃ h ∈ H, lastVirt h.1 = true := by
    rw [hd.virt, hst]
    constructor
    · rintro (h | h | h)
      · simp at h
      · obtain ⟨n, hn, he⟩ := List.mem_map.1 h
        exact absurd he (hd.visited n hn).1
      · exact h.2
    · exact fun h => .inr (.inr ⟨rfl, h⟩)
  have hnd := hd.keys_nodup hp
  have cover : ∀ k, IsSubobject d k F → ∃ h ∈ H, subobject h.1 = k := by
    rintro k ⟨p, c, hw, hc, rfl⟩
    refine hd.cover hp hst hw hc ?_
    rintro rfl
    cases hw
    exact hF hc.symm
  have hlen : ((H.filter (fun h => !lastVirt h.1)).map (fun h => subobject h.1)).length = st'.nonvirt F := by
    rw [List.length_map, hcount]
  have e : isAmbiguous st' F = false ↔ st'.nonvirt F + (if F ∈ st'.virt then 1 else 0) ≤ 1 := by
    simp only [isAmbiguous, List.contains_iff_mem, gt_iff_lt, decide_eq_false_iff_not, Nat.not_lt]
  rw [e]
  constructor
  · intro hle k k' hk hk'
    obtain ⟨h, hh, rfl⟩ := cover k hk
    obtain ⟨h', hh', rfl⟩ := cover k' hk'
    cases hv : lastVirt h.1 <;> cases hv' : lastVirt h'.1
    · have m1 : subobject h.1 ∈ (H.filter (fun h => !lastVirt h.1)).map (fun h => subobject h.1) :=
        List.mem_map.2 ⟨h, List.mem_filter.2 ⟨hh, by simp [hv]⟩, rfl⟩
      have m2 : subobject h'.1 ∈ (H.filter (fun h => !lastVirt h.1)).map (fun h => subobject h.1) :=
        List.mem_map.2 ⟨h', List.mem_filter.2 ⟨hh', by simp [hv']⟩, rfl⟩
      have hl : ((H.filter (fun h => !lastVirt h.1)).map (fun h => subobject h.1)).length ≤ 1 := by omega
      revert m1 m2 hl
      generalize (H.filter (fun h => !lastVirt h.1)).map (fun h => subobject h.1) = L
      intro m1 m2 hl
      match L, hl with
      | [], _ => simp at m1
      | [x], _ => rw [List.mem_singleton.1 m1, List.mem_singleton.1 m2]
      | _ :: _ :: _, hl => simp at hl
    · have : F ∈ st'.virt := hvirt.2 ⟨h', hh', hv'⟩
      have m1 : subobject h.1 ∈ (H.filter (fun h => !lastVirt h.1)).map (fun h => subobject h.1) :=
        List.mem_map.2 ⟨h, List.mem_filter.2 ⟨hh, by simp [hv]⟩, rfl⟩
      have := List.length_pos_of_mem m1
      simp only [if_pos ‹F ∈ st'.virt›] at hle
      omega
    · have : F ∈ st'.virt := hvirt.2 ⟨h, hh, hv⟩
      have m1 : subobject h'.1 ∈ (H.filter (fun h => !lastVirt h.1)).map (fun h => subobject h.1) :=
        List.mem_map.2 ⟨h', List.mem_filter.2 ⟨hh', by simp [hv']⟩, rfl⟩
      have := List.length_pos_of_mem m1
      simp only [if_pos ‹F ∈ st'.virt›] at hle
      omega
    · rw [good_key_virt (hd.good h hh) hv, good_key_virt (hd.good h' hh') hv']
  · intro hu
    have hsame : ∀ a ∈ (H.filter (fun h => !lastVirt h.1)).map (fun h => subobject h.1), IsSubobject d a F ∧ a.2 ≠ [] := by
      intro a ha
      obtain ⟨h, hh, rfl⟩ := List.mem_map.1 ha
      have := List.mem_filter.1 hh
      exact ⟨good_isSub (hd.good h this.1), hd.nonvirt_key this.1 (by simpa using this.2)⟩
    rw [← hlen]
    revert hnd hsame
    generalize (H.filter (fun h => !lastVirt h.1)).map (fun h => subobject h.1) = L
    intro hnd hsame
    match L, hnd with
    | [], _ => simp; split <;> omega
    | [x], _ =>
      have : F ∉ st'.virt := by
        intro hv
        obtain ⟨h, hh, hv⟩ := hvirt.1 hv
        have h1 := hsame x (by simp)
        have h2 := good_isSub (hd.good h hh)
        rw [good_key_virt (hd.good h hh) hv] at h2
        have := hu _ _ h1.1 h2
        exact h1.2 (by rw [this])
      simp [this]
    | x :: y :: L, hnd =>
      have := hu _ _ (hsame x (by simp)).1 (hsame y (by simp)).1
      simp [this] at hnd

/-! ### Finding the class -/

/-- The search in the first base, and then in the others. -/
def Bases.first (id : Nat) (s : BSpec) (cid : Nat) (bases : Bases) (scratch : List Step) (acc : PAccess) (st : St) : Bool × St :=
  let path := scratch ++ [⟨id, s, .mk cid bases⟩]
  let here := stepAccess scratch acc s.acc
  let m := isNewClass cid (countBase s cid st)
  if m.1 then (true, { m.2 with paths := m.2.paths ++ [(path, here)] })
  else if !(s.virt && st.virt.contains cid) then bases.lookup cid path here m.2
  else (false, m.2)

theorem lookup_cons (id : Nat) (s : BSpec) (cid : Nat) (bases rest : Bases) (scratch : List Step) (acc : PAccess) (st : St) :
    (Bases.cons s (.mk cid bases) rest).lookup id scratch acc st =
      ((Bases.first id s cid bases scratch acc st).1 || (rest.lookup id scratch acc (Bases.first id s cid bases scratch acc st).2).1,
        (rest.lookup id scratch acc (Bases.first id s cid bases scratch acc st).2).2) := rfl

theorem countBase_set (s : BSpec) (c : Nat) (st : St) (f : Option Nat) (l : List Nat) :
    countBase s c { st with found := f, seen := l } = { countBase s c st with found := f, seen := l } := by
  unfold countBase; split <;> rfl

theorem first_some (F : Nat) (id : Nat) (s : BSpec) (cid : Nat) (bases : Bases) (scratch : List Step) (acc : PAccess) (st : St)
    (hl : ∀ st' : St, st'.found = some F → (bases.lookup cid (scratch ++ [⟨id, s, .mk cid bases⟩]) (stepAccess scratch acc s.acc) st').2.found = some F)
    (h : st.found = some F) : (Bases.first id s cid bases scratch acc st).2.found = some F := by
  have hf : (countBase s cid st).found = some F := (countBase_found s cid st).1.trans h
  have hn : isNewClass cid (countBase s cid st) = (cid == F, countBase s cid st) := by unfold isNewClass; rw [hf]
  unfold Bases.first
  simp only [hn]
  split
  · exact hf
  · split
    · exact hl _ hf
    · exact hf

theorem lookup_some (F : Nat) : ∀ (bs : Bases) (id : Nat) (scratch : List Step) (acc : PAccess) (st : St), st.found = some F →
    (bs.lookup id scratch acc st).2.found = some F
  | .nil, id, scratch, acc, st, h => h
  | .cons s (.mk cid bases) rest, id, scratch, acc, st, h => by
    rw [lookup_cons]
    exact lookup_some F rest id scratch acc _ (first_some F id s cid bases scratch acc st (fun st' h' => lookup_some F bases cid _ _ st' h') h)

/-- What holds of a part of the search that starts without having found anything. -/
structure Quiet (f : St → Bool × St) (st : St) : Prop where
  none : (f st).2.found = none → (f st).1 = false ∧ (f st).2.seen = st.seen ∧
    ∀ G l, G ∉ st.seen → f { st with found := some G, seen := l } = (false, { (f st).2 with found := some G, seen := l })
  some : ∀ F, (f st).2.found = some F →
    F ∉ st.seen ∧ f st = f { st with found := some F, seen := F :: st.seen } ∧ (f st).1 = true

/-- While nothing has been found, everything met has been seen before; once something is found, it is as if that had been looked for
from the beginning. -/
theorem lookup_none : ∀ (bs : Bases) (id : Nat) (scratch : List Step) (acc : PAccess) (st : St), st.found = none →
    Quiet (bs.lookup id scratch acc) st
  | .nil, id, scratch, acc, st, hf => by
    refine ⟨fun _ => ⟨rfl, rfl, fun G l _ => by simp [Bases.lookup]⟩, fun F h => ?_⟩
    simp [Bases.lookup, hf] at h
  | .cons s (.mk cid bases) rest, id, scratch, acc, st, hf => by
    have hfirst : Quiet (Bases.first id s cid bases scratch acc) st := by
      have hcf := countBase_found s cid st
      have hn : ∀ F l, isNewClass cid { countBase s cid st with found := Option.some F, seen := l } =
          (cid == F, { countBase s cid st with found := Option.some F, seen := l }) := fun F l => rfl
      have hvs : ∀ F l, (countBase s cid { st with found := F, seen := l }) = { countBase s cid st with found := F, seen := l } :=
        fun F l => countBase_set s cid st F l
      by_cases hc : cid ∈ st.seen
      · have h0 : isNewClass cid (countBase s cid st) = (false, countBase s cid st) := by
          unfold isNewClass; rw [hcf.1, hf]; simp [hcf.2.1, hc]
        have hneq : ∀ G, G ∉ st.seen → (cid == G) = false := by
          intro G hG; simp only [beq_eq_false_iff_ne, ne_eq]; rintro rfl; exact hG hc
        by_cases hv : (!(s.virt && st.virt.contains cid)) = true
        · have ih := lookup_none bases cid (scratch ++ [⟨id, s, .mk cid bases⟩]) (stepAccess scratch acc s.acc) (countBase s cid st) (hcf.1.trans hf)
          have e0 : Bases.first id s cid bases scratch acc st =
              bases.lookup cid (scratch ++ [⟨id, s, .mk cid bases⟩]) (stepAccess scratch acc s.acc) (countBase s cid st) := by
            simp only [Bases.first, h0, Bool.false_eq_true, if_false, hv, if_true]
          have e1 : ∀ G l, G ∉ st.seen → Bases.first id s cid bases scratch acc { st with found := Option.some G, seen := l } =
              bases.lookup cid (scratch ++ [⟨id, s, .mk cid bases⟩]) (stepAccess scratch acc s.acc)
                { countBase s cid st with found := Option.some G, seen := l } := by
            intro G l hG
            unfold Bases.first
            rw [hvs, hn]
            simp only [hneq G hG, Bool.false_eq_true, if_false, hv, if_true]
          refine ⟨fun h => ?_, fun F h => ?_⟩
          · rw [e0] at h ⊢
            obtain ⟨h1, h2, h3⟩ := ih.none h
            refine ⟨h1, h2.trans hcf.2.1, fun G l hG => ?_⟩
            rw [e1 G l hG]
            exact h3 G l (by rw [hcf.2.1]; exact hG)
          · rw [e0] at h ⊢
            obtain ⟨h1, h2, h3⟩ := ih.some F h
            rw [hcf.2.1] at h1 h2
            exact ⟨h1, by rw [e1 F _ h1]; exact h2, h3⟩
        · have e0 : Bases.first id s cid bases scratch acc st = (false, countBase s cid st) := by
            simp only [Bases.first, h0, Bool.false_eq_true, if_false, hv]
          refine ⟨fun h => ?_, fun F h => ?_⟩
          · rw [e0]
            refine ⟨rfl, hcf.2.1, fun G l hG => ?_⟩
            unfold Bases.first
            rw [hvs, hn]
            simp only [hneq G hG, Bool.false_eq_true, if_false, hv]
          · rw [e0] at h
            rw [hcf.1, hf] at h
            cases h
      · have h0 : isNewClass cid (countBase s cid st) = (true, { countBase s cid st with found := Option.some cid, seen := cid :: st.seen }) := by
          unfold isNewClass; rw [hcf.1, hf]; simp [hcf.2.1, hc]
        have e0 : Bases.first id s cid bases scratch acc st = (true, { countBase s cid st with
            found := Option.some cid, seen := cid :: st.seen,
            paths := (countBase s cid st).paths ++ [(scratch ++ [⟨id, s, .mk cid bases⟩], stepAccess scratch acc s.acc)] }) := by
          simp only [Bases.first, h0, if_true]
        refine ⟨fun h => ?_, fun F h => ?_⟩
        · rw [e0] at h; cases h
        · rw [e0] at h
          simp only [Option.some.injEq] at h
          subst h
          refine ⟨hc, ?_, by rw [e0]⟩
          rw [e0]
          unfold Bases.first
          rw [hvs (Option.some cid) (cid :: st.seen), hn]
          simp only [beq_self_eq_true, if_true]
    constructor
    · intro h
      rw [lookup_cons] at h ⊢
      cases h1 : (Bases.first id s cid bases scratch acc st).2.found with
      | some F => rw [lookup_some F rest _ _ _ _ h1] at h; cases h
      | none =>
        obtain ⟨a1, a2, a3⟩ := hfirst.none h1
        obtain ⟨b1, b2, b3⟩ := (lookup_none rest id scratch acc _ h1).none h
        refine ⟨by simp [a1, b1], b2.trans a2, fun G l hG => ?_⟩
        rw [lookup_cons, a3 G l hG]
        simp only
        rw [b3 G l (by rw [a2]; exact hG)]
        rfl
    · intro F h
      rw [lookup_cons] at h ⊢
      cases h1 : (Bases.first id s cid bases scratch acc st).2.found with
      | some F' =>
        obtain ⟨a1, a2, a3⟩ := hfirst.some F' h1
        have : F' = F := by
          rw [lookup_some F' rest _ _ _ _ h1] at h
          exact Option.some.inj h
        subst this
        refine ⟨a1, ?_, by simp [a3]⟩
        rw [lookup_cons, ← a2]
      | none =>
        obtain ⟨a1, a2, a3⟩ := hfirst.none h1
        obtain ⟨b1, b2, b3⟩ := (lookup_none rest id scratch acc _ h1).some F h
        rw [a2] at b1 b2
        refine ⟨b1, ?_, by simp [b3]⟩
        rw [lookup_cons, a3 F _ b1]
        simp only [a1, Bool.false_or]
        rw [b2]

end Verif.Bases

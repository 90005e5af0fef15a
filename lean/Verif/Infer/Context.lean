import Verif.Infer.Rename
/- The loaded logical context has the same runs as the saved one, up to the renaming of atoms (C126). -/
namespace Verif.Infer
open Verif.NullFlow (Formula Ctx Solver NullState Source Run Reach)

local notation "Atom" => Nat

/-- `c'` is the part of `c` that matters at `T`, renamed. -/
structure Image (c c' : Ctx) (T : Atom) (m : List (Nat × Nat)) : Prop where
  invDom : ∀ g ∈ c.inv, FDom m g
  inv : ∀ ρ, (∀ g ∈ c'.inv, g.eval ρ = true) ↔ ∀ g ∈ c.inv, (ren (sub m) g).eval ρ = true
  dom : ∀ t, Reach c T t → Dom m t
  fcDom : ∀ t C, Reach c T t → c.fc t = some C → FDom m C
  fc : ∀ t, Reach c T t → c'.fc (sub m t) = (c.fc t).map (ren (sub m))
  deps : ∀ t, Reach c T t → c'.deps (sub m t) = (c.deps t).map (sub m)

theorem Image.reach {c c' : Ctx} {T : Atom} {m : List (Nat × Nat)} (h : Image c c' T m) {t : Atom} (hr : Reach c T t) :
    Reach c' (sub m T) (sub m t) := by
  induction hr with
  | refl => exact .refl _
  | step hr hd ih => exact .step ih (by rw [h.deps _ hr]; exact List.mem_map_of_mem hd)

theorem Image.reach_inv {c c' : Ctx} {T : Atom} {m : List (Nat × Nat)} (h : Image c c' T m) {b : Atom}
    (hr : Reach c' (sub m T) b) : ∃ t, Reach c T t ∧ sub m t = b := by
  generalize hT : sub m T = T' at hr
  induction hr with
  | refl => exact ⟨T, .refl _, hT⟩
  | step hr hd ih =>
    obtain ⟨t, h1, rfl⟩ := ih
    rw [h.deps t h1] at hd
    obtain ⟨d, hd1, rfl⟩ := List.mem_map.mp hd
    exact ⟨d, .step h1 hd1, rfl⟩

theorem sub_inj {st : LoadSt} (w : St.WF st) {a b : Nat} (ha : Dom st.map a) (hb : Dom st.map b) (h : sub st.map a = sub st.map b) :
    a = b := by
  obtain ⟨x, hx⟩ := Option.isSome_iff_exists.mp ha
  obtain ⟨y, hy⟩ := Option.isSome_iff_exists.mp hb
  simp only [sub, hx, hy, Option.getD_some] at h
  subst h
  exact w.inj a b x hx hy

open Classical in
/-- A renamed assignment. -/
noncomputable def push (st : LoadSt) (ρ : Nat → Bool) (b : Nat) : Bool :=
  if h : ∃ a, Dom st.map a ∧ sub st.map a = b then ρ h.choose else false

theorem push_sub {st : LoadSt} (w : St.WF st) (ρ : Nat → Bool) {a : Nat} (ha : Dom st.map a) : push st ρ (sub st.map a) = ρ a := by
  unfold push
  have hex : ∃ x, Dom st.map x ∧ sub st.map x = sub st.map a := ⟨a, ha, rfl⟩
  rw [dif_pos hex]
  rw [sub_inj w hex.choose_spec.1 ha hex.choose_spec.2]

theorem push_eval {st : LoadSt} (w : St.WF st) (ρ : Nat → Bool) {f : Formula} (hf : FDom st.map f) :
    (ren (sub st.map) f).eval (push st ρ) = f.eval ρ := by
  rw [eval_ren]
  exact eval_congr f _ _ (fun a ha => push_sub w ρ (hf a ha))

theorem run_image {c c' : Ctx} {T : Atom} {st : LoadSt} (w : St.WF st) (h : Image c c' T st.map) (f : Formula) (hf : FDom st.map f) :
    (∃ ρ, Run c' (sub st.map T) ρ ∧ (ren (sub st.map) f).eval ρ = true) ↔ ∃ ρ, Run c T ρ ∧ f.eval ρ = true := by
  constructor
  · rintro ⟨ρ, hr, hv⟩
    refine ⟨fun a => ρ (sub st.map a), ⟨fun g hg => ?_, fun t ht hc => ?_, fun t C ht hc => ?_, hr.here⟩, by rw [← eval_ren]; exact hv⟩
    · rw [← eval_ren]; exact (h.inv ρ).mp hr.inv g hg
    · exact hr.free _ (h.reach ht) (by rw [h.fc t ht, hc]; rfl)
    · rw [← eval_ren]; exact hr.defined _ _ (h.reach ht) (by rw [h.fc t ht, hc]; rfl)
  · rintro ⟨ρ, hr, hv⟩
    refine ⟨push st ρ, ⟨?_, ?_, ?_, ?_⟩, by rw [push_eval w ρ hf]; exact hv⟩
    · refine (h.inv _).mpr fun g hg => ?_
      rw [push_eval w ρ (h.invDom g hg)]; exact hr.inv g hg
    · intro b hb hc
      obtain ⟨t, ht, rfl⟩ := h.reach_inv hb
      rw [push_sub w ρ (h.dom t ht)]
      rw [h.fc t ht] at hc
      exact hr.free t ht (by simpa using hc)
    · intro b C hb hc
      obtain ⟨t, ht, rfl⟩ := h.reach_inv hb
      rw [push_sub w ρ (h.dom t ht)]
      rw [h.fc t ht] at hc
      obtain ⟨D, hD, rfl⟩ := Option.map_eq_some_iff.mp hc
      rw [push_eval w ρ (h.fcDom t D ht hD)]
      exact hr.defined t D ht hD
    · rw [push_sub w ρ (h.dom T (.refl _))]; exact hr.here

theorem allows_image {s s' : Solver} (hs : s.Complete) (hs' : s'.Complete) {c c' : Ctx} {T : Atom} {st : LoadSt} (w : St.WF st)
    (h : Image c c' T st.map) (f : Formula) (hf : FDom st.map f) :
    NullFlow.allows s' c' (sub st.map T) (ren (sub st.map) f) = NullFlow.allows s c T f := by
  apply Bool.eq_iff_iff.mpr
  rw [NullFlow.allows_iff s' hs', NullFlow.allows_iff s hs]
  exact run_image w h f hf

theorem proves_image {s s' : Solver} (hs : s.Complete) (hs' : s'.Complete) {c c' : Ctx} {T : Atom} {st : LoadSt} (w : St.WF st)
    (h : Image c c' T st.map) (f : Formula) (hf : FDom st.map f) :
    NullFlow.proves s' c' (sub st.map T) (ren (sub st.map) f) = NullFlow.proves s c T f := by
  apply Bool.eq_iff_iff.mpr
  rw [NullFlow.proves_iff s' hs', NullFlow.proves_iff s hs]
  have := run_image w h (.not f) hf
  simp only [ren, Formula.eval] at this
  constructor
  · intro hp ρ hr
    cases hv : f.eval ρ with
    | true => rfl
    | false =>
      obtain ⟨ρ', h1, h2⟩ := this.mpr ⟨ρ, hr, by simp [hv]⟩
      simp [hp ρ' h1] at h2
  · intro hp ρ hr
    cases hv : (ren (sub st.map) f).eval ρ with
    | true => rfl
    | false =>
      obtain ⟨ρ', h1, h2⟩ := this.mp ⟨ρ, hr, by simp [hv]⟩
      simp [hp ρ' h1] at h2

/-! ### Loading the context -/

theorem get?_foldl_mem {V : Type} (L : List (Nat × V)) : ∀ (m : List (Nat × V)) (k : Nat) (v : V),
    AMap.get? (L.foldl (fun m kv => AMap.insert m kv.1 kv.2) m) k = some v → (k, v) ∈ L ∨ AMap.get? m k = some v := by
  induction L with
  | nil => intro m k v h; exact .inr h
  | cons p L ih =>
    intro m k v h
    rcases ih _ k v h with h | h
    · exact .inl (List.mem_cons_of_mem _ h)
    · rw [AMap.get?_insert] at h
      split at h
      · have hv := Option.some.inj h
        subst_vars
        exact .inl (by simp)
      · exact .inr h

theorem get?_foldl_some {V : Type} (L : List (Nat × V)) : ∀ (m : List (Nat × V)) (k : Nat),
    ((∃ v, (k, v) ∈ L) ∨ (AMap.get? m k).isSome = true) →
    (AMap.get? (L.foldl (fun m kv => AMap.insert m kv.1 kv.2) m) k).isSome = true := by
  induction L with
  | nil => intro m k h; rcases h with ⟨v, h⟩ | h; exact absurd h (by simp); exact h
  | cons p L ih =>
    intro m k h
    apply ih
    rcases h with ⟨v, h⟩ | h
    · rcases List.mem_cons.mp h with rfl | h
      · exact .inr (by simp [AMap.get?_insert])
      · exact .inl ⟨v, h⟩
    · refine .inr ?_
      rw [AMap.get?_insert]
      split
      · rfl
      · exact h

/-- With consistent entries the map holds exactly the entries. -/
theorem get?_foldl {V : Type} (L : List (Nat × V)) (hc : ∀ k v w, (k, v) ∈ L → (k, w) ∈ L → v = w) (k : Nat) (v : V) :
    AMap.get? (L.foldl (fun m kv => AMap.insert m kv.1 kv.2) []) k = some v ↔ (k, v) ∈ L := by
  constructor
  · intro h
    rcases get?_foldl_mem L [] k v h with h | h
    · exact h
    · simp at h
  · intro h
    obtain ⟨w, hw⟩ := Option.isSome_iff_exists.mp (get?_foldl_some L [] k (.inl ⟨v, h⟩))
    rcases get?_foldl_mem L [] k w hw with h' | h'
    · rw [hc k v w h h']; exact hw
    · simp at h'

theorem loads_def : Loads loadDef (fun σ p => (σ p.1, ren σ p.2)) (fun m p => FDom m p.2 ∧ Dom m p.1) :=
  loads_map (loads_pair loads_parse loads_getAtom) (fun p : Nat × Formula => (p.2, p.1)) (fun _ q => (q.2, q.1))

theorem loads_dep : Loads loadDep (fun σ p => (σ p.1, p.2.map σ)) (fun m p => (∀ a ∈ p.2, Dom m a) ∧ Dom m p.1) :=
  loads_map (loads_pair (loads_list loads_getAtom) loads_getAtom) (fun p : Nat × List Nat => (p.2, p.1)) (fun _ q => (q.2, q.1))

theorem conj_eval (l : List Formula) (ρ : Nat → Bool) :
    (∀ g ∈ (conj l).toList, g.eval ρ = true) ↔ ∀ g ∈ l, g.eval ρ = true := by
  cases l with
  | nil => simp [conj]
  | cons f fs =>
    simp only [conj, Option.toList, List.mem_singleton, forall_eq]
    induction fs generalizing f with
    | nil => simp
    | cons g gs ih =>
      rw [List.foldl_cons, ih]
      simp [Formula.eval, and_assoc]

theorem conj_atoms (l : List Formula) (F : Formula) (h : conj l = some F) (g : Formula) (hg : g ∈ l) : ∀ a ∈ g.atoms, a ∈ F.atoms := by
  cases l with
  | nil => simp [conj] at h
  | cons f fs =>
    simp only [conj, Option.some.injEq] at h
    subst h
    have gen : ∀ (fs : List Formula) (f : Formula), (∀ a ∈ f.atoms, a ∈ (fs.foldl Formula.and f).atoms) ∧
        ∀ g ∈ fs, ∀ a ∈ g.atoms, a ∈ (fs.foldl Formula.and f).atoms := by
      intro fs
      induction fs with
      | nil => intro f; exact ⟨fun a h => h, by simp⟩
      | cons k ks ih =>
        intro f
        obtain ⟨h1, h2⟩ := ih (.and f k)
        refine ⟨fun a ha => h1 a (by simp [Formula.atoms, ha]), fun g hg a ha => ?_⟩
        rcases List.mem_cons.mp hg with rfl | hg
        · exact h1 a (by simp [Formula.atoms, ha])
        · exact h2 g hg a ha
    rcases List.mem_cons.mp hg with rfl | hg
    · exact (gen fs _).1
    · exact (gen fs f).2 g hg

theorem conj_ren (l : List Formula) (σ : Nat → Nat) (ρ : Nat → Bool) :
    (∀ g ∈ ((conj l).map (ren σ)).toList, g.eval ρ = true) ↔ ∀ g ∈ l, (ren σ g).eval ρ = true := by
  have := conj_eval l (fun a => ρ (σ a))
  simp only [eval_ren]
  rw [← this]
  cases conj l <;> simp [eval_ren]

/-- The loaded context is the image of the saved one at every point whose token was used. -/
theorem loadCtx_image {c : Ctx} {used : List Atom} {lc : LogicalContext} (hx : Exported c used lc) (st0 : LoadSt) :
    Step st0 (loadCtx lc st0).2 ∧
    ∀ st', St.WF st' → Ext (loadCtx lc st0).2 st' → ∀ T ∈ used, Dom st'.map T → Image c (loadCtx lc st0).1 T st'.map := by
  obtain ⟨i1, i2, i3⟩ := (loads_opt loads_parse).ok lc.invariant st0
  generalize hI : loadOpt parse lc.invariant st0 = I at i1 i2 i3
  obtain ⟨d1, d2, d3⟩ := (loads_list loads_def).ok lc.defs I.2
  generalize hD : loadList loadDef lc.defs I.2 = D at d1 d2 d3
  obtain ⟨p1, p2, p3⟩ := (loads_list loads_dep).ok lc.deps D.2
  generalize hP : loadList loadDep lc.deps D.2 = P at p1 p2 p3
  have hctx : (loadCtx lc st0).2 = P.2 := by simp only [loadCtx, hI, hD, hP]
  refine ⟨by rw [hctx]; exact (i1.trans d1).trans p1, ?_⟩
  rw [hctx]
  intro st' w' he T hT hTd
  have hinv : (loadCtx lc st0).1.inv = I.1.toList := by simp only [loadCtx, hI]
  have hfc : (loadCtx lc st0).1.fc = AMap.get? (D.1.foldl (fun m kv => AMap.insert m kv.1 kv.2) []) := by
    simp only [loadCtx, hI, hD]
  have hdeps : (loadCtx lc st0).1.deps = fun t => (AMap.get? (P.1.foldl (fun m kv => AMap.insert m kv.1 kv.2) []) t).getD [] := by
    simp only [loadCtx, hI, hD, hP]
  -- everything in terms of the final map
  have eI : Ext I.2 st' := (d1.2.trans p1.2).trans he
  have eD : Ext D.2 st' := p1.2.trans he
  obtain ⟨i2, i4⟩ := (loads_opt loads_parse).ext lc.invariant I.2 st' eI i2
  obtain ⟨d2, d4⟩ := (loads_list loads_def).ext lc.defs D.2 st' eD d2
  obtain ⟨p2, p4⟩ := (loads_list loads_dep).ext lc.deps P.2 st' he p2
  rw [← i4] at i3
  rw [← d4] at d3
  rw [← p4] at p3
  have consD : ∀ k v w, (k, v) ∈ D.1 → (k, w) ∈ D.1 → v = w := by
    intro k v w h1 h2
    rw [d3] at h1 h2
    obtain ⟨⟨t1, C1⟩, m1, e1⟩ := List.mem_map.mp h1
    obtain ⟨⟨t2, C2⟩, m2, e2⟩ := List.mem_map.mp h2
    simp only [Prod.mk.injEq] at e1 e2
    have : t1 = t2 := sub_inj w' (d2 _ m1).2 (d2 _ m2).2 (by rw [e1.1, e2.1])
    subst this
    have h := hx.defs_right _ _ m1
    rw [hx.defs_right _ _ m2] at h
    cases h
    rw [← e1.2, ← e2.2]
  have consP : ∀ k v w, (k, v) ∈ P.1 → (k, w) ∈ P.1 → v = w := by
    intro k v w h1 h2
    rw [p3] at h1 h2
    obtain ⟨⟨t1, C1⟩, m1, e1⟩ := List.mem_map.mp h1
    obtain ⟨⟨t2, C2⟩, m2, e2⟩ := List.mem_map.mp h2
    simp only [Prod.mk.injEq] at e1 e2
    have : t1 = t2 := sub_inj w' (p2 _ m1).2 (p2 _ m2).2 (by rw [e1.1, e2.1])
    subst this
    rw [← e1.2, ← e2.2, hx.deps_right _ _ m1, hx.deps_right _ _ m2]
  have hdom : ∀ t, Reach c T t → Dom st'.map t := by
    intro t ht
    cases ht with
    | refl => exact hTd
    | step hr hd =>
      have hne : c.deps _ ≠ [] := fun h => by rw [h] at hd; simp at hd
      exact (p2 _ (hx.deps_all T hT _ hr hne)).1 _ hd
  refine ⟨fun g hg => ?_, fun ρ => ?_, hdom, ?_, ?_, ?_⟩
  · cases hj : conj c.inv with
    | none => cases hc : c.inv with
      | nil => rw [hc] at hg; simp at hg
      | cons a l => rw [hc] at hj; simp [conj] at hj
    | some F =>
      intro a ha
      exact i2 F (by rw [hx.invariant, hj]) a (conj_atoms _ F hj g hg a ha)
  · rw [hinv, i3, hx.invariant]
    exact conj_ren c.inv _ ρ
  · intro t C ht hC
    exact (d2 _ (hx.defs_all T hT t C ht hC)).1
  · intro t ht
    rw [hfc]
    cases hC : c.fc t with
    | some C =>
      rw [Option.map_some, get?_foldl _ consD, d3]
      exact List.mem_map.mpr ⟨(t, C), hx.defs_all T hT t C ht hC, rfl⟩
    | none =>
      cases hg : AMap.get? (D.1.foldl (fun m kv => AMap.insert m kv.1 kv.2) []) (sub st'.map t) with
      | none => rfl
      | some F =>
        rw [get?_foldl _ consD, d3] at hg
        obtain ⟨⟨t1, C1⟩, m1, e1⟩ := List.mem_map.mp hg
        simp only [Prod.mk.injEq] at e1
        have : t1 = t := sub_inj w' (d2 _ m1).2 (hdom t ht) e1.1
        subst this
        rw [hx.defs_right _ _ m1] at hC
        cases hC
  · intro t ht
    rw [hdeps]
    show (AMap.get? (P.1.foldl (fun m kv => AMap.insert m kv.1 kv.2) []) (sub st'.map t)).getD [] = _
    by_cases hne : c.deps t = []
    · rw [hne]
      cases hg : AMap.get? (P.1.foldl (fun m kv => AMap.insert m kv.1 kv.2) []) (sub st'.map t) with
      | none => rfl
      | some F =>
        rw [get?_foldl _ consP, p3] at hg
        obtain ⟨⟨t1, C1⟩, m1, e1⟩ := List.mem_map.mp hg
        simp only [Prod.mk.injEq] at e1
        have : t1 = t := sub_inj w' (p2 _ m1).2 (hdom t ht) e1.1
        subst this
        rw [Option.getD_some, ← e1.2, hx.deps_right _ _ m1, hne]
    · have : AMap.get? (P.1.foldl (fun m kv => AMap.insert m kv.1 kv.2) []) (sub st'.map t) = some ((c.deps t).map (sub st'.map)) := by
        rw [get?_foldl _ consP, p3]
        exact List.mem_map.mpr ⟨(t, c.deps t), hx.deps_all T hT t ht hne, rfl⟩
      rw [this]
      rfl

/-- `exportLogicalContext` (contract), for a list `toks` of tokens that contains all dependencies of the used ones: an
unconstrained token is left out. -/
def exportCtx (c : Ctx) (toks : List Atom) : LogicalContext where
  invariant := conj c.inv
  defs := toks.filterMap (fun t => (c.fc t).map (fun C => (t, C)))
  deps := toks.filterMap (fun t => if (c.fc t).isSome ∧ c.deps t ≠ [] then some (t, c.deps t) else none)

theorem exportCtx_exported (c : Ctx) (toks used : List Atom) (hfree : ∀ t, c.fc t = none → c.deps t = [])
    (h : ∀ u ∈ used, ∀ t, Reach c u t → t ∈ toks) : Exported c used (exportCtx c toks) where
  invariant := rfl
  defs_right t C hm := by
    obtain ⟨x, _, hx⟩ := List.mem_filterMap.mp hm
    obtain ⟨D, h1, h2⟩ := Option.map_eq_some_iff.mp hx
    cases h2; exact h1
  deps_right t ds hm := by
    obtain ⟨x, _, hx⟩ := List.mem_filterMap.mp hm
    split at hx
    · cases hx; rfl
    · cases hx
  defs_all u hu t C hr hC := List.mem_filterMap.mpr ⟨t, h u hu t hr, by rw [hC]; rfl⟩
  deps_all u hu t hr hne := List.mem_filterMap.mpr ⟨t, h u hu t hr, by
    have hs : (c.fc t).isSome = true := by
      cases hc : c.fc t with
      | none => exact absurd (hfree t hc) hne
      | some C => rfl
    rw [if_pos ⟨hs, hne⟩]⟩

end Verif.Infer

import Verif.Header.Main

/-!
# When no header can be generated; namespaces
-/

namespace Verif.Header
open Verif Verif.Toposort

/-- The text that defines something. -/
inductive Defines (w : Input) : Node → Snippet → Prop where
  | item (i : Item) (api : Api) : i ∈ w.items → i.api = some api → Defines w (.item i.id) api.main
  | spec (s : Nat) : Needed w s → Defines w (.spec s) (w.gen s).main

/-- The definition of `n` needs the definition of `m`. -/
def Uses (w : Input) (m n : Node) : Prop :=
  m ≠ n ∧ ∃ sn, Defines w n sn ∧
    match m with
    | .item d => d ∈ w.ids ∧ d ∈ sn.pre.defs
    | .spec s => s ∈ sn.pre.specs

/-- C93: for items with different identities and finitely many specializations, the generator fails only
if definitions need each other in a circle, and then it does. -/
theorem header_fails_iff (w : Input) (rt : Rt w) (fuel : Nat) (hid : w.ids.Nodup)
    (U : List Nat) (hU : ∀ s, Needed w s → s ∈ U) (hfuel : U.length < fuel) :
    ((∃ o, generate w rt fuel = .ok o) ↔ ¬ ∃ n, Relation.TransGen (Uses w) n n) ∧
    (generate w rt fuel = .error .cycle ↔ ∃ n, Relation.TransGen (Uses w) n n) := by
  obtain ⟨g, hg⟩ := gather_ok w (sortBy (fun i => w.dkey i.id) w.items) ⟨[], [], [], [], [], []⟩ (by
    simp only [List.map_nil, List.nil_append]
    exact ((((sortBy_perm _ _).filter _).map _).nodup_iff).2 hid)
  have hgi : GInfo w (sortBy (fun i => w.dkey i.id) w.items) g := by
    simpa using gather_info w [] _ _ _ (gather_start w) hg
  have hs := start_inv w (firstWorklist w rt g) g.includes g.rs g.decls hgi.sortedI hgi.sortedD
  have hseed : ∀ x ∈ firstWorklist w rt g, Needed w x := by
    intro x hx
    simp only [firstWorklist, List.mem_append, List.mem_flatMap] at hx
    rcases hx with (hx | ⟨m, hm, hx⟩) | hx
    · rw [hgi.wanted] at hx
      simp only [List.mem_flatMap] at hx
      obtain ⟨p, hp, hx⟩ := hx
      simp only [Prereqs.wanted, List.mem_append] at hx
      rw [hgi.details] at hp
      simp only [List.mem_flatMap, mem_sortBy, List.mem_append, List.mem_map] at hp
      obtain ⟨i, hi, ⟨al, hal, rfl⟩ | hp⟩ := hp
      · exact .item i al.using_ x hi (by simp only [Item.snippets, List.mem_append]; exact .inl (List.mem_map.2 ⟨al, hal, rfl⟩)) hx
      · cases hapi : i.api with
        | none => simp [hapi] at hp
        | some api =>
            simp only [hapi, List.mem_singleton] at hp
            subst hp
            exact .item i api.details x hi (by simp [Item.snippets, hapi]) hx
    · rw [(rt.values_perm _).mem_iff, hgi.ids] at hm
      simp only [List.mem_filterMap, mem_sortBy] at hm
      obtain ⟨i, hi, hp⟩ := hm
      cases hapi : i.api with
      | none => simp [hapi] at hp
      | some api =>
          simp only [hapi, Option.map_some, Option.some.injEq] at hp
          subst hp
          simp only [Prereqs.wanted, List.mem_append] at hx
          exact .item i api.main x hi (by simp [Item.snippets, hapi]) hx
    · exact .impl x hx
  have hreach : ∀ x, Reach w (firstWorklist w rt g) x → x ∈ U := by
    rintro x ⟨s, hs, hsx⟩
    apply hU
    induction hsx with
    | refl => exact hseed _ hs
    | tail _ hw ih =>
        rename_i b c _
        refine .spec b c ih ?_
        simp only [Wants, Prereqs.wanted, List.mem_append] at hw
        tauto
  have hfix : (fixpoint w fuel ⟨[], [], [], g.includes, g.rs, g.decls, []⟩ (firstWorklist w rt g)).isSome := by
    have := fixpoint_ends U hreach fuel hs rfl (by simpa using hfuel)
    by_cases hw : firstWorklist w rt g = []
    · rw [hw] at this ⊢
      exact this
    · rw [← fixpoint_next w fuel _ (firstWorklist w rt g) _ hw]
      exact this
  obtain ⟨a, ha⟩ := Option.isSome_iff_exists.1 hfix
  have hfin : ∃ L, AInv w (firstWorklist w rt g) ⟨[], [], [], g.includes, g.rs, g.decls, []⟩ a L [] ∧
      a.next = [] := by
    by_cases hw : firstWorklist w rt g = []
    · rw [hw] at ha hs ⊢
      exact fixpoint_inv fuel hs rfl ha
    · refine fixpoint_inv fuel hs rfl ?_
      rw [← fixpoint_next w fuel _ (firstWorklist w rt g) _ hw] at ha
      exact ha
  obtain ⟨L, hL, hnext⟩ := hfin
  have r : Pre w rt g a L := ⟨hgi, hL, hnext⟩
  have hmemM : ∀ m, m ∈ rt.values g.mains ↔ m ∈ g.mains := fun m => (rt.values_perm _).mem_iff
  have hmemS : ∀ m, m ∈ rt.values a.specs ↔ m ∈ a.specs := fun m => (rt.values_perm _).mem_iff
  have hspecs := hL.specs
  have hids := r.ids
  have hN : ∀ n, n ∈ (rt.values g.mains).map (fun m => Node.item m.1) ++
      (rt.values a.specs).map (fun s => Node.spec s.1) ↔ ∃ sn, Defines w n sn := by
    intro n
    simp only [List.mem_append, List.mem_map, hmemM, hmemS]
    constructor
    · rintro (⟨⟨d, sn⟩, hm, rfl⟩ | ⟨⟨k, sn⟩, hm, rfl⟩)
      · obtain ⟨i, hi, api, hapi, rfl, rfl⟩ := (r.main_mem d sn).1 hm
        exact ⟨_, .item i api hi hapi⟩
      · rw [hspecs] at hm
        obtain ⟨k', hk, e⟩ := List.mem_map.1 hm
        injection e with e1 e2
        subst e1
        exact ⟨_, .spec _ ((r.needed _).1 hk)⟩
    · rintro ⟨sn, h⟩
      cases h with
      | item i api hi hapi => exact .inl ⟨(i.id, api.main), (r.main_mem _ _).2 ⟨i, hi, api, hapi, rfl, rfl⟩, rfl⟩
      | spec k hk =>
          exact .inr ⟨(k, (w.gen k).main), by rw [hspecs]; exact List.mem_map.2 ⟨k, (r.needed k).2 hk, rfl⟩, rfl⟩
  have hone : ∀ m n sn, (⟨m, n⟩ : Dependency Node) ∈ nodeDeps (g.mains.map Prod.fst) n sn ↔
      m ≠ n ∧ (match m with
        | .item d => d ∈ w.ids ∧ d ∈ sn.defs
        | .spec s => s ∈ sn.specs) := by
    intro m n sn
    simp only [nodeDeps, List.mem_map, List.mem_filter, List.mem_append, Dependency.mk.injEq]
    constructor
    · rintro ⟨m', ⟨h1, h2⟩, rfl, -⟩
      refine ⟨by simpa using h2, ?_⟩
      rcases h1 with ⟨d, ⟨h3, h4⟩, rfl⟩ | ⟨s, h3, rfl⟩
      · exact ⟨(hids d).1 (by simpa using h4), h3⟩
      · exact h3
    · rintro ⟨h1, h2⟩
      refine ⟨m, ⟨?_, by simpa using h1⟩, rfl, trivial⟩
      cases m with
      | item d => exact .inl ⟨d, ⟨h2.2, by simpa using (hids d).2 h2.1⟩, rfl⟩
      | spec s => exact .inr ⟨s, h2, rfl⟩
  have hfst : ∀ x n sn, x ∈ nodeDeps (g.mains.map Prod.fst) n sn → x.successor = n := by
    intro x n sn hx
    simp only [nodeDeps, List.mem_map] at hx
    obtain ⟨_, _, rfl⟩ := hx
    rfl
  have hD : ∀ m n, (⟨m, n⟩ : Dependency Node) ∈
      (rt.values g.mains).flatMap (fun m => nodeDeps (g.mains.map Prod.fst) (.item m.1) m.2.pre) ++
      (rt.values a.specs).flatMap (fun s => nodeDeps (g.mains.map Prod.fst) (.spec s.1) s.2.pre) ↔ Uses w m n := by
    intro m n
    simp only [List.mem_append, List.mem_flatMap, hmemM, hmemS]
    constructor
    · rintro (⟨⟨d, sn⟩, hm, hx⟩ | ⟨⟨k, sn⟩, hm, hx⟩)
      · have e := hfst _ _ _ hx
        simp only at e
        subst e
        obtain ⟨h1, h2⟩ := (hone _ _ _).1 hx
        obtain ⟨i, hi, api, hapi, rfl, rfl⟩ := (r.main_mem d sn).1 hm
        exact ⟨h1, _, .item i api hi hapi, h2⟩
      · have e := hfst _ _ _ hx
        simp only at e
        subst e
        obtain ⟨h1, h2⟩ := (hone _ _ _).1 hx
        rw [hspecs] at hm
        obtain ⟨k', hk, e⟩ := List.mem_map.1 hm
        injection e with e1 e2
        subst e1
        subst e2
        exact ⟨h1, _, .spec _ ((r.needed _).1 hk), h2⟩
    · rintro ⟨h1, sn, hd, h2⟩
      cases hd with
      | item i api hi hapi =>
          exact .inl ⟨(i.id, api.main), (r.main_mem _ _).2 ⟨i, hi, api, hapi, rfl, rfl⟩, (hone _ _ _).2 ⟨h1, h2⟩⟩
      | spec k hk =>
          exact .inr ⟨(k, (w.gen k).main), by rw [hspecs]; exact List.mem_map.2 ⟨k, (r.needed k).2 hk, rfl⟩,
            (hone _ _ _).2 ⟨h1, h2⟩⟩
  have hV : Valid ((rt.values g.mains).map (fun m => Node.item m.1) ++
      (rt.values a.specs).map (fun s => Node.spec s.1))
      ((rt.values g.mains).flatMap (fun m => nodeDeps (g.mains.map Prod.fst) (.item m.1) m.2.pre) ++
      (rt.values a.specs).flatMap (fun s => nodeDeps (g.mains.map Prod.fst) (.spec s.1) s.2.pre)) := by
    rintro ⟨m, n⟩ hd
    obtain ⟨-, sn, h1, h2⟩ := (hD m n).1 hd
    refine ⟨(hN m).2 ?_, (hN n).2 ⟨sn, h1⟩⟩
    cases m with
    | item d =>
        have := h2.1
        simp only [Input.ids, List.mem_map, List.mem_filter] at this
        obtain ⟨i, ⟨hi, hs⟩, rfl⟩ := this
        obtain ⟨api, hapi⟩ := Option.isSome_iff_exists.1 hs
        exact ⟨_, .item i api hi hapi⟩
    | spec s =>
        refine ⟨_, .spec s ?_⟩
        cases h1 with
        | item i api hi hapi => exact .item i api.main s hi (by simp [Item.snippets, hapi]) (.inl h2)
        | spec k hk => exact .spec k s hk (.inl h2)
  obtain ⟨-, res, hres, -⟩ := toposort_ok rt.topo hV
  have hcyc := toposort_failed_empty_iff rt.topo _ _ res hres
  have hrel : (∃ c, OnCycle ((rt.values g.mains).flatMap (fun m => nodeDeps (g.mains.map Prod.fst) (.item m.1) m.2.pre) ++
      (rt.values a.specs).flatMap (fun s => nodeDeps (g.mains.map Prod.fst) (.spec s.1) s.2.pre)) c) ↔
      ∃ n, Relation.TransGen (Uses w) n n := by
    have : Dep ((rt.values g.mains).flatMap (fun m => nodeDeps (g.mains.map Prod.fst) (.item m.1) m.2.pre) ++
      (rt.values a.specs).flatMap (fun s => nodeDeps (g.mains.map Prod.fst) (.spec s.1) s.2.pre)) = Uses w := by
      funext m n
      exact propext (hD m n)
    simp only [OnCycle, this]
  rw [hrel] at hcyc
  by_cases hf : res.failed = []
  · have ho : order w rt g a = .ok res.ordered := by
      simp only [order, hres, hf, if_true]
    have : generate w rt fuel = .ok (assemble w g a res.ordered) := by
      simp only [generate, hg, ha, ho]
    have hno := hcyc.1 hf
    simp only [this]
    simp [hno]
  · have ho : order w rt g a = .error .cycle := by
      simp only [order, hres, hf, if_false]
    have : generate w rt fuel = .error .cycle := by
      simp only [generate, hg, ha, ho]
    have hyes : ∃ n, Relation.TransGen (Uses w) n n := by
      by_contra hc
      exact hf (hcyc.2 hc)
    simp only [this]
    simp [hyes]

/-- C91: the Rust file has the thunks and declarations of every item and of every needed specialization, and no
others. -/
theorem rust_complete (w : Input) (rt : Rt w) (fuel : Nat) (o : Output) (h : generate w rt fuel = .ok o) (x : Nat) :
    (x ∈ o.rs ↔ (∃ i ∈ w.items, ∃ api, i.api = some api ∧ x ∈ api.rs) ∨ ∃ s, Needed w s ∧ x ∈ (w.gen s).rs) ∧
    (x ∈ o.decls ↔ (∃ i ∈ w.items, ∃ api, i.api = some api ∧ x ∈ api.decls) ∨ ∃ s, Needed w s ∧ x ∈ (w.gen s).decls) := by
  obtain ⟨g, a, L, ordered, r⟩ := run_of h
  rw [r.out]
  simp only [assemble]
  constructor
  · rw [r.ai.rs, List.mem_append, r.gi.rs]
    simp only [List.mem_flatMap, mem_sortBy, r.needed]
    refine or_congr ?_ Iff.rfl
    constructor
    · rintro ⟨i, hi, hx⟩
      cases hapi : i.api with
      | none => simp [hapi] at hx
      | some api => exact ⟨i, hi, api, hapi, by simpa [hapi] using hx⟩
    · rintro ⟨i, hi, api, hapi, hx⟩
      exact ⟨i, hi, by simpa [hapi] using hx⟩
  · rw [r.ai.decls, r.gi.decls]
    simp only [mem_sortBy, r.needed]

/-! ## Namespaces -/

theorem flat_append (path : List String) (m : List (List String)) (a b : List Cc) :
    Cc.flat path m (a ++ b) = Cc.flat path m a ++ Cc.flat path m b := by
  induction a with
  | nil => simp [Cc.flat]
  | cons c a ih => cases c <;> simp [Cc.flat, ih]

theorem flat_texts (path : List String) (m : List (List String)) (ts : List Nat) :
    Cc.flat path m (ts.map Cc.text) = ts.map (fun t => (path, m, t)) := by
  induction ts with
  | nil => simp [Cc.flat]
  | cons t ts ih => simp [Cc.flat, ih]

theorem flat_withBody (ns : List String) (dep : Bool) (toks : List Nat) :
    Cc.flat [] [] (withBody ns dep toks) =
      toks.map (fun t => (ns, if dep = true ∧ ns ≠ [] then [ns] else [], t)) := by
  unfold withBody
  split
  · rename_i h
    simp [h, Cc.flat]
  · by_cases hd : (dep && ns ≠ []) = true
    · have hd' : dep = true ∧ ns ≠ [] := by
        simp only [Bool.and_eq_true] at hd
        exact ⟨hd.1, by simpa using hd.2⟩
      have hne := hd'.2
      have hlast : ns.dropLast ++ [ns.getLast?.getD ""] = ns := by
        rw [List.getLast?_eq_some_getLast hne]
        exact List.dropLast_append_getLast hne
      rw [if_pos hd']
      simp only [hd, if_true]
      split
      · rename_i h0
        rw [h0, List.nil_append] at hlast
        simp [Cc.flat, hlast, flat_texts]
      · simp [Cc.flat, hlast, flat_texts]
    · have hd' : ¬ (dep = true ∧ ns ≠ []) := by
        intro h
        apply hd
        simp [h.1, h.2]
      simp only [hd, hd']
      by_cases h0 : ns = []
      · simp [h0, flat_texts]
      · simp [h0, Cc.flat, flat_texts]

theorem flat_coalesce (dep : Nat → Bool) (gs : List Group) :
    Cc.flat [] [] ((coalesce gs).flatMap fun g => withBody g.ns ((g.parent.map dep).getD false) g.toks) =
      gs.flatMap fun g => g.toks.map
        (fun t => (g.ns, if (g.parent.map dep).getD false = true ∧ g.ns ≠ [] then [g.ns] else [], t)) := by
  induction gs using coalesce.induct with
  | case1 => simp [coalesce, Cc.flat]
  | case2 g => simp [coalesce, flat_withBody]
  | case3 g h r he ih =>
      rw [coalesce, if_pos he, ih]
      simp [he.1, he.2.1]
  | case4 g h r he ih =>
      rw [coalesce, if_neg he, List.flatMap_cons, flat_append, ih, flat_withBody]
      simp

/-- C94: opening and closing namespaces changes nothing: every piece of text ends up in its own namespace, in
the given order, and a namespace is marked deprecated around a piece just if the module the piece comes from
is deprecated. -/
theorem namespaces_kept (dep : Nat → Bool) (ps : List Piece) :
    Cc.flat [] [] (formatPieces dep ps) = ps.flatMap fun p => p.toks.map fun t =>
      (p.ns, if (∃ m, p.parent = some m ∧ dep m = true) ∧ p.ns ≠ [] then [p.ns] else [], t) := by
  unfold formatPieces
  rw [flat_coalesce, List.flatMap_map]
  congr 1
  funext p
  congr 1
  funext t
  have : ((p.parent.map dep).getD false = true) ↔ ∃ m, p.parent = some m ∧ dep m = true := by
    cases p.parent <;> simp
  simp [this]

/-- The printed text depends only on what is printed of the pieces. -/
theorem formatPieces_congr (dep : Nat → Bool) {ps qs : List Piece}
    (h : ps.map (fun p => (p.parent, p.ns, p.colons, p.toks)) = qs.map fun p => (p.parent, p.ns, p.colons, p.toks)) :
    formatPieces dep ps = formatPieces dep qs := by
  unfold formatPieces
  congr 2
  have := congrArg (List.map fun x : Option Nat × List String × Bool × List Nat => (⟨x.1, x.2.1, x.2.2.1, x.2.2.2⟩ : Group)) h
  simpa [Function.comp_def] using this

end Verif.Header

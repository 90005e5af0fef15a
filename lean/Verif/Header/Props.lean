import Verif.Header.Fix

namespace Verif.Header
open Verif Verif.Toposort

/-! ## Vocabulary -/

/-- The items the header defines. -/
def Input.ids (w : Input) : List Nat := (w.items.filter fun i => i.api.isSome).map Item.id

/-- All text generated for an item. -/
def Item.snippets (i : Item) : List Snippet :=
  i.aliases.map Alias.using_ ++ (match i.api with | none => [] | some api => [api.main, api.details])

/-- The specializations that have to exist: those asked for by an item, those of trait implementations, and
those asked for by a specialization that has to exist. -/
inductive Needed (w : Input) : Nat → Prop where
  | item (i : Item) (s : Snippet) (x : Nat) : i ∈ w.items → s ∈ i.snippets →
      x ∈ s.pre.specs ∨ x ∈ s.pre.lazies → Needed w x
  | impl (x : Nat) : x ∈ w.traitImpls → Needed w x
  | spec (s x : Nat) : Needed w s →
      x ∈ (w.gen s).main.pre.specs ∨ x ∈ (w.gen s).main.pre.lazies ∨
      x ∈ (w.gen s).details.pre.specs ∨ x ∈ (w.gen s).details.pre.lazies → Needed w x

/-- The text that follows all definitions mentions only items the header defines. -/
structure DetailsOk (w : Input) : Prop where
  use : ∀ i ∈ w.items, ∀ a ∈ i.aliases, ∀ d ∈ a.using_.pre.fwds, d ∈ w.ids
  item : ∀ i ∈ w.items, ∀ api, i.api = some api → ∀ d ∈ api.details.pre.fwds, d ∈ w.ids
  spec : ∀ s, Needed w s → ∀ d ∈ (w.gen s).details.pre.fwds, d ∈ w.ids

/-! ## Met -/

/-- Pieces that come after `before`. -/
def MetFrom (gen : List Nat) (before ps : List Piece) : Prop :=
  ∀ a p b, ps = a ++ p :: b → Met gen (before ++ a) p

theorem metFrom_append {gen : List Nat} {before x y : List Piece} (hx : MetFrom gen before x)
    (hy : MetFrom gen (before ++ x) y) : MetFrom gen before (x ++ y) := by
  intro a p b h
  rcases List.append_eq_append_iff.1 h with ⟨c, hc, hd⟩ | ⟨c, hc, hd⟩
  · have := hy c p b hd
    rw [hc, ← List.append_assoc]
    exact this
  · cases c with
    | nil =>
        simp only [List.append_nil] at hc
        simp only [List.nil_append] at hd
        subst hc
        have := hy [] p b hd.symm
        simpa using this
    | cons q c =>
        simp only [List.cons_append, List.cons.injEq] at hd
        obtain ⟨rfl, -⟩ := hd
        exact hx a p c hc

theorem metFrom_of_all {gen : List Nat} {before ps : List Piece}
    (h : ∀ p ∈ ps, ∀ more, Met gen (before ++ more) p) : MetFrom gen before ps := by
  intro a p b e
  exact h p (by rw [e]; simp) a

/-! ## Forward declarations -/

theorem fwdLoop_spec (snip : Node → Snippet) (ns : List Node) (a : FwdAcc) (done : List Node)
    (hinv : ∀ d ∈ a.declared, d ∈ a.fwds ∨ Node.item d ∈ done) (hn : a.fwds.Nodup) :
    (∀ d ∈ a.fwds, d ∈ (fwdLoop snip a ns).fwds) ∧ (fwdLoop snip a ns).fwds.Nodup ∧
    (∀ x n y, ns = x ++ n :: y → ∀ d ∈ (snip n).pre.fwds,
      d ∈ (fwdLoop snip a ns).fwds ∨ Node.item d ∈ done ++ x) := by
  induction ns generalizing a done with
  | nil =>
      refine ⟨fun d h => h, hn, ?_⟩
      intro x n y h
      simp at h
  | cons m ns ih =>
      simp only [fwdLoop]
      have hstep : ∀ d, d ∈ (fwdStep a m (snip m).pre).fwds ↔
          d ∈ a.fwds ∨ (d ∈ (snip m).pre.fwds ∧ d ∉ a.declared) := by
        intro d
        simp [fwdStep, mem_extendSet]
      have hinv' : ∀ d ∈ (fwdStep a m (snip m).pre).declared,
          d ∈ (fwdStep a m (snip m).pre).fwds ∨ Node.item d ∈ done ++ [m] := by
        intro d hd
        simp only [fwdStep, List.mem_append] at hd
        rcases hd with hd | hd | hd
        · cases m with
          | item e =>
              simp only [List.mem_singleton] at hd
              subst hd
              exact .inr (by simp)
          | spec e => simp at hd
        · by_cases hdec : d ∈ a.declared
          · rcases hinv d hdec with h | h
            · exact .inl ((hstep d).2 (.inl h))
            · exact .inr (List.mem_append_left _ h)
          · exact .inl ((hstep d).2 (.inr ⟨hd, hdec⟩))
        · rcases hinv d hd with h | h
          · exact .inl ((hstep d).2 (.inl h))
          · exact .inr (List.mem_append_left _ h)
      obtain ⟨h1, h2, h3⟩ := ih (fwdStep a m (snip m).pre) (done ++ [m]) hinv'
        (nodup_extendSet _ _ hn)
      refine ⟨fun d hd => h1 d ((hstep d).2 (.inl hd)), h2, ?_⟩
      intro x n y e d hd
      cases x with
      | nil =>
          simp only [List.nil_append, List.cons.injEq] at e
          obtain ⟨rfl, rfl⟩ := e
          by_cases hdec : d ∈ a.declared
          · rcases hinv d hdec with h | h
            · exact .inl (h1 d ((hstep d).2 (.inl h)))
            · exact .inr (by simpa using h)
          · exact .inl (h1 d ((hstep d).2 (.inr ⟨hd, hdec⟩)))
      | cons m' x =>
          simp only [List.cons_append, List.cons.injEq] at e
          obtain ⟨rfl, rfl⟩ := e
          have := h3 x n y rfl d hd
          simpa using this

/-- A forward declaration is needed by something that comes before the definition. -/
theorem fwdLoop_needed (snip : Node → Snippet) (ns : List Node) (a : FwdAcc) (done : List Node)
    (hinv : ∀ d, Node.item d ∈ done → d ∈ a.declared) (d : Nat)
    (hd : d ∈ (fwdLoop snip a ns).fwds) : d ∈ a.fwds ∨
    ∃ x n y, ns = x ++ n :: y ∧ d ∈ (snip n).pre.fwds ∧ Node.item d ∉ done ++ x := by
  induction ns generalizing a done with
  | nil => exact .inl hd
  | cons m ns ih =>
      simp only [fwdLoop] at hd
      have hinv' : ∀ d, Node.item d ∈ done ++ [m] → d ∈ (fwdStep a m (snip m).pre).declared := by
        intro e he
        simp only [List.mem_append, List.mem_singleton] at he
        simp only [fwdStep, List.mem_append]
        rcases he with he | rfl
        · exact .inr (.inr (hinv e he))
        · exact .inl (by simp)
      rcases ih _ (done ++ [m]) hinv' hd with h | ⟨x, n, y, e, h1, h2⟩
      · simp only [fwdStep, mem_extendSet, List.mem_filter, decide_eq_true_eq] at h
        rcases h with h | ⟨h1, h2⟩
        · exact .inl h
        · refine .inr ⟨[], m, ns, rfl, h1, ?_⟩
          intro hc
          exact h2 (hinv d (by simpa using hc))
      · refine .inr ⟨m :: x, n, y, by rw [e]; rfl, h1, ?_⟩
        simpa using h2

/-! ## The order -/

structure OInv (w : Input) (g : Gather) (L : List Nat) (ordered : List Node) : Prop where
  nodup : ordered.Nodup
  item : ∀ d, Node.item d ∈ ordered ↔ d ∈ g.mains.map Prod.fst
  spec : ∀ s, Node.spec s ∈ ordered ↔ s ∈ L
  snipItem : ∀ d sn, (d, sn) ∈ g.mains → ∀ specs, snippetOf g.mains specs (.item d) = sn
  defs : ∀ x n y, ordered = x ++ n :: y → ∀ d ∈ (snippetOf g.mains (L.map fun s => (s, (w.gen s).main)) n).pre.defs,
    d ∈ g.mains.map Prod.fst → Node.item d = n ∨ Node.item d ∈ x
  specs : ∀ x n y, ordered = x ++ n :: y → ∀ s ∈ (snippetOf g.mains (L.map fun s => (s, (w.gen s).main)) n).pre.specs,
    Node.spec s = n ∨ Node.spec s ∈ x

theorem snippetOf_item {g : Gather} (hn : (g.mains.map Prod.fst).Nodup) {d : Nat} {sn : Snippet}
    (h : (d, sn) ∈ g.mains) (specs : List (Nat × Snippet)) : snippetOf g.mains specs (.item d) = sn := by
  have : AMap.get? g.mains d = some sn := AMap.get?_of_mem _ hn h
  simp [snippetOf, this]

theorem snippetOf_spec {f : Nat → Snippet} {L : List Nat} (hn : L.Nodup) {s : Nat}
    (h : s ∈ L) (mains : List (Nat × Snippet)) :
    snippetOf mains (L.map fun s => (s, f s)) (.spec s) = f s := by
  have hn' : ((L.map fun s => (s, f s)).map Prod.fst).Nodup := by simpa [Function.comp_def] using hn
  have : AMap.get? (L.map fun s => (s, f s)) s = some (f s) :=
    AMap.get?_of_mem _ hn' (List.mem_map.2 ⟨s, h, rfl⟩)
  simp [snippetOf, this]

theorem order_inv {w : Input} {rt : Rt w} {g : Gather} {a : Acc} {L : List Nat} {ordered : List Node}
    (hgn : (g.mains.map Prod.fst).Nodup) (hL : L.Nodup)
    (ha : a.specs = L.map fun s => (s, (w.gen s).main))
    (h : order w rt g a = .ok ordered) : OInv w g L ordered := by
  simp only [order] at h
  split at h
  · cases h
  · rename_i r hr
    split at h
    · rename_i hf
      injection h with h
      subst h
      have hpart := toposort_partition _ _ _ _ hr
      rw [hf, List.append_nil] at hpart
      have hmemM : ∀ m, m ∈ rt.values g.mains ↔ m ∈ g.mains := fun m => (rt.values_perm _).mem_iff
      have hmemS : ∀ m, m ∈ rt.values a.specs ↔ m ∈ a.specs := fun m => (rt.values_perm _).mem_iff
      have hitem : ∀ d, Node.item d ∈ r.ordered ↔ d ∈ g.mains.map Prod.fst := by
        intro d
        rw [hpart.2]
        simp [hmemM]
      have hspec : ∀ s, Node.spec s ∈ r.ordered ↔ s ∈ L := by
        intro s
        rw [hpart.2]
        simp only [List.mem_append, List.mem_map, hmemS]
        rw [ha]
        simp
      refine ⟨hpart.1, hitem, hspec, fun d sn hd specs => snippetOf_item hgn hd specs, ?_, ?_⟩
      · intro x n y e d hd hdi
        by_cases hne : Node.item d = n
        · exact .inl hne
        · refine .inr (toposort_respects_deps _ _ _ _ hr (Node.item d) n ?_ x y e)
          simp only [Dep, List.mem_append, List.mem_flatMap, hmemM, hmemS]
          have hn : n ∈ r.ordered := by rw [e]; simp
          cases n with
          | item k =>
              obtain ⟨⟨k', sn⟩, hk, rfl⟩ := List.mem_map.1 ((hitem k).1 hn)
              rw [snippetOf_item hgn hk] at hd
              refine .inl ⟨_, hk, ?_⟩
              simp only [nodeDeps, List.mem_map, List.mem_filter, List.mem_append]
              exact ⟨.item d, ⟨.inl ⟨d, ⟨hd, by simpa using hdi⟩, rfl⟩, by simpa using hne⟩, rfl⟩
          | spec k =>
              have hk := (hspec k).1 hn
              rw [snippetOf_spec (f := fun s => (w.gen s).main) hL hk] at hd
              refine .inr ⟨(k, (w.gen k).main), by rw [ha]; exact List.mem_map.2 ⟨k, hk, rfl⟩, ?_⟩
              simp only [nodeDeps, List.mem_map, List.mem_filter, List.mem_append]
              exact ⟨.item d, ⟨.inl ⟨d, ⟨hd, by simpa using hdi⟩, rfl⟩, by simp⟩, rfl⟩
      · intro x n y e s hs
        by_cases hne : Node.spec s = n
        · exact .inl hne
        · refine .inr (toposort_respects_deps _ _ _ _ hr (Node.spec s) n ?_ x y e)
          simp only [Dep, List.mem_append, List.mem_flatMap, hmemM, hmemS]
          have hn : n ∈ r.ordered := by rw [e]; simp
          cases n with
          | item k =>
              obtain ⟨⟨k', sn⟩, hk, rfl⟩ := List.mem_map.1 ((hitem k).1 hn)
              rw [snippetOf_item hgn hk] at hs
              refine .inl ⟨_, hk, ?_⟩
              simp only [nodeDeps, List.mem_map, List.mem_filter, List.mem_append]
              exact ⟨.spec s, ⟨.inr ⟨s, hs, rfl⟩, by simp⟩, rfl⟩
          | spec k =>
              have hk := (hspec k).1 hn
              rw [snippetOf_spec (f := fun s => (w.gen s).main) hL hk] at hs
              refine .inr ⟨(k, (w.gen k).main), by rw [ha]; exact List.mem_map.2 ⟨k, hk, rfl⟩, ?_⟩
              simp only [nodeDeps, List.mem_map, List.mem_filter, List.mem_append]
              exact ⟨.spec s, ⟨.inr ⟨s, hs, rfl⟩, by simpa using hne⟩, rfl⟩
    · cases h

/-! ## What a successful run looks like -/

/-- A run up to the choice of an order. -/
structure Pre (w : Input) (rt : Rt w) (g : Gather) (a : Acc) (L : List Nat) : Prop where
  gi : GInfo w (sortBy (fun i => w.dkey i.id) w.items) g
  ai : AInv w (firstWorklist w rt g) ⟨[], [], [], g.includes, g.rs, g.decls, []⟩ a L []
  done : a.next = []

/-- A run. -/
structure Run (w : Input) (rt : Rt w) (o : Output) (g : Gather) (a : Acc) (L : List Nat)
    (ordered : List Node) : Prop extends Pre w rt g a L where
  ord : OInv w g L ordered
  out : o = assemble w g a ordered
  fix : ∃ n, fixpoint w n ⟨[], [], [], g.includes, g.rs, g.decls, []⟩ (firstWorklist w rt g) = some a
  top : order w rt g a = .ok ordered

theorem run_of {w : Input} {rt : Rt w} {fuel : Nat} {o : Output} (h : generate w rt fuel = .ok o) :
    ∃ g a L ordered, Run w rt o g a L ordered := by
  simp only [generate] at h
  split at h
  · cases h
  · rename_i g hg
    have hgi : GInfo w (sortBy (fun i => w.dkey i.id) w.items) g := by
      simpa using gather_info w [] _ _ _ (gather_start w) hg
    split at h
    · cases h
    · rename_i a ha
      have ha0 := ha
      have hs := start_inv w (firstWorklist w rt g) g.includes g.rs g.decls hgi.sortedI hgi.sortedD
      have hfin : ∃ L, AInv w (firstWorklist w rt g) ⟨[], [], [], g.includes, g.rs, g.decls, []⟩ a L [] ∧
          a.next = [] := by
        by_cases hw : firstWorklist w rt g = []
        · rw [hw] at ha hs ⊢
          exact fixpoint_inv fuel hs rfl ha
        · refine fixpoint_inv fuel hs rfl ?_
          rw [← fixpoint_next w fuel _ (firstWorklist w rt g) _ hw] at ha
          exact ha
      obtain ⟨L, hL, hnext⟩ := hfin
      split at h
      · cases h
      · rename_i ordered hord
        injection h with h
        exact ⟨g, a, L, ordered, ⟨hgi, hL, hnext⟩, order_inv hgi.nodup hL.nodup hL.specs hord, h.symm, ⟨fuel, ha0⟩, hord⟩

theorem Pre.ids {w : Input} {rt : Rt w} {g a L} (r : Pre w rt g a L) (d : Nat) :
    d ∈ g.mains.map Prod.fst ↔ d ∈ w.ids := by
  rw [r.gi.ids]
  simp only [Input.ids, List.mem_map, List.mem_filterMap, mem_sortBy, List.mem_filter]
  constructor
  · rintro ⟨p, ⟨i, hi, hp⟩, rfl⟩
    cases hapi : i.api with
    | none => simp [hapi] at hp
    | some api =>
        simp only [hapi, Option.map_some, Option.some.injEq] at hp
        subst hp
        exact ⟨i, ⟨hi, by simp [hapi]⟩, rfl⟩
  · rintro ⟨i, ⟨hi, hs⟩, rfl⟩
    obtain ⟨api, hapi⟩ := Option.isSome_iff_exists.1 hs
    exact ⟨(i.id, api.main), ⟨i, hi, by simp [hapi]⟩, rfl⟩

theorem Pre.details {w : Input} {rt : Rt w} {g a L} (r : Pre w rt g a L) (p : Piece) :
    p ∈ g.details ↔
      (∃ i ∈ w.items, ∃ al ∈ i.aliases, p = detailsPiece w (.alias i.id) i.id al.ns al.using_) ∨
      (∃ i ∈ w.items, ∃ api, i.api = some api ∧
        p = detailsPiece w (.details (.item i.id)) i.id (w.nsOf i.id) api.details) := by
  rw [r.gi.details]
  simp only [List.mem_flatMap, mem_sortBy, List.mem_append, List.mem_map]
  constructor
  · rintro ⟨i, hi, ⟨al, hal, rfl⟩ | h⟩
    · exact .inl ⟨i, hi, al, hal, rfl⟩
    · cases hapi : i.api with
      | none => simp [hapi] at h
      | some api =>
          simp only [hapi, List.mem_singleton] at h
          exact .inr ⟨i, hi, api, hapi, h⟩
  · rintro (⟨i, hi, al, hal, rfl⟩ | ⟨i, hi, api, hapi, rfl⟩)
    · exact ⟨i, hi, .inl ⟨al, hal, rfl⟩⟩
    · exact ⟨i, hi, .inr (by simp [hapi])⟩

theorem Pre.main_mem {w : Input} {rt : Rt w} {g a L} (r : Pre w rt g a L) (d : Nat) (sn : Snippet) :
    (d, sn) ∈ g.mains ↔ ∃ i ∈ w.items, ∃ api, i.api = some api ∧ i.id = d ∧ api.main = sn := by
  rw [r.gi.ids]
  simp only [List.mem_filterMap, mem_sortBy]
  constructor
  · rintro ⟨i, hi, hp⟩
    cases hapi : i.api with
    | none => simp [hapi] at hp
    | some api =>
        simp only [hapi, Option.map_some, Option.some.injEq, Prod.mk.injEq] at hp
        exact ⟨i, hi, api, hapi, hp.1, hp.2⟩
  · rintro ⟨i, hi, api, hapi, rfl, rfl⟩
    exact ⟨i, hi, by simp [hapi]⟩

/-- The specializations in the header are those that are needed. -/
theorem Pre.needed {w : Input} {rt : Rt w} {g a L} (r : Pre w rt g a L) (s : Nat) :
    s ∈ L ↔ Needed w s := by
  constructor
  · intro h
    obtain ⟨x, hx, hrx⟩ := r.ai.sound s (.inl h)
    have hx' : Needed w x := by
      simp only [firstWorklist, List.mem_append, List.mem_flatMap] at hx
      rcases hx with (hx | ⟨m, hm, hx⟩) | hx
      · rw [r.gi.wanted] at hx
        simp only [List.mem_flatMap] at hx
        obtain ⟨p, hp, hx⟩ := hx
        simp only [Prereqs.wanted, List.mem_append] at hx
        rcases (r.details p).1 hp with ⟨i, hi, al, hal, rfl⟩ | ⟨i, hi, api, hapi, rfl⟩
        · exact .item i al.using_ x hi (by simp only [Item.snippets, List.mem_append]; exact .inl (List.mem_map.2 ⟨al, hal, rfl⟩)) hx
        · exact .item i api.details x hi (by simp [Item.snippets, hapi]) hx
      · rw [(rt.values_perm _).mem_iff] at hm
        obtain ⟨d, sn⟩ := m
        obtain ⟨i, hi, api, hapi, -, rfl⟩ := (r.main_mem d sn).1 hm
        simp only [Prereqs.wanted, List.mem_append] at hx
        exact .item i api.main x hi (by simp [Item.snippets, hapi]) hx
      · exact .impl x hx
    clear hx h
    induction hrx with
    | refl => exact hx'
    | tail _ hw ih =>
        rename_i b c _
        refine .spec b c ih ?_
        simp only [Wants, Prereqs.wanted, List.mem_append] at hw
        tauto
  · intro h
    have hseed : ∀ x ∈ firstWorklist w rt g, x ∈ L := by
      intro x hx
      rcases r.ai.seeded x hx with h | h | h
      · exact h
      · rw [r.done] at h; cases h
      · cases h
    induction h with
    | item i sn x hi hs hx =>
        apply hseed
        simp only [firstWorklist, List.mem_append, List.mem_flatMap]
        simp only [Item.snippets, List.mem_append, List.mem_map] at hs
        left
        rcases hs with ⟨al, hal, rfl⟩ | hs
        · left
          rw [r.gi.wanted]
          refine List.mem_flatMap.2 ⟨_, (r.details _).2 (.inl ⟨i, hi, al, hal, rfl⟩), ?_⟩
          simp only [detailsPiece, Prereqs.wanted, List.mem_append]
          exact hx
        · cases hapi : i.api with
          | none => simp [hapi] at hs
          | some api =>
              simp only [hapi, List.mem_cons, List.not_mem_nil, or_false] at hs
              rcases hs with rfl | rfl
              · right
                refine ⟨(i.id, api.main), ?_, by simp only [Prereqs.wanted, List.mem_append]; exact hx⟩
                rw [(rt.values_perm _).mem_iff]
                exact (r.main_mem _ _).2 ⟨i, hi, api, hapi, rfl, rfl⟩
              · left
                rw [r.gi.wanted]
                refine List.mem_flatMap.2 ⟨_, (r.details _).2 (.inr ⟨i, hi, api, hapi, rfl⟩), ?_⟩
                simp only [detailsPiece, Prereqs.wanted, List.mem_append]
                exact hx
    | impl x hx => exact hseed x (by simp [firstWorklist, hx])
    | spec s x _ hx ih =>
        have hw : Wants w s x := by
          simp only [Wants, Prereqs.wanted, List.mem_append]
          tauto
        rcases r.ai.closed s ih x hw with h | h | h
        · exact h
        · rw [r.done] at h; cases h
        · cases h

end Verif.Header

import Verif.Header.Props

namespace Verif.Header
open Verif Verif.Toposort

theorem assemble_includes_mem (snip : Node → Snippet) (ns : List Node) (a : List Nat) (x : Nat) :
    x ∈ ns.foldl (fun s n => unionSet s (snip n).pre.includes) a ↔
      x ∈ a ∨ ∃ n ∈ ns, x ∈ (snip n).pre.includes := by
  induction ns generalizing a with
  | nil => simp
  | cons n ns ih => simp [ih, mem_unionSet]; tauto

theorem mainPiece_label (w : Input) (snip : Node → Snippet) (n : Node) :
    (mainPiece w snip n).label = .main n := by cases n <;> rfl
theorem mainPiece_pre (w : Input) (snip : Node → Snippet) (n : Node) :
    (mainPiece w snip n).pre = (snip n).pre := by cases n <;> rfl
theorem mainPiece_toks (w : Input) (snip : Node → Snippet) (n : Node) :
    (mainPiece w snip n).toks = (snip n).toks := by cases n <;> rfl

/-- C90: what the generator writes can be compiled: everything is declared before it is used, included if it
has to be, defined once. -/
theorem header_compiles (w : Input) (rt : Rt w) (fuel : Nat) (o : Output)
    (h : generate w rt fuel = .ok o) (hw : DetailsOk w) :
    Compiles w.ids o.includes o.pieces := by
  obtain ⟨g, a, L, ordered, r⟩ := run_of h
  have hout := r.out
  subst hout
  obtain ⟨hf1, hf2, hf3⟩ := fwdLoop_spec (snippetOf g.mains a.specs) ordered ⟨[], []⟩ []
    (by simp) (by simp)
  have hsp := r.ai.specs
  have ho := r.ord
  have hmainL : ∀ d, d ∈ w.ids → ∀ more, ∃ q ∈ (sortBy w.dkey (fwdLoop (snippetOf g.mains a.specs) ⟨[], []⟩ ordered).fwds).map
      (fwdPiece w) ++ ordered.map (mainPiece w (snippetOf g.mains a.specs)) ++ more, q.label = .main (.item d) := by
    intro d hd more
    refine ⟨mainPiece w (snippetOf g.mains a.specs) (.item d), ?_, mainPiece_label _ _ _⟩
    simp only [List.mem_append]
    exact .inl (.inr (List.mem_map.2 ⟨_, (ho.item d).2 ((r.ids d).2 hd), rfl⟩))
  have hspecL : ∀ s, s ∈ L → ∀ more, ∃ q ∈ (sortBy w.dkey (fwdLoop (snippetOf g.mains a.specs) ⟨[], []⟩ ordered).fwds).map
      (fwdPiece w) ++ ordered.map (mainPiece w (snippetOf g.mains a.specs)) ++ more, q.label = .main (.spec s) := by
    intro s hs more
    refine ⟨mainPiece w (snippetOf g.mains a.specs) (.spec s), ?_, mainPiece_label _ _ _⟩
    simp only [List.mem_append]
    exact .inl (.inr (List.mem_map.2 ⟨_, (ho.spec s).2 hs, rfl⟩))
  -- what specializations the pieces ask for
  have hwant : ∀ p ∈ (assemble w g a ordered).pieces, ∀ s, s ∈ p.pre.specs ∨ s ∈ p.pre.lazies → s ∈ L := by
    intro p hp s hs
    rw [r.needed]
    simp only [Output.pieces, assemble, List.mem_append, List.mem_map] at hp
    rcases hp with ((⟨d, -, rfl⟩ | ⟨n, hn, rfl⟩) | hp) | ⟨q, hq, rfl⟩
    · simp [fwdPiece, Prereqs.none] at hs
    · rw [mainPiece_pre] at hs
      cases n with
      | item d =>
          obtain ⟨⟨d', sn⟩, hm, rfl⟩ := List.mem_map.1 ((ho.item d).1 hn)
          rw [ho.snipItem _ _ hm] at hs
          obtain ⟨i, hi, api, hapi, -, rfl⟩ := (r.main_mem _ _).1 hm
          exact .item i api.main s hi (by simp [Item.snippets, hapi]) hs
      | spec k =>
          have hk := (ho.spec k).1 hn
          rw [hsp, snippetOf_spec (f := fun s => (w.gen s).main) r.ai.nodup hk] at hs
          exact .spec k s ((r.needed k).1 hk) (by tauto)
    · rcases (r.details p).1 hp with ⟨i, hi, al, hal, rfl⟩ | ⟨i, hi, api, hapi, rfl⟩
      · exact .item i al.using_ s hi
          (by simp only [Item.snippets, List.mem_append]; exact .inl (List.mem_map.2 ⟨al, hal, rfl⟩)) hs
      · exact .item i api.details s hi (by simp [Item.snippets, hapi]) hs
    · rw [r.ai.impls] at hq
      obtain ⟨k, hk, rfl⟩ := List.mem_map.1 hq
      exact .spec k s ((r.needed k).1 hk) (by simp only [implPiece] at hs; tauto)
  refine ⟨?_, ?_, ?_, ?_, ?_⟩
  · -- declared before used
    intro x p y e
    have hall : MetFrom w.ids [] (assemble w g a ordered).pieces := by
      simp only [Output.pieces, assemble, List.append_assoc]
      refine metFrom_append ?_ (metFrom_append ?_ ?_)
      · refine metFrom_of_all fun p hp more => ?_
        obtain ⟨d, -, rfl⟩ := List.mem_map.1 hp
        constructor <;> simp [fwdPiece, Prereqs.none]
      · intro x p y e
        obtain ⟨x', ys, rfl, rfl, e'⟩ := List.map_eq_append_iff.1 e
        obtain ⟨n, y', rfl, rfl, rfl⟩ := List.map_eq_cons_iff.1 e'
        constructor
        · intro d hd hdi
          rw [mainPiece_pre] at hd
          rw [mainPiece_label]
          rw [hsp] at hd
          rcases ho.defs x' n y' rfl d hd ((r.ids d).2 hdi) with rfl | hx
          · exact .inl rfl
          · right
            refine ⟨mainPiece w (snippetOf g.mains a.specs) (.item d), ?_, mainPiece_label _ _ _⟩
            simp only [List.mem_append]
            exact .inr (List.mem_map.2 ⟨_, hx, rfl⟩)
        · intro d hd
          rw [mainPiece_pre] at hd
          rcases hf3 x' n y' rfl d hd with hx | hx
          · refine ⟨fwdPiece w d, ?_, .inl rfl⟩
            simp only [List.nil_append, List.mem_append]
            exact .inl (List.mem_map.2 ⟨d, (mem_sortBy _ _ _).2 hx, rfl⟩)
          · refine ⟨mainPiece w (snippetOf g.mains a.specs) (.item d), ?_, .inr (mainPiece_label _ _ _)⟩
            simp only [List.mem_append]
            exact .inr (List.mem_map.2 ⟨_, by simpa using hx, rfl⟩)
        · intro s hs
          rw [mainPiece_pre] at hs
          rw [mainPiece_label]
          rw [hsp] at hs
          rcases ho.specs x' n y' rfl s hs with rfl | hx
          · exact .inl rfl
          · right
            refine ⟨mainPiece w (snippetOf g.mains a.specs) (.spec s), ?_, mainPiece_label _ _ _⟩
            simp only [List.mem_append]
            exact .inr (List.mem_map.2 ⟨_, hx, rfl⟩)
      · refine metFrom_of_all fun p hp more => ?_
        have hp' : p ∈ (assemble w g a ordered).pieces := by
          simp only [Output.pieces, assemble, List.append_assoc]
          simp only [List.mem_append] at hp ⊢
          exact .inr (.inr hp)
        constructor
        · intro d _ hdi
          right
          rw [List.nil_append]
          exact hmainL d hdi more
        · intro d hd
          have hdi : d ∈ w.ids := by
            simp only [List.mem_append, List.mem_map] at hp
            rcases hp with hp | ⟨q, hq, rfl⟩
            · rcases (r.details p).1 hp with ⟨i, hi, al, hal, rfl⟩ | ⟨i, hi, api, hapi, rfl⟩
              · exact hw.use i hi al hal d hd
              · exact hw.item i hi api hapi d hd
            · rw [r.ai.impls] at hq
              obtain ⟨k, hk, rfl⟩ := List.mem_map.1 hq
              exact hw.spec k ((r.needed k).1 hk) d hd
          obtain ⟨q, hq, hl⟩ := hmainL d hdi more
          exact ⟨q, by simpa using hq, .inr hl⟩
        · intro s hs
          have := hspecL s (hwant p hp' s (.inl hs)) more
          right
          rw [List.nil_append]
          exact this
    have := hall x p y e
    simpa using this
  · -- includes
    intro p hp i hi
    simp only [assemble]
    rw [assemble_includes_mem]
    simp only [Output.pieces, assemble, List.mem_append, List.mem_map] at hp
    rcases hp with ((⟨d, -, rfl⟩ | ⟨n, hn, rfl⟩) | hp) | ⟨q, hq, rfl⟩
    · simp [fwdPiece, Prereqs.none] at hi
    · rw [mainPiece_pre] at hi
      exact .inr ⟨n, hn, hi⟩
    · left
      rw [r.ai.includes]
      exact .inl ((r.gi.includes i).2 ⟨p, hp, hi⟩)
    · left
      rw [r.ai.includes]
      rw [r.ai.impls] at hq
      obtain ⟨k, hk, rfl⟩ := List.mem_map.1 hq
      exact .inr ⟨k, hk, hi⟩
  · -- specializations exist
    intro p hp s hs
    obtain ⟨q, hq, hl⟩ := hspecL s (hwant p hp s hs) (g.details ++ a.impls.map (implPiece w))
    exact ⟨q, by simpa [Output.pieces, assemble] using hq, hl⟩
  · -- once
    have e : ((assemble w g a ordered).pieces.filterMap fun p =>
        p.label.defines) = ordered := by
      have e1 : ((sortBy w.dkey (fwdLoop (snippetOf g.mains a.specs) ⟨[], []⟩ ordered).fwds).map
          (fwdPiece w)).filterMap (fun p => p.label.defines) = [] := by
        rw [List.filterMap_eq_nil_iff]
        intro p hp
        obtain ⟨d, -, rfl⟩ := List.mem_map.1 hp
        rfl
      have e2 : (ordered.map (mainPiece w (snippetOf g.mains a.specs))).filterMap
          (fun p => p.label.defines) = ordered := by
        rw [List.filterMap_map]
        have : ((fun p : Piece => p.label.defines) ∘
            mainPiece w (snippetOf g.mains a.specs)) = some := by
          funext n
          simp [Function.comp_def, mainPiece_label, Label.defines]
        rw [this]
        simp
      have e3 : g.details.filterMap (fun p => p.label.defines) = [] := by
        rw [List.filterMap_eq_nil_iff]
        intro p hp
        rcases (r.details p).1 hp with ⟨i, hi, al, hal, rfl⟩ | ⟨i, hi, api, hapi, rfl⟩ <;> rfl
      have e4 : (a.impls.map (implPiece w)).filterMap
          (fun p => p.label.defines) = [] := by
        rw [List.filterMap_eq_nil_iff]
        intro p hp
        obtain ⟨d, -, rfl⟩ := List.mem_map.1 hp
        rfl
      simp only [Output.pieces, assemble, List.filterMap_append, e1, e2, e3, e4]
      simp
    rw [e]
    exact ho.nodup
  · have e : ((assemble w g a ordered).pieces.filterMap fun p =>
        p.label.declares) =
        sortBy w.dkey (fwdLoop (snippetOf g.mains a.specs) ⟨[], []⟩ ordered).fwds := by
      have e1 : ((sortBy w.dkey (fwdLoop (snippetOf g.mains a.specs) ⟨[], []⟩ ordered).fwds).map
          (fwdPiece w)).filterMap (fun p => p.label.declares) =
          sortBy w.dkey (fwdLoop (snippetOf g.mains a.specs) ⟨[], []⟩ ordered).fwds := by
        rw [List.filterMap_map]
        have : ((fun p : Piece => p.label.declares) ∘
            fwdPiece w) = some := by
          funext n
          rfl
        rw [this]
        simp
      have e2 : (ordered.map (mainPiece w (snippetOf g.mains a.specs))).filterMap
          (fun p => p.label.declares) = [] := by
        rw [List.filterMap_eq_nil_iff]
        intro p hp
        obtain ⟨n, -, rfl⟩ := List.mem_map.1 hp
        rw [mainPiece_label]
        rfl
      have e3 : g.details.filterMap (fun p => p.label.declares) = [] := by
        rw [List.filterMap_eq_nil_iff]
        intro p hp
        rcases (r.details p).1 hp with ⟨i, hi, al, hal, rfl⟩ | ⟨i, hi, api, hapi, rfl⟩ <;> rfl
      have e4 : (a.impls.map (implPiece w)).filterMap
          (fun p => p.label.declares) = [] := by
        rw [List.filterMap_eq_nil_iff]
        intro p hp
        obtain ⟨d, -, rfl⟩ := List.mem_map.1 hp
        rfl
      simp only [Output.pieces, assemble, List.filterMap_append, e1, e2, e3, e4]
      simp
    rw [e, (sortBy_perm _ _).nodup_iff]
    exact hf2

/-- C91: the header has everything it should have and nothing else: the definition, the details and the
further names of every item, each in its namespace; the specializations that are needed and no others; and
only forward declarations that are needed. -/
theorem header_complete (w : Input) (rt : Rt w) (fuel : Nat) (o : Output)
    (h : generate w rt fuel = .ok o) :
    (∀ i ∈ w.items, ∀ api, i.api = some api →
      (∃ p ∈ o.pieces, p.label = .main (.item i.id) ∧ p.ns = w.top ++ w.nsOf i.id ∧
        p.toks = api.main.toks ∧ p.pre = api.main.pre) ∧
      (∃ p ∈ o.pieces, p.label = .details (.item i.id) ∧ p.ns = w.top ++ w.nsOf i.id ∧
        p.toks = api.details.toks ∧ p.pre = api.details.pre)) ∧
    (∀ i ∈ w.items, ∀ al ∈ i.aliases,
      ∃ p ∈ o.pieces, p.label = .alias i.id ∧ p.ns = w.top ++ al.ns ∧ p.toks = al.using_.toks ∧
        p.pre = al.using_.pre) ∧
    (∀ s, Needed w s →
      (∃ p ∈ o.pieces, p.label = .main (.spec s) ∧ p.ns = [] ∧ p.toks = (w.gen s).main.toks ∧
        p.pre = (w.gen s).main.pre) ∧
      (∃ p ∈ o.pieces, p.label = .details (.spec s) ∧ p.ns = [] ∧ p.toks = (w.gen s).details.toks ∧
        p.pre = (w.gen s).details.pre)) ∧
    (∀ p ∈ o.pieces, match p.label with
      | .main (.item d) => d ∈ w.ids
      | .details (.item d) => d ∈ w.ids
      | .alias d => ∃ i ∈ w.items, i.id = d ∧ i.aliases ≠ []
      | .main (.spec s) => Needed w s
      | .details (.spec s) => Needed w s
      | .fwd d => ∃ x q y, o.pieces = x ++ q :: y ∧ d ∈ q.pre.fwds ∧
          ∀ q' ∈ x, q'.label ≠ .main (.item d)) ∧
    (∀ i, i ∈ o.includes ↔ ∃ p ∈ o.pieces, i ∈ p.pre.includes) := by
  obtain ⟨g, a, L, ordered, r⟩ := run_of h
  have hout := r.out
  subst hout
  have hsp := r.ai.specs
  have ho := r.ord
  have hmain : ∀ n ∈ ordered, mainPiece w (snippetOf g.mains a.specs) n ∈ (assemble w g a ordered).pieces := by
    intro n hn
    simp only [Output.pieces, assemble, List.mem_append]
    exact .inl (.inl (.inr (List.mem_map.2 ⟨_, hn, rfl⟩)))
  have hdet : ∀ p ∈ g.details, p ∈ (assemble w g a ordered).pieces := by
    intro p hp
    simp only [Output.pieces, assemble, List.mem_append]
    exact .inl (.inr hp)
  have himp : ∀ s ∈ L, implPiece w (s, (w.gen s).details) ∈ (assemble w g a ordered).pieces := by
    intro s hs
    simp only [Output.pieces, assemble, List.mem_append]
    exact .inr (List.mem_map.2 ⟨_, by rw [r.ai.impls]; exact List.mem_map.2 ⟨s, hs, rfl⟩, rfl⟩)
  refine ⟨?_, ?_, ?_, ?_, ?_⟩
  · intro i hi api hapi
    have hm : (i.id, api.main) ∈ g.mains := (r.main_mem _ _).2 ⟨i, hi, api, hapi, rfl, rfl⟩
    have hs := ho.snipItem _ _ hm a.specs
    constructor
    · refine ⟨_, hmain (.item i.id) ((ho.item _).2 (List.mem_map.2 ⟨_, hm, rfl⟩)), mainPiece_label _ _ _, rfl, ?_, ?_⟩
      · rw [mainPiece_toks, hs]
      · rw [mainPiece_pre, hs]
    · exact ⟨_, hdet _ ((r.details _).2 (.inr ⟨i, hi, api, hapi, rfl⟩)), rfl, rfl, rfl, rfl⟩
  · intro i hi al hal
    exact ⟨_, hdet _ ((r.details _).2 (.inl ⟨i, hi, al, hal, rfl⟩)), rfl, rfl, rfl, rfl⟩
  · intro s hs
    have hL := (r.needed s).2 hs
    have hsn : snippetOf g.mains a.specs (.spec s) = (w.gen s).main := by
      rw [hsp]; exact snippetOf_spec (f := fun s => (w.gen s).main) r.ai.nodup hL _
    constructor
    · refine ⟨_, hmain (.spec s) ((ho.spec s).2 hL), mainPiece_label _ _ _, rfl, ?_, ?_⟩
      · rw [mainPiece_toks, hsn]
      · rw [mainPiece_pre, hsn]
    · exact ⟨_, himp s hL, rfl, rfl, rfl, rfl⟩
  · intro p hp
    have hp0 := hp
    simp only [Output.pieces, assemble, List.mem_append, List.mem_map] at hp
    rcases hp with ((⟨d, hd, rfl⟩ | ⟨n, hn, rfl⟩) | hp) | ⟨q, hq, rfl⟩
    · have hd' : d ∈ (fwdLoop (snippetOf g.mains a.specs) ⟨[], []⟩ ordered).fwds := (mem_sortBy _ _ _).1 hd
      rcases fwdLoop_needed _ _ ⟨[], []⟩ [] (by simp) d hd' with hx | ⟨x, n, y, e, h1, h2⟩
      · cases hx
      · show ∃ x q y, _
        refine ⟨(sortBy w.dkey (fwdLoop (snippetOf g.mains a.specs) ⟨[], []⟩ ordered).fwds).map (fwdPiece w) ++
          x.map (mainPiece w (snippetOf g.mains a.specs)), mainPiece w (snippetOf g.mains a.specs) n,
          y.map (mainPiece w (snippetOf g.mains a.specs)) ++ g.details ++ a.impls.map (implPiece w), ?_, ?_, ?_⟩
        · simp only [Output.pieces, assemble]
          generalize fwdLoop (snippetOf g.mains a.specs) ⟨[], []⟩ ordered = f
          rw [e]
          simp
        · rw [mainPiece_pre]; exact h1
        · intro q' hq'
          simp only [List.mem_append, List.mem_map] at hq'
          rcases hq' with ⟨d', -, rfl⟩ | ⟨m, hm, rfl⟩
          · simp [fwdPiece]
          · rw [mainPiece_label]
            intro hc
            injection hc with hc
            subst hc
            exact h2 (by simpa using hm)
    · rw [mainPiece_label]
      cases n with
      | item d => exact (r.ids d).1 ((ho.item d).1 hn)
      | spec s => exact (r.needed s).1 ((ho.spec s).1 hn)
    · rcases (r.details p).1 hp with ⟨i, hi, al, hal, rfl⟩ | ⟨i, hi, api, hapi, rfl⟩
      · exact ⟨i, hi, rfl, List.ne_nil_of_mem hal⟩
      · show i.id ∈ w.ids
        simp only [Input.ids, List.mem_map, List.mem_filter]
        exact ⟨i, ⟨hi, by simp [hapi]⟩, rfl⟩
    · rw [r.ai.impls] at hq
      obtain ⟨k, hk, rfl⟩ := List.mem_map.1 hq
      exact (r.needed k).1 hk
  · intro i
    constructor
    · intro hi
      simp only [assemble] at hi
      rw [assemble_includes_mem, r.ai.includes, r.gi.includes] at hi
      rcases hi with (⟨p, hp, hi⟩ | ⟨s, hs, hi⟩) | ⟨n, hn, hi⟩
      · exact ⟨p, hdet p hp, hi⟩
      · exact ⟨_, himp s hs, hi⟩
      · exact ⟨_, hmain n hn, by rw [mainPiece_pre]; exact hi⟩
    · rintro ⟨p, hp, hi⟩
      simp only [assemble]
      rw [assemble_includes_mem]
      simp only [Output.pieces, assemble, List.mem_append, List.mem_map] at hp
      rcases hp with ((⟨d, -, rfl⟩ | ⟨n, hn, rfl⟩) | hp) | ⟨q, hq, rfl⟩
      · simp [fwdPiece, Prereqs.none] at hi
      · rw [mainPiece_pre] at hi
        exact .inr ⟨n, hn, hi⟩
      · left
        rw [r.ai.includes]
        exact .inl ((r.gi.includes i).2 ⟨p, hp, hi⟩)
      · left
        rw [r.ai.includes]
        rw [r.ai.impls] at hq
        obtain ⟨k, hk, rfl⟩ := List.mem_map.1 hq
        exact .inr ⟨k, hk, hi⟩

end Verif.Header

import Verif.CallOrder.Group
import Mathlib.Tactic.ByContra
import Mathlib.Data.List.Nodup

/-!
# The traversal of the call graph
-/

namespace Verif.CallOrder

variable {L E : Type}

/-- The marks in the stack `v'` that are not in `v` come from calls of functions with `P`: all entries down to one of
these are marked. -/
def MarksBy (P : Nat → Prop) (v v' : List Entry) : Prop :=
  ∀ u e w u' e' w', v = u ++ e :: w → v' = u' ++ e' :: w' → u.length = u'.length → e.inCycle = false →
    e'.inCycle = true → ∃ g, MarkedDown g (e' :: w') ∧ P g

theorem MarksBy.refl (P : Nat → Prop) (v : List Entry) : MarksBy P v v := by
  intro u e w u' e' w' h1 h2 h3 h4 h5
  obtain ⟨-, h⟩ := List.append_inj (h1.symm.trans h2) h3
  simp only [List.cons.injEq] at h
  rw [← h.1, h4] at h5
  simp at h5

/-- Marks of the lower part. -/
theorem MarksBy.lower {P : Nat → Prop} {v v' w w' : List Entry} (hl : v.length = v'.length)
    (h : MarksBy P (v ++ w) (v' ++ w')) : MarksBy P w w' := by
  intro u e x u' e' x' h1 h2 h3 h4 h5
  exact h (v ++ u) e x (v' ++ u') e' x' (by rw [h1]; simp) (by rw [h2]; simp) (by simp [hl, h3]) h4 h5

theorem More.split {v v' : List Entry} (h : More v v') {u e w} (hv : v = u ++ e :: w) :
    ∃ u' e' w', v' = u' ++ e' :: w' ∧ u'.length = u.length ∧ (e.inCycle = true → e'.inCycle = true) ∧
      More (e :: w) (e' :: w') := by
  subst hv
  obtain ⟨u', x, rfl, h1, h2⟩ := h.append
  cases h2 with
  | cons hf hc ht => exact ⟨u', _, _, rfl, h1.length, hc, .cons hf hc ht⟩

theorem MarksBy.trans {P : Nat → Prop} {v v' v'' : List Entry} (h : MarksBy P v v') (h' : MarksBy P v' v'')
    (hm : More v v') (hm' : More v' v'') : MarksBy P v v'' := by
  intro u e w u' e' w' h1 h2 h3 h4 h5
  obtain ⟨u1, e1, w1, h6, h7, h8, h9⟩ := hm.split h1
  by_cases hc : e1.inCycle = true
  · obtain ⟨g, hg, hp⟩ := h u e w u1 e1 w1 h1 h6 h7.symm h4 hc
    obtain ⟨u2, e2, w2, ha, hb, _, hd⟩ := hm'.split h6
    refine ⟨g, ?_, hp⟩
    obtain ⟨-, hx⟩ := List.append_inj (ha.symm.trans h2) (by omega)
    rw [← hx]
    exact hd.marked hg
  · exact h' u1 e1 w1 u' e' w' h6 h2 (by omega) (by simpa using hc) h5

theorem MarksBy.imp {P Q : Nat → Prop} {v v' : List Entry} (h : MarksBy P v v')
    (hpq : ∀ g, g ∈ funcs v' → P g → Q g) : MarksBy Q v v' := by
  intro u e w u' e' w' h1 h2 h3 h4 h5
  obtain ⟨g, hg, hp⟩ := h u e w u' e' w' h1 h2 h3 h4 h5
  refine ⟨g, hg, hpq g ?_ hp⟩
  have := marked_mem hg
  rw [h2]
  simp only [funcs, List.map_append, List.mem_append] at this ⊢
  exact .inr this

theorem mark_marksBy {f : Nat} {v v' : List Entry} (h : mark f v = some v') : MarksBy (fun g => g = f) v v' := by
  intro u e w u' e' w' h1 h2 h3 h4 h5
  refine ⟨f, ?_, rfl⟩
  induction u generalizing v v' u' with
  | nil =>
      cases u' with
      | nil =>
          simp only [List.nil_append] at h1 h2
          subst h1; subst h2
          exact (mark_some h).2
      | cons => simp at h3
  | cons x u ih =>
      cases u' with
      | nil => simp at h3
      | cons x' u' =>
          simp only [List.cons_append] at h1 h2
          subst h1; subst h2
          simp only [mark] at h
          split at h
          · simp only [Option.some.injEq, List.cons.injEq] at h
            obtain ⟨-, h6⟩ := List.append_inj h.2 (by simpa using h3)
            simp only [List.cons.injEq] at h6
            rw [← h6.1, h4] at h5
            simp at h5
          · simp only [Option.map_eq_some_iff, List.cons.injEq] at h
            obtain ⟨z, hz, -, rfl⟩ := h
            exact ih hz u' rfl rfl (by simpa using h3)

structure Inv (p : Prog L E) (s : St L E) : Prop where
  visNodup : (funcs s.visited).Nodup
  vis : ∀ g ∈ funcs s.visited, s.analyzed g = none ∧ p.builtin g = false ∧ p.defined g = true ∧ ∃ cs, p.callees g = .ok cs
  nodup : (handled s.log).Nodup
  handledIff : ∀ f, (s.analyzed f).isSome = true ↔ f ∈ handled s.log
  notBuiltin : ∀ f, p.builtin f = true → s.analyzed f = none
  sound : ∀ e ∈ s.log, e.Sound p s.analyzed
  after : ∀ l₁ e l₂, s.log = l₁ ++ e :: l₂ → e.After p l₁
  cyclic : ∀ e ∈ s.log, e.Cyclic p

theorem handled_append (a b : List Event) : handled (a ++ b) = handled a ++ handled b := List.flatMap_append

/-- The results of earlier events stay sound. -/
theorem Event.Sound.ext {p : Prog L E} (hl : p.Local) {a b : Results L E} (hab : Ext a b)
    (ha : ∀ f, p.builtin f = true → a f = none) (hb : ∀ f, p.builtin f = true → b f = none) {e : Event}
    (hm : ∀ f ∈ e.members, p.builtin f = false)
    (hd : ∀ f ∈ e.members, ∀ g, p.Calls f g → (a g).isSome = true) (h : e.Sound p a) : e.Sound p b := by
  have same : ∀ f ∈ e.members, p.defined f = true → ∀ cs, p.callees f = .ok cs → p.single f a = p.single f b := by
    intro f hf hdef cs hcs
    refine hl f cs a b hcs fun g hg => ?_
    by_cases hbg : p.builtin g = true
    · rw [ha g hbg, hb g hbg]
    · obtain ⟨r, hr⟩ := Option.isSome_iff_exists.1 (hd f hf g ⟨hm f hf, hdef, ⟨cs, hcs, hg⟩, by simpa using hbg⟩)
      rw [hr, hab g r hr]
  cases e with
  | declared f => exact ⟨h.1, hab _ _ h.2⟩
  | noCallees f =>
      obtain ⟨h1, e, h2, h3⟩ := h
      exact ⟨h1, e, h2, hab _ _ h3⟩
  | alone f =>
      obtain ⟨h1, ⟨cs, h2⟩, h3⟩ := h
      refine ⟨h1, ⟨cs, h2⟩, ?_⟩
      rw [← same f (by simp [Event.members]) h1 cs h2]
      exact hab _ _ h3
  | group fs =>
      obtain ⟨h1, h2⟩ := h
      refine ⟨h1, ?_⟩
      rcases h2 with h2 | ⟨e, h2⟩
      · left
        intro f hf
        obtain ⟨l, l', h3, h4, h5⟩ := h2 f hf
        obtain ⟨hdf, cs, hcs⟩ := h1 f hf
        exact ⟨l, l', hab _ _ h3, by rw [← same f hf hdf cs hcs]; exact h4, h5⟩
      · exact .inr ⟨e, fun f hf => hab _ _ (h2 f hf)⟩

/-- A further event. -/
theorem Inv.push {p : Prog L E} (hl : p.Local) {s : St L E} (hi : Inv p s) (a : Results L E) (v : List Entry) (e : Event)
    (hv : (funcs v).Nodup) (hvs : ∀ g ∈ funcs v, g ∈ funcs s.visited ∧ g ∉ e.members)
    (ha : ∀ g, g ∉ e.members → a g = s.analyzed g) (hs : ∀ f ∈ e.members, (a f).isSome = true)
    (hm : ∀ f ∈ e.members, p.builtin f = false) (hn : e.members.Nodup)
    (hnew : ∀ f ∈ e.members, s.analyzed f = none) (hsound : e.Sound p a) (hafter : e.After p s.log) (hcyc : e.Cyclic p) :
    Ext s.analyzed a ∧ Inv p ⟨a, v, s.log ++ [e]⟩ := by
  have hext : Ext s.analyzed a := by
    intro f r hf
    by_cases hfe : f ∈ e.members
    · rw [hnew f hfe] at hf; simp at hf
    · rw [ha f hfe]; exact hf
  have hnb : ∀ f, p.builtin f = true → a f = none := by
    intro f hf
    by_cases hfe : f ∈ e.members
    · rw [hm f hfe] at hf; simp at hf
    · rw [ha f hfe]; exact hi.notBuiltin f hf
  have hh : handled (s.log ++ [e]) = handled s.log ++ e.members := by
    rw [handled_append]; simp [handled]
  refine ⟨hext, ⟨hv, ?_, ?_, ?_, hnb, ?_, ?_, ?_⟩⟩
  · intro g hg
    obtain ⟨h1, h2⟩ := hvs g hg
    obtain ⟨h3, h4⟩ := hi.vis g h1
    exact ⟨(ha g h2).trans h3, h4⟩
  · rw [hh, List.nodup_append]
    refine ⟨hi.nodup, hn, ?_⟩
    intro x hx y hy hxy
    subst hxy
    have := (hi.handledIff x).2 hx
    rw [hnew x hy] at this
    simp at this
  · intro f
    rw [hh, List.mem_append, ← hi.handledIff f]
    by_cases hfe : f ∈ e.members
    · simp [hs f hfe, hfe]
    · simp [ha f hfe, hfe]
  · intro e' he'
    simp only [List.mem_append, List.mem_singleton] at he'
    rcases he' with he' | rfl
    · refine (hi.sound e' he').ext hl hext hi.notBuiltin hnb ?_ ?_
      · intro f hf
        by_contra hb
        have h1 := (hi.handledIff f).2 (List.mem_flatMap.2 ⟨e', he', hf⟩)
        rw [hi.notBuiltin f (by simpa using hb)] at h1
        simp at h1
      · intro f hf g hg
        obtain ⟨l₁, l₂, hsp⟩ := List.append_of_mem he'
        refine (hi.handledIff g).2 ?_
        rw [hsp, handled_append, List.mem_append]
        rcases hi.after l₁ e' l₂ hsp f hf g hg with h | ⟨fs, rfl, h⟩
        · exact .inl h
        · exact .inr (List.mem_flatMap.2 ⟨.group fs, by simp, h⟩)
    · exact hsound
  · intro l₁ e' l₂ hsp
    rcases List.eq_nil_or_concat l₂ with rfl | ⟨l₃, x, rfl⟩
    · have := List.append_inj' (s₁ := s.log) (s₂ := l₁) (t₁ := [e]) (t₂ := [e']) hsp rfl
      obtain ⟨h1, h2⟩ := this
      simp only [List.cons.injEq, and_true] at h2
      subst h1; subst h2
      exact hafter
    · have : s.log ++ [e] = (l₁ ++ e' :: l₃) ++ [x] := by simpa using hsp
      have := List.append_inj' this rfl
      exact hi.after l₁ e' l₃ this.1
  · intro e' he'
    simp only [List.mem_append, List.mem_singleton] at he'
    rcases he' with he' | rfl
    · exact hi.cyclic e' he'
    · exact hcyc

/-- More marks on the stack. -/
theorem Inv.more {p : Prog L E} {s : St L E} (hi : Inv p s) {v : List Entry} (h : More s.visited v) :
    Inv p { s with visited := v } := by
  constructor
  · rw [h.funcs]; exact hi.visNodup
  · rw [h.funcs]; exact hi.vis
  · exact hi.nodup
  · exact hi.handledIff
  · exact hi.notBuiltin
  · exact hi.sound
  · exact hi.after
  · exact hi.cyclic

/-- What a visit of a function does to the stack. -/
def Post (p : Prog L E) (s : St L E) (f : Nat) (s' : St L E) : Prop :=
  Inv p s' ∧ Ext s.analyzed s'.analyzed ∧ ∃ new old, s'.visited = new ++ old ∧ More s.visited old ∧
    (∀ e ∈ new, e.inCycle = true) ∧ (new ≠ [] → ∃ e o, old = e :: o ∧ e.inCycle = true) ∧
    (∀ g ∈ funcs new, ∀ cs, p.callees g = .ok cs → ∀ c ∈ cs,
      Done p s'.analyzed c ∨ c ∈ funcs new ∨ MarkedDown c old) ∧
    (Done p s'.analyzed f ∨ f ∈ funcs new ∨ MarkedDown f old) ∧
    MarksBy (fun g => g = f ∨ p.Reaches f g) s.visited old

/-- What holds between the visits of the callees. -/
def Mid (p : Prog L E) (s₀ : St L E) (f : Nat) (seen : List Nat) (s : St L E) : Prop :=
  Inv p s ∧ Ext s₀.analyzed s.analyzed ∧ ∃ rest fl base, s.visited = rest ++ ⟨f, fl⟩ :: base ∧
    More s₀.visited base ∧ (∀ e ∈ rest, e.inCycle = true) ∧ (rest ≠ [] → fl = true) ∧
    (∀ g ∈ funcs rest, ∀ cs, p.callees g = .ok cs → ∀ c ∈ cs,
      Done p s.analyzed c ∨ c ∈ funcs rest ∨ MarkedDown c (⟨f, fl⟩ :: base)) ∧
    (∀ c ∈ seen, Done p s.analyzed c ∨ c ∈ funcs rest ∨ MarkedDown c (⟨f, fl⟩ :: base)) ∧
    MarksBy (p.Reaches f) (⟨f, false⟩ :: s₀.visited) (⟨f, fl⟩ :: base)

theorem mid_step {p : Prog L E} {s₀ s s' : St L E} {f c : Nat} {seen : List Nat} (h : Mid p s₀ f seen s)
    (hcc : p.builtin c = false → p.Calls f c) (hp : Post p s c s') : Mid p s₀ f (seen ++ [c]) s' := by
  obtain ⟨hi, he, rest, fl, base, hv, hb, hr, hrn, hg, hs, hmb⟩ := h
  obtain ⟨hi', he', new, old, hv', hm, hn, hnn, hg', hc, hmb'⟩ := hp
  rw [hv] at hm hmb'
  obtain ⟨rest', w, rfl, hm1, hm2⟩ := hm.append
  cases hm2 with
  | @cons _ e' _ base' hef hec hbase =>
      obtain ⟨ef, fl'⟩ := e'
      simp only at hef hec
      subst hef
      have conv : ∀ x, Done p s'.analyzed x ∨ x ∈ funcs new ∨ MarkedDown x (rest' ++ ⟨f, fl'⟩ :: base') →
          Done p s'.analyzed x ∨ x ∈ funcs (new ++ rest') ∨ MarkedDown x (⟨f, fl'⟩ :: base') := by
        intro x hx
        rcases hx with h | h | h
        · exact .inl h
        · exact .inr (.inl (by simp only [funcs, List.map_append, List.mem_append] at h ⊢; exact .inl h))
        · rcases marked_append h with h | h
          · exact .inr (.inl (by simp only [funcs, List.map_append, List.mem_append] at h ⊢; exact .inr h))
          · exact .inr (.inr h)
      have conv' : ∀ x, Done p s.analyzed x ∨ x ∈ funcs rest ∨ MarkedDown x (⟨f, fl⟩ :: base) →
          Done p s'.analyzed x ∨ x ∈ funcs (new ++ rest') ∨ MarkedDown x (⟨f, fl'⟩ :: base') := by
        intro x hx
        rcases hx with h | h | h
        · exact .inl (h.ext he')
        · rw [← hm1.funcs] at h
          exact .inr (.inl (by simp only [funcs, List.map_append, List.mem_append] at h ⊢; exact .inr h))
        · exact .inr (.inr ((More.cons (e := ⟨f, fl⟩) (e' := ⟨f, fl'⟩) rfl hec hbase).marked h))
      refine ⟨hi', he.trans he', new ++ rest', fl', base', by rw [hv', List.append_assoc], hb.trans hbase, ?_, ?_, ?_, ?_, ?_⟩
      · intro e hee
        simp only [List.mem_append] at hee
        rcases hee with h | h
        · exact hn e h
        · exact hm1.all hr e h
      · intro hne
        by_cases hrest : rest = []
        · subst hrest
          cases hm1
          obtain ⟨e, o, ho, hei⟩ := hnn (by simpa using hne)
          simp only [List.nil_append, List.cons.injEq] at ho
          rw [← ho.1] at hei
          exact hei
        · exact hec (hrn hrest)
      · intro g hgm cs hcs x hx
        simp only [funcs, List.map_append, List.mem_append] at hgm
        rcases hgm with h | h
        · exact conv x (hg' g h cs hcs x hx)
        · refine conv' x (hg g ?_ cs hcs x hx)
          rw [← hm1.funcs]
          exact h
      · intro x hx
        simp only [List.mem_append, List.mem_singleton] at hx
        rcases hx with h | rfl
        · exact conv' x (hs x h)
        · exact conv x hc
      · refine hmb.trans ?_ (.cons rfl (by simp) hb) (.cons rfl hec hbase)
        refine (hmb'.lower hm1.length.symm).imp fun g hgv hp => ?_
        have hgb : p.builtin g = false := by
          refine (hi'.vis g ?_).2.1
          rw [hv']
          simp only [funcs, List.map_append, List.mem_append] at hgv ⊢
          exact .inr (.inr hgv)
        rcases hp with rfl | hp
        · exact .one (hcc hgb)
        · refine .step (hcc ?_) hp
          cases hp with
          | one h => exact h.1
          | step h _ => exact h.1

theorem mid_skip {p : Prog L E} {s₀ s : St L E} {f c : Nat} {seen : List Nat} (h : Mid p s₀ f seen s)
    (hc : (s.analyzed c).isSome = true) : Mid p s₀ f (seen ++ [c]) s := by
  obtain ⟨hi, he, rest, fl, base, hv, hb, hr, hrn, hg, hs, hmb⟩ := h
  refine ⟨hi, he, rest, fl, base, hv, hb, hr, hrn, hg, fun x hx => ?_, hmb⟩
  simp only [List.mem_append, List.mem_singleton] at hx
  rcases hx with h | rfl
  · exact hs x h
  · exact .inl (.inr hc)

theorem mid_loop {p : Prog L E} {n : Nat} {s₀ : St L E} {f : Nat}
    (ih : ∀ s c s', Inv p s → go p n s c = some s' → Post p s c s') :
    ∀ (cs seen : List Nat) (s s' : St L E), (∀ c ∈ cs, p.builtin c = false → p.Calls f c) → Mid p s₀ f seen s →
      cs.foldlM (fun (s : St L E) c => if (s.analyzed c).isSome then some s else go p n s c) s = some s' →
      Mid p s₀ f (seen ++ cs) s'
  | [], seen, s, s', _, h, hs => by
      simp only [List.foldlM_nil, pure, Option.some.injEq] at hs
      subst hs
      simpa using h
  | c :: cs, seen, s, s', hcc, h, hs => by
      simp only [List.foldlM_cons, Option.bind_eq_bind, Option.bind_eq_some_iff] at hs
      obtain ⟨s1, h1, h2⟩ := hs
      have h3 : Mid p s₀ f (seen ++ [c]) s1 := by
        split at h1
        · rename_i hc
          simp only [Option.some.injEq] at h1
          subst h1
          exact mid_skip h hc
        · exact mid_step h (hcc c (by simp)) (ih s c s1 h.1 h1)
      have := mid_loop ih cs (seen ++ [c]) s1 s' (fun c h => hcc c (List.mem_cons_of_mem _ h)) h3 h2
      simpa using this

theorem finish_post {p : Prog L E} (hl : p.Local) {s₀ s : St L E} {f : Nat} {cs : List Nat} (hcs : p.callees f = .ok cs)
    (h : Mid p s₀ f cs s) : Post p s₀ f (finish p s₀.visited.length f s) := by
  obtain ⟨hi, he, rest, fl, base, hv, hb, hr, hrn, hg, hs, hmb⟩ := h
  have hlen : s.visited.length - s₀.visited.length = rest.length + 1 := by
    rw [hv, ← hb.length]
    simp only [List.length_append, List.length_cons]
    omega
  have htake : s.visited.take (rest.length + 1) = rest ++ [⟨f, fl⟩] := by
    rw [hv, show rest ++ ⟨f, fl⟩ :: base = (rest ++ [⟨f, fl⟩]) ++ base by simp]
    rw [List.take_left' (by simp)]
  have hdrop : s.visited.drop (rest.length + 1) = base := by
    rw [hv, show rest ++ ⟨f, fl⟩ :: base = (rest ++ [⟨f, fl⟩]) ++ base by simp]
    rw [List.drop_left' (by simp)]
  have hnd : (funcs rest ++ f :: funcs base).Nodup := by
    have := hi.visNodup
    rw [hv] at this
    simpa [funcs] using this
  have hfv : f ∈ funcs s.visited := by rw [hv]; simp [funcs]
  obtain ⟨hfa, hfb, hfd, -⟩ := hi.vis f hfv
  unfold finish
  simp only [hlen, htake, hdrop, List.getLast?_append, List.getLast?_singleton, Option.some_or, Option.map_some,
    Option.getD_some]
  by_cases h1 : 0 < s₀.visited.length ∧ fl = true ∧ (base.head?.map (·.inCycle)).getD false = true
  · rw [if_pos h1]
    obtain ⟨hk, rfl, hbh⟩ := h1
    refine ⟨hi, he, rest ++ [⟨f, true⟩], base, by simpa using hv, hb, ?_, ?_, ?_, ?_, ?_⟩
    · intro e hee
      simp only [List.mem_append, List.mem_singleton] at hee
      rcases hee with h | rfl
      · exact hr e h
      · rfl
    · intro _
      cases base with
      | nil => simp at hbh
      | cons e o => exact ⟨e, o, rfl, by simpa using hbh⟩
    · intro g hgm cs' hcs' c hc
      have key : Done p s.analyzed c ∨ c ∈ funcs rest ∨ MarkedDown c (⟨f, true⟩ :: base) := by
        simp only [funcs, List.map_append, List.mem_append, List.map_cons, List.map_nil, List.mem_singleton] at hgm
        rcases hgm with h | rfl
        · exact hg g h cs' hcs' c hc
        · rw [hcs] at hcs'
          cases hcs'
          exact hs c hc
      rcases key with h | h | ⟨-, h | h⟩
      · exact .inl h
      · exact .inr (.inl (by simp only [funcs, List.map_append, List.mem_append] at h ⊢; exact .inl h))
      · exact .inr (.inl (by simp [funcs, ← h]))
      · exact .inr (.inr h)
    · exact .inr (.inl (by simp [funcs]))
    · exact (hmb.lower (v := [⟨f, false⟩]) (v' := [⟨f, true⟩]) rfl).imp fun g _ h => .inr h
  · rw [if_neg h1]
    have hlow : MarksBy (fun g => g = f ∨ p.Reaches f g) s₀.visited base :=
      (hmb.lower (v := [⟨f, false⟩]) (v' := [⟨f, fl⟩]) rfl).imp fun g _ h => .inr h
    have hnm : ∀ c, fl = true → ¬ MarkedDown c base := by
      intro c hfl hm
      apply h1
      cases base with
      | nil => simp [MarkedDown] at hm
      | cons e o =>
          refine ⟨?_, hfl, by simpa using hm.1⟩
          rw [← hb.length]; simp
    have hbn : (funcs base).Nodup := by
      have := List.nodup_append.1 hnd
      exact (List.nodup_cons.1 this.2.1).2
    have hbs : ∀ g ∈ funcs base, g ∈ funcs s.visited := by
      intro g h
      rw [hv]
      simp only [funcs, List.map_append, List.mem_append, List.map_cons, List.mem_cons] at h ⊢
      exact .inr (.inr h)
    by_cases h2 : fl = false
    · subst h2
      rw [if_pos rfl]
      have hrest : rest = [] := by
        by_contra hne
        have := hrn hne
        simp at this
      subst hrest
      have hdone : ∀ c ∈ cs, Done p s.analyzed c := by
        intro c hc
        rcases hs c hc with h | h | h
        · exact h
        · simp [funcs] at h
        · simp [MarkedDown] at h
      have hcalls : ∀ g, p.Calls f g → (s.analyzed g).isSome = true := by
        intro g ⟨_, _, ⟨cs', hcs', hg'⟩, hgb⟩
        rw [hcs] at hcs'
        cases hcs'
        rcases hdone g hg' with h | h
        · rw [hgb] at h; simp at h
        · exact h
      have hset : ∀ g, g ≠ f → s.analyzed.set f (p.single f s.analyzed) g = s.analyzed g := by
        intro g h; simp [Results.set, h]
      have hfcs : f ∉ cs := by
        intro hf
        rcases hdone f hf with h | h
        · rw [hfb] at h; simp at h
        · rw [hfa] at h; simp at h
      have hsame : p.single f s.analyzed = p.single f (s.analyzed.set f (p.single f s.analyzed)) := by
        refine hl f cs _ _ hcs fun g hgc => (hset g ?_).symm
        rintro rfl
        exact hfcs hgc
      obtain ⟨hx1, hx2⟩ := hi.push hl (s.analyzed.set f (p.single f s.analyzed)) base (.alone f) hbn
        (fun g h => ⟨hbs g h, by
          simp only [Event.members, List.mem_singleton]
          rintro rfl
          have := List.nodup_append.1 hnd
          exact (List.nodup_cons.1 this.2.1).1 h⟩)
        (fun g h => hset g (by simpa [Event.members] using h))
        (by simp [Event.members, Results.set])
        (by simpa [Event.members] using hfb)
        (by simp [Event.members])
        (by simpa [Event.members] using hfa)
        ⟨hfd, ⟨cs, hcs⟩, by rw [← hsame]; simp [Results.set]⟩
        (by
          intro f' hf' g hg'
          simp only [Event.members, List.mem_singleton] at hf'
          subst hf'
          exact .inl ((hi.handledIff g).1 (hcalls g hg'))) trivial
      refine ⟨hx2, he.trans hx1, [], base, by simp, hb, by simp, by simp, by simp [funcs], .inl (.inr ?_), hlow⟩
      simp [Results.set]
    · have h3 : fl = true := by simpa using h2
      subst h3
      simp only [if_neg h2]
      have hfs : ((rest ++ [(⟨f, true⟩ : Entry)]).reverse.map (·.func)) = (funcs rest ++ [f]).reverse := by
        simp [funcs, List.map_reverse]
      rw [hfs]
      have hmem : ∀ g, g ∈ (funcs rest ++ [f]).reverse ↔ g ∈ funcs rest ∨ g = f := by
        intro g; simp [or_comm]
      have hsv : ∀ g, g ∈ (funcs rest ++ [f]).reverse → g ∈ funcs s.visited := by
        intro g h
        rw [hmem] at h
        rw [hv]
        simp only [funcs, List.map_append, List.mem_append, List.map_cons, List.mem_cons] at h ⊢
        rcases h with h | h
        · exact .inl h
        · exact .inr (.inl h)
      obtain ⟨hx1, hx2⟩ := hi.push hl (analyzeGroup p (funcs rest ++ [f]).reverse s.analyzed) base
        (.group (funcs rest ++ [f]).reverse) hbn
        (fun g h => ⟨hbs g h, by
          simp only [Event.members, hmem]
          have h2 := List.nodup_append.1 hnd
          rintro (h' | rfl)
          · exact h2.2.2 g h' g (List.mem_cons_of_mem _ h) rfl
          · exact (List.nodup_cons.1 h2.2.1).1 h⟩)
        (fun g h => analyzeGroup_outside p _ _ g h)
        (fun g h => (analyzeGroup_settled p _ _).isSome h)
        (fun g h => (hi.vis g (hsv g h)).2.1)
        (by
          refine List.nodup_reverse.2 ?_
          rw [List.nodup_append] at hnd ⊢
          refine ⟨hnd.1, by simp, fun a ha b hb hab => hnd.2.2 a ha b ?_ hab⟩
          simp only [List.mem_singleton] at hb
          simp [hb])
        (fun g h => (hi.vis g (hsv g h)).1)
        ⟨fun g h => (hi.vis g (hsv g h)).2.2, analyzeGroup_settled p _ _⟩
        (by
          intro f' hf' g hg'
          simp only [Event.members] at hf'
          obtain ⟨hb1, hb2, ⟨cs', hcs', hgm⟩, hgb⟩ := hg'
          have key : Done p s.analyzed g ∨ g ∈ funcs rest ∨ MarkedDown g (⟨f, true⟩ :: base) := by
            rw [hmem] at hf'
            rcases hf' with h | rfl
            · exact hg f' h cs' hcs' g hgm
            · rw [hcs] at hcs'
              cases hcs'
              exact hs g hgm
          rcases key with (h | h) | h | ⟨-, h | h⟩
          · rw [hgb] at h; simp at h
          · exact .inl ((hi.handledIff g).1 h)
          · exact .inr ⟨_, rfl, (hmem g).2 (.inl h)⟩
          · exact .inr ⟨_, rfl, (hmem g).2 (.inr h.symm)⟩
          · exact absurd h (hnm g rfl)) (by
          refine ⟨f, by simp, ?_⟩
          obtain ⟨g, hgm, hgr⟩ := hmb [] ⟨f, false⟩ s₀.visited [] ⟨f, true⟩ base rfl rfl rfl rfl rfl
          rcases hgm.2 with h | h
          · simp only at h
            subst h
            exact hgr
          · exact absurd h (hnm g rfl))
      refine ⟨hx2, he.trans hx1, [], base, by simp, hb, by simp, by simp, by simp [funcs], .inl (.inr ?_), hlow⟩
      exact (analyzeGroup_settled p _ s.analyzed).isSome ((hmem f).2 (.inr rfl))

/-- A visit. -/
theorem go_post {p : Prog L E} (hl : p.Local) : ∀ n (s : St L E) f s', Inv p s → go p n s f = some s' → Post p s f s' := by
  intro n
  induction n with
  | zero => intro s f s' _ h; simp [go] at h
  | succ n ih =>
      intro s f s' hi h
      have stay : ∀ v, More s.visited v → (Done p s.analyzed f ∨ MarkedDown f v) →
          MarksBy (fun g => g = f ∨ p.Reaches f g) s.visited v →
          Post p s f { s with visited := v } := by
        intro v hv hd hmb
        exact ⟨hi.more hv, Ext.refl _, [], v, rfl, hv, by simp, by simp, by simp [funcs],
          hd.imp id .inr, hmb⟩
      have evt : ∀ r e, e.members = [f] → p.builtin f = false → s.analyzed f = none → f ∉ funcs s.visited →
          e.Sound p (s.analyzed.set f r) → (∀ g, ¬ p.Calls f g) → e.Cyclic p →
          Post p s f { s with analyzed := s.analyzed.set f r, log := s.log ++ [e] } := by
        intro r e hm hb hn hfv hs hc hcyc
        obtain ⟨h1, h2⟩ := hi.push hl (s.analyzed.set f r) s.visited e hi.visNodup
          (fun g hg => ⟨hg, by rw [hm, List.mem_singleton]; rintro rfl; exact hfv hg⟩)
          (fun g hg => by rw [hm, List.mem_singleton] at hg; simp [Results.set, hg])
          (by rw [hm]; simp [Results.set]) (by rw [hm]; simpa using hb) (by rw [hm]; simp) (by rw [hm]; simpa using hn)
          hs (by
            intro f' hf' g hg
            rw [hm, List.mem_singleton] at hf'
            subst hf'
            exact absurd hg (hc g)) hcyc
        exact ⟨h2, h1, [], s.visited, rfl, More.refl _, by simp, by simp, by simp [funcs],
          .inl (.inr (by simp [Results.set])), MarksBy.refl _ _⟩
      have hs : ({ s with visited := s.visited } : St L E) = s := rfl
      simp only [go] at h
      split at h
      · rename_i hb
        simp only [Option.some.injEq] at h
        subst h
        exact stay s.visited (More.refl _) (.inl (.inl hb)) (MarksBy.refl _ _)
      · rename_i hb
        have hb : p.builtin f = false := by simpa using hb
        split at h
        · rename_i hd
          simp only [Option.some.injEq] at h
          subst h
          have hn : s.analyzed f = none := by simpa using hd.2
          refine evt _ _ rfl hb hn ?_ ⟨hd.1, by simp [Results.set]⟩ ?_ trivial
          · intro hf
            have := (hi.vis f hf).2.2.1
            rw [hd.1] at this
            simp at this
          · rintro g ⟨_, h, _⟩
            rw [hd.1] at h
            simp at h
        · rename_i hd
          split at h
          · rename_i ha
            simp only [Option.some.injEq] at h
            subst h
            exact stay s.visited (More.refl _) (.inl (.inr ha)) (MarksBy.refl _ _)
          · rename_i ha
            have hn : s.analyzed f = none := by simpa using ha
            have hdef : p.defined f = true := by
              by_contra hne
              exact hd ⟨by simpa using hne, by rw [hn]; rfl⟩
            split at h
            · rename_i v hv
              simp only [Option.some.injEq] at h
              subst h
              obtain ⟨h1, h2⟩ := mark_some hv
              exact stay v h1 (.inr h2) ((mark_marksBy hv).imp fun g _ h => .inl h)
            · rename_i hv
              split at h
              · rename_i e hce
                simp only [Option.some.injEq] at h
                subst h
                refine evt _ _ rfl hb hn (mark_none hv) ⟨hdef, e, hce, by simp [Results.set]⟩ ?_ trivial
                rintro g ⟨_, _, ⟨cs, h, _⟩, _⟩
                rw [hce] at h
                cases h
              · rename_i cs hcs
                simp only [Option.map_eq_some_iff] at h
                obtain ⟨t, ht, rfl⟩ := h
                have h0 : Mid p s f [] { s with visited := ⟨f, false⟩ :: s.visited } := by
                  refine ⟨⟨?_, ?_, hi.nodup, hi.handledIff, hi.notBuiltin, hi.sound, hi.after, hi.cyclic⟩,
                    Ext.refl _, [], false,
                    s.visited, rfl, More.refl _, by simp, by simp, by simp [funcs], by simp, MarksBy.refl _ _⟩
                  · simp only [funcs, List.map_cons, List.nodup_cons]
                    exact ⟨mark_none hv, hi.visNodup⟩
                  · intro g hg
                    simp only [funcs, List.map_cons, List.mem_cons] at hg
                    rcases hg with rfl | hg
                    · exact ⟨hn, hb, hdef, cs, hcs⟩
                    · exact hi.vis g hg
                have h1 := mid_loop ih cs [] _ t (fun c hc hb' => ⟨hb, hdef, ⟨cs, hcs, hc⟩, hb'⟩) h0 ht
                exact finish_post hl hcs (by simpa using h1)

end Verif.CallOrder

import Verif.Header.Main

/-!
# The generated C++ header does not depend on hash maps
-/

namespace Verif.Header
open Verif Verif.Toposort

/-! ## Vocabulary -/

/-- The same requirements, enumerated in another order. -/
structure Prereqs.Same (p q : Prereqs) : Prop where
  includes : p.includes.Perm q.includes
  defs : p.defs.Perm q.defs
  fwds : p.fwds.Perm q.fwds
  specs : p.specs.Perm q.specs
  lazies : p.lazies.Perm q.lazies

/-- The same text with the same requirements. -/
structure Snippet.Same (p q : Snippet) : Prop where
  toks : p.toks = q.toks
  pre : p.pre.Same q.pre

/-- The same generated code. -/
structure Api.Same (p q : Api) : Prop where
  main : p.main.Same q.main
  details : p.details.Same q.details
  rs : p.rs = q.rs
  decls : p.decls.Perm q.decls

/-- The same item. -/
structure Item.Same (i j : Item) : Prop where
  id : i.id = j.id
  api : match i.api, j.api with
    | none, none => True
    | some a, some b => a.Same b
    | _, _ => False
  aliases : List.Forall₂ (fun a b : Alias => a.ns = b.ns ∧ a.using_.Same b.using_) i.aliases j.aliases

/-- The same input for the generator, with all hash maps and hash sets in another order. -/
structure Input.Same (w v : Input) : Prop where
  items : ∃ f : Item → Item, (∀ i ∈ w.items, i.Same (f i)) ∧ v.items.Perm (w.items.map f)
  traitImpls : w.traitImpls.Perm v.traitImpls
  gen : ∀ s, (w.gen s).Same (v.gen s)
  dkey : w.dkey = v.dkey
  skey : w.skey = v.skey
  nsOf : w.nsOf = v.nsOf
  parent : w.parent = v.parent
  colons : w.colons = v.colons
  crateColons : w.crateColons = v.crateColons
  top : w.top = v.top

/-- A piece without the statement of what it needs: what is printed. -/
def Piece.printed (p : Piece) : Label × Option Nat × List String × Bool × List Nat :=
  (p.label, p.parent, p.ns, p.colons, p.toks)

/-- A piece with the same text and the same requirements. -/
structure Piece.Same (p q : Piece) : Prop where
  printed : p.printed = q.printed
  pre : p.pre.Same q.pre

theorem Prereqs.Same.wanted {p q : Prereqs} (h : p.Same q) : p.wanted.Perm q.wanted :=
  h.specs.append h.lazies

theorem forall₂_flatMap_perm {α β γ : Type} {R : α → β → Prop} {f : α → List γ} {g : β → List γ}
    (h : ∀ a b, R a b → (f a).Perm (g b)) {l : List α} {m : List β} (hl : List.Forall₂ R l m) :
    (l.flatMap f).Perm (m.flatMap g) := by
  induction hl with
  | nil => simp
  | cons hab _ ih => simpa using (h _ _ hab).append ih

theorem forall₂_flatMap {α β γ δ : Type} {R : α → β → Prop} {S : γ → δ → Prop} {f : α → List γ} {g : β → List δ}
    (h : ∀ a b, R a b → List.Forall₂ S (f a) (g b)) {l : List α} {m : List β} (hl : List.Forall₂ R l m) :
    List.Forall₂ S (l.flatMap f) (m.flatMap g) := by
  induction hl with
  | nil => simp
  | cons hab _ ih => simpa using List.rel_append (h _ _ hab) ih

theorem forall₂_map_self {α β : Type} {R : α → β → Prop} {f : α → β} {l : List α} (h : ∀ i ∈ l, R i (f i)) :
    List.Forall₂ R l (l.map f) := by
  induction l with
  | nil => simp
  | cons a l ih =>
      simp only [List.map_cons, List.forall₂_cons]
      exact ⟨h a (by simp), ih fun i hi => h i (by simp [hi])⟩

theorem forall₂_mem {α β : Type} {R : α → β → Prop} {l : List α} {m : List β} (h : List.Forall₂ R l m)
    {a : α} (ha : a ∈ l) : ∃ b ∈ m, R a b := by
  induction h with
  | nil => cases ha
  | cons hab _ ih =>
      rcases List.mem_cons.1 ha with rfl | ha
      · exact ⟨_, by simp, hab⟩
      · obtain ⟨b, hb, hr⟩ := ih ha
        exact ⟨b, by simp [hb], hr⟩

theorem forall₂_mem' {α β : Type} {R : α → β → Prop} {l : List α} {m : List β} (h : List.Forall₂ R l m)
    {b : β} (hb : b ∈ m) : ∃ a ∈ l, R a b := by
  induction h with
  | nil => cases hb
  | cons hab _ ih =>
      rcases List.mem_cons.1 hb with rfl | hb
      · exact ⟨_, by simp, hab⟩
      · obtain ⟨a, ha, hr⟩ := ih hb
        exact ⟨a, by simp [ha], hr⟩

/-! ## The items -/

theorem sorted_items {w v : Input} (h : w.Same v) (hid : (w.items.map Item.id).Nodup)
    (hk : ∀ d e, w.dkey d = w.dkey e → d = e) :
    List.Forall₂ Item.Same (sortBy (fun i => w.dkey i.id) w.items) (sortBy (fun i => v.dkey i.id) v.items) := by
  obtain ⟨f, hf, hp⟩ := h.items
  have hnd : (v.items.map Item.id).Nodup := by
    have e : (w.items.map f).map Item.id = w.items.map Item.id := by
      rw [List.map_map]
      exact List.map_congr_left fun i hi => (hf i hi).id.symm
    rw [(hp.map Item.id).nodup_iff, e]
    exact hid
  have h1 : sortBy (fun i => v.dkey i.id) v.items = sortBy (fun i => v.dkey i.id) (w.items.map f) := by
    refine sortBy_eq_of_perm _ hp ?_
    intro x hx y hy hxy
    rw [← h.dkey] at hxy
    exact List.inj_on_of_nodup_map hnd hx hy (hk _ _ hxy)
  have h2 : sortBy (fun i => v.dkey i.id) (w.items.map f) = (sortBy (fun i => w.dkey i.id) w.items).map f := by
    exact sortBy_map _ _ f _ fun i hi => by rw [h.dkey, (hf i hi).id]
  rw [h1, h2]
  exact forall₂_map_self fun i hi => hf i ((mem_sortBy _ _ _).1 hi)

/-- Two tables with the same keys and the same code. -/
def SameMap (m n : List (Nat × Snippet)) : Prop := List.Forall₂ (fun a b => a.1 = b.1 ∧ a.2.Same b.2) m n

theorem gathered {w v : Input} (h : w.Same v) {is js : List Item} (hij : List.Forall₂ Item.Same is js)
    {g k : Gather} (hg : GInfo w is g) (hk : GInfo v js k) :
    SameMap g.mains k.mains ∧ List.Forall₂ Piece.Same g.details k.details ∧ g.rs = k.rs ∧
    g.decls = k.decls := by
  refine ⟨?_, ?_, ?_, ?_⟩
  · rw [hg.ids, hk.ids]
    clear hg hk
    induction hij with
    | nil => exact .nil
    | @cons i j is js hab _ ih =>
        have := hab.api
        cases hi : i.api <;> cases hj : j.api <;> simp only [hi, hj] at this
        · simpa [hi, hj] using ih
        · simp only [List.filterMap_cons, hi, hj, Option.map_some]
          exact .cons ⟨hab.id, this.main⟩ ih
  · rw [hg.details, hk.details]
    refine forall₂_flatMap ?_ hij
    intro i j hab
    refine List.rel_append ?_ ?_
    · have := hab.aliases
      rw [List.forall₂_map_left_iff, List.forall₂_map_right_iff]
      refine this.imp ?_
      rintro a b ⟨hns, hu⟩
      refine ⟨?_, hu.pre⟩
      simp [detailsPiece, Piece.printed, hab.id, h.parent, h.top, h.colons, hns, hu.toks]
    · have := hab.api
      cases hi : i.api <;> cases hj : j.api <;> simp only [hi, hj] at this
      · exact .nil
      · refine .cons ⟨?_, this.details.pre⟩ .nil
        simp [detailsPiece, Piece.printed, hab.id, h.parent, h.top, h.colons, h.nsOf, this.details.toks]
  · rw [hg.rs, hk.rs]
    clear hg hk
    induction hij with
    | nil => rfl
    | @cons i j is js hab _ ih =>
        have := hab.api
        simp only [List.flatMap_cons, ih]
        cases hi : i.api <;> cases hj : j.api <;> simp only [hi, hj] at this
        · rfl
        · simp [this.rs]
  · refine sorted_ext hg.sortedD hk.sortedD fun x => ?_
    rw [hg.decls, hk.decls]
    constructor
    · rintro ⟨i, hi, api, hapi, hx⟩
      obtain ⟨j, hj, hab⟩ := forall₂_mem hij hi
      have := hab.api
      cases hj' : j.api <;> simp only [hapi, hj'] at this
      exact ⟨j, hj, _, hj', this.decls.mem_iff.1 hx⟩
    · rintro ⟨j, hj, api, hapi, hx⟩
      obtain ⟨i, hi, hab⟩ := forall₂_mem' hij hj
      have := hab.api
      cases hi' : i.api <;> simp only [hapi, hi'] at this
      exact ⟨i, hi, _, hi', this.decls.mem_iff.2 hx⟩

theorem firstWorklist_perm {w v : Input} (h : w.Same v) (rt : Rt w) (rv : Rt v) {is js : List Item}
    {g k : Gather} (hg : GInfo w is g) (hk : GInfo v js k)
    (hm : SameMap g.mains k.mains) (hd : List.Forall₂ Piece.Same g.details k.details) :
    (firstWorklist w rt g).Perm (firstWorklist v rv k) := by
  unfold firstWorklist
  refine (List.Perm.append ?_ ?_).append h.traitImpls
  · rw [hg.wanted, hk.wanted]
    exact forall₂_flatMap_perm (fun a b hab => hab.pre.wanted) hd
  · refine ((rt.values_perm g.mains).flatMap_right _).trans
      (.trans ?_ ((rv.values_perm k.mains).flatMap_right _).symm)
    exact forall₂_flatMap_perm (fun a b hab => hab.2.pre.wanted) hm

/-! ## The specializations -/

/-- What the loop's state is compared by. -/
structure Acc.Same (a b : Acc) : Prop where
  seen : a.seen = b.seen
  next : a.next.Perm b.next

theorem procSpec_same {w v : Input} (h : w.Same v) {a b : Acc} (hab : a.Same b) (s : Nat) :
    (procSpec w.gen a s).Same (procSpec v.gen b s) := by
  have := hab.seen
  unfold procSpec
  rw [← this]
  split
  · exact hab
  · refine ⟨rfl, ?_⟩
    exact ((hab.next.append ((h.gen s).main.pre.wanted.filter _)).append ((h.gen s).details.pre.wanted.filter _))

theorem procSpec_fold_same {w v : Input} (h : w.Same v) (l : List Nat) {a b : Acc} (hab : a.Same b) :
    (l.foldl (procSpec w.gen) a).Same (l.foldl (procSpec v.gen) b) := by
  induction l generalizing a b with
  | nil => exact hab
  | cons s l ih => exact ih (procSpec_same h hab s)

theorem fixpoint_same {w v : Input} (h : w.Same v) (hk : ∀ d e, w.skey d = w.skey e → d = e)
    (n m : Nat) {a b a' b' : Acc} {wl wl' : List Nat} (hab : a.Same b) (hw : wl.Perm wl')
    (ha : fixpoint w n a wl = some a') (hb : fixpoint v m b wl' = some b') : a'.seen = b'.seen := by
  have hnil : ∀ {w : Input} {n : Nat} {a a' : Acc}, fixpoint w n a [] = some a' → a = a' := by
    intro w n a a' h
    cases n <;> simpa [fixpoint] using h
  induction n generalizing a b wl wl' m with
  | zero =>
      cases wl with
      | cons x xs => simp [fixpoint] at ha
      | nil =>
          have := hw.nil_eq
          subst this
          rw [← hnil ha, ← hnil hb]
          exact hab.seen
  | succ n ih =>
      by_cases hwl : wl = []
      · subst hwl
        have := hw.nil_eq
        subst this
        rw [← hnil ha, ← hnil hb]
        exact hab.seen
      · have hwl' : wl' ≠ [] := by
          rintro rfl
          exact hwl hw.eq_nil
        cases m with
        | zero =>
            cases wl' with
            | nil => exact absurd rfl hwl'
            | cons x xs => simp [fixpoint] at hb
        | succ m =>
            simp only [fixpoint, hwl, hwl', if_false] at ha hb
            have e : sortBy v.skey wl' = sortBy w.skey wl := by
              rw [← h.skey]
              exact (sortBy_eq_of_perm _ hw (fun x _ y _ hxy => hk x y hxy)).symm
            rw [e] at hb
            have hs := procSpec_fold_same h (sortBy w.skey wl) (a := { a with next := [] })
              (b := { b with next := [] }) ⟨hab.seen, .refl _⟩
            exact ih m hs hs.next ha hb

/-- The loop records the specializations in the order in which it meets them. -/
theorem procSpec_seen (gen : Nat → Api) (a : Acc) (s : Nat) (h : a.specs.map Prod.fst = a.seen.reverse) :
    (procSpec gen a s).specs.map Prod.fst = (procSpec gen a s).seen.reverse := by
  unfold procSpec
  split
  · exact h
  · simp [h]

theorem fixpoint_seen {w : Input} (n : Nat) {a b : Acc} {wl : List Nat} (h : fixpoint w n a wl = some b)
    (ha : a.specs.map Prod.fst = a.seen.reverse) : b.specs.map Prod.fst = b.seen.reverse := by
  have hf : ∀ (l : List Nat) (a : Acc), a.specs.map Prod.fst = a.seen.reverse →
      (l.foldl (procSpec w.gen) a).specs.map Prod.fst = (l.foldl (procSpec w.gen) a).seen.reverse := by
    intro l
    induction l with
    | nil => exact fun a h => h
    | cons s l ih => exact fun a h => ih _ (procSpec_seen _ _ _ h)
  induction n generalizing a wl with
  | zero =>
      cases wl with
      | nil =>
          simp only [fixpoint, Option.some.injEq] at h
          subst h
          exact ha
      | cons x xs => simp [fixpoint] at h
  | succ n ih =>
      simp only [fixpoint] at h
      split at h
      · injection h with h
        subst h
        exact ha
      · exact ih h (hf _ _ (by simpa using ha))

/-! ## The order -/

theorem nodeCmp_eq {w : Input} (hd : ∀ d e, w.dkey d = w.dkey e → d = e) (hs : ∀ d e, w.skey d = w.skey e → d = e)
    {x y : Node} (h : nodeCmp w x y = .eq) : x = y := by
  cases x <;> cases y <;> simp only [nodeCmp, reduceCtorEq] at h
  · rw [hd _ _ (Nat.compare_eq_eq.1 h)]
  · rw [hs _ _ (Nat.compare_eq_eq.1 h)]

instance (w : Input) : Std.TransCmp (nodeCmp w) where
  eq_swap {a b} := by
    cases a <;> cases b <;> simp only [nodeCmp, Ordering.swap]
    · exact Std.OrientedCmp.eq_swap
    · exact Std.OrientedCmp.eq_swap
  isLE_trans {a b c} h1 h2 := by
    cases a <;> cases b <;> cases c <;> simp_all [nodeCmp, Nat.isLE_compare] <;> omega

theorem greedy_congr {cmp : Node → Node → Ordering} (heq : ∀ x y, cmp x y = .eq → x = y)
    {nodes nodes' : List Node} {deps deps' : List (Dependency Node)} {out : List Node}
    (hn : ∀ x, x ∈ nodes ↔ x ∈ nodes') (hd : ∀ x, x ∈ deps ↔ x ∈ deps')
    (h : GreedyOrder cmp nodes deps out) : GreedyOrder cmp nodes' deps' out := by
  have ha : ∀ done x, Available nodes deps done x ↔ Available nodes' deps' done x := by
    intro done x
    simp only [Available, Dep, hn, hd]
  refine ⟨?_, ?_⟩
  · intro a x b e
    obtain ⟨h1, h2⟩ := h.1 a x b e
    refine ⟨(ha _ _).1 h1, ?_⟩
    intro y hy hne
    rcases h2 y ((ha _ _).2 hy) hne with h3 | ⟨h3, -⟩
    · exact .inl h3
    · exact absurd (heq _ _ h3).symm hne
  · intro x hx
    exact h.2 x ((ha _ _).2 hx)

theorem nodeDeps_same {ids ids' : List Nat} (hi : ∀ x, x ∈ ids ↔ x ∈ ids') (n : Node) {p q : Prereqs}
    (h : p.Same q) (d : Dependency Node) : d ∈ nodeDeps ids n p ↔ d ∈ nodeDeps ids' n q := by
  simp only [nodeDeps, List.mem_map, List.mem_filter, List.mem_append, h.defs.mem_iff, h.specs.mem_iff, hi]

theorem sameMap_keys {m n : List (Nat × Snippet)} (h : SameMap m n) : m.map Prod.fst = n.map Prod.fst := by
  induction h with
  | nil => rfl
  | cons hab _ ih => simp [hab.1, ih]

theorem sameMap_get {m n : List (Nat × Snippet)} (h : SameMap m n) (d : Nat) :
    ((AMap.get? m d).getD ⟨[], .none⟩).Same ((AMap.get? n d).getD ⟨[], .none⟩) := by
  induction h with
  | nil =>
      simp only [AMap.get?]
      exact ⟨rfl, ⟨.refl _, .refl _, .refl _, .refl _, .refl _⟩⟩
  | @cons a b m n hab _ ih =>
      obtain ⟨a1, a2⟩ := a
      obtain ⟨b1, b2⟩ := b
      obtain ⟨rfl, h2⟩ := hab
      simp only [AMap.get?]
      split
      · exact h2
      · exact ih

theorem snippetOf_same {m n ms ns : List (Nat × Snippet)} (h : SameMap m n) (hs : SameMap ms ns) (x : Node) :
    (snippetOf m ms x).Same (snippetOf n ns x) := by
  cases x with
  | item d => exact sameMap_get h d
  | spec s => exact sameMap_get hs s

theorem order_same {w v : Input} (h : w.Same v) (hdk : ∀ d e, w.dkey d = w.dkey e → d = e)
    (hsk : ∀ d e, w.skey d = w.skey e → d = e)
    {rt : Rt w} {rv : Rt v} {g k : Gather} {a b : Acc} (hm : SameMap g.mains k.mains)
    (hs : SameMap a.specs b.specs) {o p : List Node} (ho : order w rt g a = .ok o) (hp : order v rv k b = .ok p) :
    o = p := by
  have hc : nodeCmp v = nodeCmp w := by
    funext x y
    cases x <;> cases y <;> simp [nodeCmp, h.dkey, h.skey]
  simp only [order] at ho hp
  split at ho
  · cases ho
  · rename_i r hr
    split at ho
    · injection ho with ho
      subst ho
      split at hp
      · cases hp
      · rename_i r' hr'
        split at hp
        · injection hp with hp
          subst hp
          have g1 := toposort_greedy _ _ _ _ hr
          have g2 := toposort_greedy _ _ _ _ hr'
          rw [hc] at g2
          refine greedy_unique (greedy_congr (fun x y => nodeCmp_eq hdk hsk) ?_ ?_ g1) g2
          · intro x
            have k1 : ∀ z, z ∈ (g.mains.map Prod.fst) ↔ z ∈ (k.mains.map Prod.fst) := by
              rw [sameMap_keys hm]; simp
            have k2 : ∀ z, z ∈ (a.specs.map Prod.fst) ↔ z ∈ (b.specs.map Prod.fst) := by
              rw [sameMap_keys hs]; simp
            simp only [List.mem_append, List.mem_map, (rt.values_perm _).mem_iff, (rv.values_perm _).mem_iff]
            simp only [List.mem_map] at k1 k2
            constructor
            · rintro (⟨m, hm, rfl⟩ | ⟨m, hm, rfl⟩)
              · obtain ⟨m', h1, h2⟩ := (k1 m.1).1 ⟨m, hm, rfl⟩
                exact .inl ⟨m', h1, by rw [h2]⟩
              · obtain ⟨m', h1, h2⟩ := (k2 m.1).1 ⟨m, hm, rfl⟩
                exact .inr ⟨m', h1, by rw [h2]⟩
            · rintro (⟨m, hm, rfl⟩ | ⟨m, hm, rfl⟩)
              · obtain ⟨m', h1, h2⟩ := (k1 m.1).2 ⟨m, hm, rfl⟩
                exact .inl ⟨m', h1, by rw [h2]⟩
              · obtain ⟨m', h1, h2⟩ := (k2 m.1).2 ⟨m, hm, rfl⟩
                exact .inr ⟨m', h1, by rw [h2]⟩
          · intro x
            have hids : ∀ z, z ∈ (g.mains.map Prod.fst) ↔ z ∈ (k.mains.map Prod.fst) := by
              rw [sameMap_keys hm]; simp
            simp only [List.mem_append, List.mem_flatMap, (rt.values_perm _).mem_iff, (rv.values_perm _).mem_iff]
            constructor
            · rintro (⟨m, hmm, hx⟩ | ⟨m, hmm, hx⟩)
              · obtain ⟨m', h1, h2⟩ := forall₂_mem hm hmm
                exact .inl ⟨m', h1, by rw [← h2.1]; exact (nodeDeps_same hids _ h2.2.pre _).1 hx⟩
              · obtain ⟨m', h1, h2⟩ := forall₂_mem hs hmm
                exact .inr ⟨m', h1, by rw [← h2.1]; exact (nodeDeps_same hids _ h2.2.pre _).1 hx⟩
            · rintro (⟨m, hmm, hx⟩ | ⟨m, hmm, hx⟩)
              · obtain ⟨m', h1, h2⟩ := forall₂_mem' hm hmm
                exact .inl ⟨m', h1, by rw [h2.1]; exact (nodeDeps_same hids _ h2.2.pre _).2 hx⟩
              · obtain ⟨m', h1, h2⟩ := forall₂_mem' hs hmm
                exact .inr ⟨m', h1, by rw [h2.1]; exact (nodeDeps_same hids _ h2.2.pre _).2 hx⟩
        · cases hp
    · cases ho

/-! ## Forward declarations -/

theorem fwdLoop_same {s t : Node → Snippet} (h : ∀ n, (s n).Same (t n)) (ns : List Node) {a b : FwdAcc}
    (hd : ∀ x, x ∈ a.declared ↔ x ∈ b.declared) (hf : ∀ x, x ∈ a.fwds ↔ x ∈ b.fwds) :
    ∀ x, x ∈ (fwdLoop s a ns).fwds ↔ x ∈ (fwdLoop t b ns).fwds := by
  induction ns generalizing a b with
  | nil => exact hf
  | cons n ns ih =>
      simp only [fwdLoop]
      apply ih
      · intro x
        simp only [fwdStep, List.mem_append, hd, (h n).pre.fwds.mem_iff]
      · intro x
        simp only [fwdStep, mem_extendSet, List.mem_filter, hf, (h n).pre.fwds.mem_iff, hd]

/-- C92: the generated code is a function of the input: it does not depend on the order in which hash maps
and hash sets are enumerated. -/
theorem header_deterministic {w v : Input} (h : w.Same v) (hid : (w.items.map Item.id).Nodup)
    (hdk : ∀ d e, w.dkey d = w.dkey e → d = e) (hsk : ∀ d e, w.skey d = w.skey e → d = e)
    (rt : Rt w) (rv : Rt v) (n m : Nat) (o p : Output)
    (ho : generate w rt n = .ok o) (hp : generate v rv m = .ok p) :
    o.includes = p.includes ∧ o.body.map Piece.printed = p.body.map Piece.printed ∧
    o.impls.map Piece.printed = p.impls.map Piece.printed ∧ o.rs = p.rs ∧ o.decls = p.decls := by
  have co := header_complete w rt n o ho
  have cp := header_complete v rv m p hp
  obtain ⟨g, a, L, ordered, r⟩ := run_of ho
  obtain ⟨k, b, K, ordered', q⟩ := run_of hp
  obtain ⟨hm, hde, hrs, hdc⟩ := gathered h (sorted_items h hid hdk) r.gi q.gi
  have hwl := firstWorklist_perm h rt rv r.gi q.gi hm hde
  obtain ⟨n1, f1⟩ := r.fix
  obtain ⟨n2, f2⟩ := q.fix
  have hseen := fixpoint_same h hsk n1 n2 (a := ⟨[], [], [], g.includes, g.rs, g.decls, []⟩)
    (b := ⟨[], [], [], k.includes, k.rs, k.decls, []⟩) ⟨rfl, .refl _⟩ hwl f1 f2
  have hLK : L = K := by
    have e1 := fixpoint_seen n1 f1 rfl
    have e2 := fixpoint_seen n2 f2 rfl
    rw [r.ai.specs] at e1
    rw [q.ai.specs] at e2
    have e1' : L = a.seen.reverse := by simpa [Function.comp_def] using e1
    have e2' : K = b.seen.reverse := by simpa [Function.comp_def] using e2
    rw [e1', e2', hseen]
  subst hLK
  have hspecs : SameMap a.specs b.specs := by
    rw [r.ai.specs, q.ai.specs]
    unfold SameMap
    rw [List.forall₂_map_left_iff, List.forall₂_map_right_iff, List.forall₂_same]
    exact fun s _ => ⟨rfl, (h.gen s).main⟩
  have hord := order_same h hdk hsk hm hspecs r.top q.top
  subst hord
  have hsn := snippetOf_same hm hspecs
  have hfwd : sortBy w.dkey (fwdLoop (snippetOf g.mains a.specs) ⟨[], []⟩ ordered).fwds =
      sortBy v.dkey (fwdLoop (snippetOf k.mains b.specs) ⟨[], []⟩ ordered).fwds := by
    rw [← h.dkey]
    refine sortBy_eq_of_perm _ ?_ (fun x _ y _ hxy => hdk x y hxy)
    refine (List.perm_ext_iff_of_nodup ?_ ?_).2 (fwdLoop_same hsn ordered (by simp) (by simp))
    · exact (fwdLoop_spec _ ordered ⟨[], []⟩ [] (by simp) (by simp)).2.1
    · exact (fwdLoop_spec _ ordered ⟨[], []⟩ [] (by simp) (by simp)).2.1
  have hbody : List.Forall₂ Piece.Same o.body p.body := by
    rw [r.out, q.out]
    simp only [assemble]
    refine List.rel_append (List.rel_append ?_ ?_) hde
    · rw [hfwd, List.forall₂_map_left_iff, List.forall₂_map_right_iff, List.forall₂_same]
      intro d _
      refine ⟨?_, ⟨.refl _, .refl _, .refl _, .refl _, .refl _⟩⟩
      simp [fwdPiece, Piece.printed, h.parent, h.top, h.nsOf, h.colons]
    · rw [List.forall₂_map_left_iff, List.forall₂_map_right_iff, List.forall₂_same]
      intro x _
      cases x with
      | item d =>
          refine ⟨?_, (hsn _).pre⟩
          simp [mainPiece, Piece.printed, h.parent, h.top, h.nsOf, h.colons, (hsn _).toks]
      | spec d =>
          refine ⟨?_, (hsn _).pre⟩
          simp [mainPiece, Piece.printed, h.crateColons, (hsn _).toks]
  have himpls : List.Forall₂ Piece.Same o.impls p.impls := by
    rw [r.out, q.out]
    simp only [assemble, r.ai.impls, q.ai.impls, List.map_map]
    rw [List.forall₂_map_left_iff, List.forall₂_map_right_iff, List.forall₂_same]
    intro s _
    refine ⟨?_, (h.gen s).details.pre⟩
    simp [implPiece, Piece.printed, h.crateColons, (h.gen s).details.toks]
  have hprint : ∀ {l m : List Piece}, List.Forall₂ Piece.Same l m → l.map Piece.printed = m.map Piece.printed := by
    intro l m hlm
    induction hlm with
    | nil => rfl
    | cons hab _ ih => simp [hab.printed, ih]
  have hsorted : ∀ (snip : Node → Snippet) (ns : List Node) (s : List Nat), s.Pairwise (· < ·) →
      (ns.foldl (fun s n => unionSet s (snip n).pre.includes) s).Pairwise (· < ·) := by
    intro snip ns
    induction ns with
    | nil => exact fun s hs => hs
    | cons x xs ih => exact fun s hs => ih _ (sorted_unionSet _ _ hs)
  refine ⟨?_, hprint hbody, hprint himpls, ?_, ?_⟩
  · have so : o.includes.Pairwise (· < ·) := by
      rw [r.out]; exact hsorted _ _ _ r.ai.sortedI
    have sp : p.includes.Pairwise (· < ·) := by
      rw [q.out]; exact hsorted _ _ _ q.ai.sortedI
    refine sorted_ext so sp fun x => ?_
    rw [co.2.2.2.2, cp.2.2.2.2]
    have hall : List.Forall₂ Piece.Same o.pieces p.pieces := List.rel_append hbody himpls
    constructor
    · rintro ⟨y, hy, hx⟩
      obtain ⟨z, hz, hyz⟩ := forall₂_mem hall hy
      exact ⟨z, hz, hyz.pre.includes.mem_iff.1 hx⟩
    · rintro ⟨z, hz, hx⟩
      obtain ⟨y, hy, hyz⟩ := forall₂_mem' hall hz
      exact ⟨y, hy, hyz.pre.includes.mem_iff.2 hx⟩
  · rw [r.out, q.out]
    simp only [assemble, r.ai.rs, q.ai.rs, hrs]
    congr 1
    exact List.flatMap_congr fun s _ => (h.gen s).rs
  · rw [r.out, q.out]
    simp only [assemble]
    refine sorted_ext r.ai.sortedD q.ai.sortedD fun x => ?_
    rw [r.ai.decls, q.ai.decls, hdc]
    simp only [(h.gen _).decls.mem_iff]

end Verif.Header

import Verif.Paths.Model
import Batteries.Data.List.Perm

/-!
# The search through the modules of a crate: invariants
-/

namespace Verif.Paths
open Verif

/-- What `addChild` records for an entry. -/
def item (t : Tcx) (krate : Nat) (parent : List Nat) (hidden : Bool) (c : Child) : Option (Nat × Path) :=
  if !c.isPublic || c.name == t.underscore then none else
  match c.res with
  | none => none
  | some res =>
      if t.foreign res then none else
      if c.isCtor then none else
      if t.unstable res then none else
      if t.inStdOs (t.target res) then none else
      some (t.target res,
        ⟨parent, c.name, if (t.aliasOf res).isSome then some res else none, hidden, c.reexport, krate⟩)

theorem item_iff (t : Tcx) (krate : Nat) (parent : List Nat) (hidden : Bool) (c : Child) (d : Nat) (p : Path) :
    item t krate parent hidden c = some (d, p) ↔ ∃ res, Usable t c res ∧ d = t.target res ∧
      p = ⟨parent, c.name, if (t.aliasOf res).isSome then some res else none, hidden, c.reexport, krate⟩ := by
  unfold item Usable
  rcases hr : c.res with _ | res
  · simp
  · cases h1 : c.isPublic <;> by_cases h2 : c.name = t.underscore <;> cases h3 : t.foreign res <;>
      cases h4 : c.isCtor <;> cases h5 : t.unstable res <;> cases h6 : t.inStdOs (t.target res) <;>
      simp [h2, h3, h5, h6]
    constructor
    · rintro ⟨rfl, rfl⟩; exact ⟨res, ⟨rfl, h3, h5, h6⟩, rfl, rfl⟩
    · rintro ⟨r, ⟨rfl, _⟩, rfl, rfl⟩; exact ⟨rfl, rfl⟩

/-- The effect of one entry. -/
theorem addChild_eq (t : Tcx) (krate : Nat) (lib : Lib (pathCmp t.str)) (parent : List Nat) (hidden : Bool)
    (s : State) (c : Child) : addChild t krate lib parent hidden s c =
      match item t krate parent hidden c with
      | none => s
      | some (d, p) =>
          { map := record lib s.map d p
            queue := if c.isMod = true ∧ d ∉ s.seen ∧ ¬ (c.externCrate = true ∧ t.isCore d = true) then
              s.queue ++ [⟨parent ++ [c.name], hidden, d⟩] else s.queue
            seen := if c.isMod = true ∧ d ∉ s.seen then d :: s.seen else s.seen } := by
  unfold addChild item
  rcases hr : c.res with _ | res
  · simp
  · have ht : (t.aliasOf res).getD res = t.target res := rfl
    simp only [ht]
    by_cases g1 : (!c.isPublic || c.name == t.underscore) = true
    · simp only [g1, if_true]
    · simp only [g1]
      cases g2 : t.foreign res
      · cases g3 : c.isCtor
        · cases g4 : t.unstable res
          · cases g5 : t.inStdOs (t.target res)
            · cases hm : c.isMod
              · simp
              · by_cases hs : t.target res ∈ s.seen
                · simp [hs]
                · cases he : c.externCrate <;> cases hc : t.isCore (t.target res) <;> simp [hs, hc]
            · simp
          · simp
        · simp
      · simp

/-- Everything recorded in a module. -/
def recs (t : Tcx) (krate : Nat) (q : Mod) : List (Nat × Path) :=
  (t.children q.mod).filterMap (item t krate q.path (q.hidden || t.docHidden q.mod))

/-- Recording in order. -/
def recAll {cmp : Path → Path → Ordering} (lib : Lib cmp) (m : List (Nat × PublicPaths)) (l : List (Nat × Path)) :
    List (Nat × PublicPaths) := l.foldl (fun m e => record lib m e.1 e.2) m

/-- `extern crate core`. -/
def IsCoreItem (t : Tcx) (d : Nat) : Prop :=
  ∃ m, ∃ c ∈ t.children m, Usable t c d ∧ c.isMod = true ∧ c.externCrate = true ∧ t.isCore d = true

/-- The effect of the entries `cs` of a module `m`. -/
theorem children_step (t : Tcx) (nm : Names t) (krate : Nat) (lib : Lib (pathCmp t.str)) (m : Nat)
    (parent : List Nat) (hidden : Bool) (cs : List Child) (sub : ∀ c ∈ cs, c ∈ t.children m) (s : State) :
    ∃ new, ∃ s', cs.foldl (addChild t krate lib parent hidden) s = s' ∧
      s'.map = recAll lib s.map (cs.filterMap (item t krate parent hidden)) ∧
      s'.queue = s.queue ++ new ∧
      (∀ n ∈ new, ∃ name, n = ⟨parent ++ [name], hidden, n.mod⟩ ∧ Opens t m name n.mod ∧ n.mod ∉ s.seen ∧ n.mod ∈ s'.seen) ∧
      (new.map (·.mod)).Nodup ∧
      (∀ d ∈ s.seen, d ∈ s'.seen) ∧
      (∀ c ∈ cs, ∀ d, Usable t c d → c.isMod = true → d ∈ s'.seen) ∧
      (∀ d ∈ s'.seen, d ∈ s.seen ∨ d ∈ new.map (·.mod) ∨ IsCoreItem t d) := by
  induction cs generalizing s with
  | nil => exact ⟨[], s, rfl, rfl, by simp, by simp, by simp, by simp, by simp, fun d h => .inl h⟩
  | cons c cs ih =>
      obtain ⟨new, s', hs', h1, h2, h3, h4, h5, h6, h7⟩ := ih (fun c hc => sub c (by simp [hc]))
        (addChild t krate lib parent hidden s c)
      have hadd := addChild_eq t krate lib parent hidden s c
      have hcm := sub c (by simp)
      rcases hi : item t krate parent hidden c with _ | ⟨d, p⟩
      · rw [hi] at hadd
        simp only at hadd
        rw [hadd] at hs' h1 h2 h3 h5 h7
        refine ⟨new, s', by rw [List.foldl_cons, hadd]; exact hs', by rw [h1]; simp [hi], h2, h3, h4, h5, ?_, h7⟩
        intro c' hc' d hu hm
        rcases List.mem_cons.1 hc' with rfl | hc'
        · exfalso
          have := (item_iff t krate parent hidden c' (t.target d) _).2 ⟨d, hu, rfl, rfl⟩
          rw [hi] at this; cases this
        · exact h6 c' hc' d hu hm
      · rw [hi] at hadd
        simp only at hadd
        obtain ⟨res, hu, hd, hp⟩ := (item_iff _ _ _ _ _ _ _).1 hi
        have hmod : c.isMod = true → d = res := by
          intro hm
          have := nm.noAlias m c res hcm hm hu.2.2.1
          simp [hd, Tcx.target, this]
        have hmap : (addChild t krate lib parent hidden s c).map = record lib s.map d p := by rw [hadd]
        have hq : (addChild t krate lib parent hidden s c).queue =
            if c.isMod = true ∧ d ∉ s.seen ∧ ¬ (c.externCrate = true ∧ t.isCore d = true) then
              s.queue ++ [⟨parent ++ [c.name], hidden, d⟩] else s.queue := by rw [hadd]
        have hsn : (addChild t krate lib parent hidden s c).seen =
            if c.isMod = true ∧ d ∉ s.seen then d :: s.seen else s.seen := by rw [hadd]
        have hmono : ∀ x ∈ s.seen, x ∈ (addChild t krate lib parent hidden s c).seen := by
          intro x hx; rw [hsn]; split
          · exact List.mem_cons_of_mem _ hx
          · exact hx
        have hcseen : c.isMod = true → d ∈ (addChild t krate lib parent hidden s c).seen := by
          intro hm; rw [hsn]; split
          · simp
          · rename_i hn; exact Classical.not_not.1 fun h => hn ⟨hm, h⟩
        have h6' : ∀ c' ∈ c :: cs, ∀ d', Usable t c' d' → c'.isMod = true → d' ∈ s'.seen := by
          intro c' hc' d' hu' hm'
          rcases List.mem_cons.1 hc' with rfl | hc'
          · have : res = d' := by
              have h1 := hu.2.2.1; have h2 := hu'.2.2.1; rw [h1] at h2; exact Option.some.inj h2
            rw [← this, ← hmod hm']
            exact h5 _ (hcseen hm')
          · exact h6 c' hc' d' hu' hm'
        have h5' : ∀ x ∈ s.seen, x ∈ s'.seen := fun x hx => h5 x (hmono x hx)
        have h1' : s'.map = recAll lib s.map ((c :: cs).filterMap (item t krate parent hidden)) := by
          rw [h1, hmap]; simp [hi, recAll]
        by_cases hnew : c.isMod = true ∧ d ∉ s.seen ∧ ¬ (c.externCrate = true ∧ t.isCore d = true)
        · rw [if_pos hnew] at hq
          rw [if_pos ⟨hnew.1, hnew.2.1⟩] at hsn
          refine ⟨⟨parent ++ [c.name], hidden, d⟩ :: new, s', hs', h1', by rw [h2, hq]; simp, ?_, ?_, h5', h6', ?_⟩
          · intro n hn
            rcases List.mem_cons.1 hn with rfl | hn
            · refine ⟨c.name, rfl, ⟨c, hcm, ?_, rfl, hnew.1, hnew.2.2⟩, hnew.2.1, h5 _ (hcseen hnew.1)⟩
              simp only [hmod hnew.1]; exact hu
            · obtain ⟨name, e1, e2, e3, e4⟩ := h3 n hn
              exact ⟨name, e1, e2, fun h => e3 (hmono _ h), e4⟩
          · rw [List.map_cons, List.nodup_cons]
            refine ⟨fun hmem => ?_, h4⟩
            obtain ⟨n, hn, he⟩ := List.mem_map.1 hmem
            obtain ⟨_, _, _, e3, _⟩ := h3 n hn
            exact e3 (by rw [he]; exact hcseen hnew.1)
          · intro x hx
            rcases h7 x hx with h | h | h
            · rw [hsn] at h
              rcases List.mem_cons.1 h with rfl | h
              · exact .inr (.inl (by simp))
              · exact .inl h
            · exact .inr (.inl (List.mem_cons_of_mem _ h))
            · exact .inr (.inr h)
        · rw [if_neg hnew] at hq
          refine ⟨new, s', hs', h1', by rw [h2, hq], ?_, h4, h5', h6', ?_⟩
          · intro n hn
            obtain ⟨name, e1, e2, e3, e4⟩ := h3 n hn
            exact ⟨name, e1, e2, fun h => e3 (hmono _ h), e4⟩
          · intro x hx
            rcases h7 x hx with h | h | h
            · rw [hsn] at h
              split at h
              · rename_i hh
                rcases List.mem_cons.1 h with rfl | h
                · have : c.externCrate = true ∧ t.isCore x = true :=
                    Classical.not_not.1 fun hne => hnew ⟨hh.1, hh.2, hne⟩
                  refine .inr (.inr ⟨m, c, hcm, ?_, hh.1, this.1, this.2⟩)
                  rw [hmod hh.1]; exact hu
                · exact .inl h
              · exact .inl h
            · exact .inr (.inl h)
            · exact .inr (.inr h)

/-- The invariant of the loop; `D`: the modules visited so far. -/
structure Inv (t : Tcx) (krate root : Nat) (lib : Lib (pathCmp t.str)) (D : List Mod) (s : State) : Prop where
  map : s.map = recAll lib [] (D.flatMap (recs t krate))
  walk : ∀ e ∈ D ++ s.queue, Walk t root e.path (e.hidden || t.docHidden e.mod) e.mod
  sorted : (D ++ s.queue).Pairwise fun a b => a.path.length ≤ b.path.length
  window : ∀ a ∈ s.queue, ∀ b ∈ s.queue, b.path.length ≤ a.path.length + 1
  seen : ∀ m ∈ s.seen, (∃ e ∈ D ++ s.queue, e.mod = m) ∨ IsCoreItem t m
  open_ : ∀ q ∈ D, ∀ name m', Opens t q.mod name m' → ∃ e ∈ D ++ s.queue, e.mod = m' ∧ e.path.length ≤ q.path.length + 1
  root : ∃ rest, D ++ s.queue = ⟨[], false, root⟩ :: rest ∧ (∀ e ∈ rest, e.path ≠ []) ∧ (rest.map (·.mod)).Nodup ∧
    (∀ e ∈ rest, e.mod ∈ s.seen)

theorem inv_init (t : Tcx) (krate root : Nat) (lib : Lib (pathCmp t.str)) :
    Inv t krate root lib [] ⟨[], [⟨[], false, root⟩], []⟩ where
  map := rfl
  walk := by
    intro e he
    have : e = ⟨[], false, root⟩ := by simpa using he
    subst this
    simpa using Walk.nil
  sorted := by simp
  window := by simp
  seen := by simp
  open_ := by simp
  root := ⟨[], by simp⟩

theorem inv_step (t : Tcx) (nm : Names t) (krate root : Nat) (lib : Lib (pathCmp t.str)) (D : List Mod) (s : State)
    (q : Mod) (rest : List Mod) (hq : s.queue = q :: rest) (inv : Inv t krate root lib D s) :
    Inv t krate root lib (D ++ [q]) ((t.children q.mod).foldl
      (addChild t krate lib q.path (q.hidden || t.docHidden q.mod)) { s with queue := rest }) := by
  obtain ⟨new, s', hs', h1, h2, h3, h4, h5, h6, h7⟩ := children_step t nm krate lib q.mod q.path
    (q.hidden || t.docHidden q.mod) (t.children q.mod) (fun _ h => h) { s with queue := rest }
  rw [hs']
  simp only at h1 h2 h3 h5 h7
  have hall : D ++ [q] ++ s'.queue = (D ++ s.queue) ++ new := by rw [h2, hq]; simp
  have hqm : q ∈ s.queue := by rw [hq]; simp
  have hle : ∀ e ∈ D ++ s.queue, e.path.length ≤ q.path.length + 1 := by
    intro e he
    rcases List.mem_append.1 he with he | he
    · have := (List.pairwise_append.1 inv.sorted).2.2 e he q hqm; omega
    · exact inv.window q hqm e he
  have hlen : ∀ n ∈ new, n.path.length = q.path.length + 1 := by
    intro n hn; obtain ⟨name, e, _⟩ := h3 n hn; rw [e]; simp
  constructor
  · rw [h1, inv.map]; simp [recAll, recs]
  · intro e he
    rw [hall] at he
    rcases List.mem_append.1 he with he | he
    · exact inv.walk e he
    · obtain ⟨name, e1, e2, _⟩ := h3 e he
      have := Walk.snoc q.path _ q.mod name e.mod (inv.walk q (by simp [hqm])) e2
      rw [e1]; exact this
  · rw [hall, List.pairwise_append]
    refine ⟨inv.sorted, ?_, ?_⟩
    · refine List.pairwise_of_forall_mem_list ?_
      intro a ha b hb; rw [hlen a ha, hlen b hb]; exact Nat.le_refl _
    · intro a ha b hb; rw [hlen b hb]; exact hle a ha
  · have hge : ∀ a ∈ rest, q.path.length ≤ a.path.length := by
      have := (List.pairwise_append.1 inv.sorted).2.1
      rw [hq] at this
      exact (List.pairwise_cons.1 this).1
    intro a ha b hb
    rw [h2] at ha hb
    have hb' : b.path.length ≤ q.path.length + 1 := by
      rcases List.mem_append.1 hb with h | h
      · exact hle b (by rw [hq]; simp [h])
      · rw [hlen b h]; exact Nat.le_refl _
    rcases List.mem_append.1 ha with h | h
    · have := hge a h; omega
    · rw [hlen a h]; omega
  · intro m hm
    rw [hall]
    rcases h7 m hm with h | h | h
    · rcases inv.seen m h with ⟨e, he, h⟩ | h
      · exact .inl ⟨e, List.mem_append_left _ he, h⟩
      · exact .inr h
    · obtain ⟨n, hn, h⟩ := List.mem_map.1 h
      exact .inl ⟨n, List.mem_append_right _ hn, h⟩
    · exact .inr h
  · intro q' hq' name m' ho
    rw [hall]
    rcases List.mem_append.1 hq' with hq' | hq'
    · obtain ⟨e, he, h⟩ := inv.open_ q' hq' name m' ho
      exact ⟨e, List.mem_append_left _ he, h⟩
    · have : q' = q := by simpa using hq'
      subst this
      obtain ⟨c, hc, hu, hn, hm, hnc⟩ := ho
      have hnci : ¬ IsCoreItem t m' := by
        rintro ⟨m0, c0, hc0, hu0, hm0, he0, hi0⟩
        exact hnc ⟨nm.core m0 q'.mod c0 c m' hc0 hc hu0 hu hm0 hm he0 hi0, hi0⟩
      rcases h7 m' (h6 c hc m' hu hm) with h | h | h
      · rcases inv.seen m' h with ⟨e, he, h⟩ | h
        · exact ⟨e, List.mem_append_left _ he, h, hle e he⟩
        · exact absurd h hnci
      · obtain ⟨n, hn, h⟩ := List.mem_map.1 h
        exact ⟨n, List.mem_append_right _ hn, h, by rw [hlen n hn]; exact Nat.le_refl _⟩
      · exact absurd h hnci
  · obtain ⟨r, e1, e2, e3, e4⟩ := inv.root
    refine ⟨r ++ new, by rw [hall, e1]; rfl, ?_, ?_, ?_⟩
    · intro e he
      rcases List.mem_append.1 he with he | he
      · exact e2 e he
      · obtain ⟨name, h, _⟩ := h3 e he; rw [h]; simp
    · rw [List.map_append, List.nodup_append]
      refine ⟨e3, h4, ?_⟩
      intro a ha b hb hab
      obtain ⟨x, hx, rfl⟩ := List.mem_map.1 ha
      obtain ⟨y, hy, rfl⟩ := List.mem_map.1 hb
      obtain ⟨_, _, _, h, _⟩ := h3 y hy
      exact h (hab ▸ e4 x hx)
    · intro e he
      rcases List.mem_append.1 he with he | he
      · exact h5 _ (e4 e he)
      · obtain ⟨_, _, _, _, h⟩ := h3 e he; exact h

theorem bfs_inv (t : Tcx) (nm : Names t) (krate root : Nat) (lib : Lib (pathCmp t.str)) (n : Nat) (D : List Mod)
    (s : State) (inv : Inv t krate root lib D s) (m : List (Nat × PublicPaths)) (h : bfs t krate lib n s = some m) :
    ∃ D' s', Inv t krate root lib D' s' ∧ s'.queue = [] ∧ s'.map = m := by
  induction n generalizing D s with
  | zero =>
      simp only [bfs] at h
      split at h
      · exact ⟨D, s, inv, by assumption, Option.some.inj h⟩
      · cases h
  | succ n ih =>
      simp only [bfs] at h
      split at h
      · exact ⟨D, s, inv, by assumption, Option.some.inj h⟩
      · exact ih _ _ (inv_step t nm krate root lib D s _ _ (by assumption) inv) h

/-- A finite set of modules bounds the number of visits. -/
theorem inv_bound (t : Tcx) (krate root : Nat) (lib : Lib (pathCmp t.str)) (D : List Mod) (s : State)
    (inv : Inv t krate root lib D s) (U : List Nat) (hr : root ∈ U)
    (hU : ∀ m ∈ U, ∀ name m', Opens t m name m' → m' ∈ U) : D.length + s.queue.length ≤ U.length + 1 := by
  have walkU : ∀ p h m, Walk t root p h m → m ∈ U := by
    intro p h m hw
    induction hw with
    | nil => exact hr
    | snoc p h m name m' _ ho ih => exact hU m ih name m' ho
  obtain ⟨rest, e1, _, e3, _⟩ := inv.root
  have h1 : (rest.map (·.mod)).length ≤ U.length := by
    apply (List.subperm_of_subset e3 _).length_le
    intro m hm
    obtain ⟨e, he, rfl⟩ := List.mem_map.1 hm
    exact walkU _ _ _ (inv.walk e (by rw [e1]; simp [he]))
  have h2 := congrArg List.length e1
  simp at h1 h2
  omega

theorem bfs_ends (t : Tcx) (nm : Names t) (krate root : Nat) (lib : Lib (pathCmp t.str)) (U : List Nat) (hr : root ∈ U)
    (hU : ∀ m ∈ U, ∀ name m', Opens t m name m' → m' ∈ U) (n : Nat) (D : List Mod) (s : State)
    (inv : Inv t krate root lib D s) (hn : U.length + 1 ≤ D.length + n) : (bfs t krate lib n s).isSome := by
  induction n generalizing D s with
  | zero =>
      have := inv_bound t krate root lib D s inv U hr hU
      have : s.queue = [] := List.length_eq_zero_iff.1 (by omega)
      simp [bfs, this]
  | succ n ih =>
      simp only [bfs]
      split
      · rfl
      · exact ih _ _ (inv_step t nm krate root lib D s _ _ (by assumption) inv) (by simp; omega)

end Verif.Paths

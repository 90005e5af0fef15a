import Verif.Namespaces.Merge
import Mathlib.Data.List.Nodup
import Mathlib.Data.List.Induction
/- Producing the hierarchy of one target (`CollectNamespaces`): property C33. -/
namespace Verif.Namespaces
open Verif

/-- Ghost invariant of the trie: `P[i]` is the namespace path of node `i`. -/
structure Inv (t : Trie) (P : List (List String)) : Prop where
  len : P.length = t.nodes.length
  nodup : P.Nodup
  name : ∀ (i : Nat) (n : Node), t.nodes[i]? = some n → ∃ q, P[i]? = some (q ++ [n.name])
  child : ∀ (i : Nat) (n : Node), t.nodes[i]? = some n → ∀ (k : String) (j : Nat), AMap.get? n.children k = some j ↔
    ∃ p, P[i]? = some p ∧ P[j]? = some (p ++ [k])
  top : ∀ (k : String) (j : Nat), AMap.get? t.top k = some j ↔ P[j]? = some [k]
  ckeys : ∀ (i : Nat) (n : Node), t.nodes[i]? = some n → (AMap.keys n.children).Nodup
  tkeys : (AMap.keys t.top).Nodup
  parent : ∀ (j : Nat) (p : List String) (k : String), P[j]? = some (p ++ [k]) → p = [] ∨ ∃ i, i < j ∧ P[i]? = some p

theorem get_inj {P : List (List String)} (hn : P.Nodup) {i j : Nat} {p : List String} (hi : P[i]? = some p) (hj : P[j]? = some p) : i = j := by
  obtain ⟨h1, e1⟩ := List.getElem?_eq_some_iff.mp hi
  obtain ⟨h2, e2⟩ := List.getElem?_eq_some_iff.mp hj
  exact (hn.getElem_inj_iff).mp (e1.trans e2.symm)

theorem Inv.empty : Inv ⟨[], []⟩ [] where
  len := rfl
  nodup := by simp
  name := by simp
  child := by simp
  top := by simp
  ckeys := by simp
  tkeys := by simp [AMap.keys]
  parent := by simp

theorem Inv.ne_nil {t : Trie} {P : List (List String)} (h : Inv t P) {i : Nat} {p : List String} (hp : P[i]? = some p) : p ≠ [] := by
  have hi : i < t.nodes.length := by rw [← h.len]; exact (List.getElem?_eq_some_iff.mp hp).1
  obtain ⟨q, hq⟩ := h.name i t.nodes[i] (by simp [hi])
  rw [hp] at hq; simp at hq; simp [hq]

theorem append_get {α : Type} (P : List α) (x : α) (j : Nat) :
    (P ++ [x])[j]? = if j = P.length then some x else P[j]? := by
  rw [List.getElem?_append]
  by_cases h : j < P.length
  · simp [h, Nat.ne_of_lt h]
  · by_cases h2 : j = P.length
    · simp [h2]
    · simp only [h, h2, if_false]
      rw [List.getElem?_eq_none (by simp; omega), List.getElem?_eq_none (by omega)]

/-- adding a top level node -/
theorem Inv.addTop {t : Trie} {P : List (List String)} (h : Inv t P) {k : String} (hk : AMap.get? t.top k = none) :
    Inv ⟨t.nodes ++ [⟨k, []⟩], AMap.insert t.top k t.nodes.length⟩ (P ++ [[k]]) := by
  have hnot : ∀ j : Nat, P[j]? ≠ some [k] := fun j hj => by
    have := (h.top k j).mpr hj; rw [hk] at this; simp at this
  have hlen := h.len
  have hout : P[P.length]? = none := by simp
  constructor
  · simp [hlen]
  · rw [List.nodup_append]
    refine ⟨h.nodup, by simp, ?_⟩
    intro a ha b hb
    simp at hb; subst hb; rintro rfl
    obtain ⟨i, hi⟩ := List.getElem?_of_mem ha
    exact hnot i hi
  · intro i n hn
    simp only [append_get, ← hlen] at hn ⊢
    split
    · rename_i e; simp [e] at hn; subst hn; exact ⟨[], rfl⟩
    · rename_i e; simp [e] at hn; exact h.name i n hn
  · intro i n hn k' j
    simp only [append_get, ← hlen] at hn ⊢
    by_cases e : i = P.length
    · simp only [e, if_true, Option.some.injEq] at hn ⊢
      subst hn
      simp only [AMap.get?_nil, exists_eq_left', List.cons_append, List.nil_append]
      constructor
      · intro x; simp at x
      · intro x
        split at x
        · simp at x
        · exfalso
          rcases h.parent j [k] k' (by simpa using x) with e | ⟨i', -, e⟩
          · simp at e
          · exact hnot i' e
    · simp only [e, if_false] at hn ⊢
      rw [h.child i n hn k' j]
      constructor
      · rintro ⟨p, h1, h2⟩
        refine ⟨p, h1, ?_⟩
        split
        · rename_i e; rw [e] at h2; simp at h2
        · exact h2
      · rintro ⟨p, h1, h2⟩
        refine ⟨p, h1, ?_⟩
        split at h2
        · simp only [Option.some.injEq] at h2
          have : p = [] := by
            have := congrArg List.length h2; simp at this; exact this
          exact absurd this (h.ne_nil h1)
        · exact h2
  · intro k' j
    simp only [AMap.get?_insert, append_get, ← hlen]
    by_cases e : k = k'
    · subst e
      simp only [if_true, Option.some.injEq]
      constructor
      · rintro rfl; simp
      · intro x
        split at x
        · exact (‹j = _›).symm
        · exact absurd x (hnot j)
    · simp only [e, if_false, h.top]
      by_cases e2 : j = P.length
      · simp [e2, e]
      · simp [e2]
  · intro i n hn
    simp only [append_get] at hn
    split at hn
    · simp at hn; subst hn; simp [AMap.keys]
    · exact h.ckeys i n hn
  · exact AMap.nodup_insert _ _ _ h.tkeys
  · intro j p k' hj
    simp only [append_get] at hj
    split at hj
    · simp only [Option.some.injEq] at hj
      left
      have := congrArg List.length hj; simp at this; exact this
    · have hj' := (List.getElem?_eq_some_iff.mp hj).1
      rcases h.parent j p k' hj with e | ⟨i, hi, e⟩
      · exact .inl e
      · refine .inr ⟨i, hi, ?_⟩
        rw [append_get, if_neg (by omega)]; exact e

/-- adding a child -/
theorem Inv.addChild {t : Trie} {P : List (List String)} (h : Inv t P) {i0 : Nat} {n0 : Node} {q : List String} {k : String}
    (hi0 : t.nodes[i0]? = some n0) (hq : P[i0]? = some q) (hk : AMap.get? n0.children k = none) :
    Inv ⟨t.nodes.set i0 ⟨n0.name, AMap.insert n0.children k t.nodes.length⟩ ++ [⟨k, []⟩], t.top⟩ (P ++ [q ++ [k]]) := by
  have hnot : ∀ j : Nat, P[j]? ≠ some (q ++ [k]) := fun j hj => by
    have := (h.child i0 n0 hi0 k j).mpr ⟨q, hq, hj⟩; rw [hk] at this; simp at this
  have hlen := h.len
  have hi0l : i0 < P.length := (List.getElem?_eq_some_iff.mp hq).1
  have hqne := h.ne_nil hq
  have hset : ∀ i : Nat, (t.nodes.set i0 ⟨n0.name, AMap.insert n0.children k t.nodes.length⟩ ++ [⟨k, []⟩])[i]? =
      if i = P.length then some ⟨k, []⟩ else if i = i0 then some ⟨n0.name, AMap.insert n0.children k P.length⟩ else t.nodes[i]? := by
    intro i
    rw [append_get]
    simp only [List.length_set, ← hlen]
    split
    · rfl
    · rw [List.getElem?_set]
      by_cases e : i0 = i
      · subst e; simp [← hlen, hi0l]
      · simp [e, Ne.symm e]
  constructor
  · simp [hlen]
  · rw [List.nodup_append]
    refine ⟨h.nodup, by simp, ?_⟩
    intro a ha b hb
    simp at hb; subst hb; rintro rfl
    obtain ⟨i, hi⟩ := List.getElem?_of_mem ha
    exact hnot i hi
  · intro i n hn
    simp only [hset] at hn
    simp only [append_get]
    split at hn
    · rename_i e; simp at hn; subst hn; simp [e]
    · rename_i e
      simp only [e, if_false]
      split at hn
      · rename_i e2; simp at hn; subst hn; subst e2; exact h.name i n0 hi0
      · exact h.name i n hn
  · intro i n hn k' j
    simp only [hset] at hn
    simp only [append_get]
    by_cases e : i = P.length
    · simp only [e, if_true, Option.some.injEq] at hn ⊢
      subst hn
      simp only [AMap.get?_nil, exists_eq_left']
      constructor
      · intro x; simp at x
      · intro x
        split at x
        · simp only [Option.some.injEq] at x
          have := congrArg List.length x; simp at this
        · exfalso
          rcases h.parent j (q ++ [k]) k' x with e | ⟨i', -, e⟩
          · simp at e
          · exact hnot i' e
    · simp only [e, if_false] at hn ⊢
      by_cases e2 : i = i0
      · subst e2
        simp only [if_true, Option.some.injEq] at hn
        subst hn
        simp only [AMap.get?_insert, hq, Option.some.injEq, exists_eq_left']
        by_cases e3 : k = k'
        · subst e3
          simp only [if_true, Option.some.injEq]
          constructor
          · rintro rfl; simp
          · intro x
            split at x
            · exact (‹j = _›).symm
            · exact absurd x (hnot j)
        · simp only [e3, if_false]
          rw [h.child i n0 hi0 k' j]
          simp only [hq, Option.some.injEq, exists_eq_left']
          by_cases e4 : j = P.length
          · simp [e4, e3]
          · simp [e4]
      · simp only [e2, if_false] at hn
        rw [h.child i n hn k' j]
        constructor
        · rintro ⟨p, h1, h2⟩
          refine ⟨p, h1, ?_⟩
          split
          · rename_i e; rw [e] at h2; simp at h2
          · exact h2
        · rintro ⟨p, h1, h2⟩
          refine ⟨p, h1, ?_⟩
          split at h2
          · simp only [Option.some.injEq] at h2
            have := List.append_inj_left' h2 rfl
            subst this
            exact absurd (get_inj h.nodup h1 hq) e2
          · exact h2
  · intro k' j
    simp only [append_get, h.top]
    by_cases e2 : j = P.length
    · simp only [e2, if_true]
      have : P[P.length]? = none := by simp
      rw [this]
      simp
      intro hh
      have := congrArg List.length hh
      simp at this; exact hqne this
    · simp [e2]
  · intro i n hn
    simp only [hset] at hn
    split at hn
    · simp at hn; subst hn; simp [AMap.keys]
    · split at hn
      · simp at hn; subst hn; exact AMap.nodup_insert _ _ _ (h.ckeys i0 n0 hi0)
      · exact h.ckeys i n hn
  · exact h.tkeys
  · intro j p k' hj
    simp only [append_get] at hj
    split at hj
    · rename_i e
      simp only [Option.some.injEq] at hj
      have := List.append_inj_left' hj rfl
      subst this
      refine .inr ⟨i0, by omega, ?_⟩
      rw [append_get, if_neg (by omega)]; exact hq
    · have hj' := (List.getElem?_eq_some_iff.mp hj).1
      rcases h.parent j p k' hj with e | ⟨i, hi, e⟩
      · exact .inl e
      · refine .inr ⟨i, hi, ?_⟩
        rw [append_get, if_neg (by omega)]; exact e

theorem childIdx_spec {t : Trie} {P : List (List String)} (h : Inv t P) {parent : Nat} {q : List String} (hq : P[parent]? = some q) (name : String) :
    ∃ P', Inv (childIdx t parent name).1 P' ∧ P'[(childIdx t parent name).2]? = some (q ++ [name]) ∧
      (∀ x, x ∈ P' ↔ x ∈ P ∨ x = q ++ [name]) ∧ ∀ (i : Nat) x, P[i]? = some x → P'[i]? = some x := by
  have hpl : parent < t.nodes.length := by rw [← h.len]; exact (List.getElem?_eq_some_iff.mp hq).1
  have hn : t.nodes[parent]? = some t.nodes[parent] := by simp [hpl]
  simp only [childIdx, hn]
  cases hg : AMap.get? t.nodes[parent].children name with
  | some j =>
    obtain ⟨p, h1, h2⟩ := (h.child parent _ hn name j).mp hg
    rw [hq] at h1; simp at h1; subst h1
    refine ⟨P, h, h2, fun x => ?_, fun _ _ hx => hx⟩
    constructor
    · exact .inl
    · rintro (hx | rfl)
      · exact hx
      · exact List.mem_of_getElem? h2
  | none =>
    refine ⟨P ++ [q ++ [name]], h.addChild hn hq hg, ?_, by simp, ?_⟩
    · simp [append_get, h.len]
    · intro i x hx
      have := (List.getElem?_eq_some_iff.mp hx).1
      rw [append_get, if_neg (by omega)]; exact hx

theorem inIr_cons (ids : Nat → Option IrNs) (id : Nat) (rest : List Nat) (r : List String) :
    InIr ids (id :: rest) r ↔ (∃ ns, ids id = some ns ∧ (r = [ns.name] ∨ ∃ r', r = ns.name :: r' ∧ InIr ids ns.children r')) ∨ InIr ids rest r := by
  constructor
  · intro h
    cases h with
    | here hm he =>
      rcases List.mem_cons.mp hm with rfl | hm
      · exact .inl ⟨_, he, .inl rfl⟩
      · exact .inr (.here hm he)
    | inside hm he hp =>
      rcases List.mem_cons.mp hm with rfl | hm
      · exact .inl ⟨_, he, .inr ⟨_, rfl, hp⟩⟩
      · exact .inr (.inside hm he hp)
  · rintro (⟨ns, he, rfl | ⟨r', rfl, hp⟩⟩ | h)
    · exact .here (by simp) he
    · exact .inside (by simp) he hp
    · cases h with
      | here hm he => exact .here (by simp [hm]) he
      | inside hm he hp => exact .inside (by simp [hm]) he hp

theorem inIr_nil (ids : Nat → Option IrNs) (r : List String) : ¬ InIr ids [] r := by
  intro h; cases h with
  | here hm => simp at hm
  | inside hm => simp at hm

/-- What inserting the items `l` under node `parent` (path `q`) does. -/
def Inserts (ids : Nat → Option IrNs) (P P' : List (List String)) (q : List String) (l : List Nat) : Prop :=
  (∀ x, x ∈ P' ↔ x ∈ P ∨ ∃ r, InIr ids l r ∧ x = q ++ r) ∧ ∀ (i : Nat) x, P[i]? = some x → P'[i]? = some x

theorem insertNodes_spec (ids : Nat → Option IrNs) (fuel : Nat) : ∀ (l : List Nat) (t t' : Trie) (parent : Nat) (P : List (List String)) (q : List String),
    Inv t P → P[parent]? = some q → insertNodes ids fuel t parent l = some t' →
    ∃ P', Inv t' P' ∧ Inserts ids P P' q l := by
  induction fuel with
  | zero =>
    intro l
    induction l with
    | nil => intro t t' parent P q h hq he; simp [insertNodes] at he; subst he; exact ⟨P, h, by simp [inIr_nil], fun _ _ hx => hx⟩
    | cons id rest ih =>
      intro t t' parent P q h hq he
      simp only [insertNodes] at he
      cases hid : ids id with
      | none =>
        simp only [hid] at he
        obtain ⟨P', h1, h2⟩ := ih t t' parent P q h hq he
        exact ⟨P', h1, by simpa [Inserts, inIr_cons, hid] using h2⟩
      | some ns => simp [hid, insertNode] at he
  | succ fuel ihf =>
    intro l
    induction l with
    | nil => intro t t' parent P q h hq he; simp [insertNodes] at he; subst he; exact ⟨P, h, by simp [inIr_nil], fun _ _ hx => hx⟩
    | cons id rest ih =>
      intro t t' parent P q h hq he
      simp only [insertNodes] at he
      cases hid : ids id with
      | none =>
        simp only [hid] at he
        obtain ⟨P', h1, h2⟩ := ih t t' parent P q h hq he
        exact ⟨P', h1, by simpa [Inserts, inIr_cons, hid] using h2⟩
      | some ns =>
        simp only [hid, insertNode] at he
        obtain ⟨P1, a1, a2, a3, a4⟩ := childIdx_spec h hq ns.name
        cases hr : insertNodes ids fuel (childIdx t parent ns.name).1 (childIdx t parent ns.name).2 ns.children with
        | none => simp [hr] at he
        | some t1 =>
          simp only [hr] at he
          obtain ⟨P2, b1, b2, b3⟩ := ihf ns.children _ t1 _ P1 (q ++ [ns.name]) a1 a2 hr
          obtain ⟨P3, c1, c2, c3⟩ := ih t1 t' parent P2 q b1 (b3 _ _ (a4 _ _ hq)) he
          refine ⟨P3, c1, fun x => ?_, fun i x hx => c3 _ _ (b3 _ _ (a4 _ _ hx))⟩
          rw [c2, b2, a3]
          simp only [inIr_cons, hid, Option.some.injEq, exists_eq_left']
          constructor
          · rintro (((hx | rfl) | ⟨r, hr, rfl⟩) | ⟨r, hr, rfl⟩)
            · exact .inl hx
            · exact .inr ⟨_, .inl (.inl rfl), rfl⟩
            · exact .inr ⟨_, .inl (.inr ⟨r, rfl, hr⟩), by simp⟩
            · exact .inr ⟨r, .inr hr, rfl⟩
          · rintro (hx | ⟨r, (rfl | ⟨r', rfl, hr'⟩) | hr, rfl⟩)
            · exact .inl (.inl (.inl hx))
            · exact .inl (.inl (.inr rfl))
            · exact .inl (.inr ⟨r', hr', by simp⟩)
            · exact .inr ⟨r, hr, rfl⟩

theorem insertTopLevel_spec (ids : Nat → Option IrNs) (fuel : Nat) (t t' : Trie) (P : List (List String)) (ns : IrNs)
    (h : Inv t P) (he : insertTopLevel ids fuel t ns = some t') :
    ∃ P', Inv t' P' ∧ ∀ x, x ∈ P' ↔ x ∈ P ∨ x = [ns.name] ∨ ∃ r, InIr ids ns.children r ∧ x = ns.name :: r := by
  simp only [insertTopLevel] at he
  cases hg : AMap.get? t.top ns.name with
  | some j =>
    simp only [hg] at he
    have hj := (h.top ns.name j).mp hg
    obtain ⟨P', h1, h2, -⟩ := insertNodes_spec ids fuel ns.children t t' j P _ h hj he
    refine ⟨P', h1, fun x => ?_⟩
    rw [h2]
    constructor
    · rintro (hx | hx)
      · exact .inl hx
      · exact .inr (.inr (by simpa using hx))
    · rintro (hx | rfl | hx)
      · exact .inl hx
      · exact .inl (List.mem_of_getElem? hj)
      · exact .inr (by simpa using hx)
  | none =>
    simp only [hg] at he
    obtain ⟨P', h1, h2, -⟩ := insertNodes_spec ids fuel ns.children _ t' t.nodes.length (P ++ [[ns.name]]) [ns.name] (h.addTop hg)
      (by simp [append_get, h.len]) he
    refine ⟨P', h1, fun x => ?_⟩
    rw [h2]; simp [or_assoc]

theorem insertAll_spec (ids : Nat → Option IrNs) (fuel : Nat) : ∀ (l : List Nat) (t t' : Trie) (P : List (List String)),
    Inv t P → insertAll ids fuel t l = some t' → ∃ P', Inv t' P' ∧ ∀ x, x ∈ P' ↔ x ∈ P ∨ InIr ids l x := by
  intro l
  induction l with
  | nil => intro t t' P h he; simp [insertAll] at he; subst he; exact ⟨P, h, by simp [inIr_nil]⟩
  | cons id rest ih =>
    intro t t' P h he
    simp only [insertAll] at he
    cases hid : ids id with
    | none =>
      simp only [hid] at he
      obtain ⟨P', h1, h2⟩ := ih t t' P h he
      exact ⟨P', h1, by simpa [inIr_cons, hid] using h2⟩
    | some ns =>
      simp only [hid] at he
      cases hr : insertTopLevel ids fuel t ns with
      | none => simp [hr] at he
      | some t1 =>
        simp only [hr] at he
        obtain ⟨P1, a1, a2⟩ := insertTopLevel_spec ids fuel t t1 P ns h hr
        obtain ⟨P2, b1, b2⟩ := ih t1 t' P1 a1 he
        refine ⟨P2, b1, fun x => ?_⟩
        rw [b2, a2]
        simp only [inIr_cons, hid, Option.some.injEq, exists_eq_left']
        constructor
        · rintro ((hx | rfl | ⟨r, hr, rfl⟩) | hx)
          · exact .inl hx
          · exact .inr (.inl (.inl rfl))
          · exact .inr (.inl (.inr ⟨r, rfl, hr⟩))
          · exact .inr (.inr hx)
        · rintro (hx | (rfl | ⟨r, rfl, hr⟩) | hx)
          · exact .inl (.inl hx)
          · exact .inl (.inr (.inl rfl))
          · exact .inl (.inr (.inr ⟨r, hr, rfl⟩))
          · exact .inr hx

/-! ### Reading the trie back -/

theorem Inv.prefix_closed {t : Trie} {P : List (List String)} (h : Inv t P) (r : List String) : ∀ p, p ≠ [] → p ++ r ∈ P → p ∈ P := by
  induction r using List.reverseRecOn with
  | nil => intro p _ hp; simpa using hp
  | append_singleton r k ih =>
    intro p hne hp
    rw [← List.append_assoc] at hp
    obtain ⟨j, hj⟩ := List.getElem?_of_mem hp
    rcases h.parent j _ k hj with e | ⟨i, -, e⟩
    · simp at e; exact absurd e.1 hne
    · exact ih p hne (List.mem_of_getElem? e)

theorem mem_nodesToJson (t : Trie) (fuel : Nat) : ∀ (l : List (String × Nat)) (j : Json), j ∈ nodesToJson t fuel l ↔ ∃ p ∈ l, j = nodeToJson t fuel p.2 := by
  intro l
  induction l with
  | nil => intro j; simp [nodesToJson]
  | cons a l ih => intro j; obtain ⟨k, i⟩ := a; simp [nodesToJson, ih]

theorem nodesToJson_names (t : Trie) (fuel : Nat) (l : List (String × Nat)) (h : ∀ p ∈ l, (nodeToJson t fuel p.2).name = p.1) :
    (nodesToJson t fuel l).map Json.name = AMap.keys l := by
  induction l with
  | nil => simp [nodesToJson, AMap.keys]
  | cons a l ih =>
    obtain ⟨k, i⟩ := a
    have h1 := h (k, i) (by simp)
    have h2 := ih (fun p hp => h p (by simp [hp]))
    simp only [AMap.keys] at h2
    simp only [nodesToJson, List.map_cons, AMap.keys, h2]
    simp at h1; simp [h1]

theorem amem_get {m : List (String × Nat)} (hn : (AMap.keys m).Nodup) {p : String × Nat} (hp : p ∈ m) : AMap.get? m p.1 = some p.2 := by
  induction m with
  | nil => simp at hp
  | cons q m ih =>
    obtain ⟨a, b⟩ := q
    simp only [AMap.keys, List.map_cons, List.nodup_cons] at hn
    simp only [AMap.get?]
    rcases List.mem_cons.mp hp with rfl | hp'
    · simp
    · have : a ≠ p.1 := by
        intro e; exact hn.1 (e ▸ List.mem_map.mpr ⟨p, hp', rfl⟩)
      simp [this, ih hn.2 hp']

theorem amem_of_get {m : List (String × Nat)} {k : String} {c : Nat} (h : AMap.get? m k = some c) : (k, c) ∈ m := by
  induction m with
  | nil => simp at h
  | cons q m ih =>
    obtain ⟨a, b⟩ := q
    simp only [AMap.get?] at h
    split at h
    · simp at h; simp [*]
    · simp [ih h]

/-- siblings rendered from a list of (name, index) entries all sitting at `base ++ [name]` -/
theorem siblings_spec {t : Trie} {P : List (List String)} (h : Inv t P) (fuel : Nat) (base : List String) (l : List (String × Nat))
    (hkeys : (AMap.keys l).Nodup)
    (hl : ∀ k j, AMap.get? l k = some j ↔ P[j]? = some (base ++ [k]))
    (hrec : ∀ k j, AMap.get? l k = some j → (nodeToJson t fuel j).name = k ∧ Distinct (nodeToJson t fuel j).children ∧
      ∀ r, Declares (nodeToJson t fuel j).children r ↔ r ≠ [] ∧ base ++ [k] ++ r ∈ P) :
    Distinct (nodesToJson t fuel l) ∧ ∀ r, Declares (nodesToJson t fuel l) r ↔ r ≠ [] ∧ base ++ r ∈ P := by
  constructor
  · refine .mk ?_ ?_
    · rw [nodesToJson_names t fuel l (fun p hp => (hrec p.1 p.2 (amem_get hkeys hp)).1)]
      exact hkeys
    · intro j hj
      obtain ⟨p, hp, rfl⟩ := (mem_nodesToJson ..).mp hj
      exact (hrec p.1 p.2 (amem_get hkeys hp)).2.1
  · intro r
    rw [declares_iff]
    constructor
    · rintro ⟨j, hj, q, rfl, hq⟩
      obtain ⟨p, hp, rfl⟩ := (mem_nodesToJson ..).mp hj
      have hg := amem_get hkeys hp
      obtain ⟨e1, -, e2⟩ := hrec p.1 p.2 hg
      refine ⟨by simp, ?_⟩
      rw [e1]
      rcases hq with rfl | hq
      · exact List.mem_of_getElem? ((hl _ _).mp hg)
      · simpa using ((e2 q).mp hq).2
    · rintro ⟨hne, hr⟩
      cases r with
      | nil => exact absurd rfl hne
      | cons k r =>
        have hk : base ++ [k] ∈ P := h.prefix_closed r _ (by simp) (by simpa using hr)
        obtain ⟨j, hj⟩ := List.getElem?_of_mem hk
        have hg := (hl k j).mpr hj
        obtain ⟨e1, -, e2⟩ := hrec k j hg
        refine ⟨nodeToJson t fuel j, (mem_nodesToJson ..).mpr ⟨_, amem_of_get hg, rfl⟩, r, by rw [e1], ?_⟩
        by_cases hrn : r = []
        · exact .inl hrn
        · exact .inr ((e2 r).mpr ⟨hrn, by simpa using hr⟩)

theorem node_spec {t : Trie} {P : List (List String)} (h : Inv t P) (fuel : Nat) : ∀ (j : Nat) (b : List String) (k : String),
    P[j]? = some (b ++ [k]) → t.nodes.length ≤ fuel + j →
    (nodeToJson t fuel j).name = k ∧ Distinct (nodeToJson t fuel j).children ∧
      ∀ r, Declares (nodeToJson t fuel j).children r ↔ r ≠ [] ∧ b ++ [k] ++ r ∈ P := by
  induction fuel with
  | zero =>
    intro j b k hj hf
    have := (List.getElem?_eq_some_iff.mp hj).1
    have := h.len; omega
  | succ fuel ih =>
    intro j b k hj hf
    have hjl : j < t.nodes.length := by rw [← h.len]; exact (List.getElem?_eq_some_iff.mp hj).1
    have hn : t.nodes[j]? = some t.nodes[j] := by simp [hjl]
    simp only [nodeToJson, hn, Json.name, Json.children]
    obtain ⟨q, hq⟩ := h.name j _ hn
    rw [hj] at hq
    simp only [Option.some.injEq] at hq
    have hnm : k = t.nodes[j].name := by
      have := List.append_inj_right' hq rfl; simpa using this
    refine ⟨hnm.symm, ?_⟩
    apply siblings_spec h fuel (b ++ [k]) _ (h.ckeys j _ hn)
    · intro k' j'
      rw [h.child j _ hn k' j']
      simp [hj]
    · intro k' j' hg
      obtain ⟨p, h1, h2⟩ := (h.child j _ hn k' j').mp hg
      rw [hj] at h1; simp only [Option.some.injEq] at h1; subst h1
      have hlt : j < j' := by
        rcases h.parent j' _ k' h2 with e | ⟨i, hi, e⟩
        · simp at e
        · rw [get_inj h.nodup hj e]; exact hi
      exact ih j' (b ++ [k]) k' h2 (by omega)

theorem get?_mem_iff {V : Type} {m : List (Nat × V)} (hn : (m.map Prod.fst).Nodup) (k : Nat) (v : V) :
    AMap.get? m k = some v ↔ (k, v) ∈ m := by
  induction m with
  | nil => simp
  | cons a m ih =>
    obtain ⟨k', v'⟩ := a
    simp only [List.map_cons, List.nodup_cons] at hn
    simp only [AMap.get?, List.mem_cons, Prod.mk.injEq]
    by_cases h : k' = k
    · subst h
      simp only [if_true, Option.some.injEq, true_and]
      constructor
      · exact fun e => .inl e.symm
      · rintro (e | e)
        · exact e.symm
        · exact absurd (List.mem_map.mpr ⟨_, e, rfl⟩) hn.1
    · simp only [h, if_false, ih hn.2]
      constructor
      · exact .inr
      · rintro (⟨e, -⟩ | e)
        · exact absurd e.symm h
        · exact e

theorem own_iff {ir : IR} (hn : (ir.namespaces.map Prod.fst).Nodup) (id : Nat) (ns : IrNs) :
    idToNamespace ir id = some ns ↔ (id, ns) ∈ ir.namespaces ∧ ns.owningTarget = ir.currentTarget := by
  rw [idToNamespace, get?_mem_iff]
  · simp
  · exact List.Nodup.sublist (List.Sublist.map _ List.filter_sublist) hn

theorem opens_iff {ir : IR} (hn : (ir.namespaces.map Prod.fst).Nodup) (sibs : List Nat) (path : List String) :
    InIr (idToNamespace ir) sibs path ↔ Opens ir sibs path := by
  constructor
  · intro h
    induction h with
    | here hm he => exact .here hm ((own_iff hn ..).mp he).1 ((own_iff hn ..).mp he).2
    | inside hm he _ ih => exact .inside hm ((own_iff hn ..).mp he).1 ((own_iff hn ..).mp he).2 ih
  · intro h
    induction h with
    | here hm h1 h2 => exact .here hm ((own_iff hn ..).mpr ⟨h1, h2⟩)
    | inside hm h1 h2 _ ih => exact .inside hm ((own_iff hn ..).mpr ⟨h1, h2⟩) ih

/-- C33: the hierarchy `CollectNamespaces` reports for a target carries the target's label, has no two
siblings of the same name at any depth, and contains exactly the namespace paths that the target's own
IR opens (counting every re-opening of a namespace). Item ids are unique in an IR (`hids`). -/
theorem collect_exact (ir : IR) (hids : (ir.namespaces.map Prod.fst).Nodup) (fuel : Nat) (h : Hierarchy) (he : collect ir fuel = some h) :
    h.label = ir.currentTarget ∧ Distinct h.namespaces ∧
    ∀ path, h.declares path ↔ Opens ir ir.topLevel path := by
  simp only [collect] at he
  cases hr : insertAll (idToNamespace ir) fuel ⟨[], []⟩ ir.topLevel with
  | none => simp [hr] at he
  | some t =>
    simp [hr] at he; subst he
    obtain ⟨P, h1, h2⟩ := insertAll_spec (idToNamespace ir) fuel ir.topLevel _ t [] Inv.empty hr
    have := siblings_spec h1 t.nodes.length [] t.top h1.tkeys (by simpa using h1.top) (fun k j hg => by
      have := (h1.top k j).mp hg
      exact node_spec h1 t.nodes.length j [] k (by simpa using this) (by omega))
    refine ⟨rfl, this.1, fun path => ?_⟩
    rw [Hierarchy.declares, this.2 path, ← opens_iff hids]
    simp only [List.nil_append, h2, List.not_mem_nil, false_or]
    constructor
    · exact fun x => x.2
    · intro x
      refine ⟨?_, x⟩
      cases x <;> simp

/-! ### Termination -/

theorem insertNodes_total (ids : Nat → Option IrNs) (rank : Nat → Nat)
    (hrank : ∀ id ns, ids id = some ns → ∀ c ∈ ns.children, (ids c).isSome → rank c < rank id) (fuel : Nat) :
    ∀ (l : List Nat) (t : Trie) (parent : Nat), (∀ id ∈ l, (ids id).isSome → rank id < fuel) → (insertNodes ids fuel t parent l).isSome := by
  induction fuel with
  | zero =>
    intro l
    induction l with
    | nil => intro t parent _; simp [insertNodes]
    | cons id rest ih =>
      intro t parent hl
      simp only [insertNodes]
      cases hid : ids id with
      | none => exact ih t parent (fun x hx => hl x (by simp [hx]))
      | some ns => have := hl id (by simp) (by simp [hid]); omega
  | succ fuel ihf =>
    intro l
    induction l with
    | nil => intro t parent _; simp [insertNodes]
    | cons id rest ih =>
      intro t parent hl
      simp only [insertNodes]
      cases hid : ids id with
      | none => exact ih t parent (fun x hx => hl x (by simp [hx]))
      | some ns =>
        have h1 := hl id (by simp) (by simp [hid])
        simp only [insertNode]
        have h2 := ihf ns.children (childIdx t parent ns.name).1 (childIdx t parent ns.name).2 (fun c hc hs => by
          have := hrank id ns hid c hc hs; omega)
        obtain ⟨t1, ht1⟩ := Option.isSome_iff_exists.mp h2
        simp only [ht1]
        exact ih t1 parent (fun x hx => hl x (by simp [hx]))

/-- C33: if the parent-child relation of the namespaces in the IR is acyclic (each item has a rank
greater than its children), the collection terminates. -/
theorem collect_terminates (ir : IR) (rank : Nat → Nat)
    (hrank' : ∀ id ns, (id, ns) ∈ ir.namespaces → ∀ c ∈ ns.children, rank c < rank id)
    (hids : (ir.namespaces.map Prod.fst).Nodup) (fuel : Nat) (hf : ∀ id, rank id ≤ fuel) : ∃ h, collect ir fuel = some h := by
  have hrank : ∀ id ns, idToNamespace ir id = some ns → ∀ c ∈ ns.children, (idToNamespace ir c).isSome → rank c < rank id :=
    fun id ns h c hc _ => hrank' id ns ((own_iff hids ..).mp h).1 c hc
  have key : ∀ (l : List Nat) (t : Trie), (insertAll (idToNamespace ir) fuel t l).isSome := by
    intro l
    induction l with
    | nil => intro t; simp [insertAll]
    | cons id rest ih =>
      intro t
      simp only [insertAll]
      cases hid : idToNamespace ir id with
      | none => exact ih t
      | some ns =>
        have hch : ∀ c ∈ ns.children, (idToNamespace ir c).isSome → rank c < fuel := fun c hc hs =>
          Nat.lt_of_lt_of_le (hrank id ns hid c hc hs) (hf id)
        have : (insertTopLevel (idToNamespace ir) fuel t ns).isSome := by
          simp only [insertTopLevel]
          split
          · exact insertNodes_total _ rank hrank fuel _ _ _ hch
          · exact insertNodes_total _ rank hrank fuel _ _ _ hch
        obtain ⟨t1, ht1⟩ := Option.isSome_iff_exists.mp this
        simp only [ht1]
        exact ih t1
  obtain ⟨t, ht⟩ := Option.isSome_iff_exists.mp (key ir.topLevel ⟨[], []⟩)
  exact ⟨⟨ir.currentTarget, nodesToJson t t.nodes.length t.top⟩, by simp only [collect, ht]⟩

/-- C30 + C33: for dependencies whose hierarchies were produced by `CollectNamespaces`, a namespace
path exists in the merged tree iff some dependency's IR declares it. -/
theorem merged_paths_of_collected (deps : List (IR × Nat × Hierarchy)) (hne : deps ≠ [])
    (hids : ∀ d ∈ deps, (d.1.namespaces.map Prod.fst).Nodup)
    (hc : ∀ d ∈ deps, collect d.1 d.2.1 = some d.2.2) :
    ∃ r, mergeAll (deps.map fun d => d.2.2) = some r ∧
      ∀ p, (look r p).isSome ↔ ∃ d ∈ deps, Opens d.1 d.1.topLevel p := by
  obtain ⟨r, h1, h2⟩ := merged_paths (deps.map fun d => d.2.2) (by simpa using hne) (by
    intro h hm
    obtain ⟨d, hd, rfl⟩ := List.mem_map.mp hm
    exact (collect_exact _ (hids d hd) _ _ (hc d hd)).2.1)
  refine ⟨r, h1, fun p => ?_⟩
  rw [h2]
  constructor
  · rintro ⟨h, hm, hp⟩
    obtain ⟨d, hd, rfl⟩ := List.mem_map.mp hm
    exact ⟨d, hd, ((collect_exact _ (hids d hd) _ _ (hc d hd)).2.2 p).mp hp⟩
  · rintro ⟨d, hd, hp⟩
    exact ⟨d.2.2, List.mem_map.mpr ⟨d, hd, rfl⟩, ((collect_exact _ (hids d hd) _ _ (hc d hd)).2.2 p).mpr hp⟩

/-- Non-vacuity: a target that opens `a::b` twice and `a::c` collects, to one top level tree. -/
example : ∃ h, collect ⟨"//:t", [(0, ⟨"a", "//:t", [1]⟩), (1, ⟨"b", "//:t", []⟩), (2, ⟨"a", "//:t", [3, 4]⟩), (3, ⟨"b", "//:t", []⟩), (4, ⟨"c", "//:t", []⟩)], [0, 2]⟩ 5 = some h ∧
    h.declares ["a", "c"] ∧ h.namespaces.length = 1 := by
  refine ⟨⟨"//:t", [.mk "a" [.mk "b" [], .mk "c" []]]⟩, by simp [collect, insertAll, insertTopLevel, insertNodes, insertNode, childIdx, idToNamespace, AMap.get?, AMap.insert, nodesToJson, nodeToJson], ?_, rfl⟩
  exact .inside (j := .mk "a" [.mk "b" [], .mk "c" []]) (by simp) (.here (j := .mk "c" []) (by simp [Json.children]))

end Verif.Namespaces

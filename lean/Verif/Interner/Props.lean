import Verif.Interner.Model
import Verif.Bridge.Lemmas
import Mathlib.Data.List.Dedup
import Mathlib.Data.List.Nodup
import Mathlib.Data.List.Pairwise
/- Interner properties C16, C17. -/
namespace Verif.Interner
open Verif.Bridge (Mem read_write write_outside read_congr)

/-- Invariant: `vals` is the set of distinct values interned so far, in the order of `map`. -/
structure Inv (s : St) (vals : List (List UInt8)) (base : List (Nat × Nat)) : Prop where
  nodup : vals.Nodup
  map : s.map.map (fun h => h.deref s.mem) = vals
  len : ∀ h ∈ s.map, (h.addr, h.len) ∈ s.ranges
  ranges : s.ranges = s.map.map (fun h => (h.addr, h.len)) ++ base
  disj : s.map.Pairwise (fun a b => 0 < a.len → 0 < b.len → a.addr + a.len ≤ b.addr ∨ b.addr + b.len ≤ a.addr)

theorem Inv.new (m : Mem) (r : List (Nat × Nat)) : Inv (St.new m r) [] r :=
  ⟨List.nodup_nil, rfl, by simp [St.new], by simp [St.new], by simp [St.new]⟩

theorem deref_length (m : Mem) (h : Handle) : (h.deref m).length = h.len := by simp [Handle.deref, Mem.read]

theorem Inv.step {ar : Arena} {s : St} {vals : List (List UInt8)} {base} (hi : Inv s vals base) (v : List UInt8) :
    Inv (intern ar s v).2 (if v ∈ vals then vals else v :: vals) base ∧
    (intern ar s v).1 ∈ (intern ar s v).2.map ∧ (intern ar s v).1.deref (intern ar s v).2.mem = v ∧
    (∀ h ∈ s.map, h ∈ (intern ar s v).2.map ∧ h.deref (intern ar s v).2.mem = h.deref s.mem) ∧
    (v ∈ vals → (intern ar s v).2 = s) := by
  simp only [intern]
  cases hf : s.map.find? (fun h => h.deref s.mem == v) with
  | some h =>
    have h1 : h.deref s.mem = v := by simpa using List.find?_some hf
    have h2 : h ∈ s.map := List.mem_of_find?_eq_some hf
    have hv : v ∈ vals := by rw [← hi.map]; exact List.mem_map.2 ⟨h, h2, h1⟩
    rw [if_pos hv]
    exact ⟨hi, h2, h1, fun h hh => ⟨hh, rfl⟩, fun _ => rfl⟩
  | none =>
    have hv : v ∉ vals := by
      intro hv
      rw [← hi.map] at hv
      obtain ⟨h, hh, he⟩ := List.mem_map.1 hv
      have := List.find?_eq_none.1 hf h hh
      simp [he] at this
    have hd := ar.disjoint s.ranges v.length
    have hold : ∀ h ∈ s.map, h.deref (s.mem.write (ar.alloc s.ranges v.length) v) = h.deref s.mem := by
      intro h hh
      apply read_congr
      intro i hi1 hi2
      apply write_outside
      by_cases hz : v.length = 0
      · omega
      · have := hd (by omega) _ (hi.len h hh) (by simp only; omega)
        simp only at this
        omega
    rw [if_neg hv]
    refine ⟨⟨List.nodup_cons.2 ⟨hv, hi.nodup⟩, ?_, ?_, ?_, ?_⟩, by simp, ?_, ?_, fun h => absurd h hv⟩
    · simp only [List.map_cons]
      congr 1
      · exact read_write _ _ _
      · rw [← hi.map]
        exact List.map_congr_left hold
    · intro h hh
      rcases List.mem_cons.1 hh with rfl | hh
      · simp
      · exact List.mem_cons_of_mem _ (hi.len h hh)
    · simp [hi.ranges]
    · refine List.pairwise_cons.2 ⟨?_, hi.disj⟩
      intro h hh h1 h2
      exact hd h1 _ (hi.len h hh) h2
    · exact read_write _ _ _
    · intro h hh; exact ⟨List.mem_cons_of_mem _ hh, hold h hh⟩

/-- Everything about a run, by induction over the sequence of intern calls. -/
theorem run_inv (ar : Arena) (base) : ∀ (vs : List (List UInt8)) (s : St) (vals : List (List UInt8)), Inv s vals base →
    ∃ vals', Inv (internAll ar s vs).2 vals' base ∧ (∀ x, x ∈ vals' ↔ x ∈ vals ∨ x ∈ vs) ∧
      (∀ h ∈ s.map, h ∈ (internAll ar s vs).2.map ∧ h.deref (internAll ar s vs).2.mem = h.deref s.mem) ∧
      List.Forall₂ (fun h v => h ∈ (internAll ar s vs).2.map ∧ h.deref (internAll ar s vs).2.mem = v)
        (internAll ar s vs).1 vs := by
  intro vs
  induction vs with
  | nil => intro s vals hi; exact ⟨vals, hi, by simp, fun h hh => ⟨hh, rfl⟩, .nil⟩
  | cons v vs ih =>
    intro s vals hi
    obtain ⟨i1, m1, d1, o1, -⟩ := hi.step (ar := ar) v
    obtain ⟨vals', i2, s2, o2, f2⟩ := ih (intern ar s v).2 _ i1
    refine ⟨vals', i2, ?_, ?_, ?_⟩
    · intro x
      rw [s2]
      split <;> simp only [List.mem_cons]
      · constructor
        · rintro (h | h)
          · exact .inl h
          · exact .inr (.inr h)
        · rintro (h | rfl | h)
          · exact .inl h
          · rename_i hv; exact .inl hv
          · exact .inr h
      · constructor
        · rintro ((h | h) | h)
          · exact .inr (.inl h)
          · exact .inl h
          · exact .inr (.inr h)
        · rintro (h | h | h)
          · exact .inl (.inr h)
          · exact .inl (.inl h)
          · exact .inr h
    · intro h hh
      obtain ⟨a, b⟩ := o1 h hh
      obtain ⟨c, d⟩ := o2 h a
      exact ⟨c, d.trans b⟩
    · refine .cons ?_ f2
      obtain ⟨c, d⟩ := o2 _ m1
      exact ⟨c, d.trans d1⟩

theorem Inv.inj {s : St} {vals base} (hi : Inv s vals base) {a b : Handle} (ha : a ∈ s.map) (hb : b ∈ s.map)
    (h : a.deref s.mem = b.deref s.mem) : a = b := by
  have hn : (s.map.map (fun h => h.deref s.mem)).Nodup := by rw [hi.map]; exact hi.nodup
  exact List.inj_on_of_nodup_map hn ha hb h

theorem Inv.addr_ne {s : St} {vals base} (hi : Inv s vals base) {a b : Handle} (ha : a ∈ s.map) (hb : b ∈ s.map)
    (hab : a ≠ b) (h1 : 0 < a.len) (h2 : 0 < b.len) : a.addr ≠ b.addr := by
  have key : ∀ x ∈ s.map, ∀ y ∈ s.map, x ≠ y → 0 < x.len → 0 < y.len → x.addr ≠ y.addr := by
    intro x hx y hy hxy
    have hp : s.map.Pairwise (fun a b => 0 < a.len → 0 < b.len → a.addr ≠ b.addr) :=
      hi.disj.imp (fun {a b} h h1 h2 => by have := h h1 h2; omega)
    have : Std.Symm (fun a b : Handle => 0 < a.len → 0 < b.len → a.addr ≠ b.addr) := ⟨fun a b h h1 h2 => (h h2 h1).symm⟩
    exact hp.forall hx hy hxy
  exact key a ha b hb hab h1 h2

variable (ar : Arena) (mem : Mem) (ranges : List (Nat × Nat)) (vs : List (List UInt8))

/-- C16 (dereferencing): after any sequence of intern calls, every handle returned along the way
dereferences to the value it was created from. -/
theorem interned_deref :
    List.Forall₂ (fun h v => h.deref (internAll ar (St.new mem ranges) vs).2.mem = v)
      (internAll ar (St.new mem ranges) vs).1 vs := by
  obtain ⟨_, _, _, _, f⟩ := run_inv ar ranges vs _ _ (Inv.new mem ranges)
  exact f.imp (fun _ _ h => h.2)

/-- C16: among the handles returned by any sequence of intern calls, two handles created from non-empty
values compare equal exactly if the values are equal. -/
theorem interned_eq_iff_partial (i j : Nat) (hi hj : Handle) (vi vj : List UInt8)
    (h1 : (internAll ar (St.new mem ranges) vs).1[i]? = some hi) (h2 : vs[i]? = some vi)
    (h3 : (internAll ar (St.new mem ranges) vs).1[j]? = some hj) (h4 : vs[j]? = some vj)
    (hne1 : vi ≠ []) (hne2 : vj ≠ []) : hi.eq hj = true ↔ vi = vj := by
  obtain ⟨vals, inv, _, _, f⟩ := run_inv ar ranges vs _ _ (Inv.new mem ranges)
  have g : ∀ (i : Nat) (h : Handle) (v : List UInt8), (internAll ar (St.new mem ranges) vs).1[i]? = some h →
      vs[i]? = some v → h ∈ (internAll ar (St.new mem ranges) vs).2.map ∧
        h.deref (internAll ar (St.new mem ranges) vs).2.mem = v := by
    intro i h v hh hv
    obtain ⟨hl, hh⟩ := List.getElem?_eq_some_iff.1 hh
    obtain ⟨hl', hv⟩ := List.getElem?_eq_some_iff.1 hv
    have := List.Forall₂.get f hl hl'
    simp only [List.get_eq_getElem] at this
    rw [hh, hv] at this; exact this
  obtain ⟨a1, a2⟩ := g i hi vi h1 h2
  obtain ⟨b1, b2⟩ := g j hj vj h3 h4
  constructor
  · intro he
    by_cases hh : hi = hj
    · rw [← a2, ← b2, hh]
    · exfalso
      have l1 := deref_length (internAll ar (St.new mem ranges) vs).2.mem hi
      have l2 := deref_length (internAll ar (St.new mem ranges) vs).2.mem hj
      rw [a2] at l1; rw [b2] at l2
      have p1 := List.length_pos_iff.2 hne1
      have p2 := List.length_pos_iff.2 hne2
      apply inv.addr_ne a1 b1 hh (by omega) (by omega)
      simpa [Handle.eq] using he
  · intro hv
    have : hi = hj := inv.inj a1 b1 (by rw [a2, b2, hv])
    simp [Handle.eq, this]

/-- C16: comparing the fat pointers (address and length) would be exact for every value, including the
empty one. -/
theorem interned_fat_eq_iff (i j : Nat) (hi hj : Handle) (vi vj : List UInt8)
    (h1 : (internAll ar (St.new mem ranges) vs).1[i]? = some hi) (h2 : vs[i]? = some vi)
    (h3 : (internAll ar (St.new mem ranges) vs).1[j]? = some hj) (h4 : vs[j]? = some vj) :
    hi = hj ↔ vi = vj := by
  obtain ⟨vals, inv, _, _, f⟩ := run_inv ar ranges vs _ _ (Inv.new mem ranges)
  have g : ∀ (i : Nat) (h : Handle) (v : List UInt8), (internAll ar (St.new mem ranges) vs).1[i]? = some h →
      vs[i]? = some v → h ∈ (internAll ar (St.new mem ranges) vs).2.map ∧
        h.deref (internAll ar (St.new mem ranges) vs).2.mem = v := by
    intro i h v hh hv
    obtain ⟨hl, hh⟩ := List.getElem?_eq_some_iff.1 hh
    obtain ⟨hl', hv⟩ := List.getElem?_eq_some_iff.1 hv
    have := List.Forall₂.get f hl hl'
    simp only [List.get_eq_getElem] at this
    rw [hh, hv] at this; exact this
  obtain ⟨a1, a2⟩ := g i hi vi h1 h2
  obtain ⟨b1, b2⟩ := g j hj vj h3 h4
  exact ⟨fun h => by rw [← a2, ← b2, h], fun h => inv.inj a1 b1 (by rw [a2, b2, h])⟩

/-- C17: the arena holds exactly one allocation per distinct value interned so far. -/
theorem interned_minimal :
    (internAll ar (St.new mem ranges) vs).2.ranges.length = vs.dedup.length + ranges.length := by
  obtain ⟨vals, inv, hs, _, _⟩ := run_inv ar ranges vs _ _ (Inv.new mem ranges)
  rw [inv.ranges]
  have h1 : (internAll ar (St.new mem ranges) vs).2.map.length = vals.length := by
    rw [← inv.map]; simp
  have h2 : vals.length = vs.dedup.length := by
    apply List.Perm.length_eq
    rw [List.perm_ext_iff_of_nodup inv.nodup (List.nodup_dedup vs)]
    intro a
    rw [hs]; simp
  simp [h1, h2]

/-- C17: re-interning a value, after any further calls, returns the earlier handle and changes nothing. -/
theorem intern_idempotent (i : Nat) (h : Handle) (v : List UInt8)
    (h1 : (internAll ar (St.new mem ranges) vs).1[i]? = some h) (h2 : vs[i]? = some v) :
    intern ar (internAll ar (St.new mem ranges) vs).2 v = (h, (internAll ar (St.new mem ranges) vs).2) := by
  obtain ⟨vals, inv, hs, _, f⟩ := run_inv ar ranges vs _ _ (Inv.new mem ranges)
  have g : h ∈ (internAll ar (St.new mem ranges) vs).2.map ∧
        h.deref (internAll ar (St.new mem ranges) vs).2.mem = v := by
    obtain ⟨hl, hh⟩ := List.getElem?_eq_some_iff.1 h1
    obtain ⟨hl', hv⟩ := List.getElem?_eq_some_iff.1 h2
    have := List.Forall₂.get f hl hl'
    simp only [List.get_eq_getElem] at this
    rw [hh, hv] at this; exact this
  have hv : v ∈ vals := (hs v).2 (.inr (List.mem_of_getElem? h2))
  obtain ⟨_, m1, d1, _, e1⟩ := inv.step (ar := ar) v
  have e1 := e1 hv
  rw [e1] at m1 d1
  have : (intern ar (internAll ar (St.new mem ranges) vs).2 v).1 = h := inv.inj m1 g.1 (d1.trans g.2.symm)
  rw [← this]
  exact Prod.ext rfl e1

/-- Old handles keep their values through any further intern calls. -/
theorem old_handles_stay_valid (more : List (List UInt8)) (h : Handle)
    (hh : h ∈ (internAll ar (St.new mem ranges) vs).2.map) :
    h.deref (internAll ar (internAll ar (St.new mem ranges) vs).2 more).2.mem =
      h.deref (internAll ar (St.new mem ranges) vs).2.mem := by
  obtain ⟨vals, inv, hs, _, f⟩ := run_inv ar ranges vs _ _ (Inv.new mem ranges)
  obtain ⟨_, _, _, o, _⟩ := run_inv ar ranges more _ _ inv
  exact (o h hh).2

/-! ### The empty value -/

theorem foldr_min_le (ranges : List (Nat × Nat)) (top : Nat) :
    ∀ r ∈ ranges, ranges.foldr (fun r a => min r.1 a) top ≤ r.1 := by
  induction ranges with
  | nil => simp
  | cons x xs ih =>
    intro r hr
    simp only [List.foldr_cons]
    rcases List.mem_cons.1 hr with rfl | hr
    · exact Nat.min_le_left _ _
    · exact Nat.le_trans (Nat.min_le_right _ _) (ih r hr)

theorem le_foldr_max (ranges : List (Nat × Nat)) (top : Nat) :
    ∀ r ∈ ranges, r.1 + r.2 ≤ ranges.foldr (fun r a => max (r.1 + r.2) a) top := by
  induction ranges with
  | nil => simp
  | cons x xs ih =>
    intro r hr
    simp only [List.foldr_cons]
    rcases List.mem_cons.1 hr with rfl | hr
    · exact Nat.le_max_left _ _
    · exact Nat.le_trans (ih r hr) (Nat.le_max_right _ _)

/-- The bump allocator is an arena. -/
def bump (top : Nat) : Arena where
  alloc := bumpDown top
  disjoint := by
    intro ranges n _ r hr _
    simp only [bumpDown]
    split
    · left
      have := foldr_min_le ranges top r hr
      omega
    · right; exact le_foldr_max ranges top r hr

/-- C16 is false for empty values: with bumpalo's bump allocator, interning "a" and then "" returns two
handles that compare equal although the values differ. -/
theorem empty_value_collides (top : Nat) (h : 1 ≤ top) (mem : Mem) :
    ∃ h1 h2, (internAll (bump top) (St.new mem []) [[97], []]).1 = [h1, h2] ∧ h1.eq h2 = true := by
  refine ⟨_, _, rfl, ?_⟩
  have hlen : ∀ (m : Mem) (a : Nat), (Handle.deref m ⟨a, 1⟩ == ([] : List UInt8)) = false := by
    intro m a; simp [Handle.deref, Mem.read]
  simp [internAll, intern, St.new, Handle.eq, bump, bumpDown, h, hlen]

/-- Non-vacuity: three intern calls, the third repeating the first. -/
example : (internAll (bump 100) (St.new (fun _ => 0) []) [[1, 2], [3], [1, 2]]).1 = [⟨98, 2⟩, ⟨97, 1⟩, ⟨98, 2⟩] := by
  decide

end Verif.Interner

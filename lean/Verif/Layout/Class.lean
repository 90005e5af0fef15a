import Verif.Layout.Union
/-
C58: every class laid out by the Itanium ABI, without empty fields. Thread-safe records. Examples, and where the claims fail.
-/
namespace Verif.Layout

theorem up_mod (n : Nat) {a : Nat} : a ∣ up n a := Nat.dvd_mul_left ..

theorem dvd8 {p u : Nat} : up p (8 * u) % 8 = 0 := by
  have h1 : 8 ∣ 8 * u := Nat.dvd_mul_right 8 u
  have h2 : (8 * u) ∣ up p (8 * u) := up_mod p
  exact Nat.mod_eq_zero_of_dvd (Nat.dvd_trans h1 h2)

theorem le_at {d : Decl} (h : d.ok) (pos : Nat) : pos ≤ (d.at pos).offset := by
  cases d with
  | field s a k =>
    have := up_le (bytes pos) a h.2
    simp only [Decl.at]; unfold bytes at this ⊢; omega
  | reuse s a =>
    have := up_le (bytes pos) a h.2
    simp only [Decl.at]; unfold bytes at this ⊢; omega
  | bits w u k n =>
    have := up_le pos (8 * u) (by have := h.1; have := h.2; omega)
    simp only [Decl.at]; split <;> omega

theorem at_lt_stop {d : Decl} (h : d.ok) (pos : Nat) : (d.at pos).offset + 1 ≤ d.stop pos := by
  cases d with
  | field s a k => have := h.1; simp only [Decl.stop, Decl.at]; omega
  | reuse s a => have := h.1; simp only [Decl.stop, Decl.at]; omega
  | bits w u k n => have := h.1; simp only [Decl.stop, Decl.at]; omega

theorem known_stop {d : Decl} (pos : Nat) (hk : (d.at pos).known.isSome = true) : d.stop pos = (d.at pos).offset + (d.at pos).size := by
  cases d with
  | field s a k => rfl
  | reuse s a => simp [Decl.at] at hk
  | bits w u k n => rfl

theorem at_size {d : Decl} (h : d.ok) (pos : Nat) : (d.at pos).size ≠ 0 := by
  cases d with
  | field s a k => have := h.1; simp only [Decl.at]; omega
  | reuse s a => have := h.1; have := up_le s a h.2; simp only [Decl.at]; omega
  | bits w u k n => have := h.1; simp only [Decl.at]; omega

theorem at_ok {d : Decl} (h : d.ok) (pos align : Nat) (ha : d.align ≤ align) : FieldOk align (d.at pos) := by
  cases d with
  | field s a k =>
    refine ⟨fun _ => by simp only [Decl.at]; omega, fun b hb _ => ?_⟩
    simp only [Decl.at] at hb ⊢
    split at hb
    · cases hb
      refine ⟨by omega, h.2, ha, ?_⟩
      rw [Nat.mul_div_cancel_left _ (by omega)]
      exact up_mod _
    · cases hb
  | reuse s a => exact ⟨fun _ => by simp only [Decl.at]; omega, fun b hb _ => by simp [Decl.at] at hb⟩
  | bits w u k n => exact ⟨fun h => by simp [Decl.at] at h, fun b _ h => by simp [Decl.at] at h⟩

theorem at_next {d e : Decl} (hd : d.ok) (he : e.ok) (pos : Nat) : Next (d.at pos) (e.at (d.stop pos)) := by
  have h1 := le_at he (d.stop pos)
  refine ⟨?_, ?_, ?_⟩
  · split
    · rename_i hk
      rw [known_stop pos hk] at h1 ⊢; exact h1
    · have := at_lt_stop hd pos; omega
  · intro hb
    have h8 : d.stop pos % 8 = 0 := by
      cases d with
      | field s a k => simp only [Decl.stop, Decl.at]; omega
      | reuse s a => simp only [Decl.stop]; omega
      | bits w u k n => simp [Decl.at] at hb
    cases e with
    | field s a k => simp only [Decl.at]; omega
    | reuse s a => simp only [Decl.at]; omega
    | bits w u k n =>
      simp only [Decl.at]
      split
      · exact dvd8
      · exact h8
  · intro a ha hb hk
    rw [← known_stop pos hk]
    cases e with
    | field s a' k =>
      simp only [Decl.at] at ha ⊢
      split at ha
      · cases ha; rfl
      · cases ha
    | reuse s a' => simp [Decl.at] at ha
    | bits w u k n => simp [Decl.at] at hb

theorem layout_pairs : ∀ (ds : List Decl) (pos : Nat), (∀ d ∈ ds, d.ok) → Pairs Next (layout pos ds).1 := by
  intro ds
  induction ds with
  | nil => intro _ _; trivial
  | cons d ds ih =>
    intro pos h
    cases ds with
    | nil => trivial
    | cons e ds => exact ⟨at_next (h d (by simp)) (h e (by simp)) pos, ih (d.stop pos) fun x hx => h x (by simp at hx ⊢; exact Or.inr hx)⟩

theorem layout_mem : ∀ (ds : List Decl) (pos : Nat), ∀ f ∈ (layout pos ds).1, ∃ d ∈ ds, ∃ p, f = d.at p := by
  intro ds
  induction ds with
  | nil => intro _ f hf; simp [layout] at hf
  | cons d ds ih =>
    intro pos f hf
    simp only [layout, List.mem_cons] at hf
    rcases hf with rfl | hf
    · exact ⟨d, by simp, pos, rfl⟩
    · obtain ⟨e, he, p, hp⟩ := ih _ f hf
      exact ⟨e, by simp [he], p, hp⟩

theorem layout_mem' : ∀ (ds : List Decl) (pos : Nat), ∀ d ∈ ds, ∃ p, d.at p ∈ (layout pos ds).1 := by
  intro ds
  induction ds with
  | nil => intro _ f hf; simp at hf
  | cons d ds ih =>
    intro pos f hf
    simp only [layout, List.mem_cons] at hf ⊢
    rcases hf with rfl | hf
    · exact ⟨pos, Or.inl rfl⟩
    · obtain ⟨p, hp⟩ := ih (d.stop pos) f hf
      exact ⟨p, Or.inr hp⟩

theorem layout_last : ∀ (ds : List Decl) (pos : Nat), (∀ d ∈ ds, d.ok) → ∀ f, (layout pos ds).1.getLast? = some f →
    f.offset + 1 ≤ (layout pos ds).2 ∧ (f.known.isSome = true → (layout pos ds).2 = f.offset + f.size) := by
  intro ds
  induction ds with
  | nil => intro _ _ f hf; simp [layout] at hf
  | cons d ds ih =>
    intro pos h f hf
    cases ds with
    | nil =>
      simp only [layout, List.getLast?_singleton, Option.some.injEq] at hf ⊢
      subst hf
      exact ⟨at_lt_stop (h d (by simp)) pos, known_stop pos⟩
    | cons e ds =>
      have hx := ih (d.stop pos) (fun x hx => h x (by simp at hx ⊢; exact Or.inr hx)) f
      rw [layout] at hf ⊢
      refine hx ?_
      simp only [layout, List.getLast?_cons_cons] at hf ⊢
      exact hf

theorem fold_ge (n : Nat) (ds : List Decl) : n ≤ ds.foldr (fun d a => max d.align a) n := by
  induction ds with
  | nil => exact Nat.le_refl _
  | cons d ds ih => simp only [List.foldr_cons]; omega

theorem fold_mem {d : Decl} (n : Nat) : ∀ (ds : List Decl), d ∈ ds → d.align ≤ ds.foldr (fun d a => max d.align a) n := by
  intro ds
  induction ds with
  | nil => intro h; simp at h
  | cons e ds ih =>
    intro h
    simp only [List.foldr_cons]
    rcases List.mem_cons.mp h with rfl | h
    · omega
    · have := ih h; omega

theorem fold_attained (n : Nat) : ∀ (ds : List Decl), ds.foldr (fun d a => max d.align a) n = n ∨ ∃ d ∈ ds, d.align = ds.foldr (fun d a => max d.align a) n := by
  intro ds
  induction ds with
  | nil => exact Or.inl rfl
  | cons d ds ih =>
    simp only [List.foldr_cons]
    by_cases h : ds.foldr (fun d a => max d.align a) n ≤ d.align
    · exact Or.inr ⟨d, by simp, by omega⟩
    · rw [Nat.max_eq_right (by omega)]
      rcases ih with h | ⟨e, he, h⟩
      · exact Or.inl h
      · exact Or.inr ⟨e, by simp [he], h⟩

theorem class_ok (c : Class) (h : c.Ok) : StructOk c.record c.record.fields := by
  obtain ⟨hd, hp, hplain⟩ := h
  have hpos : 0 < c.align := Nat.lt_of_lt_of_le hp (fold_ge _ _)
  refine ⟨?_, rfl, ?_, layout_pairs _ _ hd, ?_, ?_, ⟨hpos, up_mod _⟩, ?_⟩
  · symm
    rw [List.filter_eq_self]
    intro f hf
    obtain ⟨d, hd', p, rfl⟩ := layout_mem _ _ f hf
    simpa using at_size (hd d hd') p
  · intro f hf
    obtain ⟨d, hd', p, rfl⟩ := layout_mem _ _ f hf
    exact at_ok (hd d hd') p _ (fold_mem _ _ hd')
  · simp only [Class.record]
    cases hds : c.decls with
    | nil => trivial
    | cons d ds =>
      have hok := hd d (by rw [hds]; simp)
      simp only [layout, FirstOk]
      split
      · rename_i hk
        obtain ⟨a, ha⟩ := Option.isSome_iff_exists.mp hk.2
        have := ((at_ok hok (8 * c.base) _ (Nat.le_refl _)).known a ha hk.1).2.2.2
        have h8 := (at_ok hok (8 * c.base) _ (Nat.le_refl _)).byte hk.1
        refine ⟨a, ha, ?_⟩
        rw [up_dvd this]; omega
      · refine ⟨?_, trivial⟩
        cases d with
        | field s a k => simp only [Decl.at]; omega
        | reuse s a => simp only [Decl.at]; omega
        | bits w u k n =>
          simp only [Decl.at]
          split
          · exact dvd8
          · omega
  · intro f hf
    obtain ⟨l1, l2⟩ := layout_last c.decls (8 * c.base) hd f hf
    have hb : 1 ≤ bytes (layout (8 * c.base) c.decls).2 := by unfold bytes; omega
    simp only [Class.record]
    rw [Nat.max_eq_right hb]
    split
    · rename_i hk; rw [l2 hk]
    · have := up_le (bytes (layout (8 * c.base) c.decls).2) c.align hpos
      have : (layout (8 * c.base) c.decls).2 ≤ 8 * bytes (layout (8 * c.base) c.decls).2 := by unfold bytes; omega
      omega
  · intro ho hall
    obtain ⟨h1, h2⟩ := hplain ho
    cases hds : c.decls with
    | nil =>
      refine Or.inl ⟨?_, ?_⟩
      · simp [Class.record, hds, layout]
      · simp [Class.record, Class.align, hds, h2]
    | cons d ds =>
      refine Or.inr ?_
      have hex : ∃ e ∈ c.decls, e.align = c.align := by
        rcases fold_attained c.baseAlign c.decls with h | h
        · refine ⟨d, by rw [hds]; simp, ?_⟩
          have e1 : c.align = 1 := by unfold Class.align; rw [h, h2]
          have e2 : d.align ≤ c.align := fold_mem _ _ (by rw [hds]; simp)
          have e3 : 0 < d.align := by
            have := hd d (by rw [hds]; simp)
            cases d with
            | field s a k => exact this.2
            | reuse s a => exact this.2
            | bits w u k n =>
              have h1 := this.1; have h2 := this.2
              simp only [Decl.align]; split <;> omega
          omega
        · exact h
      obtain ⟨e, he, hea⟩ := hex
      obtain ⟨p, hm⟩ := layout_mem' c.decls (8 * c.base) e he
      refine ⟨e.at p, hm, ?_⟩
      obtain ⟨h1, h2⟩ := hall _ hm
      cases e with
      | field s a k =>
        simp only [Decl.at] at h2 ⊢
        split at h2
        · rename_i hk; rw [if_pos hk]; exact congrArg some hea
        · cases h2
      | reuse s a => simp [Decl.at] at h2
      | bits w u k n => simp [Decl.at] at h1

/-- C58: for every class without empty fields, laid out by the Itanium ABI, the Rust type has the layout of the C++ class. -/
theorem class_layout (c : Class) (h : c.Ok) :
    ∃ t, generate c.record = some t ∧ Matches c.record t ∧ fieldOffsets c.record = some (t.fieldsAt.map fun x => (x.1, x.2.1)) :=
  struct_layout _ _ (class_ok c h) rfl

theorem generate_threadSafe (r : Record) (t : RustType) (h : generate { r with threadSafe := false } = some t) :
    generate { r with threadSafe := true } = some ⟨[⟨.nonField, r.size, 1⟩], if r.align > 1 then some r.align else none, r.union⟩ := by
  unfold generate at h ⊢
  cases hd : definitions r.union r.size none (bounds { r with threadSafe := false }) with
  | none => simp [hd] at h
  | some ms =>
    have : bounds { r with threadSafe := true } = bounds { r with threadSafe := false } := rfl
    simp [this, hd]

/-- C58: if the type could be generated, it could be generated for the same record with `CRUBIT_THREAD_SAFE`, with the size and alignment
of the record and without members for fields. -/
theorem threadSafe_layout (r : Record) (t : RustType) (h : generate { r with threadSafe := false } = some t) (hp : 0 < r.align) (hd : r.align ∣ r.size) :
    ∃ t', generate { r with threadSafe := true } = some t' ∧ t'.sizeOf = r.size ∧ t'.alignOf = r.align ∧ t'.fieldsAt = [] := by
  refine ⟨_, generate_threadSafe r t h, ?_⟩
  have ha : RustType.alignOf ⟨[⟨.nonField, r.size, 1⟩], if r.align > 1 then some r.align else none, r.union⟩ = r.align := by
    unfold RustType.alignOf
    simp only [maxAlign, List.foldr_cons, List.foldr_nil]
    split <;> simp <;> omega
  refine ⟨?_, ha, ?_⟩
  · unfold RustType.sizeOf
    rw [ha]
    cases r.union
    · simp only [Bool.false_eq_true, if_false, place, up_one, Nat.zero_add]; exact up_dvd hd
    · simp only [if_true, maxSize, List.foldr_cons, List.foldr_nil]; rw [Nat.max_eq_left (by omega)]; exact up_dvd hd
  · unfold RustType.fieldsAt RustType.offsets
    cases r.union <;> rfl

/-! ### Examples -/

/-- `struct D : B { int a : 3; int b : 7; Opaque o; int c; [[no_unique_address]] T t; char d; long : 40; };` -/
def exClass : Class where
  base := 5
  baseAlign := 4
  override := true
  decls := [.bits 3 4 true true, .bits 7 4 true true, .field 12 4 false, .field 4 4 true, .reuse 5 4, .field 1 1 true, .bits 40 8 true false]
  aggregate := false

theorem exClass_ok : exClass.Ok := ⟨by simp [exClass, Decl.ok], by decide, by simp [exClass]⟩

/-- The layout of the class, and the members of its Rust type. -/
example : exClass.record.fields.map (fun f => (f.offset, f.size)) =
    [(40, 3), (43, 7), (64, 96), (160, 32), (192, 64), (232, 8), (256, 40)] ∧ exClass.record.size = 40 ∧ exClass.record.align = 4 := by decide

example : (generate exClass.record).map (fun t => (t.offsets.map (fun x => (x.2, x.1.size, x.1.align)), t.sizeOf, t.alignOf)) =
    some ([(0, 5, 1), (5, 2, 1), (7, 1, 1), (8, 12, 1), (20, 4, 4), (24, 5, 1), (29, 1, 1), (30, 2, 1), (32, 5, 1)], 40, 4) := by decide

/-- `struct { char a; long b; short c; };`: no attribute is needed. -/
example : (generate (Class.record ⟨0, 1, false, [.field 1 1 true, .field 8 8 true, .field 2 2 true], true⟩)).map
    (fun t => (t.offsets.map (·.2), t.align, t.sizeOf)) = some ([0, 8, 16], none, 24) := by decide

/-- `union { int a; int b : 5; Opaque c; double d; };` -/
def exUnion : Record := ⟨[⟨0, 32, false, some 4⟩, ⟨0, 5, true, some 4⟩, ⟨0, 96, false, none⟩, ⟨0, 64, false, some 8⟩], 16, 8, true, false, true, false⟩

theorem exUnion_ok : UnionOk exUnion := by
  refine ⟨rfl, by decide, ?_, by decide, by decide, by decide, ?_⟩
  · intro f hf hb a ha
    simp only [exUnion, List.mem_cons, List.not_mem_nil, or_false] at hf
    rcases hf with rfl | rfl | rfl | rfl <;> first | (cases hb; done) | (cases ha; done) | (cases ha; decide)
  · intro _ _; exact Or.inr ⟨⟨0, 64, false, some 8⟩, by decide⟩

example : (generate exUnion).map (fun t => (t.offsets.map (fun x => (x.2, x.1.size)), t.sizeOf, t.alignOf)) =
    some ([(0, 4), (0, 1), (0, 12), (0, 8)], 16, 8) := by decide

/-! ### Where the generated type has another layout (the generated assertions fail when the bindings are compiled) -/

/-- `struct E {}; struct D : B { [[no_unique_address]] E e; int c; };` with `B` of 4 bytes: `e` is at offset 0, so no space is left for the base. -/
theorem empty_first_field : let r : Record := ⟨[⟨0, 0, false, none⟩, ⟨32, 32, false, some 4⟩], 8, 4, false, true, false, false⟩
    (generate r).map (fun t => (t.sizeOf, t.fieldsAt.map (·.2.1))) = some (4, [0]) := by decide

/-- `struct S { [[no_unique_address]] E e; };`: the Rust type has no bytes. -/
theorem only_empty_fields : let r : Record := ⟨[⟨0, 0, false, none⟩], 1, 1, false, false, true, false⟩
    (generate r).map (·.sizeOf) = some 0 := by decide

/-- `struct alignas(8) E {}; struct S { [[no_unique_address]] E e; int c; };`: the alignment is lost. -/
theorem empty_aligned_field : let r : Record := ⟨[⟨0, 0, false, none⟩, ⟨0, 32, false, some 4⟩], 8, 8, false, false, true, false⟩
    (generate r).map (fun t => (t.sizeOf, t.alignOf)) = some (4, 4) := by decide

/-- `struct S { char c; int : 0; char d; };`: `d` is at offset 4 in C++. -/
theorem zero_width_bitfield : let r : Record := ⟨[⟨0, 8, false, some 1⟩, ⟨32, 0, true, some 4⟩, ⟨32, 8, false, some 1⟩], 5, 1, false, false, true, false⟩
    (generate r).map (fun t => (t.sizeOf, t.fieldsAt.map (·.2.1))) = some (2, [0, 1]) := by decide

/-- `union { int : 20; char c : 3; };`: the wider bitfield is forgotten. -/
theorem union_bitfields : let r : Record := ⟨[⟨0, 20, true, some 4⟩, ⟨0, 3, true, some 1⟩], 3, 1, true, false, true, false⟩
    (generate r).map (·.sizeOf) = some 1 := by decide

end Verif.Layout

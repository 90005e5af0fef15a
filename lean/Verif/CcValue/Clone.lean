import Verif.CcValue.Drop
import Mathlib.Tactic.Tauto
/-
C133: `Copy` and `Clone` do what the copy constructor does.
-/
namespace Verif.CcValue

mutual
/-- No class (of the object or of a part of it) has a copy constructor that takes a reference which
is not `const`. -/
def Cls.sane : Cls → Bool
  | .mk d subs => decide (d.copies.length ≤ 1) && d.copies.all (·.const) && subs.sane
def Subs.sane : Subs → Bool
  | .nil => true
  | .scalar _ _ rest => rest.sane
  | .obj _ c rest => c.sane && rest.sane
end

theorem Cls.sane_mk {d : ClassInfo} {subs : Subs} (h : Cls.sane (.mk d subs) = true) :
    (d.copies = [] ∨ ∃ e, d.copies = [e] ∧ e.const = true) ∧ subs.sane = true := by
  simp only [Cls.sane, Bool.and_eq_true, decide_eq_true_eq] at h
  refine ⟨?_, h.2⟩
  match hd : d.copies with
  | [] => exact .inl rfl
  | [e] =>
    right
    rw [hd] at h
    exact ⟨e, rfl, by simpa using h.1.2⟩
  | _ :: _ :: _ =>
    rw [hd] at h
    simp at h

mutual
theorem Cls.sane_constCopy (c : Cls) (h : c.sane = true) : c.constCopy = true := by
  match c with
  | .mk d subs =>
    obtain ⟨h1, h2⟩ := Cls.sane_mk h
    rcases h1 with h1 | ⟨e, h1, h3⟩
    · simp [Cls.constCopy, h1, Subs.sane_constCopy subs h2]
    · simp [Cls.constCopy, h1, h3]
theorem Subs.sane_constCopy (s : Subs) (h : s.sane = true) : s.constCopy = true := by
  match s with
  | .nil => simp [Subs.constCopy]
  | .scalar _ _ rest =>
    simp only [Subs.sane] at h
    simp [Subs.constCopy, Subs.sane_constCopy rest h]
  | .obj _ c rest =>
    simp only [Subs.sane, Bool.and_eq_true] at h
    simp [Subs.constCopy, Cls.sane_constCopy c h.1, Subs.sane_constCopy rest h.2]
end

theorem selectCopy_one (e : CopyDecl) (he : e.const = true) (src : Bool) :
    selectCopy [e] src = some e := by
  cases src <;> simp [selectCopy, he]

/-- It does not matter whether the source is `const`. -/
theorem Cls.sane_copyKind (c : Cls) (h : c.sane = true) (src : Bool) :
    c.copyKind src = c.copyKind true := by
  cases c with
  | mk d subs =>
    obtain ⟨h1, h2⟩ := Cls.sane_mk h
    have hc := Subs.sane_constCopy subs h2
    rcases h1 with h1 | ⟨e, h1, h3⟩
    · simp [Cls.copyKind, h1, hc]
    · simp [Cls.copyKind, h1, selectCopy_one e h3]

theorem Cls.sane_copyAccess (c : Cls) (h : c.sane = true) (src : Bool) :
    c.copyAccess src = c.copyAccess true := by
  cases c with
  | mk d subs =>
    obtain ⟨h1, _⟩ := Cls.sane_mk h
    rcases h1 with h1 | ⟨e, h1, h3⟩
    · cases src <;> simp [Cls.copyAccess, Cls.info, h1, selectCopy]
    · simp [Cls.copyAccess, Cls.info, h1, selectCopy_one e h3]

/-- The constructor that crubit looks at is the one that copies. -/
theorem Cls.sane_first (c : Cls) (h : c.sane = true) :
    c.firstCopyKind = c.copyKind true ∧
      (c.info.firstCopy.map (·.access)).getD .pub = c.copyAccess true := by
  cases c with
  | mk d subs =>
    obtain ⟨h1, h2⟩ := Cls.sane_mk h
    have hc := Subs.sane_constCopy subs h2
    rcases h1 with h1 | ⟨e, h1, h3⟩
    · constructor
      · simp [Cls.firstCopyKind, Cls.info, ClassInfo.firstCopy, h1, Cls.subs, hc]
      · simp [Cls.info, ClassInfo.firstCopy, h1, Cls.copyAccess, selectCopy]
    · constructor
      · simp only [Cls.firstCopyKind, Cls.info, ClassInfo.firstCopy, h1, Cls.subs, Cls.copyKind,
          selectCopy_one e h3, Cls.copyVirt, List.head?_cons, List.isEmpty_cons]
        cases e.how <;> simp
      · simp [Cls.info, ClassInfo.firstCopy, h1, Cls.copyAccess, selectCopy_one e h3]

theorem classify_trivial {a : Access} {f : Bool} {k : Kind} {n : Bool} :
    classify a f k n = .trivial ↔ a = .pub ∧ f = false ∧ k = .trivial := by
  cases a <;> cases f <;> cases k <;> cases n <;> simp [classify]

theorem classify_unavailable {a : Access} {f : Bool} {k : Kind} {n : Bool} :
    classify a f k n = .unavailable ↔ a ≠ .pub ∨ f = true ∨ k = .deleted := by
  cases a <;> cases f <;> cases k <;> cases n <;> simp [classify]

theorem Cls.copySpecial_trivial (c : Cls) (h : c.sane = true) :
    c.copySpecial = .trivial ↔
      c.copyAccess true = .pub ∧ c.info.copyFails = false ∧ c.copyKind true = .trivial := by
  rw [Cls.copySpecial, classify_trivial, (c.sane_first h).1, (c.sane_first h).2]

theorem Cls.dtorSpecial_trivial (c : Cls) :
    c.dtorSpecial = .trivial ↔ c.dtorAccess = .pub ∧ c.dtorKind = .trivial := by
  rw [Cls.dtorSpecial, classify_trivial]
  simp

theorem Cls.checkByValue_iff (c : Cls) :
    c.checkByValue = true ↔ c.destructible ∧ c.info.isAbstract = false := by
  have h : c.dtorSpecial = .unavailable ↔ c.dtorAccess ≠ .pub ∨ c.dtorKind = .deleted := by
    rw [Cls.dtorSpecial, classify_unavailable]
    simp
  simp only [Cls.checkByValue, Bool.and_eq_true, bne_iff_ne, ne_eq, Bool.not_eq_true', h,
    Cls.destructible, not_or, not_not]
  tauto

/-! ### Trivial copy constructors -/

theorem Cls.copyKind_trivial {d : ClassInfo} {subs : Subs}
    (h : Cls.copyKind (.mk d subs) true = .trivial) :
    ∃ src, subs.copyBad src = false ∧ subs.copyNontriv src = false ∧ subs.dtorBad = false := by
  simp only [Cls.copyKind] at h
  split at h
  · split at h
    · cases h
    · have := defaultKind_trivial.mp h
      simp only [Bool.or_eq_false_iff] at this
      exact ⟨_, this.2.1.1, this.2.2, this.2.1.2⟩
  · split at h
    · cases h
    · split at h
      · cases h
      · cases h
      · have := defaultKind_trivial.mp h
        simp only [Bool.or_eq_false_iff] at this
        exact ⟨_, this.2.1.1, this.2.2, this.2.1.2⟩

theorem Subs.copy_obj_trivial {i : SubInfo} {c : Cls} {rest : Subs} {src : Bool}
    (h1 : Subs.copyBad (.obj i c rest) src = false)
    (h2 : Subs.copyNontriv (.obj i c rest) src = false) :
    c.copyKind (src && !i.isMutable) = .trivial ∧
      accessOk i (c.copyAccess (src && !i.isMutable)) = true ∧
      rest.copyBad src = false ∧ rest.copyNontriv src = false := by
  simp only [Subs.copyBad, Subs.copyNontriv, Bool.or_eq_false_iff, beq_eq_false_iff_ne, ne_eq,
    Bool.not_eq_false'] at h1 h2
  refine ⟨?_, h1.1.2, h1.2, h2.2⟩
  cases hk : c.copyKind (src && !i.isMutable)
  · exact absurd hk h1.1.1
  · rfl
  · exact absurd hk h2.1

theorem Cls.copy_trivial (c : Cls) (src : Bool) (p : Path) (h : c.copyKind src = .trivial) :
    c.copy src p = [] := by
  cases c with
  | mk d subs => simp [Cls.copy, h]

theorem fieldTy_clone (r : RecInfo) (i : SubInfo) (copy : Bool) (t : RTy) (p : Path)
    (h : t.clone p = []) : (fieldTy r i copy t).clone p = [] := by
  rcases fieldTy_cases r i copy t with e | e | e | e | e <;> rw [e] <;> simp [RTy.clone, h]

mutual
/-- Where C++ copies bytes, `clone` copies bytes. -/
theorem Cls.gen_clone_trivial (c : Cls) (p : Path) (hs : c.sane = true)
    (h : c.copyKind true = .trivial) : c.gen.clone p = [] := by
  match c with
  | .mk d subs =>
    obtain ⟨src, h1, h2, _⟩ := Cls.copyKind_trivial h
    have hf := fun r n => Subs.gen_clone_trivial subs r n p src (Cls.sane_mk hs).2 h1 h2
    simp only [Cls.gen, Adt.clone]
    split
    · rfl
    · split
      · by_cases ht : d.threadSafe = true <;> by_cases hp : d.headPadding = true <;>
          simp [ht, hp, RFields.clone, RTy.clone, hf]
      · cases (Cls.mk d subs).implClone
        · simp
        · simp [Cls.copy_trivial _ _ _ h]
theorem Subs.gen_clone_trivial (s : Subs) (r : RecInfo) (n : Nat) (p : Path) (src : Bool)
    (hs : s.sane = true) (h1 : s.copyBad src = false) (h2 : s.copyNontriv src = false) :
    (s.gen r n).clone p = [] := by
  match s with
  | .nil => simp [Subs.gen, RFields.clone]
  | .scalar i m rest =>
    simp only [Subs.sane, Subs.copyBad, Subs.copyNontriv] at hs h1 h2
    simp only [Subs.gen, RFields.clone, Subs.gen_clone_trivial rest r (n + 1) p src hs h1 h2,
      List.append_nil]
    exact fieldTy_clone _ _ _ _ _ (by simp [RTy.clone])
  | .obj i c rest =>
    obtain ⟨h3, _, h4, h5⟩ := Subs.copy_obj_trivial h1 h2
    simp only [Subs.sane, Bool.and_eq_true] at hs
    simp only [Subs.gen, RFields.clone, Subs.gen_clone_trivial rest r (n + 1) p src hs.2 h4 h5,
      List.append_nil]
    rw [c.sane_copyKind hs.1] at h3
    exact fieldTy_clone _ _ _ _ _ (by simp [RTy.clone, Cls.gen_clone_trivial c _ hs.1 h3])
end

/-! ### The statements -/

/-- No annotation forces the derivation of `Copy` or `Clone`. -/
def Cls.notForced (c : Cls) : Prop := c.info.deriveCopy ≠ .pos ∧ c.info.deriveClone ≠ .pos

theorem Cls.shouldDeriveCopy_iff (c : Cls) (hs : c.sane = true) (hf : c.notForced) :
    c.shouldDeriveCopy = true ↔
      c.info.threadSafe = false ∧ c.info.deriveCopy = .unset ∧ c.info.inRegs = true ∧
      (c.copyAccess true = .pub ∧ c.info.copyFails = false ∧ c.copyKind true = .trivial) ∧
      (c.dtorAccess = .pub ∧ c.dtorKind = .trivial) ∧ c.info.isAbstract = false ∧
      c.info.deriveClone ≠ .neg ∧ c.subs.noMutableField = true := by
  have h1 := hf.1
  unfold Cls.shouldDeriveCopy
  cases c.info.threadSafe
  · cases hd : c.info.deriveCopy
    · simp only [Bool.false_eq_true, if_false, Bool.and_eq_true, beq_iff_eq, bne_iff_ne,
        c.copySpecial_trivial hs, c.dtorSpecial_trivial, c.checkByValue_iff, Cls.destructible,
        Cls.isUnpin]
      constructor
      · rintro ⟨⟨⟨⟨⟨a, b⟩, e⟩, f⟩, g⟩, k⟩
        exact ⟨trivial, trivial, a, b, e, f.2, g, k⟩
      · rintro ⟨_, _, a, b, e, f, g, k⟩
        refine ⟨⟨⟨⟨⟨a, b⟩, e⟩, ⟨⟨?_, e.1⟩, f⟩⟩, g⟩, k⟩
        rw [e.2]
        simp
    · exact absurd hd h1
    · simp
  · simp

theorem Cls.shouldDeriveClone_spec (c : Cls) (hs : c.sane = true) (hf : c.notForced)
    (h : c.shouldDeriveClone = true) : c.copyAccess true = .pub ∧ c.copyKind true = .trivial := by
  unfold Cls.shouldDeriveClone at h
  split at h
  · cases h
  · split at h
    · next hc => exact absurd hc hf.2
    · cases h
    · split at h
      · have := (c.shouldDeriveCopy_iff hs hf).mp h
        exact ⟨this.2.2.2.1.1, this.2.2.2.1.2.2⟩
      · simp only [Bool.and_eq_true, beq_iff_eq, c.copySpecial_trivial hs] at h
        exact ⟨h.1.2.1, h.1.2.2.2⟩

/-- **C133.** If the Rust type is `Clone`, then anybody may copy objects of the C++ class, and
`clone()` runs exactly the copy constructor bodies that the copy in C++ runs, for the same subobjects
and in the same order. -/
theorem clone_is_copy (c : Cls) (p : Path) (hs : c.sane = true) (hf : c.notForced)
    (h : c.gen.isClone = true ∨ c.gen.isCopy = true) :
    c.copyable ∧ c.gen.clone p = c.copy true p := by
  have key : c.copyAccess true = .pub ∧ c.copyKind true = .trivial →
      c.copyable ∧ c.gen.clone p = c.copy true p := by
    rintro ⟨h1, h2⟩
    refine ⟨⟨by rw [h2]; simp, h1⟩, ?_⟩
    rw [c.gen_clone_trivial p hs h2, c.copy_trivial _ _ h2]
  by_cases hc : c.shouldDeriveCopy = true
  · have := (c.shouldDeriveCopy_iff hs hf).mp hc
    exact key ⟨this.2.2.2.1.1, this.2.2.2.1.2.2⟩
  · by_cases hl : c.shouldDeriveClone = true
    · exact key (c.shouldDeriveClone_spec hs hf hl)
    · rw [Cls.gen_isCopy] at h
      have hi : c.implClone = true := by
        rcases h with h | h
        · cases c with
          | mk d subs =>
            simp only [Cls.gen, Adt.isClone, Bool.or_eq_true] at h
            rcases h with h | h
            · exact absurd h hl
            · by_cases hi : (Cls.mk d subs).implClone = true
              · exact hi
              · simp [hi] at h
        · exact absurd h hc
      have h2 := hi
      simp only [Cls.implClone, Bool.and_eq_true, bne_iff_ne, ne_eq, beq_iff_eq] at h2
      obtain ⟨⟨⟨⟨⟨⟨ha, _⟩, hk⟩, _⟩, _⟩, _⟩, _⟩ := h2
      refine ⟨⟨hk, ha⟩, ?_⟩
      cases c with
      | mk d subs => simp [Cls.gen, Adt.clone, hc, hl, hi]

/-- **C133.** If the Rust type is `Copy`, then copying in C++ is copying bytes, anybody may do it, and
no destructor does anything: it does not matter how many copies there are. -/
theorem copy_is_bitwise (c : Cls) (hs : c.sane = true) (hf : c.notForced) (h : c.gen.isCopy = true) :
    c.copyable ∧ c.destructible ∧ (∀ p, c.copy true p = []) ∧ (∀ p, c.destroy p = []) ∧
      (∀ p, c.gen.drop p = []) := by
  rw [Cls.gen_isCopy, c.shouldDeriveCopy_iff hs hf] at h
  obtain ⟨_, _, _, ⟨h1, _, h2⟩, ⟨h3, h4⟩, _⟩ := h
  exact ⟨⟨by rw [h2]; simp, h1⟩, ⟨by rw [h4]; simp, h3⟩, fun p => c.copy_trivial _ _ h2,
    fun p => c.destroy_trivial p h4, fun p => c.gen_drop_trivial p h4⟩

theorem noMutableField_iff : ∀ s : Subs, s.noMutableField = true ↔ ∀ i ∈ s.fieldInfos, i.isMutable = false
  | .nil => by simp [Subs.noMutableField, Subs.fieldInfos]
  | .scalar i _ rest => by simp [Subs.noMutableField, Subs.fieldInfos, noMutableField_iff rest]
  | .obj i _ rest => by
    simp only [Subs.noMutableField, Subs.fieldInfos, Bool.and_eq_true, noMutableField_iff rest]
    cases i.isBase <;> simp

/-- **C133.** Which classes are `Copy`: those that Rust may move, and that C++ copies as bytes and
destroys without doing anything; annotations, `mutable` fields and thread safety can only prevent
it. -/
theorem copy_iff (c : Cls) (hs : c.sane = true) (hf : c.notForced) (hfails : c.info.copyFails = false) :
    c.gen.isCopy = true ↔
      c.info.inRegs = true ∧ c.info.isAbstract = false ∧
      c.copyable ∧ c.copyKind true = .trivial ∧ c.destructible ∧ c.dtorKind = .trivial ∧
      c.info.threadSafe = false ∧ c.info.deriveCopy ≠ .neg ∧ c.info.deriveClone ≠ .neg ∧
      ∀ i ∈ c.subs.fieldInfos, i.isMutable = false := by
  rw [Cls.gen_isCopy, c.shouldDeriveCopy_iff hs hf, noMutableField_iff]
  constructor
  · rintro ⟨h1, h2, h3, ⟨h4, _, h5⟩, ⟨h6, h7⟩, h8, h9, h10⟩
    refine ⟨h3, h8, ⟨by rw [h5]; simp, h4⟩, h5, ⟨by rw [h7]; simp, h6⟩, h7, h1, by rw [h2]; simp, h9, h10⟩
  · rintro ⟨h3, h8, ⟨_, h4⟩, h5, ⟨_, h6⟩, h7, h1, h2, h9, h10⟩
    refine ⟨h1, ?_, h3, ⟨h4, hfails, h5⟩, ⟨h6, h7⟩, h8, h9, h10⟩
    have := hf.1
    cases hd : c.info.deriveCopy
    · rfl
    · exact absurd hd this
    · exact absurd hd h2

/-- **C133.** Every class that Rust may move and that anybody can copy and destroy in C++ is `Clone`
in Rust. -/
theorem clone_exists (c : Cls) (hu : c.info.inRegs = true) (hc : c.copyable) (hd : c.destructible)
    (ha : c.info.isAbstract = false) (hfails : c.info.copyFails = false)
    (hr : c.info.copyParamIsRef = true) : c.gen.isClone = true := by
  have hi : c.shouldDeriveClone = true ∨ c.implClone = true := by
    by_cases hl : c.shouldDeriveClone = true
    · exact .inl hl
    · right
      simp [Cls.implClone, hc.1, hc.2, hfails, c.checkByValue_iff.mpr ⟨hd, ha⟩, Cls.isUnpin, hu, hr, hl]
  cases c with
  | mk d subs =>
    rcases hi with hi | hi <;> simp [Cls.gen, Adt.isClone, hi]

end Verif.CcValue

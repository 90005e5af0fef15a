import Verif.CcValue.Program
/-
C135: for which classes the Rust compiler accepts the generated definition, and C136: which of the
generated types are `Unpin`.
-/
namespace Verif.CcValue

/-- `derive` annotations, thread safety, odd or hidden special members: nothing of the kind. -/
def ClassInfo.plain (d : ClassInfo) : Bool :=
  !d.threadSafe && d.deriveCopy == .unset && d.deriveClone == .unset &&
    decide (d.copies.length ≤ 1) && d.copies.all (fun e => e.const && e.access == .pub) &&
    ((d.dtor.map (·.access)).getD .pub == .pub) && !d.copyFails && d.copyParamIsRef

/-- The type of the field is one that crubit knows how to write. -/
def SubInfo.visible (i : SubInfo) : Bool :=
  !i.isBase && !i.bitfield && !i.noUniqueAddress && !i.unsupported && i.access == .pub &&
    i.array.isNone

mutual
/-- A class without surprises: see `ClassInfo.plain`; no `mutable` fields and no mutable references;
fields are of classes that are plain as well, not abstract, and that Rust may move if it may move the
class; and every field of a union is visible. -/
def Cls.plain : Cls → Bool
  | .mk d subs =>
    d.plain && subs.plain d.inRegs && (!d.isUnion || (!d.headPadding && subs.visible))
def Subs.plain : Subs → Bool → Bool
  | .nil, _ => true
  | .scalar i mutRef rest, r => !i.isMutable && !mutRef && rest.plain r
  | .obj i c rest, r =>
    !i.isMutable && c.plain && !(c.info.isAbstract && !i.isBase) &&
      (!r || i.isBase || c.info.inRegs) && rest.plain r
def Subs.visible : Subs → Bool
  | .nil => true
  | .scalar i _ rest => i.visible && rest.visible
  | .obj i _ rest => i.visible && rest.visible
end

/-- The special members of a plain class are public, and the class and its parts have at most one
copy constructor each. -/
theorem ClassInfo.plain_iff (d : ClassInfo) :
    d.plain = true ↔ d.threadSafe = false ∧ d.deriveCopy = .unset ∧ d.deriveClone = .unset ∧
      d.copies.length ≤ 1 ∧ (∀ e ∈ d.copies, e.const = true ∧ e.access = .pub) ∧
      (d.dtor.map (·.access)).getD .pub = .pub ∧ d.copyFails = false ∧ d.copyParamIsRef = true := by
  simp only [ClassInfo.plain, Bool.and_eq_true, Bool.not_eq_true', beq_iff_eq, decide_eq_true_eq,
    List.all_eq_true]
  tauto

mutual
theorem Cls.plain_sane (c : Cls) (h : c.plain = true) : c.sane = true := by
  match c with
  | .mk d subs =>
    simp only [Cls.plain, Bool.and_eq_true] at h
    obtain ⟨_, _, _, h1, h2, _⟩ := d.plain_iff.mp h.1.1
    simp only [Cls.sane, Bool.and_eq_true, decide_eq_true_eq, List.all_eq_true]
    exact ⟨⟨h1, fun e he => (h2 e he).1⟩, Subs.plain_sane subs _ h.1.2⟩
theorem Subs.plain_sane (s : Subs) (r : Bool) (h : s.plain r = true) : s.sane = true := by
  match s with
  | .nil => simp [Subs.sane]
  | .scalar _ _ rest =>
    simp only [Subs.plain, Bool.and_eq_true] at h
    simp [Subs.sane, Subs.plain_sane rest r h.2]
  | .obj _ c rest =>
    simp only [Subs.plain, Bool.and_eq_true] at h
    simp [Subs.sane, Cls.plain_sane c h.1.1.1.2, Subs.plain_sane rest r h.2]
end

theorem Cls.plain_info {c : Cls} (h : c.plain = true) : c.info.plain = true := by
  cases c with
  | mk d subs =>
    simp only [Cls.plain, Bool.and_eq_true] at h
    exact h.1.1

theorem Cls.plain_copyAccess {c : Cls} (h : c.plain = true) : c.copyAccess true = .pub := by
  obtain ⟨_, _, _, _, h2, _⟩ := c.info.plain_iff.mp (Cls.plain_info h)
  unfold Cls.copyAccess
  cases hs : selectCopy c.info.copies true with
  | none => rfl
  | some e =>
    simp only [selectCopy, if_true] at hs
    exact (h2 e (List.mem_of_find?_eq_some hs)).2

theorem Subs.plain_noMutable (s : Subs) (r : Bool) (h : s.plain r = true) : s.noMutableField = true := by
  match s with
  | .nil => rfl
  | .scalar _ _ rest =>
    simp only [Subs.plain, Bool.and_eq_true] at h
    simp [Subs.noMutableField, Subs.plain_noMutable rest r h.2, h.1.1]
  | .obj _ c rest =>
    simp only [Subs.plain, Bool.and_eq_true] at h
    have := h.1.1.1.1
    simp only [Bool.not_eq_true'] at this
    simp [Subs.noMutableField, Subs.plain_noMutable rest r h.2, this]

theorem Cls.plain_notForced {c : Cls} (h : c.plain = true) : c.notForced := by
  obtain ⟨_, h1, h2, _⟩ := c.info.plain_iff.mp (Cls.plain_info h)
  exact ⟨by rw [h1]; simp, by rw [h2]; simp⟩

/-- A plain class with trivial special members is `Copy`. -/
theorem Cls.plain_copy {c : Cls} (h : c.plain = true) (hr : c.info.inRegs = true)
    (ha : c.info.isAbstract = false) (hc : c.copyKind true = .trivial) (hd : c.dtorKind = .trivial) :
    c.shouldDeriveCopy = true := by
  have hi := Cls.plain_info h
  obtain ⟨h1, h2, h3, _, _, h6, h7, _⟩ := c.info.plain_iff.mp hi
  rw [c.shouldDeriveCopy_iff (c.plain_sane h) (Cls.plain_notForced h)]
  refine ⟨h1, h2, hr, ⟨Cls.plain_copyAccess h, h7, hc⟩, ⟨h6, hd⟩, ha, by rw [h3]; simp, ?_⟩
  cases c with
  | mk d subs =>
    simp only [Cls.plain, Bool.and_eq_true] at h
    exact Subs.plain_noMutable subs _ h.1.2

theorem fieldTy_plain {r : RecInfo} {i : SubInfo} {copy : Bool} {t : RTy} (hm : i.isMutable = false) :
    fieldTy r i copy t = .bytes r.cellBytes ∨ (i.isBase = false ∧ (fieldTy r i copy t = .mdrop t ∨
      fieldTy r i copy t = t)) := by
  unfold fieldTy
  split
  · exact .inl rfl
  · next h =>
    right
    simp only [Bool.or_eq_true, not_or, Bool.not_eq_true] at h
    refine ⟨h.1.1, ?_⟩
    simp only [hm, Bool.false_eq_true, if_false]
    split
    · exact .inl rfl
    · exact .inr rfl

/-- In a plain record that is copied as bytes and has a trivial destructor every field is `Copy`. -/
theorem Subs.plain_allCopy (s : Subs) (r : RecInfo) (n : Nat) (hp : s.plain true = true)
    (src : Bool) (h1 : s.copyBad src = false) (h2 : s.copyNontriv src = false)
    (h3 : s.dtorBad = false) (h4 : s.dtorNontriv = false) (hr : r.cellBytes = false) :
    (s.gen r n).all RTy.isCopy = true := by
  match s with
  | .nil => simp [Subs.gen, RFields.all]
  | .scalar i m rest =>
    simp only [Subs.plain, Bool.and_eq_true, Bool.not_eq_true'] at hp
    simp only [Subs.copyBad, Subs.copyNontriv, Subs.dtorBad, Subs.dtorNontriv] at h1 h2 h3 h4
    simp only [Subs.gen, RFields.all, Subs.plain_allCopy rest r (n + 1) hp.2 src h1 h2 h3 h4 hr,
      Bool.and_true]
    rcases fieldTy_plain (r := r) (copy := !m) (t := .plain (!m)) hp.1.1 with e | ⟨_, e | e⟩ <;>
      rw [e] <;> simp [RTy.isCopy, hr, hp.1.2]
  | .obj i c rest =>
    simp only [Subs.plain, Bool.and_eq_true, Bool.not_eq_true', Bool.not_true, Bool.false_or,
      Bool.or_eq_true, Bool.and_eq_false_iff, Bool.not_eq_false'] at hp
    obtain ⟨⟨⟨⟨p1, p2⟩, p3⟩, p4⟩, p5⟩ := hp
    obtain ⟨k1, _, k2, k3⟩ := Subs.copy_obj_trivial h1 h2
    obtain ⟨k4, k5, k6⟩ := Subs.dtor_obj_trivial h3 h4
    rw [c.sane_copyKind (c.plain_sane p2)] at k1
    simp only [Subs.gen, RFields.all, Subs.plain_allCopy rest r (n + 1) p5 src k2 k3 k5 k6 hr,
      Bool.and_true]
    rcases fieldTy_plain (r := r) (copy := c.shouldDeriveCopy) (t := .adt c.gen) p1 with e | ⟨hb, e⟩
    · rw [e]; simp [RTy.isCopy, hr]
    · have hcp : c.gen.isCopy = true := by
        rw [Cls.gen_isCopy]
        refine Cls.plain_copy p2 ?_ ?_ k1 k4
        · simpa [hb] using p4
        · simpa [hb] using p3
      rcases e with e | e <;> rw [e] <;> simp [RTy.isCopy, hcp]

/-- In a plain record that is copied as bytes every field is `Clone`. -/
theorem Subs.plain_allClone (s : Subs) (r : RecInfo) (n : Nat) (hp : s.plain true = true)
    (src : Bool) (h1 : s.copyBad src = false) (h2 : s.copyNontriv src = false)
    (h3 : s.dtorBad = false) : (s.gen r n).all RTy.isClone = true := by
  match s with
  | .nil => simp [Subs.gen, RFields.all]
  | .scalar i m rest =>
    simp only [Subs.plain, Bool.and_eq_true, Bool.not_eq_true'] at hp
    simp only [Subs.copyBad, Subs.copyNontriv, Subs.dtorBad] at h1 h2 h3
    simp only [Subs.gen, RFields.all, Subs.plain_allClone rest r (n + 1) hp.2 src h1 h2 h3,
      Bool.and_true]
    rcases fieldTy_plain (r := r) (copy := !m) (t := .plain (!m)) hp.1.1 with e | ⟨_, e | e⟩ <;>
      rw [e] <;> simp [RTy.isClone, hp.1.2]
  | .obj i c rest =>
    simp only [Subs.plain, Bool.and_eq_true, Bool.not_eq_true', Bool.not_true, Bool.false_or,
      Bool.or_eq_true, Bool.and_eq_false_iff, Bool.not_eq_false'] at hp
    obtain ⟨⟨⟨⟨p1, p2⟩, p3⟩, p4⟩, p5⟩ := hp
    obtain ⟨k1, _, k2, k3⟩ := Subs.copy_obj_trivial h1 h2
    rw [c.sane_copyKind (c.plain_sane p2)] at k1
    simp only [Subs.dtorBad, Bool.or_eq_false_iff, beq_eq_false_iff_ne, ne_eq] at h3
    simp only [Subs.gen, RFields.all, Subs.plain_allClone rest r (n + 1) p5 src k2 k3 h3.2,
      Bool.and_true]
    obtain ⟨_, _, _, _, _, q6, q7, q8⟩ := c.info.plain_iff.mp (Cls.plain_info p2)
    rcases fieldTy_plain (r := r) (copy := c.shouldDeriveCopy) (t := .adt c.gen) p1 with e | ⟨hb, e⟩
    · rw [e]; simp [RTy.isClone]
    · have hcl : c.gen.isClone = true := by
        refine clone_exists c (by simpa [hb] using p4) ⟨by rw [k1]; simp, Cls.plain_copyAccess p2⟩
          ⟨h3.1.1, q6⟩ (by simpa [hb] using p3) q7 q8
      rcases e with e | e <;> rw [e] <;> simp [RTy.isClone, hcl]

theorem fieldTy_unionOk {r : RecInfo} {i : SubInfo} {copy : Bool} {t : RTy} (hu : r.isUnion = true)
    (hv : i.visible = true) (hm : i.isMutable = false) (ht : copy = true → t.isCopy = true) :
    (fieldTy r i copy t).unionOk = true := by
  simp only [SubInfo.visible, Bool.and_eq_true, Bool.not_eq_true', beq_iff_eq] at hv
  obtain ⟨⟨⟨⟨⟨v1, v2⟩, v3⟩, v4⟩, v5⟩, v6⟩ := hv
  have hty : fieldTyped r i copy = true := by
    simp [fieldTyped, v3, v4, v5, v6, hu]
  simp only [fieldTy, v1, v2, hty, hu, hm]
  cases copy
  · simp [RTy.unionOk]
  · have := ht rfl
    cases t <;> simp_all [RTy.unionOk]

theorem Subs.plain_unionOk (s : Subs) (r : RecInfo) (n : Nat) (b : Bool) (hp : s.plain b = true)
    (hv : s.visible = true) (hu : r.isUnion = true) : (s.gen r n).all RTy.unionOk = true := by
  match s with
  | .nil => simp [Subs.gen, RFields.all]
  | .scalar i m rest =>
    simp only [Subs.plain, Subs.visible, Bool.and_eq_true, Bool.not_eq_true'] at hp hv
    simp only [Subs.gen, RFields.all, Subs.plain_unionOk rest r (n + 1) b hp.2 hv.2 hu, Bool.and_true]
    exact fieldTy_unionOk hu hv.1 hp.1.1 (fun h => by simpa [RTy.isCopy] using h)
  | .obj i c rest =>
    simp only [Subs.plain, Subs.visible, Bool.and_eq_true, Bool.not_eq_true'] at hp hv
    simp only [Subs.gen, RFields.all, Subs.plain_unionOk rest r (n + 1) b hp.2 hv.2 hu, Bool.and_true]
    exact fieldTy_unionOk hu hv.1 hp.1.1.1.1 (fun h => by simp [RTy.isCopy, Cls.gen_isCopy, h])

theorem fieldTy_okOf {r : RecInfo} {i : SubInfo} {copy : Bool} {t : RTy} (h : t.ok = true) :
    (fieldTy r i copy t).ok = true := by
  rcases fieldTy_cases r i copy t with e | e | e | e | e <;> rw [e] <;> simp [RTy.ok, h]

theorem RFields.all_copy_unionOk (fs : RFields) (h : fs.all RTy.isCopy = true) :
    fs.all RTy.unionOk = true := by
  match fs with
  | .nil => rfl
  | .cons n t rest =>
    simp only [RFields.all, Bool.and_eq_true] at h
    simp only [RFields.all, RFields.all_copy_unionOk rest h.2, Bool.and_true]
    cases t <;> simp_all [RTy.unionOk]

mutual
/-- **C135.** The Rust compiler accepts the definition that is generated for a plain class. -/
theorem plain_compiles (c : Cls) (h : c.plain = true) : c.gen.ok = true := by
  match c with
  | .mk d subs =>
    have hsane := Cls.plain_sane _ h
    have hnf := Cls.plain_notForced h
    have hci := Cls.plain_info h
    have hp := h
    simp only [Cls.plain, Bool.and_eq_true, Bool.or_eq_true, Bool.not_eq_true'] at hp
    obtain ⟨⟨hi, hsub⟩, hun⟩ := hp
    obtain ⟨hts, hdc, hdl, _, _, _, hcf, hpr⟩ := d.plain_iff.mp hi
    have hfok := fun r n => Subs.plain_ok subs d.inRegs r n hsub
    by_cases hcopy : (Cls.mk d subs).shouldDeriveCopy = true
    · -- `Copy`
      have hcopy' := ((Cls.mk d subs).shouldDeriveCopy_iff hsane hnf).mp hcopy
      obtain ⟨_, _, hr, ⟨hca, _, hck⟩, ⟨hda, hdk⟩, hab, _, _⟩ := hcopy'
      have hr' : d.inRegs = true := hr
      obtain ⟨src, b1, b2, b3⟩ := Cls.copyKind_trivial hck
      obtain ⟨_, _, b4, b5⟩ := Cls.dtorKind_trivial hdk
      have hnd : (Cls.mk d subs).shouldImplementDrop = false := by
        rw [Bool.eq_false_iff]
        intro e
        have := ((Cls.mk d subs).shouldImplementDrop_iff.mp e).2
        rw [hdk] at this
        cases this
      have hcl : (Cls.mk d subs).shouldDeriveClone = true := by
        have hdl' : (Cls.mk d subs).info.deriveClone = .unset := hdl
        have hts' : (Cls.mk d subs).info.threadSafe = false := hts
        simp only [Cls.shouldDeriveClone, hts', hdl', hcopy, Cls.isUnpin, hr,
          (Cls.mk d subs).copySpecial_trivial hsane |>.mpr ⟨hca, hcf, hck⟩]
        have := (Cls.mk d subs).checkByValue_iff.mpr ⟨⟨by rw [hdk]; simp, hda⟩, hab⟩
        simp [this]
      rw [hr'] at hsub
      have hall := fun n => Subs.plain_allCopy subs (Cls.mk d subs).recInfo n hsub src b1 b2 b4 b5
        (by simp [Cls.recInfo, hcopy])
      have hlone := fun n => Subs.plain_allClone subs (Cls.mk d subs).recInfo n hsub src b1 b2 b4
      have huo := fun n => RFields.all_copy_unionOk _ (hall n)
      simp only [Cls.gen, Adt.ok, hcopy, hcl, hnd, hts]
      by_cases hpad : d.headPadding = true <;>
        simp [hpad, RFields.all, RFields.ok, RTy.isCopy, RTy.isClone, RTy.unionOk, RTy.ok, hall, hlone,
          huo, hfok]
    · by_cases hclone : (Cls.mk d subs).shouldDeriveClone = true
      · -- `Clone` only: no union
        have hun' : d.isUnion = false := by
          rw [Bool.eq_false_iff]
          intro e
          have e' : (Cls.mk d subs).info.isUnion = true := e
          have hdl' : (Cls.mk d subs).info.deriveClone = .unset := hdl
          have hts' : (Cls.mk d subs).info.threadSafe = false := hts
          simp [Cls.shouldDeriveClone, hts', hdl', e', hcopy] at hclone
        have hck := ((Cls.mk d subs).shouldDeriveClone_spec hsane hnf hclone).2
        obtain ⟨src, b1, b2, b3⟩ := Cls.copyKind_trivial hck
        have hr' : d.inRegs = true := by
          have e' : (Cls.mk d subs).info.isUnion = false := hun'
          have hdl' : (Cls.mk d subs).info.deriveClone = .unset := hdl
          have hts' : (Cls.mk d subs).info.threadSafe = false := hts
          simp only [Cls.shouldDeriveClone, hts', hdl', e', Cls.isUnpin, Bool.false_eq_true, if_false,
            Bool.and_eq_true] at hclone
          exact hclone.1.1
        rw [hr'] at hsub
        have hlone := fun n => Subs.plain_allClone subs (Cls.mk d subs).recInfo n hsub src b1 b2 b3
        simp only [Cls.gen, Adt.ok, hcopy, hclone, hts, hun']
        by_cases hpad : d.headPadding = true <;>
          simp [hpad, RFields.all, RFields.ok, RTy.isClone, RTy.ok, hlone, hfok]
      · simp only [Cls.gen, Adt.ok, hcopy, hclone, hts]
        by_cases hunion : d.isUnion = true
        · simp only [hunion, Bool.true_eq_false, false_or] at hun
          have huo := fun n => Subs.plain_unionOk subs (Cls.mk d subs).recInfo n d.inRegs hsub hun.2
            (by simpa [Cls.recInfo, Cls.info] using hunion)
          simp [hunion, hun.1, huo, hfok]
        · by_cases hpad : d.headPadding = true <;>
            simp [hunion, hpad, RFields.ok, RTy.ok, hfok]
theorem Subs.plain_ok (s : Subs) (b : Bool) (r : RecInfo) (n : Nat) (h : s.plain b = true) :
    (s.gen r n).ok = true := by
  match s with
  | .nil => simp [Subs.gen, RFields.ok]
  | .scalar i m rest =>
    simp only [Subs.plain, Bool.and_eq_true] at h
    simp only [Subs.gen, RFields.ok, Subs.plain_ok rest b r (n + 1) h.2, Bool.and_true]
    exact fieldTy_okOf (by simp [RTy.ok])
  | .obj i c rest =>
    simp only [Subs.plain, Bool.and_eq_true] at h
    simp only [Subs.gen, RFields.ok, Subs.plain_ok rest b r (n + 1) h.2, Bool.and_true]
    exact fieldTy_okOf (by simp [RTy.ok, plain_compiles c h.1.1.1.2])
end

/-! ### `Unpin` -/

mutual
/-- The auto trait `Unpin`: not for a type with the attribute `recursively_pinned`, which has a
negative implementation; else if all fields are `Unpin`. -/
def Adt.unpin : Adt → Bool
  | .mk _ _ _ _ _ pinned fs => !pinned && fs.unpin
def RTy.unpin : RTy → Bool
  | .plain _ => true
  | .bytes _ => true
  | .unsafeCell => true
  | .mdrop t => t.unpin
  | .cell t => t.unpin
  | .adt a => a.unpin
def RFields.unpin : RFields → Bool
  | .nil => true
  | .cons _ t rest => t.unpin && rest.unpin
end

mutual
/-- "If it has a non-Rust-movable field [...], then it is not Rust-movable." -/
def Cls.regsCoherent : Cls → Bool
  | .mk d subs => subs.regsCoherent d.inRegs
def Subs.regsCoherent : Subs → Bool → Bool
  | .nil, _ => true
  | .scalar _ _ rest, r => rest.regsCoherent r
  | .obj i c rest, r => (i.isBase || ((!r || c.info.inRegs) && c.regsCoherent)) && rest.regsCoherent r
end

mutual
/-- **C136.** If classes with fields that Rust may not move are not moved either, then the generated
type is `Unpin` just when C++ passes the class in registers. -/
theorem unpin_iff (c : Cls) (h : c.regsCoherent = true) : c.gen.unpin = c.info.inRegs := by
  match c with
  | .mk d subs =>
    simp only [Cls.regsCoherent] at h
    simp only [Cls.gen, Adt.unpin, Cls.isUnpin, Cls.info, Bool.not_not]
    cases hr : d.inRegs
    · rfl
    · rw [hr] at h
      have := fun r n => Subs.gen_unpin subs r n h
      by_cases ht : d.threadSafe = true <;> by_cases hp : d.headPadding = true <;>
        simp [ht, hp, RFields.unpin, RTy.unpin, this]
theorem Subs.gen_unpin (s : Subs) (r : RecInfo) (n : Nat) (h : s.regsCoherent true = true) :
    (s.gen r n).unpin = true := by
  match s with
  | .nil => simp [Subs.gen, RFields.unpin]
  | .scalar i m rest =>
    simp only [Subs.regsCoherent] at h
    simp only [Subs.gen, RFields.unpin, Subs.gen_unpin rest r (n + 1) h, Bool.and_true]
    rcases fieldTy_cases r i (!m) (.plain (!m)) with e | e | e | e | e <;> rw [e] <;> simp [RTy.unpin]
  | .obj i c rest =>
    simp only [Subs.regsCoherent, Bool.and_eq_true, Bool.or_eq_true, Bool.not_true, Bool.false_or] at h
    simp only [Subs.gen, RFields.unpin, Subs.gen_unpin rest r (n + 1) h.2, Bool.and_true]
    rcases h.1 with hb | ⟨h1, h2⟩
    · have : fieldTy r i c.shouldDeriveCopy (.adt c.gen) = .bytes r.cellBytes := by
        simp [fieldTy, hb]
      rw [this]
      simp [RTy.unpin]
    · have hu := unpin_iff c h2
      rw [h1] at hu
      rcases fieldTy_cases r i c.shouldDeriveCopy (.adt c.gen) with e | e | e | e | e <;> rw [e] <;>
        simp [RTy.unpin, hu]
end

/-- **C136.** A type that C++ does not pass in registers is never `Unpin`, whatever its fields are. -/
theorem not_unpin (c : Cls) (h : c.info.inRegs = false) : c.gen.unpin = false := by
  cases c with
  | mk d subs => simp_all [Cls.gen, Adt.unpin, Cls.isUnpin, Cls.info]

end Verif.CcValue

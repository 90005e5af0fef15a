import Verif.CcValue.Model
/-
C132: dropping a Rust value of a C++ class does what the destructor of the class does.
-/
namespace Verif.CcValue

/-! ### `Copy` types have nothing to drop -/

mutual
theorem Adt.copy_drop (a : Adt) (p : Path) (hc : a.isCopy = true) (ho : a.ok = true) :
    a.drop p = [] := by
  match a with
  | .mk u copy clone d f pin fs =>
    simp only [Adt.isCopy] at hc
    subst hc
    simp only [Adt.ok, Bool.not_true, Bool.false_or, Bool.and_eq_true] at ho
    obtain ⟨⟨⟨⟨⟨h1, h2⟩, _⟩, _⟩, _⟩, h4⟩ := ho
    have : d = none := by simpa using h2
    subst this
    simp [Adt.drop, RFields.copy_drop fs p h1 h4]
theorem RTy.copy_drop (t : RTy) (p : Path) (hc : t.isCopy = true) (ho : t.ok = true) :
    t.drop p = [] := by
  match t with
  | .plain _ => rfl
  | .bytes _ => rfl
  | .unsafeCell => rfl
  | .mdrop _ => rfl
  | .cell _ => simp [RTy.isCopy] at hc
  | .adt a =>
    simp only [RTy.drop]
    exact Adt.copy_drop a p hc ho
theorem RFields.copy_drop (fs : RFields) (p : Path) (hc : fs.all RTy.isCopy = true)
    (ho : fs.ok = true) : fs.drop p = [] := by
  match fs with
  | .nil => rfl
  | .cons n t rest =>
    simp only [RFields.all, RFields.ok, Bool.and_eq_true] at hc ho
    simp [RFields.drop, RTy.copy_drop t _ hc.1 ho.1, RFields.copy_drop rest p hc.2 ho.2]
end

/-! ### Trivial destructors -/

theorem defaultKind_trivial {u v b n : Bool} :
    defaultKind u v b n = .trivial ↔ v = false ∧ b = false ∧ n = false := by
  cases u <;> cases v <;> cases b <;> cases n <;> simp [defaultKind]

theorem elemsRev_nil (a : Option Nat) (f : Nat → List Event) (h : ∀ k, f k = []) :
    elemsRev a f = [] := by
  cases a <;> simp [elemsRev, h]

/-- A trivial destructor: the author wrote no body, and so for all parts. -/
theorem Cls.dtorKind_trivial {d : ClassInfo} {subs : Subs} (h : Cls.dtorKind (.mk d subs) = .trivial) :
    d.dtorHow ≠ some .userProvided ∧ d.dtorHow ≠ some .deleted ∧
      subs.dtorBad = false ∧ subs.dtorNontriv = false := by
  rw [Cls.dtorKind] at h
  split at h
  · cases h
  · cases h
  · next h1 h2 =>
    have := defaultKind_trivial.mp h
    exact ⟨fun e => h2 e, fun e => h1 e, this.2.1, this.2.2⟩

theorem Subs.dtor_obj_trivial {i : SubInfo} {c : Cls} {rest : Subs}
    (h1 : Subs.dtorBad (.obj i c rest) = false) (h2 : Subs.dtorNontriv (.obj i c rest) = false) :
    c.dtorKind = .trivial ∧ rest.dtorBad = false ∧ rest.dtorNontriv = false := by
  simp only [Subs.dtorBad, Subs.dtorNontriv, Bool.or_eq_false_iff, beq_eq_false_iff_ne, ne_eq] at h1 h2
  refine ⟨?_, h1.2, h2.2⟩
  cases hk : c.dtorKind
  · exact absurd hk h1.1.1
  · rfl
  · exact absurd hk h2.1

mutual
/-- Destroying an object with a trivial destructor does nothing. -/
theorem Cls.destroy_trivial (c : Cls) (p : Path) (h : c.dtorKind = .trivial) : c.destroy p = [] := by
  match c with
  | .mk d subs =>
    obtain ⟨h1, _, h2, h3⟩ := Cls.dtorKind_trivial h
    simp [Cls.destroy, h1, Subs.destroy_trivial subs p 0 h2 h3]
theorem Subs.destroy_trivial (s : Subs) (p : Path) (n : Nat) (h1 : s.dtorBad = false)
    (h2 : s.dtorNontriv = false) : s.destroy p n = [] := by
  match s with
  | .nil => simp [Subs.destroy]
  | .scalar i m rest =>
    simp only [Subs.dtorBad, Subs.dtorNontriv] at h1 h2
    simp [Subs.destroy, Subs.destroy_trivial rest p (n + 1) h1 h2]
  | .obj i c rest =>
    obtain ⟨h3, h4, h5⟩ := Subs.dtor_obj_trivial h1 h2
    simp only [Subs.destroy, Subs.destroy_trivial rest p (n + 1) h4 h5, List.nil_append]
    exact elemsRev_nil _ _ (fun k => Cls.destroy_trivial c _ h3)
end

theorem Cls.shouldImplementDrop_iff (c : Cls) :
    c.shouldImplementDrop = true ↔ c.dtorAccess = .pub ∧ c.dtorKind = .nontrivial := by
  unfold Cls.shouldImplementDrop Cls.dtorSpecial classify
  cases c.dtorAccess <;> cases c.dtorKind <;> cases c.noUserDtor <;> simp

/-! ### The fields of the generated type -/

theorem fieldTy_cases (r : RecInfo) (i : SubInfo) (copy : Bool) (t : RTy) :
    fieldTy r i copy t = .bytes r.cellBytes ∨ fieldTy r i copy t = .mdrop t ∨
      fieldTy r i copy t = .cell (.mdrop t) ∨ fieldTy r i copy t = t ∨
      fieldTy r i copy t = .cell t := by
  unfold fieldTy
  split
  · simp
  · dsimp only
    split <;> split <;> simp

/-- A field that holds nothing to drop has nothing to drop when it is wrapped. -/
theorem fieldTy_drop (r : RecInfo) (i : SubInfo) (copy : Bool) (t : RTy) (p : Path)
    (h : t.drop p = []) : (fieldTy r i copy t).drop p = [] := by
  rcases fieldTy_cases r i copy t with e | e | e | e | e <;> rw [e] <;> simp [RTy.drop, h]

/-- In a record that implements `Drop`, a field that is not `Copy` is never dropped by Rust. -/
theorem fieldTy_drop_noCopy (r : RecInfo) (i : SubInfo) (t : RTy) (p : Path) (hr : r.drop = true) :
    (fieldTy r i false t).drop p = [] := by
  unfold fieldTy
  split
  · simp [RTy.drop]
  · simp only [hr, Bool.true_or, Bool.not_false, Bool.and_self, if_true]
    split <;> simp [RTy.drop]

theorem fieldTy_ok (r : RecInfo) (i : SubInfo) (t : RTy) (copy : Bool) (p : Path)
    (ho : (fieldTy r i copy t).ok = true) (h : t.ok = true → t.drop p = []) :
    (fieldTy r i copy t).drop p = [] := by
  rcases fieldTy_cases r i copy t with e | e | e | e | e <;> rw [e] at ho ⊢ <;>
    simp_all [RTy.drop, RTy.ok]

theorem Cls.gen_isCopy (c : Cls) : c.gen.isCopy = c.shouldDeriveCopy := by
  cases c with
  | mk d subs => simp [Cls.gen, Adt.isCopy]

/-- In a record that implements `Drop`, Rust drops no field. -/
theorem Subs.gen_drop (s : Subs) (r : RecInfo) (n : Nat) (p : Path) (hr : r.drop = true)
    (ho : (s.gen r n).ok = true) : (s.gen r n).drop p = [] := by
  match s with
  | .nil => simp [Subs.gen, RFields.drop]
  | .scalar i m rest =>
    simp only [Subs.gen, RFields.ok, Bool.and_eq_true] at ho
    simp only [Subs.gen, RFields.drop, Subs.gen_drop rest r (n + 1) p hr ho.2, List.append_nil]
    exact fieldTy_drop _ _ _ _ _ (by simp [RTy.drop])
  | .obj i c rest =>
    simp only [Subs.gen, RFields.ok, Bool.and_eq_true] at ho
    simp only [Subs.gen, RFields.drop, Subs.gen_drop rest r (n + 1) p hr ho.2, List.append_nil]
    cases hc : c.shouldDeriveCopy
    · exact fieldTy_drop_noCopy _ _ _ _ hr
    · rw [hc] at ho
      refine fieldTy_ok _ _ _ _ _ ho.1 (fun h => ?_)
      simp only [RTy.drop]
      exact Adt.copy_drop _ _ (by rw [Cls.gen_isCopy, hc]) (by simpa [RTy.ok] using h)

mutual
/-- Dropping a value of a class with a trivial destructor does nothing. -/
theorem Cls.gen_drop_trivial (c : Cls) (p : Path) (h : c.dtorKind = .trivial) : c.gen.drop p = [] := by
  match c with
  | .mk d subs =>
    have h0 : (Cls.mk d subs).shouldImplementDrop = false := by
      rw [Bool.eq_false_iff]
      intro e
      rw [Cls.shouldImplementDrop_iff, h] at e
      cases e.2
    obtain ⟨_, _, h2, h3⟩ := Cls.dtorKind_trivial h
    have hs := fun r n => Subs.gen_drop_trivial subs r n p h2 h3
    simp only [Cls.gen, Adt.drop, h0, Bool.false_eq_true, if_false, List.nil_append]
    by_cases hu : d.isUnion = true <;> by_cases ht : d.threadSafe = true <;>
      by_cases hp : d.headPadding = true <;> simp [hu, ht, hp, RFields.drop, RTy.drop, hs]
theorem Subs.gen_drop_trivial (s : Subs) (r : RecInfo) (n : Nat) (p : Path) (h1 : s.dtorBad = false)
    (h2 : s.dtorNontriv = false) : (s.gen r n).drop p = [] := by
  match s with
  | .nil => simp [Subs.gen, RFields.drop]
  | .scalar i m rest =>
    simp only [Subs.dtorBad, Subs.dtorNontriv] at h1 h2
    simp only [Subs.gen, RFields.drop, Subs.gen_drop_trivial rest r (n + 1) p h1 h2, List.append_nil]
    exact fieldTy_drop _ _ _ _ _ (by simp [RTy.drop])
  | .obj i c rest =>
    obtain ⟨h3, h4, h5⟩ := Subs.dtor_obj_trivial h1 h2
    simp only [Subs.gen, RFields.drop, Subs.gen_drop_trivial rest r (n + 1) p h4 h5, List.append_nil]
    exact fieldTy_drop _ _ _ _ _ (by simp [RTy.drop, Cls.gen_drop_trivial c _ h3])
end

/-- **C132.** For every class that can be destroyed, and whose Rust definition the compiler accepts:
dropping a Rust value of it runs exactly the destructor bodies that C++ runs when it destroys an
object of it, for the same subobjects and in the same order. -/
theorem drop_is_destroy (c : Cls) (p : Path) (hd : c.destructible) (ho : c.gen.ok = true) :
    c.gen.drop p = c.destroy p := by
  obtain ⟨hk, ha⟩ := hd
  cases hc : c.dtorKind
  · exact absurd hc hk
  · rw [Cls.gen_drop_trivial c p hc, Cls.destroy_trivial c p hc]
  · have hi : c.shouldImplementDrop = true := c.shouldImplementDrop_iff.mpr ⟨ha, hc⟩
    cases c with
    | mk d subs =>
      have hr : (Cls.mk d subs).recInfo.drop = true := hi
      simp only [Cls.gen, Adt.ok, Bool.and_eq_true, hi, if_true] at ho
      have hf := ho.2
      simp only [Cls.gen, Adt.drop, hi, if_true]
      have : ∀ l : List Event, l = [] → (Cls.mk d subs).destroy p ++ l = (Cls.mk d subs).destroy p := by
        intro l hl; simp [hl]
      apply this
      split
      · rfl
      · split at hf
        · next ht => simp [ht, RFields.drop, RTy.drop]
        · next ht =>
          simp only [ht]
          split at hf
          · next hp =>
            simp only [RFields.ok, Bool.and_eq_true] at hf
            simp [hp, RFields.drop, RTy.drop, Subs.gen_drop subs _ 0 p hr hf.2]
          · next hp => simp [hp, Subs.gen_drop subs _ 0 p hr hf]

end Verif.CcValue

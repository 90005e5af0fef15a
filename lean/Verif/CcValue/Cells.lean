import Verif.CcValue.Model
/-
C137: what C++ may modify through a `const` reference is in a `Cell` in Rust.
-/
namespace Verif.CcValue

mutual
/-- The subobject at that place can be modified through a `const` reference to the object: it is, or is
part of, a `mutable` field. -/
def Cls.mutAt : Cls → Path → Bool
  | .mk _ subs, q =>
    match q with
    | [] => false
    | (n, _) :: q => subs.mutAt n q
def Subs.mutAt : Subs → Nat → Path → Bool
  | .nil, _, _ => false
  | .scalar i _ rest, n, q =>
    match n with
    | 0 => i.isMutable
    | n + 1 => rest.mutAt n q
  | .obj i c rest, n, q =>
    match n with
    | 0 => i.isMutable || c.mutAt q
    | n + 1 => rest.mutAt n q
end

mutual
/-- Some part is `mutable`. -/
def Cls.anyMut : Cls → Bool
  | .mk _ subs => subs.anyMut
def Subs.anyMut : Subs → Bool
  | .nil => false
  | .scalar i _ rest => i.isMutable || rest.anyMut
  | .obj i c rest => i.isMutable || c.anyMut || rest.anyMut
end

/-- The base or field is not visible in Rust as a field of its own. -/
def hidden (r : RecInfo) (i : SubInfo) (copy : Bool) : Bool :=
  i.isBase || i.bitfield || !fieldTyped r i copy

mutual
/-- No class that derives `Copy` has something `mutable` in a base or in a field that Rust does not see
(and so on for all its parts). -/
def Cls.openMut : Cls → Bool
  | .mk d subs => d.threadSafe || subs.openMut (Cls.mk d subs).recInfo (Cls.mk d subs).shouldDeriveCopy
def Subs.openMut : Subs → RecInfo → Bool → Bool
  | .nil, _, _ => true
  | .scalar i mutRef rest, r, copy => !(copy && hidden r i (!mutRef) && i.isMutable) && rest.openMut r copy
  | .obj i c rest, r, copy =>
    !(copy && hidden r i c.shouldDeriveCopy && (i.isMutable || c.anyMut)) && c.openMut && rest.openMut r copy
end

/-- A field with that index. -/
def RFields.has : RFields → Nat → Bool
  | .nil, _ => false
  | .cons m _ rest, n => m == n || rest.has n

mutual
/-- Rust allows the bytes at that place to change behind a shared reference: they are in a `Cell` or an
`UnsafeCell`. (Not code of /repo. A record with one `UnsafeCell` field is that field. The bytes before
the first field have the index of the first field too, and come first.) -/
def Adt.cellAt : Adt → Path → Bool
  | .mk _ _ _ _ _ _ fs, q =>
    match fs with
    | .cons _ .unsafeCell .nil => true
    | fs =>
      match q with
      | [] => false
      | (n, _) :: q => fs.cellAt n q
def RTy.cellAt : RTy → Path → Bool
  | .plain _, _ => false
  | .bytes b, _ => b
  | .unsafeCell, _ => true
  | .mdrop t, q => t.cellAt q
  | .cell _, _ => true
  | .adt a, q => a.cellAt q
def RFields.cellAt : RFields → Nat → Path → Bool
  | .nil, _, _ => false
  | .cons m t rest, n, q => if rest.has n then rest.cellAt n q else m == n && t.cellAt q
end

mutual
theorem Cls.anyMut_of_mutAt : ∀ (c : Cls) (q : Path), c.mutAt q = true → c.anyMut = true
  | .mk d subs, [], h => by simp [Cls.mutAt] at h
  | .mk d subs, (n, k) :: q, h => by
    simp only [Cls.mutAt] at h
    exact subs.anyMut_of_mutAt n q h
theorem Subs.anyMut_of_mutAt : ∀ (s : Subs) (n : Nat) (q : Path), s.mutAt n q = true → s.anyMut = true
  | .nil, n, q, h => by simp [Subs.mutAt] at h
  | .scalar i m rest, 0, q, h => by simp [Subs.mutAt] at h; simp [Subs.anyMut, h]
  | .scalar i m rest, n + 1, q, h => by
    simp only [Subs.mutAt] at h
    simp [Subs.anyMut, rest.anyMut_of_mutAt n q h]
  | .obj i c rest, 0, q, h => by
    simp only [Subs.mutAt, Bool.or_eq_true] at h
    rcases h with h | h
    · simp [Subs.anyMut, h]
    · simp [Subs.anyMut, c.anyMut_of_mutAt q h]
  | .obj i c rest, n + 1, q, h => by
    simp only [Subs.mutAt] at h
    simp [Subs.anyMut, rest.anyMut_of_mutAt n q h]
end

theorem cellAt_fieldTy (r : RecInfo) (i : SubInfo) (copy : Bool) (t : RTy) (q : Path)
    (hb : hidden r i copy = true → r.cellBytes = true) (ht : hidden r i copy = false → i.isMutable = false → t.cellAt q = true) :
    (fieldTy r i copy t).cellAt q = true := by
  unfold fieldTy
  have e : (i.isBase || i.bitfield || !fieldTyped r i copy) = hidden r i copy := rfl
  rw [e]
  by_cases hh : hidden r i copy = true
  · rw [if_pos hh]; exact hb hh
  · rw [if_neg hh]
    simp only
    by_cases hm : i.isMutable = true
    · rw [if_pos hm]; rfl
    · rw [if_neg hm]
      have := ht (by simpa using hh) (by simpa using hm)
      split
      · exact this
      · exact this

theorem gen_index (s : Subs) : ∀ (r : RecInfo) (m n : Nat), n < m → (s.gen r m).has n = false := by
  induction s using Subs.rec (motive_1 := fun _ => True) with
  | mk d subs ih => trivial
  | nil => intro r m n h; simp [Subs.gen, RFields.has]
  | scalar i mr rest ih =>
    intro r m n h
    have := ih r (m + 1) n (by omega)
    have hmn : m ≠ n := by omega
    simp [Subs.gen, RFields.has, this, hmn]
  | obj i c rest _ ih =>
    intro r m n h
    have := ih r (m + 1) n (by omega)
    have hmn : m ≠ n := by omega
    simp [Subs.gen, RFields.has, this, hmn]

theorem cellAt_has : ∀ (fs : RFields) (n : Nat) (q : Path), fs.cellAt n q = true → fs.has n = true
  | .nil, n, q, h => by simp [RFields.cellAt] at h
  | .cons m t rest, n, q, h => by
    simp only [RFields.cellAt] at h
    split at h
    next hh => simp [RFields.has, hh]
    next hh => simp only [Bool.and_eq_true] at h; simp [RFields.has, h.1]

theorem cellAt_adt (u c1 c2 : Bool) (d f : Option Cls) (p : Bool) (fs : RFields) (n k : Nat) (q : Path) (h : fs.cellAt n q = true) :
    Adt.cellAt (.mk u c1 c2 d f p fs) ((n, k) :: q) = true := by
  unfold Adt.cellAt
  split
  · rfl
  · exact h

mutual
/-- C137: what C++ may modify through a `const` reference is in a `Cell` in Rust, provided no class that derives `Copy` hides something
`mutable`. -/
theorem mutable_is_cell : ∀ (c : Cls) (q : Path), c.openMut = true → c.mutAt q = true → c.gen.cellAt q = true
  | .mk d subs, [], _, h => by simp [Cls.mutAt] at h
  | .mk d subs, (n, k) :: q, ho, h => by
    have h' : subs.mutAt n q = true := h
    rw [Cls.gen]
    by_cases ht : d.threadSafe = true
    · rw [if_pos ht]; rfl
    · have ho' : subs.openMut (Cls.mk d subs).recInfo (Cls.mk d subs).shouldDeriveCopy = true := by
        rw [Cls.openMut] at ho; simpa [ht] using ho
      have hs := Subs.mutable_is_cell subs (Cls.mk d subs).recInfo (Cls.mk d subs).shouldDeriveCopy 0 n q rfl ho' h'
      rw [Nat.zero_add] at hs
      rw [if_neg ht]
      by_cases hp : d.headPadding = true
      · rw [if_pos hp]
        apply cellAt_adt
        rw [RFields.cellAt, if_pos (cellAt_has _ _ _ hs)]
        exact hs
      · rw [if_neg hp]
        exact cellAt_adt _ _ _ _ _ _ _ _ _ _ hs
theorem Subs.mutable_is_cell : ∀ (s : Subs) (r : RecInfo) (copy : Bool) (m n : Nat) (q : Path), r.cellBytes = !copy →
    s.openMut r copy = true → s.mutAt n q = true → (s.gen r m).cellAt (m + n) q = true
  | .nil, r, copy, m, n, q, _, _, h => by simp [Subs.mutAt] at h
  | .scalar i mr rest, r, copy, m, 0, q, hr, ho, h => by
    have h : i.isMutable = true := h
    simp only [Subs.openMut, Bool.and_eq_true, Bool.not_eq_true', h, Bool.and_true] at ho
    have hi := gen_index rest r (m + 1) m (by omega)
    have := cellAt_fieldTy r i (!mr) (.plain (!mr)) q (fun hh => by
      rw [hr]; have := ho.1; simp [hh] at this; simp [this]) (fun _ hm => by rw [h] at hm; cases hm)
    rw [Subs.gen, RFields.cellAt]
    simp [hi, this]
  | .scalar i mr rest, r, copy, m, n + 1, q, hr, ho, h => by
    have h : rest.mutAt n q = true := h
    simp only [Subs.openMut, Bool.and_eq_true] at ho
    have := Subs.mutable_is_cell rest r copy (m + 1) n q hr ho.2 h
    rw [show m + 1 + n = m + (n + 1) by omega] at this
    rw [Subs.gen, RFields.cellAt, if_pos (cellAt_has _ _ _ this)]
    exact this
  | .obj i c rest, r, copy, m, 0, q, hr, ho, h => by
    have h : (i.isMutable || c.mutAt q) = true := h
    simp only [Bool.or_eq_true] at h
    simp only [Subs.openMut, Bool.and_eq_true, Bool.not_eq_true'] at ho
    have hi := gen_index rest r (m + 1) m (by omega)
    have hm : (i.isMutable || c.anyMut) = true := by
      rcases h with h | h
      · simp [h]
      · simp [c.anyMut_of_mutAt q h]
    have := cellAt_fieldTy r i c.shouldDeriveCopy (.adt c.gen) q (fun hh => by
      rw [hr]; have := ho.1.1; rw [hm] at this; simp [hh] at this; simp [this]) (fun _ hm' => by
        rcases h with h | h
        · rw [h] at hm'; cases hm'
        · exact mutable_is_cell c q ho.1.2 h)
    rw [Subs.gen, RFields.cellAt]
    simp [hi, this]
  | .obj i c rest, r, copy, m, n + 1, q, hr, ho, h => by
    have h : rest.mutAt n q = true := h
    simp only [Subs.openMut, Bool.and_eq_true] at ho
    have := Subs.mutable_is_cell rest r copy (m + 1) n q hr ho.2 h
    rw [show m + 1 + n = m + (n + 1) by omega] at this
    rw [Subs.gen, RFields.cellAt, if_pos (cellAt_has _ _ _ this)]
    exact this
end

end Verif.CcValue

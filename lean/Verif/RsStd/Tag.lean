import Verif.RsStd.Bytes
/-! How rustc's variant and the generated tag accessors relate, for any two-variant layout. -/
namespace Verif.RsStd

variable {e : Endian} {L : Layout}

theorem pow_pos256 (n : Nat) : 0 < 256 ^ n := Nat.pow_pos (by decide)

theorem niche_variant (wf : L.WF e) {s f l u : Nat} (he : L.enc = .niche s f l u) (m : Mem) :
    rustVariant e L m =
      some (if native e (rd m L.tagOff L.tagSize) = s % 256 ^ L.tagSize then f else u) := by
  obtain ⟨hfl, -⟩ := wf.niche s f l u he
  have hw := pow_pos256 L.tagSize
  have ht : native e (rd m L.tagOff L.tagSize) < 256 ^ L.tagSize := by
    have := native_lt e (rd m L.tagOff L.tagSize)
    simpa using this
  have hs : s % 256 ^ L.tagSize < 256 ^ L.tagSize := Nat.mod_lt _ hw
  unfold rustVariant
  rw [he]
  simp only [hfl, Nat.sub_self, Nat.le_zero]
  generalize native e (rd m L.tagOff L.tagSize) = t at *
  generalize s % 256 ^ L.tagSize = c at *
  generalize 256 ^ L.tagSize = w at *
  by_cases hc : t = c
  · subst hc
    have : (t + (w - t)) % w = 0 := by
      rw [show t + (w - t) = w by omega, Nat.mod_self]
    simp [this]
  · have : (t + (w - c)) % w ≠ 0 := by
      intro h0
      by_cases hlt : t < c
      · rw [Nat.mod_eq_of_lt (by omega)] at h0; omega
      · rw [show t + (w - c) = (t - c) + w by omega, Nat.add_mod_right,
          Nat.mod_eq_of_lt (by omega)] at h0
        omega
    rw [if_neg this, if_neg hc]

theorem rd_wr_sub (m : Mem) (bs : List Byte) (o n : Nat) (h : o + n ≤ bs.length) :
    rd (wr m 0 bs) o n = (bs.drop o).take n := by
  apply List.ext_getElem?
  intro i
  by_cases hi : i < n
  · rw [rd_getElem? _ _ _ _ hi, List.getElem?_take, if_pos hi, List.getElem?_drop]
    simp [wr, List.getElem?_eq_getElem (show o + i < bs.length by omega)]
  · rw [List.getElem?_eq_none (by simp; omega), List.getElem?_eq_none (by simp; omega)]

/-- The number in the tag bytes after `set_tag(t)`. -/
theorem tag_setTag (hle : e = .little ∨ L.tagSize = 1) (m : Mem) (t : Nat) :
    native e (rd (cppSetTag e L.tagOff L.tagSize m t) L.tagOff L.tagSize)
      = t % 256 ^ L.tagSize := by
  rw [cppSetTag_eq e _ _ _ _ hle]
  have := rd_wr_same m L.tagOff (toNative e L.tagSize t)
  rw [toNative_length] at this
  rw [this, native_toNative]

/-- `set_tag` leaves bytes outside the tag alone. -/
theorem rd_setTag (hle : e = .little ∨ L.tagSize = 1) (m : Mem) (t o n : Nat)
    (h : Disjoint L.tagOff L.tagSize o n) :
    rd (cppSetTag e L.tagOff L.tagSize m t) o n = rd m o n := by
  rw [cppSetTag_eq e _ _ _ _ hle]
  apply rd_wr_disjoint
  simpa using h.symm

theorem two_le_pow (h : 0 < L.tagSize) : 2 ≤ 256 ^ L.tagSize := by
  have := Nat.pow_le_pow_right (show 0 < 256 by decide) h
  simp at this
  omega

/-- With a direct tag, `set_tag(v)` selects variant `v`. -/
theorem direct_setTag (wf : L.WF e) (hle : e = .little ∨ L.tagSize = 1) (he : L.enc = .direct)
    (m : Mem) (v : Nat) (hv : v < 2) :
    rustVariant e L (cppSetTag e L.tagOff L.tagSize m (literalOfTagTy L.tagSize v)) = some v := by
  have h2 := two_le_pow wf.tagPos
  unfold rustVariant
  rw [he]
  simp only [tag_setTag hle, literalOfTagTy, Nat.mod_mod]
  rw [Nat.mod_eq_of_lt (show v < 256 ^ L.tagSize by omega), if_pos hv]

/-- With a niche, `set_tag` of the niche's number selects the tagged variant. -/
theorem niche_setTag (wf : L.WF e) (hle : e = .little ∨ L.tagSize = 1) {s f l u : Nat}
    (he : L.enc = .niche s f l u) (m : Mem) :
    rustVariant e L (cppSetTag e L.tagOff L.tagSize m (literalOfTagTy L.tagSize (s + (f - f))))
      = some f := by
  rw [niche_variant wf he]
  simp [tag_setTag hle, literalOfTagTy]

/-- With a direct tag, writing payload bytes does not change the variant. -/
theorem direct_payload (wf : L.WF e) (he : L.enc = .direct) (m : Mem) (v : Nat) (hv : v < 2)
    (x : Val) (hx : x.length = (L.ty v).size) :
    rustVariant e L (wr m (L.off v) x) = rustVariant e L m := by
  unfold rustVariant
  rw [he]
  have hd := wf.direct he v hv
  rw [rd_wr_disjoint _ _ _ _ _ (by rw [hx]; exact hd)]

/-- With a niche, writing the payload of the tagged variant does not change the variant. -/
theorem niche_payload_tagged (wf : L.WF e) {s f l u : Nat} (he : L.enc = .niche s f l u) (m : Mem)
    (x : Val) (hx : x.length = (L.ty f).size) :
    rustVariant e L (wr m (L.off f) x) = rustVariant e L m := by
  rw [niche_variant wf he, niche_variant wf he]
  obtain ⟨-, -, -, -, -, -, hd, -⟩ := wf.niche s f l u he
  rw [rd_wr_disjoint _ _ _ _ _ (by rw [hx]; exact hd)]

/-- With a niche, writing a value of the untagged variant selects that variant. -/
theorem niche_payload_untagged (wf : L.WF e) {s f l u : Nat} (he : L.enc = .niche s f l u)
    (m : Mem) (x : Val) (hx : (L.ty u).valid x = true) :
    rustVariant e L (wr m 0 x) = some u := by
  rw [niche_variant wf he]
  obtain ⟨-, -, hu, -, -, hin, -, hv⟩ := wf.niche s f l u he
  have hl := wf.len u hu x hx
  rw [rd_wr_sub _ _ _ _ (by omega), if_neg (hv x hx)]

end Verif.RsStd

import Verif.RsStd.Layout
/-! Facts about bytes and the generated tag accessors. -/
namespace Verif.RsStd

@[simp] theorem rd_length (m : Mem) (o n : Nat) : (rd m o n).length = n := by simp [rd]

theorem rd_getElem? (m : Mem) (o n i : Nat) (h : i < n) : (rd m o n)[i]? = some (m (o + i)) := by
  simp [rd, h]

theorem rd_wr_same (m : Mem) (o : Nat) (bs : List Byte) : rd (wr m o bs) o bs.length = bs := by
  apply List.ext_getElem?
  intro i
  by_cases h : i < bs.length
  · rw [rd_getElem? _ _ _ _ h]
    simp [wr, List.getElem?_eq_getElem h]
  · rw [List.getElem?_eq_none (by simp; omega), List.getElem?_eq_none (by omega)]

theorem wr_out (m : Mem) (o : Nat) (bs : List Byte) (a : Nat) (h : a < o ∨ o + bs.length ≤ a) :
    wr m o bs a = m a := by
  unfold wr
  split
  · rw [List.getElem?_eq_none (by omega)]; rfl
  · rfl

theorem rd_wr_disjoint (m : Mem) (o n b : Nat) (bs : List Byte) (h : Disjoint o n b bs.length) :
    rd (wr m b bs) o n = rd m o n := by
  unfold rd
  apply List.map_congr_left
  intro i hi
  rw [List.mem_range] at hi
  apply wr_out
  rcases h with h | h | h | h <;> omega

theorem Disjoint.symm {a n b k : Nat} (h : Disjoint a n b k) : Disjoint b k a n := by
  rcases h with h | h | h | h
  · exact .inr (.inl h)
  · exact .inl h
  · exact .inr (.inr (.inr h))
  · exact .inr (.inr (.inl h))

@[simp] theorem leBytes_length (n v : Nat) : (leBytes n v).length = n := by
  induction n generalizing v with
  | zero => rfl
  | succ n ih => simp [leBytes, ih]

theorem leVal_leBytes (n v : Nat) : leVal (leBytes n v) = v % 256 ^ n := by
  induction n generalizing v with
  | zero => simp [leBytes, leVal, Nat.mod_one]
  | succ n ih =>
    simp only [leBytes, leVal, ih]
    rw [Nat.pow_succ, Nat.mul_comm (256 ^ n) 256, Nat.mod_mul]

theorem leVal_lt (bs : List Byte) : leVal bs < 256 ^ bs.length := by
  induction bs with
  | nil => simp [leVal]
  | cons b bs ih =>
    simp only [leVal, List.length_cons, Nat.pow_succ]
    have := b.isLt
    omega

theorem native_lt (e : Endian) (bs : List Byte) : native e bs < 256 ^ bs.length := by
  cases e
  · exact leVal_lt bs
  · simpa [native] using leVal_lt bs.reverse

@[simp] theorem toNative_length (e : Endian) (n v : Nat) : (toNative e n v).length = n := by
  cases e <;> simp [toNative]

theorem native_toNative (e : Endian) (n v : Nat) : native e (toNative e n v) = v % 256 ^ n := by
  cases e <;> simp [native, toNative, leVal_leBytes]

/-- Filling an array front to back. -/
theorem foldl_set_range (f : Nat → Byte) (n k : Nat) (init : List Byte) (hl : init.length = n)
    (hk : k ≤ n) :
    (List.range k).foldl (fun bytes i => bytes.set i (f i)) init
      = (List.range k).map f ++ init.drop k := by
  induction k with
  | zero => simp
  | succ k ih =>
    rw [List.range_succ, List.foldl_append, ih (by omega)]
    simp only [List.foldl_cons, List.foldl_nil, List.map_append, List.map_cons, List.map_nil]
    rw [List.set_append, if_neg (by simp)]
    simp only [List.length_map, List.length_range, Nat.sub_self]
    have : init.drop k = init[k]'(by omega) :: init.drop (k + 1) := List.drop_eq_getElem_cons (by omega)
    rw [this]
    simp only [List.set_cons_zero, List.append_assoc, List.singleton_append]

theorem cppTag_little (off n : Nat) (m : Mem) :
    cppTag .little off n m = native .little (rd m off n) := by
  unfold cppTag
  congr 1
  have := foldl_set_range (fun i => m (off + i)) n n (List.replicate n 0) (by simp) (Nat.le_refl _)
  simpa [endianIndex, rd] using this

/-- The accessor reads the number that is stored, on a little-endian target or for a tag of one
byte. -/
theorem cppTag_eq (e : Endian) (off n : Nat) (m : Mem) (h : e = .little ∨ n = 1) :
    cppTag e off n m = native e (rd m off n) := by
  rcases h with h | h
  · subst h; exact cppTag_little off n m
  · subst h
    cases e
    · exact cppTag_little off 1 m
    · simp [cppTag, native, rd, endianIndex, List.range_succ, leVal]

theorem wr_single_foldl (m : Mem) (off : Nat) (bytes : List Byte) (k : Nat)
    (hk : k ≤ bytes.length) :
    (List.range k).foldl (fun m i => wr m (off + i) [(bytes[i]?).getD 0]) m
      = wr m off (bytes.take k) := by
  induction k with
  | zero => funext a; simp [wr]
  | succ k ih =>
    rw [List.range_succ, List.foldl_append, ih (by omega)]
    simp only [List.foldl_cons, List.foldl_nil]
    funext a
    have hkl : k < bytes.length := by omega
    by_cases h1 : a < off
    · rw [wr_out _ _ _ _ (.inl (by omega)), wr_out _ _ _ _ (.inl h1), wr_out _ _ _ _ (.inl h1)]
    · by_cases h2 : a < off + k
      · rw [wr_out _ _ _ _ (.inl (by omega))]
        unfold wr
        rw [if_pos (by omega), if_pos (by omega)]
        rw [List.getElem?_take, List.getElem?_take, if_pos (by omega), if_pos (by omega)]
      · by_cases h3 : a = off + k
        · subst h3
          unfold wr
          simp [List.getElem?_take, hkl]
        · rw [wr_out _ _ _ _ (.inr (by simp; omega)), wr_out _ _ _ _ (.inr (by simp; omega)),
            wr_out _ _ _ _ (.inr (by simp; omega))]

theorem cppSetTag_eq (e : Endian) (off n t : Nat) (m : Mem) (h : e = .little ∨ n = 1) :
    cppSetTag e off n m t = wr m off (toNative e n t) := by
  have hl : ∀ (e : Endian), (∀ i, i < n → endianIndex e n i = i) →
      cppSetTag e off n m t = wr m off (toNative e n t) := by
    intro e hi
    unfold cppSetTag
    have h1 := wr_single_foldl m off (toNative e n t) n (by simp)
    rw [List.take_of_length_le (by simp)] at h1
    rw [← h1]
    have hg : ∀ (l : List Nat) (m' : Mem), (∀ i ∈ l, i < n) →
        l.foldl (fun m i => wr m (off + i) [((toNative e n t)[endianIndex e n i]?).getD 0]) m'
          = l.foldl (fun m i => wr m (off + i) [((toNative e n t)[i]?).getD 0]) m' := by
      intro l
      induction l with
      | nil => intros; rfl
      | cons i l ih =>
        intro m' hm
        simp only [List.foldl_cons]
        rw [hi i (hm i (by simp)), ih _ fun j hj => hm j (by simp [hj])]
    exact hg _ _ fun i hi => by simpa using hi
  rcases h with h | h
  · subst h; exact hl _ fun i _ => rfl
  · apply hl
    intro i hi
    cases e <;> simp [endianIndex] <;> omega

end Verif.RsStd

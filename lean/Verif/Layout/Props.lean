import Verif.Layout.Spec
/-
C56: proofs.
-/
namespace Verif.Layout

theorem up_one (n : Nat) : up n 1 = n := by simp [up]

theorem up_dvd {n a : Nat} (h : a ∣ n) : up n a = n := by
  unfold up
  rcases Nat.eq_zero_or_pos a with rfl | ha
  · simp at h ⊢; exact h.symm
  · obtain ⟨k, rfl⟩ := h
    have : (a * k + a - 1) / a = k := by
      rw [show a * k + a - 1 = a - 1 + k * a by rw [Nat.mul_comm k a]; omega, Nat.add_mul_div_right _ _ ha, Nat.div_eq_of_lt (by omega), Nat.zero_add]
    rw [this, Nat.mul_comm]

theorem up_le (n a : Nat) (ha : 0 < a) : n ≤ up n a := by
  unfold up
  have := Nat.div_add_mod (n + a - 1) a
  have h2 := Nat.mod_lt (n + a - 1) ha
  have h3 : a * ((n + a - 1) / a) = (n + a - 1) / a * a := Nat.mul_comm _ _
  omega

theorem place_append (a b : List Mem) : ∀ pos, place pos (a ++ b) = ((place pos a).1 ++ (place (place pos a).2 b).1, (place (place pos a).2 b).2) := by
  induction a with
  | nil => intro pos; rfl
  | cons m a ih => intro pos; simp only [List.cons_append, place, ih]

/-- The members for fields. -/
def tagged (l : List (Mem × Nat)) : List (Field × Nat × Nat) :=
  l.filterMap fun (m, off) => match m.tag with
    | .field f => some (f, off, m.size)
    | _ => none

theorem tagged_append (a b : List (Mem × Nat)) : tagged (a ++ b) = tagged a ++ tagged b := List.filterMap_append ..

/-- What is known of each bound. -/
structure BOk (align : Nat) (b : Bound) : Prop where
  field : ∀ f, b.ir = some f → f.offset = b.offset ∧ b.offset % 8 = 0 ∧ f.size ≠ 0 ∧
    b.stop = (if f.known.isSome then some (f.offset + f.size) else none) ∧ ∀ a, f.known = some a → f.size % 8 = 0 ∧ 0 < a ∧ a ≤ align ∧ a ∣ f.offset / 8
  order : ∀ e, b.stop = some e → b.offset < e

structure BNext (x y : Bound) : Prop where
  order : x.stop.getD (x.offset + 1) ≤ y.offset
  start : x.ir.isSome = true → y.offset % 8 = 0
  natural : ∀ g a e, y.ir = some g → g.known = some a → x.stop = some e → y.offset = 8 * up (bytes e) a

def BPairs (P : Bound → Bound → Prop) : List Bound → Prop
  | a :: b :: l => P a b ∧ BPairs P (b :: l)
  | _ => True

/-- Where the next member goes. -/
def At (pos : Nat) (prev : Option Bound) (cur : Bound) : Prop :=
  let prevEnd := (prev.bind (·.stop)).getD cur.offset
  cur.offset % 8 = 0 ∧ (∀ f a, cur.ir = some f → f.known = some a → cur.offset = 8 * up pos a) ∧
  (erased cur = true → pos = bytes prevEnd ∧ bytes prevEnd * 8 ≤ cur.offset) ∧ assertOk false prev cur = true

/-- The alignment a bound brings. -/
def Bound.known (b : Bound) : Option Nat := b.ir.bind (·.known)

theorem maxAlign_append (a b : List Mem) : maxAlign (a ++ b) = max (maxAlign a) (maxAlign b) := by
  unfold maxAlign
  induction a with
  | nil =>
    simp only [List.nil_append, List.foldr_nil]
    have : ∀ l : List Mem, 1 ≤ l.foldr (fun m a => max m.align a) 1 := by
      intro l; induction l with
      | nil => simp
      | cons m l ih => simp only [List.foldr_cons]; omega
    have := this b
    omega
  | cons m a ih => simp only [List.cons_append, List.foldr_cons, ih]; omega

theorem one_spec {align : Nat} {b : Bound} {prev : Option Bound} {pos stop : Nat} (hb : BOk align b) (hat : At pos prev b)
    (hstop : erased b = true → b.offset < stop) (hstop' : ∀ f, b.ir = some f → f.known.isSome = true → stop = f.offset + f.size) :
    ∃ ms, checkedDefinition false prev b ((prev.bind (·.stop)).getD b.offset) stop = some ms ∧ (place pos ms).2 = bytes stop ∧
      (tagged (place pos ms).1).map (fun x => (x.1, x.2.1)) = b.ir.toList.map (fun f => (f, f.offset / 8)) ∧
      (∀ x ∈ tagged (place pos ms).1, x.1.known.isSome = true → 8 * x.2.2 = x.1.size) ∧ maxAlign ms = max 1 (b.known.getD 1) := by
  obtain ⟨h1, h2, h3, h4⟩ := hat
  generalize (prev.bind (·.stop)).getD b.offset = pe at *
  unfold checkedDefinition
  rw [if_pos h4]
  unfold fieldDefinition
  by_cases he : erased b = true
  · obtain ⟨hp, hle⟩ := h3 he
    have hs := hstop he
    have hnk : (b.ir.any (·.known.isSome)) = false := by
      unfold erased at he
      cases hi : b.ir with
      | none => rfl
      | some f => rw [hi] at he; simp only at he; simp [Option.any]; cases hk : f.known <;> simp_all
    have hpad : paddingBits false b.ir pe b.offset = some (b.offset - bytes pe * 8) := by
      unfold paddingBits; rw [hnk]; simp [hle]
    rw [hpad]
    have hkn : b.known = none := by
      unfold Bound.known
      unfold erased at he
      cases hi : b.ir with
      | none => rfl
      | some f => rw [hi] at he; simp only at he; simp only [Option.bind_some]; cases hk : f.known <;> simp_all
    obtain ⟨tag, hm, htag⟩ : ∃ tag, fieldMem b stop = some ⟨tag, bytes (stop - b.offset), 1⟩ ∧
        ∀ off s, (tagged [((⟨tag, s, 1⟩ : Mem), off)]) = b.ir.toList.map (fun f => (f, off, s)) := by
      unfold fieldMem
      cases hi : b.ir with
      | none => exact ⟨.bits, by simp [blob, hs], fun off s => rfl⟩
      | some f =>
        have hk : f.known = none := by
          unfold erased at he; rw [hi] at he; simpa using he
        obtain ⟨ho, -⟩ := hb.field f hi
        exact ⟨.field f, by simp [blob, hk, ho, hs], fun off s => rfl⟩
    rw [hm]
    have hnone : ∀ f ∈ b.ir.toList, f.known = none := by
      intro f hf
      rw [Option.mem_toList] at hf
      rw [Bound.known, hf] at hkn
      simpa using hkn
    have hoff : ∀ f ∈ b.ir.toList, f.offset = b.offset := by
      intro f hf
      rw [Option.mem_toList] at hf
      exact (hb.field f hf).1
    have key : ∀ ms : List Mem, ms = [] ∨ (∃ n, ms = [⟨.padding, n, 1⟩]) → (place pos ms).2 = b.offset / 8 →
        (place pos (ms ++ [⟨tag, bytes (stop - b.offset), 1⟩])).2 = bytes stop ∧
        (tagged (place pos (ms ++ [⟨tag, bytes (stop - b.offset), 1⟩])).1).map (fun x => (x.1, x.2.1)) = b.ir.toList.map (fun f => (f, f.offset / 8)) ∧
        (∀ x ∈ tagged (place pos (ms ++ [⟨tag, bytes (stop - b.offset), 1⟩])).1, x.1.known.isSome = true → 8 * x.2.2 = x.1.size) ∧
        maxAlign (ms ++ [⟨tag, bytes (stop - b.offset), 1⟩]) = max 1 (b.known.getD 1) := by
      intro ms hms hpos
      have ht : tagged (place pos (ms ++ [⟨tag, bytes (stop - b.offset), 1⟩])).1 = b.ir.toList.map (fun f => (f, b.offset / 8, bytes (stop - b.offset))) := by
        rw [place_append, tagged_append]
        have : tagged (place pos ms).1 = [] := by
          rcases hms with rfl | ⟨n, rfl⟩ <;> rfl
        rw [this, List.nil_append]
        simp only [place, hpos, up_one]
        exact htag _ _
      refine ⟨?_, ?_, ?_, ?_⟩
      · rw [place_append]
        simp only [place, hpos, up_one]
        unfold bytes; omega
      · rw [ht, List.map_map]
        refine List.map_congr_left fun f hf => ?_
        simp [hoff f hf]
      · rw [ht]
        intro x hx hk
        obtain ⟨f, hf, rfl⟩ := List.mem_map.mp hx
        simp only [hnone f hf] at hk
        cases hk
      · rw [maxAlign_append, hkn]
        rcases hms with rfl | ⟨n, rfl⟩ <;> rfl
    by_cases hz : b.offset - bytes pe * 8 = 0
    · refine ⟨[] ++ [⟨tag, bytes (stop - b.offset), 1⟩], by simp [hz], ?_⟩
      refine key [] (Or.inl rfl) ?_
      simp only [place, hp]
      omega
    · refine ⟨[⟨.padding, bytes (b.offset - bytes pe * 8), 1⟩] ++ [⟨tag, bytes (stop - b.offset), 1⟩], by simp [hz], ?_⟩
      refine key _ (Or.inr ⟨_, rfl⟩) ?_
      simp only [place, hp, up_one]
      have : bytes (b.offset - bytes pe * 8) = (b.offset - bytes pe * 8 + 7) / 8 := rfl
      omega
  · cases hi : b.ir with
    | none => simp [erased, hi] at he
    | some f =>
      cases hk : f.known with
      | none => simp [erased, hi, hk] at he
      | some a =>
        obtain ⟨ho, -, hsz, hst, hka⟩ := hb.field f hi
        obtain ⟨k1, k2, k3, k4⟩ := hka a hk
        have hs := hstop' f hi (by simp [hk])
        have hoff := h2 f a hi hk
        refine ⟨[⟨.field f, f.size / 8, a⟩], by simp [paddingBits, fieldMem, hi, hk, Option.any], ?_, ?_, ?_, ?_⟩
        · simp only [place]
          rw [hs]; unfold bytes; omega
        · simp only [place, tagged, List.filterMap_cons, List.filterMap_nil, List.map_cons, List.map_nil, Option.toList_some]
          rw [ho, hoff, Nat.mul_div_cancel_left _ (by omega)]
        · intro x hx _
          simp only [place, tagged, List.filterMap_cons, List.filterMap_nil, List.mem_singleton] at hx
          subst hx
          simp only; omega
        · simp [maxAlign, Bound.known, hi, hk]; omega

theorem foldAlign_ge (bs : List Bound) : 1 ≤ bs.foldr (fun b a => max (b.known.getD 1) a) 1 := by
  induction bs with
  | nil => simp
  | cons c bs ih => simp only [List.foldr_cons]; omega

theorem defs_spec (size align : Nat) : ∀ (bs : List Bound) (prev : Option Bound) (pos : Nat), (∀ b ∈ bs, BOk align b) →
    BPairs (fun x y => BNext x y ∧ y.offset % 8 = 0) bs → (∀ b, bs.head? = some b → At pos prev b) →
    (∀ b, bs.getLast? = some b → b.stop = none → b.offset < size * 8) →
    ∃ ms, definitions false size prev bs = some ms ∧
      (tagged (place pos ms).1).map (fun x => (x.1, x.2.1)) = (bs.filterMap (·.ir)).map (fun f => (f, f.offset / 8)) ∧
      (∀ x ∈ tagged (place pos ms).1, x.1.known.isSome = true → 8 * x.2.2 = x.1.size) ∧
      (∀ b, bs.getLast? = some b → (place pos ms).2 = bytes (b.stop.getD (size * 8))) ∧
      (bs = [] → ms = []) ∧ maxAlign ms = bs.foldr (fun b a => max (b.known.getD 1) a) 1 := by
  intro bs
  induction bs with
  | nil => intro prev pos _ _ _ _; exact ⟨[], rfl, rfl, by simp [place, tagged], by simp, fun _ => rfl, rfl⟩
  | cons b bs ih =>
    intro prev pos hok hp hat hlast
    have hb := hok b (by simp)
    have hat := hat b rfl
    -- the end of this one
    have hstopE : erased b = true → b.offset < (b.stop.or (bs.head?.map (·.offset))).getD (size * 8) := by
      intro he
      cases hs : b.stop with
      | some e => simpa using hb.order e hs
      | none =>
        cases bs with
        | nil => simpa using hlast b rfl hs
        | cons c bs =>
          have := hp.1.1.order
          rw [hs] at this
          simp at this ⊢; omega
    have hstopK : ∀ f, b.ir = some f → f.known.isSome = true → (b.stop.or (bs.head?.map (·.offset))).getD (size * 8) = f.offset + f.size := by
      intro f hf hk
      rw [(hb.field f hf).2.2.2.1, if_pos hk]; simp
    obtain ⟨ms1, d1, d2, d3, d4, d5⟩ := one_spec hb hat hstopE hstopK
    have hat' : ∀ c, bs.head? = some c → At (bytes ((b.stop.or (bs.head?.map (·.offset))).getD (size * 8))) (some b) c := by
      intro c hc
      cases bs with
      | nil => simp at hc
      | cons c' bs =>
        simp only [List.head?_cons, Option.some.injEq] at hc
        subst hc
        obtain ⟨⟨n1, n2, n3⟩, n4⟩ := hp.1
        refine ⟨n4, ?_, ?_, ?_⟩
        · intro f a hf hk
          cases hs : b.stop with
          | some e => simpa using n3 f a e hf hk hs
          | none =>
            simp only [List.head?_cons, Option.map_some, Option.none_or, Option.getD_some]
            have hd := ((hok c' (by simp)).field f hf)
            have := (hd.2.2.2.2 a hk).2.2.2
            rw [hd.1] at this
            have e : bytes c'.offset = c'.offset / 8 := by unfold bytes; omega
            rw [e, up_dvd this]; omega
        · intro he
          cases hs : b.stop with
          | some e =>
            rw [hs] at n1
            simp [hs] at n1 ⊢; unfold bytes; omega
          | none =>
            simp [hs]; unfold bytes; omega
        · unfold assertOk
          split
          · rename_i heq
            simp only [Option.some.injEq] at heq
            subst heq
            simp at n1 ⊢; exact n1
          · rfl
    obtain ⟨ms2, e1, e2, e3, e4, e5, e6⟩ := ih (some b) (bytes ((b.stop.or (bs.head?.map (·.offset))).getD (size * 8)))
      (fun c hc => hok c (by simp [hc])) (by cases bs with | nil => trivial | cons c bs => exact hp.2) hat'
      (fun c hc => hlast c (by cases bs with | nil => simp at hc | cons x bs => rw [List.getLast?_cons_cons]; exact hc))
    refine ⟨ms1 ++ ms2, ?_, ?_, ?_, ?_, ?_, ?_⟩
    · simp only [definitions, d1, e1, Option.bind_eq_bind, Option.bind_some, Option.pure_def]
    · rw [place_append, d2]
      simp only [tagged_append, List.map_append, d3, e2]
      cases hi : b.ir <;> simp [hi]
    · rw [place_append, d2]
      simp only [tagged_append, List.mem_append]
      intro x hx
      exact hx.elim (d4 x) (e3 x)
    · intro c hc
      rw [place_append, d2]
      cases bs with
      | nil =>
        simp only [List.getLast?_singleton, Option.some.injEq] at hc
        subst hc
        rw [e5 rfl]
        simp only [place, List.head?_nil, Option.map_none, Option.or_none]
      | cons x bs =>
        rw [List.getLast?_cons_cons] at hc
        exact e4 c hc
    · intro h; cases h
    · rw [maxAlign_append, d5, e6, List.foldr_cons]
      have := foldAlign_ge bs
      omega

end Verif.Layout

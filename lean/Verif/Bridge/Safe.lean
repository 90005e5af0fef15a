import Verif.Bridge.Lemmas
/- Decoders never leave the buffer, and never underflow (helper lemmas for C09). -/
namespace Verif.Bridge
open Verif

/-! ### Decoding never leaves the buffer -/

/-- What every decoder guarantees on arbitrary memory. -/
def DecSafe {V : Type} (size : Nat) (dec : Cursor → Mem → Except Err (V × Cursor)) : Prop :=
  ∀ rem buf, size ≤ rem →
    (∀ m, dec ⟨rem, buf⟩ m ≠ .error .underflow) ∧
    (∀ m v c', dec ⟨rem, buf⟩ m = .ok (v, c') → c'.buf = buf ∧ c'.remaining ≤ rem ∧ rem ≤ c'.remaining + size) ∧
    (∀ m m2, (∀ i, buf + rem ≤ i + size → i < buf + rem → m i = m2 i) → dec ⟨rem, buf⟩ m = dec ⟨rem, buf⟩ m2)

theorem getBytes_safe (n : Nat) : DecSafe n (getBytes n) := by
  intro rem buf h
  refine ⟨?_, ?_, ?_⟩
  · intro m; simp [getBytes, Cursor.next, h, bind, Except.bind, pure, Except.pure]
  · intro m v c' hc
    simp [getBytes, Cursor.next, h, bind, Except.bind, pure, Except.pure] at hc
    obtain ⟨-, rfl⟩ := hc
    exact ⟨rfl, by simp, by simp; omega⟩
  · intro m m2 hm
    simp only [getBytes, Cursor.next, h, if_true, bind, Except.bind, pure, Except.pure]
    rw [read_congr (m' := m2) (fun i h3 h4 => hm i (by omega) (by omega))]

theorem DecSafe.mono {V : Type} {s s' : Nat} {d : Cursor → Mem → Except Err (V × Cursor)} (h : DecSafe s d)
    (hs : s ≤ s') : DecSafe s' d := by
  intro rem buf hle
  obtain ⟨h1, h2, h3⟩ := h rem buf (by omega)
  refine ⟨h1, fun m v c' hc => ?_, fun m m2 hm => h3 m m2 (fun i hi hj => hm i (by omega) hj)⟩
  obtain ⟨a, b, c⟩ := h2 m v c' hc
  exact ⟨a, b, by omega⟩

/-- Sequencing two decoders (the second may depend on the first's result). -/
theorem DecSafe.bind {V W : Type} {s1 s2 : Nat} {d1 : Cursor → Mem → Except Err (V × Cursor)}
    {d2 : V → Cursor → Mem → Except Err (W × Cursor)} (h1 : DecSafe s1 d1) (h2 : ∀ v, DecSafe s2 (d2 v)) :
    DecSafe (s1 + s2) (fun c m => d1 c m >>= fun r => d2 r.1 r.2 m) := by
  intro rem buf hle
  obtain ⟨a1, a2, a3⟩ := h1 rem buf (by omega)
  refine ⟨?_, ?_, ?_⟩
  · intro m
    show (d1 ⟨rem, buf⟩ m >>= fun r => d2 r.1 r.2 m) ≠ _
    cases hd : d1 ⟨rem, buf⟩ m with
    | error e =>
      intro he
      simp only [Bind.bind, Except.bind, Except.error.injEq] at he
      exact a1 m (by rw [hd, he])
    | ok r =>
      obtain ⟨v, r, b⟩ := r
      obtain ⟨rfl, c2, c3⟩ := a2 m _ _ hd
      exact (h2 v r b (by simp at c3; omega)).1 m
  · intro m w c' hc
    replace hc : (d1 ⟨rem, buf⟩ m >>= fun r => d2 r.1 r.2 m) = _ := hc
    cases hd : d1 ⟨rem, buf⟩ m with
    | error e => rw [hd] at hc; simp [Bind.bind, Except.bind] at hc
    | ok r =>
      obtain ⟨v, r, b⟩ := r
      obtain ⟨rfl, c2, c3⟩ := a2 m _ _ hd
      rw [hd] at hc
      obtain ⟨e1, e2, e3⟩ := (h2 v r b (by simp at c3; omega)).2.1 m w c' hc
      simp at c2 c3
      exact ⟨e1, by omega, by omega⟩
  · intro m m2 hm
    show (d1 ⟨rem, buf⟩ m >>= fun r => d2 r.1 r.2 m) = (d1 ⟨rem, buf⟩ m2 >>= fun r => d2 r.1 r.2 m2)
    rw [← a3 m m2 (fun i hi hj => hm i (by omega) hj)]
    cases hd : d1 ⟨rem, buf⟩ m with
    | error e => rfl
    | ok r =>
      obtain ⟨v, r, b⟩ := r
      obtain ⟨rfl, c2, c3⟩ := a2 m _ _ hd
      simp at c2 c3
      exact (h2 v r b (by omega)).2.2 m m2 (fun i hi hj => hm i (by dsimp only; omega) (by dsimp only; omega))

theorem DecSafe.pure {V : Type} (v : V) : DecSafe 0 (fun c _ => (.ok (v, c) : Except Err (V × Cursor))) := by
  intro rem buf _
  refine ⟨by simp, ?_, fun _ _ _ => rfl⟩
  intro m w c' h
  simp only [Except.ok.injEq, Prod.mk.injEq] at h
  obtain ⟨-, rfl⟩ := h
  exact ⟨rfl, by simp, by simp⟩

theorem DecSafe.err {V : Type} (e : Err) (he : e ≠ .underflow) :
    DecSafe 0 (fun _ _ => (.error e : Except Err (V × Cursor))) := by
  intro rem buf _
  exact ⟨by simp [he], by simp, fun _ _ _ => rfl⟩

theorem DecSafe.congr {V : Type} {s : Nat} {d d' : Cursor → Mem → Except Err (V × Cursor)} (h : DecSafe s d)
    (e : ∀ c m, d' c m = d c m) : DecSafe s d' := by
  have : d' = d := by funext c m; exact e c m
  rw [this]; exact h

theorem toRaw_getBytes {n : Nat} {c : Cursor} {m : Mem} {l : List UInt8} {c' : Cursor}
    (h : getBytes n c m = .ok (l, c')) : l.length = n := by
  simp only [getBytes, bind, Except.bind, pure, Except.pure] at h
  split at h
  · simp at h
  · simp only [Except.ok.injEq, Prod.mk.injEq] at h
    rw [← h.1]; simp [Mem.read]

theorem getBool_safe : DecSafe 1 getBool := by
  have := (getBytes_safe 1).bind (s2 := 0) (d2 := fun l c _ => match l with
    | [0] => .ok (false, c)
    | [1] => .ok (true, c)
    | _ => .error .invalidBool) (by
      intro l
      split
      · exact DecSafe.pure false
      · exact DecSafe.pure true
      · exact DecSafe.err _ (by decide))
  refine this.congr ?_
  intro c m
  rfl

/-- A pure post-processing step that never reports underflow. -/
theorem DecSafe.bindE {V W : Type} {s : Nat} {d : Cursor → Mem → Except Err (V × Cursor)} (h : DecSafe s d)
    (g : V → Except Err W) (hg : ∀ c m v c', d c m = .ok (v, c') → g v ≠ .error .underflow) :
    DecSafe s (fun c m => d c m >>= fun r => g r.1 >>= fun w => Pure.pure (w, r.2)) := by
  intro rem buf hle
  obtain ⟨a1, a2, a3⟩ := h rem buf hle
  refine ⟨?_, ?_, ?_⟩
  · intro m
    show (d ⟨rem, buf⟩ m >>= fun r => g r.1 >>= fun w => Pure.pure (w, r.2)) ≠ _
    cases hd : d ⟨rem, buf⟩ m with
    | error e =>
      intro he
      simp only [Bind.bind, Except.bind, Except.error.injEq] at he
      exact a1 m (by rw [hd, he])
    | ok r =>
      have := hg _ _ _ _ hd
      cases hgr : g r.1 with
      | error e =>
        simp only [Bind.bind, Except.bind, hgr]
        rw [hgr] at this; exact fun he => this (by simpa using he)
      | ok w => simp [Bind.bind, Except.bind, hgr, Pure.pure, Except.pure]
  · intro m w c' hc
    replace hc : (d ⟨rem, buf⟩ m >>= fun r => g r.1 >>= fun w => Pure.pure (w, r.2)) = _ := hc
    cases hd : d ⟨rem, buf⟩ m with
    | error e => rw [hd] at hc; simp [Bind.bind, Except.bind] at hc
    | ok r =>
      rw [hd] at hc
      cases hgr : g r.1 with
      | error e => simp [Bind.bind, Except.bind, hgr] at hc
      | ok w' =>
        simp only [Bind.bind, Except.bind, hgr, Pure.pure, Except.pure, Except.ok.injEq, Prod.mk.injEq] at hc
        obtain ⟨-, rfl⟩ := hc
        exact a2 m _ _ hd
  · intro m m2 hm
    show (d ⟨rem, buf⟩ m >>= fun r => g r.1 >>= fun w => Pure.pure (w, r.2)) =
      (d ⟨rem, buf⟩ m2 >>= fun r => g r.1 >>= fun w => Pure.pure (w, r.2))
    rw [a3 m m2 hm]

theorem toRaw_ne (n : Nat) (c : Cursor) (m : Mem) (l : List UInt8) (c' : Cursor)
    (h : getBytes n c m = .ok (l, c')) : toRaw n l ≠ .error .underflow := by
  simp [toRaw, toRaw_getBytes h]

theorem toPtr_ne (l : List UInt8) : toPtr l ≠ .error .underflow := by
  simp only [toPtr]; split <;> simp

mutual
theorem rustDecode_safe : (a : Abi) → DecSafe a.size (rustDecode a)
  | .transmute n => ((getBytes_safe n).bindE (toRaw n) (toRaw_ne n)).congr (fun c m => by rfl)
  | .tuple as => rustDecodes_safe as
  | .pair a b => by
    have h := (rustDecode_safe a).bind (s2 := b.size)
      (d2 := fun x c m => rustDecode b c m >>= fun r => (Except.ok (x, r.1) : Except Err _) >>= fun w => Pure.pure (w, r.2))
      (fun x => (rustDecode_safe b).bindE (fun y => .ok (x, y)) (by simp))
    refine (h.mono (s' := (Abi.pair a b).size) (by simp [Abi.size])).congr ?_
    intro c m; rfl
  | .option a => by
    have h := getBool_safe.bind (s2 := a.size)
      (d2 := fun x c m => if x then rustDecode a c m >>= fun r => (Except.ok (some r.1) : Except Err _) >>= fun w => Pure.pure (w, r.2)
        else Except.ok (none, c)) (by
          intro x
          cases x
          · exact (DecSafe.pure _).mono (Nat.zero_le _)
          · exact (rustDecode_safe a).bindE (fun y => .ok (some y)) (by simp))
    refine h.congr ?_
    intro c m; rfl
  | .boxed => ((getBytes_safe ptrSize).bindE toPtr (fun _ _ l _ _ => toPtr_ne l)).congr (fun c m => by rfl)
theorem rustDecodes_safe : (as : Abis) → DecSafe as.size (rustDecodes as)
  | .nil => (DecSafe.pure ()).congr (fun c m => by rfl)
  | .cons a as => by
    have h := (rustDecode_safe a).bind (s2 := as.size)
      (d2 := fun x c m => rustDecodes as c m >>= fun r => (Except.ok (x, r.1) : Except Err _) >>= fun w => Pure.pure (w, r.2))
      (fun x => (rustDecodes_safe as).bindE (fun y => .ok (x, y)) (by simp))
    refine h.congr ?_
    intro c m; rfl
end

/-- A C++ decoder seen as a reader of the (unchanged) buffer memory, for a fixed initial heap. -/
def onMem {O V : Type} (d : Cursor → St O → Except Err (V × Cursor × St O)) (h : Heap O) (c : Cursor) (m : Mem) :
    Except Err ((V × Heap O) × Cursor) := do
  let (v, c, s) ← d c ⟨m, h⟩
  return ((v, s.heap), c)

/-- The C++ decoder leaves the buffer memory alone. -/
def KeepsMem {O V : Type} (d : Cursor → St O → Except Err (V × Cursor × St O)) : Prop :=
  ∀ c s v c' s', d c s = .ok (v, c', s') → s'.mem = s.mem

def CppDecSafe {O V : Type} (size : Nat) (d : Cursor → St O → Except Err (V × Cursor × St O)) : Prop :=
  KeepsMem d ∧ ∀ h, DecSafe size (onMem d h)

theorem CppDecSafe.mono {O V : Type} {n n' : Nat} {d : Cursor → St O → Except Err (V × Cursor × St O)}
    (h : CppDecSafe n d) (hn : n ≤ n') : CppDecSafe n' d := ⟨h.1, fun x => (h.2 x).mono hn⟩

theorem CppDecSafe.bind {O V W : Type} {n1 n2 : Nat} {d1 : Cursor → St O → Except Err (V × Cursor × St O)}
    {d2 : V → Cursor → St O → Except Err (W × Cursor × St O)} (h1 : CppDecSafe n1 d1)
    (h2 : ∀ v, CppDecSafe n2 (d2 v)) :
    CppDecSafe (n1 + n2) (fun c s => d1 c s >>= fun r => d2 r.1 r.2.1 r.2.2) := by
  refine ⟨?_, ?_⟩
  · intro c s w c' s' hc
    replace hc : (d1 c s >>= fun r => d2 r.1 r.2.1 r.2.2) = _ := hc
    cases hd : d1 c s with
    | error e => rw [hd] at hc; simp [Bind.bind, Except.bind] at hc
    | ok r =>
      rw [hd] at hc
      rw [(h2 r.1).1 _ _ _ _ _ hc, h1.1 _ _ _ _ _ hd]
  · intro h
    refine ((h1.2 h).bind (d2 := fun v c m => onMem (d2 v.1) v.2 c m) (fun v => (h2 v.1).2 v.2)).congr ?_
    intro c m
    simp only [onMem]
    cases hd : d1 c ⟨m, h⟩ with
    | error e => rfl
    | ok r =>
      obtain ⟨v, c1, m1, hp⟩ := r
      have hm := h1.1 _ _ _ _ _ hd
      simp only at hm
      subst hm
      rfl

theorem CppDecSafe.ofRust {O V : Type} {n : Nat} {d : Cursor → Mem → Except Err (V × Cursor)} (h : DecSafe n d) :
    CppDecSafe (O := O) n (fun c s => d c s.mem >>= fun r => Pure.pure (r.1, r.2, s)) := by
  refine ⟨?_, ?_⟩
  · intro c s w c' s' hc
    replace hc : (d c s.mem >>= fun r => Pure.pure (r.1, r.2, s)) = _ := hc
    cases hd : d c s.mem with
    | error e => rw [hd] at hc; simp [Bind.bind, Except.bind] at hc
    | ok r =>
      rw [hd] at hc
      simp only [Bind.bind, Except.bind, Pure.pure, Except.pure, Except.ok.injEq, Prod.mk.injEq] at hc
      rw [← hc.2.2]
  · intro hp
    refine (h.bindE (fun v => .ok (v, hp)) (by simp)).congr ?_
    intro c m
    simp only [onMem]
    cases d c m <;> rfl

theorem CppDecSafe.pure {O V : Type} (v : V) :
    CppDecSafe (O := O) 0 (fun c s => (Pure.pure (v, c, s) : Except Err (V × Cursor × St O))) := by
  refine ⟨?_, fun h => (DecSafe.pure (v, h)).congr (fun c m => by rfl)⟩
  intro c s w c' s' hc
  simp only [Pure.pure, Except.pure, Except.ok.injEq, Prod.mk.injEq] at hc
  rw [← hc.2.2]

theorem CppDecSafe.congr {O V : Type} {n : Nat} {d d' : Cursor → St O → Except Err (V × Cursor × St O)}
    (h : CppDecSafe n d) (e : ∀ c s, d' c s = d c s) : CppDecSafe n d' := by
  have : d' = d := by funext c s; exact e c s
  rw [this]; exact h

/-- The second half of `BoxedAbi::Decode`: follow the pointer, move the object out, delete the box. -/
def unbox {O : Type} (l : List UInt8) (c : Cursor) (s : St O) : Except Err (O × Cursor × St O) :=
  match toPtr l with
  | .error _ => throw .badPointer
  | .ok p =>
    match AMap.get? s.heap p with
    | none => throw .badPointer
    | some o => return (o, c, { s with heap := AMap.erase s.heap p })

theorem unbox_safe {O : Type} (l : List UInt8) : CppDecSafe (O := O) 0 (unbox l) := by
  refine ⟨?_, ?_⟩
  · intro c s v c' s' h
    simp only [unbox] at h
    split at h
    · simp [throw, throwThe, MonadExceptOf.throw] at h
    · split at h
      · simp [throw, throwThe, MonadExceptOf.throw] at h
      · simp only [Pure.pure, Except.pure, Except.ok.injEq, Prod.mk.injEq] at h
        rw [← h.2.2]
  · intro h
    cases hp : toPtr l with
    | error e =>
      refine (DecSafe.err .badPointer (by decide)).congr ?_
      intro c m; simp [onMem, unbox, hp]; rfl
    | ok p =>
      cases hg : AMap.get? h p with
      | none =>
        refine (DecSafe.err .badPointer (by decide)).congr ?_
        intro c m; simp [onMem, unbox, hp, hg]; rfl
      | some o =>
        refine (DecSafe.pure (o, AMap.erase h p)).congr ?_
        intro c m; simp [onMem, unbox, hp, hg]; rfl

mutual
theorem cppDecode_safe {O : Type} (ord : ArgOrder) : (a : Abi) → CppDecSafe (O := O) a.size (cppDecode ord a)
  | .transmute n => by
    refine (CppDecSafe.ofRust ((getBytes_safe n).bindE (toRaw n) (toRaw_ne n))).congr ?_
    intro c s
    simp only [cppDecode]
    cases getBytes n c s.mem with
    | error e => rfl
    | ok r => cases h : toRaw n r.1 <;> simp [Bind.bind, Except.bind, h, Pure.pure, Except.pure]
  | .tuple as => cppDecodes_safe ord as
  | .pair a b => by
    have h := (cppDecode_safe (O := O) ord a).bind (n2 := b.size + 0)
      (d2 := fun x c s => cppDecode ord b c s >>= fun r => Pure.pure ((x, r.1), r.2.1, r.2.2))
      (fun x => (cppDecode_safe ord b).bind (fun y => CppDecSafe.pure (x, y)))
    refine (h.mono (n' := (Abi.pair a b).size) (by simp [Abi.size])).congr ?_
    intro c m; rfl
  | .option a => by
    have h := (CppDecSafe.ofRust (O := O) getBool_safe).bind (n2 := a.size)
      (d2 := fun x c s => if x then cppDecode ord a c s >>= fun r => Pure.pure (some r.1, r.2.1, r.2.2)
        else Pure.pure (none, c, s)) (by
          intro x
          cases x
          · exact (CppDecSafe.pure _).mono (Nat.zero_le _)
          · exact (cppDecode_safe ord a).bind (n2 := 0) (fun y => CppDecSafe.pure (some y)))
    refine h.congr ?_
    intro c s
    simp only [cppDecode]
    cases getBool c s.mem <;> rfl
  | .boxed => by
    refine ((CppDecSafe.ofRust (O := O) (getBytes_safe ptrSize)).bind (n2 := 0) (d2 := unbox) unbox_safe).congr ?_
    intro c s
    simp only [cppDecode]
    cases getBytes ptrSize c s.mem <;> rfl
theorem cppDecodes_safe {O : Type} (ord : ArgOrder) : (as : Abis) → CppDecSafe (O := O) as.size (cppDecodes ord as)
  | .nil => (CppDecSafe.pure ()).congr (fun c m => by rfl)
  | .cons a as => by
    cases ord with
    | leftToRight =>
      have h := (cppDecode_safe (O := O) .leftToRight a).bind (n2 := as.size + 0)
        (d2 := fun x c s => cppDecodes .leftToRight as c s >>= fun r => Pure.pure ((x, r.1), r.2.1, r.2.2))
        (fun x => (cppDecodes_safe .leftToRight as).bind (fun y => CppDecSafe.pure (x, y)))
      refine (h.mono (n' := (Abis.cons a as).size) (by simp [Abis.size])).congr ?_
      intro c m; rfl
    | rightToLeft =>
      have h := (cppDecodes_safe (O := O) .rightToLeft as).bind (n2 := a.size + 0)
        (d2 := fun x c s => cppDecode .rightToLeft a c s >>= fun r => Pure.pure ((r.1, x), r.2.1, r.2.2))
        (fun x => (cppDecode_safe .rightToLeft a).bind (fun y => CppDecSafe.pure (y, x)))
      refine (h.mono (n' := (Abis.cons a as).size) (by simp [Abis.size]; omega)).congr ?_
      intro c m; rfl
end

end Verif.Bridge

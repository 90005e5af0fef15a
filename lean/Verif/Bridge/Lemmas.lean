import Verif.Bridge.Spec
/- Helper lemmas for the bridge properties. -/
namespace Verif.Bridge
open Verif

theorem read_congr {m m' : Mem} {a n : Nat} (h : ∀ i, a ≤ i → i < a + n → m i = m' i) :
    m.read a n = m'.read a n := by
  simp only [Mem.read]
  apply List.map_congr_left
  intro i hi
  rw [List.mem_range] at hi
  exact h _ (by omega) (by omega)

theorem read_write (m : Mem) (a : Nat) (bs : List UInt8) : (m.write a bs).read a bs.length = bs := by
  simp only [Mem.read, Mem.write]
  apply List.ext_getElem
  · simp
  · intro i h1 h2
    simp [h2]

theorem write_outside (m : Mem) (a : Nat) (bs : List UInt8) (i : Nat)
    (h : i < a ∨ a + bs.length ≤ i) : (m.write a bs) i = m i := by
  simp only [Mem.write]
  split
  · rw [List.getElem?_eq_none (by omega)]; rfl
  · rfl

/-- What a successful encode of `v` guarantees. -/
def EncOk {V : Type} (size : Nat) (enc : Cursor → Mem → Except Err (Cursor × Mem))
    (dec : Cursor → Mem → Except Err (V × Cursor)) (v : V) : Prop :=
  ∀ rem buf m, size ≤ rem → ∃ rem' m', enc ⟨rem, buf⟩ m = .ok (⟨rem', buf⟩, m') ∧
    rem ≤ rem' + size ∧ rem' ≤ rem ∧
    (∀ i, i < buf + rem' ∨ buf + rem ≤ i → m' i = m i) ∧
    ∀ m2 : Mem, (∀ i, buf + rem' ≤ i → i < buf + rem → m2 i = m' i) →
      dec ⟨rem, buf⟩ m2 = .ok (v, ⟨rem', buf⟩)

theorem putBytes_ok (l : List UInt8) :
    EncOk l.length (putBytes l) (getBytes l.length) l := by
  intro rem buf m h
  refine ⟨rem - l.length, m.write (buf + (rem - l.length)) l, ?_, by omega, by omega, ?_, ?_⟩
  · simp [putBytes, Cursor.next, h, bind, Except.bind, pure, Except.pure]
  · intro i hi; exact write_outside _ _ _ _ (by omega)
  · intro m2 h2
    simp only [getBytes, Cursor.next, h, if_true, bind, Except.bind, pure, Except.pure]
    rw [read_congr (m' := m.write (buf + (rem - l.length)) l) (fun i h3 h4 => h2 i h3 (by omega)), read_write]

theorem putBool_ok (b : Bool) : EncOk 1 (putBool b) getBool b := by
  intro rem buf m h
  obtain ⟨rem', m', h1, h2, h3, h4, h5⟩ := putBytes_ok [if b then 1 else 0] rem buf m h
  refine ⟨rem', m', h1, h2, h3, h4, ?_⟩
  intro m2 hm
  have := h5 m2 hm
  simp only [List.length_singleton] at this
  simp only [getBool, this, bind, Except.bind]
  cases b <;> simp [pure, Except.pure]

theorem EncOk.seq {V W U : Type} {s1 s2 : Nat} {e1 d1 e2 d2} {v : V} {w : W}
    {e : Cursor → Mem → Except Err (Cursor × Mem)} {d : Cursor → Mem → Except Err (U × Cursor)} {u : U}
    (h1 : EncOk s1 e1 d1 v) (h2 : EncOk s2 e2 d2 w)
    (he : ∀ c m c1 m1, e1 c m = .ok (c1, m1) → e c m = e2 c1 m1)
    (hd : ∀ c m c1 c2, d1 c m = .ok (v, c1) → d2 c1 m = .ok (w, c2) → d c m = .ok (u, c2)) :
    EncOk (s1 + s2) e d u := by
  intro rem buf m hle
  obtain ⟨r1, m1, a1, a2, a3, a4, a5⟩ := h1 rem buf m (by omega)
  obtain ⟨r2, m2, b1, b2, b3, b4, b5⟩ := h2 r1 buf m1 (by omega)
  refine ⟨r2, m2, by rw [he _ _ _ _ a1, b1], by omega, by omega, ?_, ?_⟩
  · intro i hi
    rw [b4 i (by omega), a4 i (by omega)]
  · intro m3 h3
    apply hd _ _ _ _ (a5 m3 ?_) (b5 m3 ?_)
    · intro i hi1 hi2
      rw [h3 i (by omega) hi2]
      exact b4 i (by omega)
    · intro i hi1 hi2
      exact h3 i hi1 (by omega)

theorem EncOk.mono {V : Type} {s s' : Nat} {e d} {v : V} (h : EncOk s e d v) (hs : s ≤ s') :
    EncOk s' e d v := by
  intro rem buf m hle
  obtain ⟨r1, m1, a1, a2, a3, a4, a5⟩ := h rem buf m (by omega)
  exact ⟨r1, m1, a1, by omega, a3, a4, a5⟩

theorem toRaw_ok {n : Nat} (v : { l : List UInt8 // l.length = n }) : toRaw n v.1 = .ok v := by
  simp [toRaw, v.2]

theorem toPtr_ok (p : Ptr) : toPtr p.1 = .ok p := by
  simp only [toPtr]; rw [dif_pos p.2]

mutual
theorem rust_ok : (a : Abi) → (v : a.Val Ptr) → EncOk a.size (rustEncode a v) (rustDecode a) v
  | .transmute n, v => by
    intro rem buf m hle
    have hl : v.1.length = n := v.2
    obtain ⟨r, m', h1, h2, h3, h4, h5⟩ := putBytes_ok v.1 rem buf m (by simpa [hl, Abi.size] using hle)
    refine ⟨r, m', h1, by simpa [Abi.size, hl] using h2, h3, h4, fun m2 hm => ?_⟩
    have := h5 m2 hm
    rw [hl] at this
    simp [rustDecode, this, bind, Except.bind, pure, Except.pure, toRaw_ok]
  | .tuple as, v => rusts_ok as v
  | .pair a b, (x, y) => by
    have := EncOk.seq (s1 := a.size) (s2 := b.size) (e := rustEncode (.pair a b) (x, y))
      (d := rustDecode (.pair a b)) (u := ((x, y) : Abi.Val Ptr (.pair a b))) (rust_ok a x) (rust_ok b y)
      (by intro c m c1 m1 h; simp [rustEncode, h, bind, Except.bind])
      (by intro c m c1 c2 h1 h2; simp [rustDecode, h1, h2, bind, Except.bind, pure, Except.pure])
    simpa [Abi.size] using this
  | .option a, some v => by
    exact EncOk.seq (s1 := 1) (s2 := a.size) (e := rustEncode (.option a) (some v))
      (d := rustDecode (.option a)) (u := (some v : Abi.Val Ptr (.option a))) (putBool_ok true) (rust_ok a v)
      (by intro c m c1 m1 h; simp [rustEncode, h, bind, Except.bind])
      (by intro c m c1 c2 h1 h2; simp [rustDecode, h1, h2, bind, Except.bind, pure, Except.pure])
  | .option a, none => by
    have h0 := (putBool_ok false).mono (s' := (Abi.option a).size) (by simp [Abi.size])
    intro rem buf m hle
    obtain ⟨r, m', h1, h2, h3, h4, h5⟩ := h0 rem buf m hle
    refine ⟨r, m', by simpa [rustEncode] using h1, h2, h3, h4, fun m2 hm => ?_⟩
    simp [rustDecode, h5 m2 hm, bind, Except.bind, pure, Except.pure]
  | .boxed, p => by
    intro rem buf m hle
    have hl : p.1.length = ptrSize := p.2.1
    obtain ⟨r, m', h1, h2, h3, h4, h5⟩ := putBytes_ok p.1 rem buf m (by simpa [hl, Abi.size] using hle)
    refine ⟨r, m', h1, by simpa [Abi.size, hl] using h2, h3, h4, fun m2 hm => ?_⟩
    have := h5 m2 hm
    rw [hl] at this
    simp [rustDecode, this, bind, Except.bind, pure, Except.pure, toPtr_ok]
theorem rusts_ok : (as : Abis) → (v : as.Vals Ptr) → EncOk as.size (rustEncodes as v) (rustDecodes as) v
  | .nil, _ => by
    intro rem buf m _
    exact ⟨rem, m, by simp [rustEncodes], by omega, by omega, fun _ _ => rfl,
      fun _ _ => by simp [rustDecodes]⟩
  | .cons a as, (x, xs) => by
    exact EncOk.seq (s1 := a.size) (s2 := as.size) (e := rustEncodes (.cons a as) (x, xs))
      (d := rustDecodes (.cons a as)) (u := ((x, xs) : Abis.Vals Ptr (.cons a as))) (rust_ok a x) (rusts_ok as xs)
      (by intro c m c1 m1 h; simp [rustEncodes, h, bind, Except.bind])
      (by intro c m c1 c2 h1 h2; simp [rustDecodes, h1, h2, bind, Except.bind, pure, Except.pure])
end

mutual
theorem kSize_eq : (a : Abi) → a.kSize = a.size
  | .transmute _ => rfl
  | .tuple as => by simp [Abi.kSize, Abi.size, kSizes_eq as]
  | .pair a b => by simp [Abi.kSize, Abi.size, kSize_eq a, kSize_eq b]
  | .option a => by simp [Abi.kSize, Abi.size, kSize_eq a]
  | .boxed => rfl
theorem kSizes_eq : (as : Abis) → as.kSize = as.size
  | .nil => rfl
  | .cons a as => by simp [Abis.kSize, Abis.size, kSize_eq a, kSizes_eq as]
end

mutual
theorem deref_congr {O : Type} {h h' : Heap O} : (a : Abi) → (r : a.Val Ptr) →
    (∀ p ∈ boxes a r, AMap.get? h p = AMap.get? h' p) → deref h a r = deref h' a r
  | .transmute _, _, _ => by simp [deref]
  | .tuple as, v, hh => by simp only [deref]; exact derefs_congr as v hh
  | .pair a b, (x, y), hh => by
    simp only [deref]
    rw [deref_congr a x (fun p hp => hh p (by simp [boxes, hp])),
      deref_congr b y (fun p hp => hh p (by simp [boxes, hp]))]
  | .option a, some v, hh => by
    simp only [deref]; rw [deref_congr a v (fun p hp => hh p (by simp [boxes, hp]))]
  | .option _, none, _ => by simp [deref]
  | .boxed, p, hh => by simp only [deref]; exact hh p (by simp [boxes])
theorem derefs_congr {O : Type} {h h' : Heap O} : (as : Abis) → (r : as.Vals Ptr) →
    (∀ p ∈ boxess as r, AMap.get? h p = AMap.get? h' p) → derefs h as r = derefs h' as r
  | .nil, _, _ => by simp [derefs]
  | .cons a as, (x, xs), hh => by
    simp only [derefs]
    rw [deref_congr a x (fun p hp => hh p (by simp [boxess, hp])),
      derefs_congr as xs (fun p hp => hh p (by simp [boxess, hp]))]
end

/-- Result of a successful C++ encode, in terms of the Rust encoder. -/
def CppEnc {O : Type} (enc : Cursor → Mem → Except Err (Cursor × Mem)) (bx : List Ptr)
    (der : Heap O → Prop) (c : Cursor) (s : St O) (c' : Cursor) (s' : St O) : Prop :=
  enc c s.mem = .ok (c', s'.mem) ∧ ∃ new : Heap O, s'.heap = new ++ s.heap ∧
    AMap.keys new = bx.reverse ∧ bx.Nodup ∧ (∀ p ∈ bx, p ∉ AMap.keys s.heap) ∧ der s'.heap

theorem putBytes_mem_only {O : Type} {l : List UInt8} {c : Cursor} {s : St O} {c' m'}
    (h : putBytes l c s.mem = .ok (c', m')) (der : Heap O → Prop) (hd : der s.heap) :
    CppEnc (putBytes l) [] der c s c' { s with mem := m' } :=
  ⟨h, [], by simp, by simp [AMap.keys], by simp, by simp, hd⟩

theorem keys_append {O : Type} (a b : Heap O) : AMap.keys (a ++ b) = AMap.keys a ++ AMap.keys b := by
  simp [AMap.keys]

theorem CppEnc.seq {O : Type} {e1 e2 e bx1 bx2} {d1 d2 d : Heap O → Prop} {c s c1 s1 c2 s2}
    (h1 : CppEnc e1 bx1 d1 c s c1 s1) (h2 : CppEnc e2 bx2 d2 c1 s1 c2 s2)
    (he : ∀ c m c1 m1, e1 c m = .ok (c1, m1) → e c m = e2 c1 m1)
    (hd : ∀ h h' : Heap O, (∀ p ∈ bx1, AMap.get? h p = AMap.get? h' p) → d1 h → d2 h' → d h') :
    CppEnc e (bx1 ++ bx2) d c s c2 s2 := by
  obtain ⟨a1, n1, a2, a3, a4, a5, a6⟩ := h1
  obtain ⟨b1, n2, b2, b3, b4, b5, b6⟩ := h2
  have hk1 : ∀ p ∈ bx1, p ∈ AMap.keys s1.heap := by
    intro p hp; rw [a2, keys_append, a3]; simp [hp]
  refine ⟨by rw [he _ _ _ _ a1, b1], n2 ++ n1, by rw [b2, a2]; simp, by rw [keys_append, a3, b3]; simp,
    ?_, ?_, ?_⟩
  · rw [List.nodup_append]
    refine ⟨a4, b4, fun x hx y hy => ?_⟩
    rintro rfl
    exact b5 x hy (hk1 x hx)
  · intro p hp
    rcases List.mem_append.1 hp with hp | hp
    · exact a5 p hp
    · intro hmem
      exact b5 p hp (by rw [a2, keys_append]; simp [hmem])
  · apply hd s1.heap s2.heap _ a6 b6
    intro p hp
    rw [b2, AMap.get?_append]
    have : AMap.get? n2 p = none := by
      rw [AMap.get?_eq_none_iff, b3]
      simp only [List.mem_reverse]
      intro hp2; exact b5 p hp2 (hk1 p hp)
    simp [this]

mutual
theorem cppEncode_factor {O : Type} (al : Allocator O) : (a : Abi) → (v : a.Val O) → (c : Cursor) → (s : St O) →
    (c' : Cursor) → (s' : St O) → cppEncode al a v c s = .ok (c', s') →
    ∃ r : a.Val Ptr, CppEnc (rustEncode a r) (boxes a r) (fun h => deref h a r = some v) c s c' s'
  | .transmute n, v, c, s, c', s', h => by
    refine ⟨v, ?_⟩
    simp only [cppEncode, bind, Except.bind] at h
    split at h
    · simp at h
    · rename_i pr hpr
      obtain ⟨c1, m1⟩ := pr
      simp only [pure, Except.pure, Except.ok.injEq, Prod.mk.injEq] at h
      obtain ⟨rfl, rfl⟩ := h
      exact putBytes_mem_only hpr _ (by simp [deref])
  | .tuple as, v, c, s, c', s', h => by
    obtain ⟨r, hr⟩ := cppEncodes_factor al as v c s c' s' (by simpa [cppEncode] using h)
    exact ⟨r, by simpa [deref, boxes, rustEncode] using hr⟩
  | .pair a b, (x, y), c, s, c', s', h => by
    simp only [cppEncode, bind, Except.bind] at h
    split at h
    · simp at h
    · rename_i pr hpr
      obtain ⟨c1, s1⟩ := pr
      obtain ⟨r1, h1⟩ := cppEncode_factor al a x c s c1 s1 hpr
      obtain ⟨r2, h2⟩ := cppEncode_factor al b y c1 s1 c' s' h
      refine ⟨(r1, r2), ?_⟩
      have := CppEnc.seq (e := rustEncode (.pair a b) (r1, r2))
        (d := fun h => deref h (.pair a b) (r1, r2) = some (x, y)) h1 h2
        (by intro c m c1 m1 h; simp [rustEncode, h, bind, Except.bind])
        (by
          intro h h' hp e1 e2
          rw [deref_congr a r1 hp] at e1
          simp [deref, e1, e2])
      simpa [boxes] using this
  | .option a, some v, c, s, c', s', h => by
    simp only [cppEncode, bind, Except.bind] at h
    split at h
    · simp at h
    · rename_i pr hpr
      obtain ⟨c1, m1⟩ := pr
      obtain ⟨r, hr⟩ := cppEncode_factor al a v c1 { s with mem := m1 } c' s' h
      refine ⟨some r, ?_⟩
      have := CppEnc.seq (e := rustEncode (.option a) (some r))
        (d := fun h => deref h (.option a) (some r) = some (some v))
        (putBytes_mem_only hpr (fun _ => True) trivial) hr
        (by intro c m c1 m1 h; simp only [if_true] at h; simp [rustEncode, putBool, h, bind, Except.bind])
        (by
          intro h h' hp e1 e2
          simp [deref, e2])
      simpa [boxes] using this
  | .option a, none, c, s, c', s', h => by
    simp only [cppEncode, bind, Except.bind] at h
    split at h
    · simp at h
    · rename_i pr hpr
      obtain ⟨c1, m1⟩ := pr
      simp only [pure, Except.pure, Except.ok.injEq, Prod.mk.injEq] at h
      obtain ⟨rfl, rfl⟩ := h
      refine ⟨none, ?_⟩
      have := putBytes_mem_only (s := s) hpr (fun h => deref h (.option a) none = some none) (by simp [deref])
      simpa [boxes, rustEncode, putBool, CppEnc] using this
  | .boxed, o, c, s, c', s', h => by
    simp only [cppEncode] at h
    split at h
    · simp at h
    · rename_i p hp
      simp only [bind, Except.bind] at h
      split at h
      · simp at h
      · rename_i pr hpr
        obtain ⟨c1, m1⟩ := pr
        simp only [pure, Except.pure, Except.ok.injEq, Prod.mk.injEq] at h
        obtain ⟨rfl, rfl⟩ := h
        have hfr := al.fresh _ _ hp
        exact ⟨p, hpr, [(p, o)], by simp, by simp [AMap.keys, boxes], by simp [boxes],
          by simpa [boxes] using hfr, by simp [deref, AMap.get?]⟩
theorem cppEncodes_factor {O : Type} (al : Allocator O) : (as : Abis) → (v : as.Vals O) → (c : Cursor) → (s : St O) →
    (c' : Cursor) → (s' : St O) → cppEncodes al as v c s = .ok (c', s') →
    ∃ r : as.Vals Ptr, CppEnc (rustEncodes as r) (boxess as r) (fun h => derefs h as r = some v) c s c' s'
  | .nil, v, c, s, c', s', h => by
    simp only [cppEncodes, Except.ok.injEq, Prod.mk.injEq] at h
    obtain ⟨rfl, rfl⟩ := h
    exact ⟨(), by simp [rustEncodes], [], by simp, by simp [AMap.keys, boxess], by simp [boxess],
      by simp [boxess], by simp [derefs]⟩
  | .cons a as, (x, xs), c, s, c', s', h => by
    simp only [cppEncodes, bind, Except.bind] at h
    split at h
    · simp at h
    · rename_i pr hpr
      obtain ⟨c1, s1⟩ := pr
      obtain ⟨r1, h1⟩ := cppEncode_factor al a x c s c1 s1 hpr
      obtain ⟨r2, h2⟩ := cppEncodes_factor al as xs c1 s1 c' s' h
      refine ⟨(r1, r2), ?_⟩
      have := CppEnc.seq (e := rustEncodes (.cons a as) (r1, r2))
        (d := fun h => derefs h (.cons a as) (r1, r2) = some (x, xs)) h1 h2
        (by intro c m c1 m1 h; simp [rustEncodes, h, bind, Except.bind])
        (by
          intro h h' hp e1 e2
          rw [deref_congr a r1 hp] at e1
          simp [derefs, e1, e2])
      simpa [boxess] using this
end

/-- delete a list of boxes -/
def eraseAll {O : Type} (h : Heap O) (ps : List Ptr) : Heap O := ps.foldl AMap.erase h

theorem eraseAll_append {O : Type} (h : Heap O) (ps qs : List Ptr) :
    eraseAll h (ps ++ qs) = eraseAll (eraseAll h ps) qs := by simp [eraseAll]

theorem get?_eraseAll {O : Type} (h : Heap O) (ps : List Ptr) (q : Ptr) (hq : q ∉ ps) :
    AMap.get? (eraseAll h ps) q = AMap.get? h q := by
  induction ps generalizing h with
  | nil => rfl
  | cons p ps ih =>
    simp only [List.mem_cons, not_or] at hq
    show AMap.get? (eraseAll (AMap.erase h p) ps) q = _
    rw [ih _ hq.2, AMap.get?_erase_ne _ (Ne.symm hq.1)]

theorem foldl_erase_new {K V : Type} [DecidableEq K] (new old : List (K × V)) (ps : List K)
    (hp : ps.Perm (AMap.keys new)) : ps.foldl AMap.erase (new ++ old) = old := by
  induction ps generalizing new with
  | nil =>
    have : AMap.keys new = [] := List.nil_perm.1 hp
    simp only [AMap.keys, List.map_eq_nil_iff] at this
    subst this; rfl
  | cons p ps ih =>
    have hmem : p ∈ AMap.keys new := hp.mem_iff.1 (by simp)
    show ps.foldl AMap.erase (AMap.erase (new ++ old) p) = old
    rw [AMap.erase_append_of_mem _ _ _ hmem]
    apply ih
    rw [AMap.keys_erase]
    have := hp.erase p
    simpa using this

theorem get?_eraseAll_mem {O : Type} (ps : List Ptr) : ∀ (h : Heap O), (AMap.keys h).Nodup → ∀ q ∈ ps,
    AMap.get? (eraseAll h ps) q = none := by
  induction ps with
  | nil => intro h _ q hq; simp at hq
  | cons p ps ih =>
    intro h hn q hq
    show AMap.get? (eraseAll (AMap.erase h p) ps) q = none
    have hn' : (AMap.keys (AMap.erase h p)).Nodup := by rw [AMap.keys_erase]; exact @List.Nodup.erase _ instBEqOfDecidableEq _ _ p hn
    by_cases hm : q ∈ ps
    · exact ih _ hn' q hm
    · have : q = p := by simpa [hm] using hq
      subst this
      rw [get?_eraseAll _ _ _ hm, AMap.get?_eq_none_iff, AMap.keys_erase]
      exact fun hx => ((@List.Nodup.mem_erase_iff _ instBEqOfDecidableEq _ _ _ _ hn).mp hx).1 rfl

theorem eraseAll_new {O : Type} (new old : Heap O) (ps : List Ptr) (hp : ps.Perm (AMap.keys new)) :
    eraseAll (new ++ old) ps = old := foldl_erase_new new old ps hp

mutual
theorem cppDecode_factor {O : Type} : (a : Abi) → (r : a.Val Ptr) → (v : a.Val O) → (c c' : Cursor) → (s : St O) →
    rustDecode a c s.mem = .ok (r, c') → deref s.heap a r = some v → (boxes a r).Nodup →
    cppDecode .leftToRight a c s = .ok (v, c', { s with heap := eraseAll s.heap (boxes a r) })
  | .transmute n, r, v, c, c', s, h, hd, hn => by
    simp only [deref, Option.some.injEq] at hd
    subst hd
    simp only [rustDecode, bind, Except.bind] at h
    split at h
    · simp at h
    · rename_i pr hpr
      split at h
      · simp at h
      · rename_i w hw
        simp only [pure, Except.pure, Except.ok.injEq, Prod.mk.injEq] at h
        obtain ⟨rfl, rfl⟩ := h
        simp [cppDecode, hpr, hw, bind, Except.bind, pure, Except.pure, boxes, eraseAll]
  | .tuple as, r, v, c, c', s, h, hd, hn => by
    have := cppDecodes_factor as r v c c' s (by simpa [rustDecode] using h)
      (by simpa [deref] using hd) (by simpa [boxes] using hn)
    rw [cppDecode, this]
    simp only [boxes]
  | .pair a b, (r1, r2), v, c, c', s, h, hd, hn => by
    simp only [rustDecode, bind, Except.bind] at h
    split at h
    · simp at h
    · rename_i pr hpr
      obtain ⟨x1, c1⟩ := pr
      split at h
      · simp at h
      · rename_i pr2 hpr2
        obtain ⟨y1, c2⟩ := pr2
        simp only [pure, Except.pure, Except.ok.injEq, Prod.mk.injEq] at h
        obtain ⟨⟨rfl, rfl⟩, rfl⟩ := h
        simp only [deref, Option.bind_eq_bind, Option.bind_eq_some_iff, pure, Option.some.injEq] at hd
        obtain ⟨vx, hvx, vy, hvy, rfl⟩ := hd
        · ·
            simp only [boxes, List.nodup_append] at hn
            have e1 := cppDecode_factor a x1 vx c c1 s hpr hvx hn.1
            have e2 := cppDecode_factor b y1 vy c1 c2 { s with heap := eraseAll s.heap (boxes a x1) } hpr2
              (by
                rw [← hvy]; apply deref_congr
                intro p hp; exact get?_eraseAll _ _ _ (fun hp' => hn.2.2 p hp' p hp rfl)) hn.2.1
            simp [cppDecode, e1, e2, bind, Except.bind, pure, Except.pure, boxes, eraseAll_append]
  | .option a, some r, v, c, c', s, h, hd, hn => by
    simp only [rustDecode, bind, Except.bind] at h
    split at h
    · simp at h
    · rename_i pr hpr
      obtain ⟨b, c1⟩ := pr
      cases b with
      | false => simp [pure, Except.pure] at h
      | true =>
        simp only [if_true] at h
        split at h
        · simp at h
        · rename_i pr2 hpr2
          obtain ⟨y1, c2⟩ := pr2
          simp only [pure, Except.pure, Except.ok.injEq, Prod.mk.injEq, Option.some.injEq] at h
          obtain ⟨rfl, rfl⟩ := h
          simp only [deref, bind, Option.bind] at hd
          split at hd
          · simp at hd
          · rename_i vy hvy
            simp only [pure, Option.some.injEq] at hd
            subst hd
            have e := cppDecode_factor a y1 vy c1 c2 s hpr2 hvy (by simpa [boxes] using hn)
            simp [cppDecode, hpr, e, bind, Except.bind, pure, Except.pure, boxes]
  | .option a, none, v, c, c', s, h, hd, hn => by
    simp only [rustDecode, bind, Except.bind] at h
    split at h
    · simp at h
    · rename_i pr hpr
      obtain ⟨b, c1⟩ := pr
      simp only [deref, Option.some.injEq] at hd
      subst hd
      cases b with
      | true =>
        simp only [if_true] at h
        split at h
        · simp at h
        · simp [pure, Except.pure] at h
      | false =>
        simp only [pure, Except.pure, Bool.false_eq_true, if_false, Except.ok.injEq, Prod.mk.injEq, true_and] at h
        subst h
        simp [cppDecode, hpr, bind, Except.bind, pure, Except.pure, boxes, eraseAll]
  | .boxed, p, v, c, c', s, h, hd, hn => by
    simp only [deref] at hd
    simp only [rustDecode, bind, Except.bind] at h
    split at h
    · simp at h
    · rename_i pr hpr
      split at h
      · simp at h
      · rename_i w hw
        simp only [pure, Except.pure, Except.ok.injEq, Prod.mk.injEq] at h
        obtain ⟨rfl, rfl⟩ := h
        simp [cppDecode, hpr, hw, hd, bind, Except.bind, pure, Except.pure, boxes, eraseAll]
theorem cppDecodes_factor {O : Type} : (as : Abis) → (r : as.Vals Ptr) → (v : as.Vals O) → (c c' : Cursor) → (s : St O) →
    rustDecodes as c s.mem = .ok (r, c') → derefs s.heap as r = some v → (boxess as r).Nodup →
    cppDecodes .leftToRight as c s = .ok (v, c', { s with heap := eraseAll s.heap (boxess as r) })
  | .nil, r, v, c, c', s, h, hd, hn => by
    simp only [rustDecodes, Except.ok.injEq, Prod.mk.injEq, true_and] at h
    subst h
    simp [cppDecodes, boxess, eraseAll]
  | .cons a as, (r1, r2), v, c, c', s, h, hd, hn => by
    simp only [rustDecodes, bind, Except.bind] at h
    split at h
    · simp at h
    · rename_i pr hpr
      obtain ⟨x1, c1⟩ := pr
      split at h
      · simp at h
      · rename_i pr2 hpr2
        obtain ⟨y1, c2⟩ := pr2
        simp only [pure, Except.pure, Except.ok.injEq, Prod.mk.injEq] at h
        obtain ⟨⟨rfl, rfl⟩, rfl⟩ := h
        simp only [derefs, Option.bind_eq_bind, Option.bind_eq_some_iff, pure, Option.some.injEq] at hd
        obtain ⟨vx, hvx, vy, hvy, rfl⟩ := hd
        · ·
            simp only [boxess, List.nodup_append] at hn
            have e1 := cppDecode_factor a x1 vx c c1 s hpr hvx hn.1
            have e2 := cppDecodes_factor as y1 vy c1 c2 { s with heap := eraseAll s.heap (boxes a x1) } hpr2
              (by
                rw [← hvy]; apply derefs_congr
                intro p hp; exact get?_eraseAll _ _ _ (fun hp' => hn.2.2 p hp' p hp rfl)) hn.2.1
            simp [cppDecodes, e1, e2, bind, Except.bind, pure, Except.pure, boxess, eraseAll_append]
end

end Verif.Bridge

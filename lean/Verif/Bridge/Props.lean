import Verif.Bridge.Safe
import Mathlib.Data.List.Nodup
import Mathlib.Data.List.Basic
/- Bridge properties C07-C10. -/
namespace Verif.Bridge
open Verif

/-! ### Helper lemmas about whole-buffer operations -/

theorem rustEncodeTop_ok (a : Abi) (v : a.Val Ptr) (buf : Nat) (m : Mem) :
    ∃ m', rustEncodeTop a v buf m = .ok m' ∧ AgreeOff buf a.size m' m ∧
      ∀ m2, AgreeOn buf a.size m2 m' → rustDecodeTop a buf m2 = .ok v := by
  obtain ⟨r, m', h1, h2, h3, h4, h5⟩ := rust_ok a v a.size buf m (Nat.le_refl _)
  refine ⟨m', by simp [rustEncodeTop, h1, bind, Except.bind, pure, Except.pure], ?_, ?_⟩
  · intro i hi; exact h4 i (by omega)
  · intro m2 hm
    have := h5 m2 (fun i hi hj => hm i (by omega) hj)
    simp [rustDecodeTop, this, bind, Except.bind, pure, Except.pure]

mutual
theorem cppEncode_error {O : Type} (al : Allocator O) : (a : Abi) → (v : a.Val O) → (c : Cursor) → (s : St O) →
    a.size ≤ c.remaining → (e : Err) → cppEncode al a v c s = .error e → e = .badAlloc ∧ ∃ h, al.alloc h = none
  | .transmute n, v, c, s, hle, e, h => by
    have hl : v.1.length = n := v.2
    have : v.1.length ≤ c.remaining := by simpa [Abi.size, hl] using hle
    simp [cppEncode, putBytes, Cursor.next, this, bind, Except.bind, pure, Except.pure] at h
  | .tuple as, v, c, s, hle, e, h => cppEncodes_error al as v c s hle e h
  | .pair a b, (x, y), c, s, hle, e, h => by
    simp only [Abi.size] at hle
    simp only [cppEncode, bind, Except.bind] at h
    split at h
    · rename_i e' he'
      simp only [Except.error.injEq] at h; subst h
      exact cppEncode_error al a x c s (by omega) e' he'
    · rename_i pr hpr
      obtain ⟨c1, s1⟩ := pr
      obtain ⟨r1, h1, -⟩ := cppEncode_factor al a x c s c1 s1 hpr
      obtain ⟨rem, buf⟩ := c
      obtain ⟨rem', m', k1, k2, k3, -⟩ := rust_ok a r1 rem buf s.mem (by simp at hle; omega)
      rw [k1] at h1
      simp only [Except.ok.injEq, Prod.mk.injEq] at h1
      exact cppEncode_error al b y c1 s1 (by rw [← h1.1]; simp at hle ⊢; omega) e h
  | .option a, some v, c, s, hle, e, h => by
    simp only [Abi.size] at hle
    have : 1 ≤ c.remaining := by omega
    simp only [cppEncode, putBool, putBytes, Cursor.next, List.length_singleton, this, if_true, bind, Except.bind,
      pure, Except.pure] at h
    exact cppEncode_error al a v _ _ (by simp; omega) e h
  | .option a, none, c, s, hle, e, h => by
    simp only [Abi.size] at hle
    have : 1 ≤ c.remaining := by omega
    simp [cppEncode, putBool, putBytes, Cursor.next, List.length_singleton, this, bind, Except.bind,
      pure, Except.pure] at h
  | .boxed, o, c, s, hle, e, h => by
    simp only [cppEncode] at h
    split at h
    · rename_i hn
      simp only [Except.error.injEq] at h
      exact ⟨h.symm, _, hn⟩
    · rename_i p hp
      have hl : p.1.length = ptrSize := p.2.1
      have : p.1.length ≤ c.remaining := by simpa [Abi.size, hl] using hle
      simp [putBytes, Cursor.next, this, bind, Except.bind, pure, Except.pure] at h
theorem cppEncodes_error {O : Type} (al : Allocator O) : (as : Abis) → (v : as.Vals O) → (c : Cursor) → (s : St O) →
    as.size ≤ c.remaining → (e : Err) → cppEncodes al as v c s = .error e → e = .badAlloc ∧ ∃ h, al.alloc h = none
  | .nil, _, c, s, _, e, h => by simp [cppEncodes] at h
  | .cons a as, (x, xs), c, s, hle, e, h => by
    simp only [Abis.size] at hle
    simp only [cppEncodes, bind, Except.bind] at h
    split at h
    · rename_i e' he'
      simp only [Except.error.injEq] at h; subst h
      exact cppEncode_error al a x c s (by omega) e' he'
    · rename_i pr hpr
      obtain ⟨c1, s1⟩ := pr
      obtain ⟨r1, h1, -⟩ := cppEncode_factor al a x c s c1 s1 hpr
      obtain ⟨rem, buf⟩ := c
      obtain ⟨rem', m', k1, k2, k3, -⟩ := rust_ok a r1 rem buf s.mem (by simp at hle; omega)
      rw [k1] at h1
      simp only [Except.ok.injEq, Prod.mk.injEq] at h1
      exact cppEncodes_error al as xs c1 s1 (by rw [← h1.1]; simp at hle ⊢; omega) e h
end

/-- Factorisation of a successful whole-buffer C++ encode. -/
theorem cppEncodeTop_factor {O : Type} (al : Allocator O) (a : Abi) (v : a.Val O) (buf : Nat) (s s' : St O)
    (h : cppEncodeTop al a v buf s = .ok s') :
    ∃ r : a.Val Ptr, rustEncodeTop a r buf s.mem = .ok s'.mem ∧ ∃ new : Heap O, s'.heap = new ++ s.heap ∧
      AMap.keys new = (boxes a r).reverse ∧ (boxes a r).Nodup ∧ (∀ p ∈ boxes a r, p ∉ AMap.keys s.heap) ∧
      deref s'.heap a r = some v := by
  simp only [cppEncodeTop, kSize_eq, bind, Except.bind] at h
  split at h
  · simp at h
  · rename_i pr hpr
    obtain ⟨c1, s1⟩ := pr
    simp only [pure, Except.pure, Except.ok.injEq] at h
    subst h
    obtain ⟨r, h1, h2⟩ := cppEncode_factor al a v _ _ _ _ hpr
    exact ⟨r, by simp [rustEncodeTop, h1, bind, Except.bind, pure, Except.pure], h2⟩

theorem cppDecodeTop_of_rust {O : Type} (a : Abi) (r : a.Val Ptr) (v : a.Val O) (buf : Nat) (s : St O)
    (h : rustDecodeTop a buf s.mem = .ok r) (hd : deref s.heap a r = some v) (hn : (boxes a r).Nodup) :
    cppDecodeTop .leftToRight a buf s = .ok (v, { s with heap := eraseAll s.heap (boxes a r) }) := by
  simp only [rustDecodeTop, bind, Except.bind] at h
  split at h
  · simp at h
  · rename_i pr hpr
    obtain ⟨r', c'⟩ := pr
    simp only [pure, Except.pure, Except.ok.injEq] at h
    subst h
    have := cppDecode_factor a r' v _ _ s hpr hd hn
    simp [cppDecodeTop, kSize_eq, this, bind, Except.bind, pure, Except.pure]

mutual
theorem deref_boxes {O : Type} (h : Heap O) : (a : Abi) → (r : a.Val Ptr) → (v : a.Val O) → deref h a r = some v →
    (boxes a r).map (AMap.get? h) = (objs a v).map some
  | .transmute _, _, _, _ => by simp [boxes, objs]
  | .tuple as, r, v, hd => by
    simp only [boxes, objs]; exact derefs_boxes h as r v (by simpa [deref] using hd)
  | .pair a b, (x, y), (v, w), hd => by
    simp only [deref, Option.bind_eq_bind, Option.bind_eq_some_iff, pure, Option.some.injEq, Prod.mk.injEq] at hd
    obtain ⟨vx, hvx, vy, hvy, rfl, rfl⟩ := hd
    simp [boxes, objs, deref_boxes h a x vx hvx, deref_boxes h b y vy hvy]
  | .option a, some x, v, hd => by
    simp only [deref, Option.bind_eq_bind, Option.bind_eq_some_iff, pure, Option.some.injEq] at hd
    obtain ⟨vx, hvx, rfl⟩ := hd
    simp [boxes, objs, deref_boxes h a x vx hvx]
  | .option a, none, v, hd => by
    simp only [deref, Option.some.injEq] at hd
    subst hd
    simp [boxes, objs]
  | .boxed, p, v, hd => by
    simp only [deref] at hd
    simp [boxes, objs, hd]
theorem derefs_boxes {O : Type} (h : Heap O) : (as : Abis) → (r : as.Vals Ptr) → (v : as.Vals O) → derefs h as r = some v →
    (boxess as r).map (AMap.get? h) = (objss as v).map some
  | .nil, _, _, _ => by simp [boxess, objss]
  | .cons a as, (x, xs), (v, vs), hd => by
    simp only [derefs, Option.bind_eq_bind, Option.bind_eq_some_iff, pure, Option.some.injEq, Prod.mk.injEq] at hd
    obtain ⟨vx, hvx, vy, hvy, rfl, rfl⟩ := hd
    simp [boxess, objss, deref_boxes h a x vx hvx, derefs_boxes h as xs vy hvy]
end

theorem map_get?_keys {K V : Type} [DecidableEq K] (l l2 : List (K × V)) (h : (AMap.keys l).Nodup) :
    (AMap.keys l).map (AMap.get? (l ++ l2)) = (l.map Prod.snd).map some := by
  induction l with
  | nil => rfl
  | cons p l ih =>
    obtain ⟨k, v⟩ := p
    simp only [AMap.keys, List.map_cons, List.nodup_cons] at h ⊢
    have ih' := ih h.2
    simp only [AMap.keys] at ih'
    congr 1
    · simp [AMap.get?]
    · rw [← ih']
      apply List.map_congr_left
      intro q hq
      have hne : k ≠ q := fun e => h.1 (e ▸ hq)
      simp [AMap.get?, hne]

/-! ### C07 -/

/-- C07: encoding any value with any schema succeeds, and decoding with the same schema any memory that
still holds the `SIZE` buffer bytes yields the value back, whatever the buffer held before. -/
theorem rust_roundtrip (a : Abi) (v : a.Val Ptr) (buf : Nat) (before : Mem) :
    ∃ encoded, rustEncodeTop a v buf before = .ok encoded ∧
      ∀ after, AgreeOn buf a.size after encoded → rustDecodeTop a buf after = .ok v := by
  obtain ⟨m', h1, _, h3⟩ := rustEncodeTop_ok a v buf before
  exact ⟨m', h1, h3⟩

/-! ### C09 -/

/-- C09, Rust encoder: it succeeds (no underflow) and changes no byte outside the buffer. -/
theorem rust_encode_in_bounds (a : Abi) (v : a.Val Ptr) (buf : Nat) (before : Mem) :
    ∃ encoded, rustEncodeTop a v buf before = .ok encoded ∧ AgreeOff buf a.size encoded before := by
  obtain ⟨m', h1, h2, _⟩ := rustEncodeTop_ok a v buf before
  exact ⟨m', h1, h2⟩

/-- C09, Rust decoder, on arbitrary (possibly invalid) bytes: it never underflows and its outcome is
determined by the buffer bytes alone. -/
theorem rust_decode_in_bounds (a : Abi) (buf : Nat) (m : Mem) :
    rustDecodeTop a buf m ≠ .error .underflow ∧
      ∀ m', AgreeOn buf a.size m m' → rustDecodeTop a buf m = rustDecodeTop a buf m' := by
  obtain ⟨h1, _, h3⟩ := rustDecode_safe a a.size buf (Nat.le_refl _)
  refine ⟨?_, ?_⟩
  · simp only [rustDecodeTop, bind, Except.bind, pure, Except.pure]
    have := h1 m
    cases hd : rustDecode a ⟨a.size, buf⟩ m with
    | error e => simpa [hd] using this
    | ok r => simp
  · intro m' hm
    simp only [rustDecodeTop]
    rw [h3 m m' (fun i hi hj => hm i (by omega) hj)]

/-- C09, C++ encoder: the only possible failure is a failing `operator new`; on success no byte outside
the buffer has changed. -/
theorem cpp_encode_in_bounds {O : Type} (al : Allocator O) (a : Abi) (v : a.Val O) (buf : Nat) (s : St O) :
    (∀ e, cppEncodeTop al a v buf s = .error e → e = .badAlloc ∧ ∃ h, al.alloc h = none) ∧
    (∀ s', cppEncodeTop al a v buf s = .ok s' → AgreeOff buf a.kSize s'.mem s.mem) := by
  refine ⟨?_, ?_⟩
  · intro e h
    simp only [cppEncodeTop, bind, Except.bind] at h
    split at h
    · rename_i e' he'
      simp only [Except.error.injEq] at h; subst h
      exact cppEncode_error al a v _ _ (by simp [kSize_eq]) _ he'
    · simp [pure, Except.pure] at h
  · intro s' h
    obtain ⟨r, h1, _⟩ := cppEncodeTop_factor al a v buf s s' h
    obtain ⟨m', k1, k2, _⟩ := rustEncodeTop_ok a r buf s.mem
    rw [k1] at h1
    simp only [Except.ok.injEq] at h1
    rw [← h1, kSize_eq]; exact k2

/-- C09, C++ decoder, on arbitrary bytes and heap and for either argument evaluation order: it never
runs off the buffer, writes no buffer byte, and its outcome depends on the buffer bytes (and heap) only. -/
theorem cpp_decode_in_bounds {O : Type} (ord : ArgOrder) (a : Abi) (buf : Nat) (s : St O) :
    cppDecodeTop ord a buf s ≠ .error .underflow ∧
    (∀ v s', cppDecodeTop ord a buf s = .ok (v, s') → s'.mem = s.mem) ∧
    (∀ m', AgreeOn buf a.kSize s.mem m' →
      (cppDecodeTop ord a buf { s with mem := m' }).map (fun r => (r.1, r.2.heap)) =
        (cppDecodeTop ord a buf s).map (fun r => (r.1, r.2.heap))) := by
  obtain ⟨hk, hs⟩ := cppDecode_safe (O := O) ord a
  obtain ⟨h1, _, h3⟩ := hs s.heap a.size buf (Nat.le_refl _)
  refine ⟨?_, ?_, ?_⟩
  · have := h1 s.mem
    simp only [cppDecodeTop, kSize_eq, bind, Except.bind, pure, Except.pure]
    simp only [onMem, bind, Except.bind, pure, Except.pure] at this
    cases hd : cppDecode ord a ⟨a.size, buf⟩ s with
    | error e =>
      rw [show (⟨s.mem, s.heap⟩ : St O) = s from rfl, hd] at this
      simpa using this
    | ok r => simp
  · intro v s' h
    simp only [cppDecodeTop, kSize_eq, bind, Except.bind, pure, Except.pure] at h
    split at h
    · simp at h
    · rename_i r hr
      simp only [Except.ok.injEq, Prod.mk.injEq] at h
      rw [← h.2]
      exact hk _ _ _ _ _ hr
  · intro m' hm
    have := h3 s.mem m' (fun i hi hj => hm i (by omega) (by rw [kSize_eq]; exact hj))
    simp only [onMem] at this
    simp only [cppDecodeTop, kSize_eq]
    rw [show (⟨s.mem, s.heap⟩ : St O) = s from rfl] at this
    have hs' : ({ s with mem := m' } : St O) = ⟨m', s.heap⟩ := rfl
    rw [hs']
    revert this
    cases cppDecode ord a ⟨a.size, buf⟩ s <;> cases cppDecode ord a ⟨a.size, buf⟩ (⟨m', s.heap⟩ : St O) <;>
      simp [bind, Except.bind, pure, Except.pure, Except.map]
    · exact fun e => e.symm
    · intro e1 e2 _; exact ⟨e1.symm, e2.symm⟩

/-! ### C08 -/

/-- C08, sizes: both sides allocate buffers of the same size. -/
theorem cpp_rust_same_size (a : Abi) : a.kSize = a.size := kSize_eq a

/-- C08, C++ to Rust: the memory produced by the C++ encoder is byte for byte the memory the Rust encoder
produces for the corresponding Rust value (boxed objects replaced by owning pointers), and decoding it in
Rust yields a value that stands for exactly the C++ value. -/
theorem cpp_to_rust {O : Type} (al : Allocator O) (a : Abi) (v : a.Val O) (buf : Nat) (s s' : St O)
    (h : cppEncodeTop al a v buf s = .ok s') :
    ∃ r : a.Val Ptr, deref s'.heap a r = some v ∧ rustEncodeTop a r buf s.mem = .ok s'.mem ∧
      ∀ after, AgreeOn buf a.size after s'.mem → rustDecodeTop a buf after = .ok r := by
  obtain ⟨r, h1, new, _, _, _, _, hd⟩ := cppEncodeTop_factor al a v buf s s' h
  refine ⟨r, hd, h1, ?_⟩
  obtain ⟨m', k1, _, k3⟩ := rustEncodeTop_ok a r buf s.mem
  rw [k1] at h1
  simp only [Except.ok.injEq] at h1
  rw [← h1]; exact k3

/-- C08, Rust to C++ (arguments evaluated left to right): if the Rust value `r` owns pairwise distinct
live boxes and stands for the C++ value `v`, then decoding what Rust encoded yields `v`, releases every
cell that `r` owned and leaves every other cell as it was. -/
theorem rust_to_cpp {O : Type} (a : Abi) (r : a.Val Ptr) (v : a.Val O) (buf : Nat) (before encoded : Mem)
    (h : rustEncodeTop a r buf before = .ok encoded) (heap : Heap O) (hd : deref heap a r = some v)
    (hn : (boxes a r).Nodup) (hheap : (AMap.keys heap).Nodup) (after : Mem) (hm : AgreeOn buf a.size after encoded) :
    ∃ heap', cppDecodeTop .leftToRight a buf ⟨after, heap⟩ = .ok (v, ⟨after, heap'⟩) ∧
      ∀ p, AMap.get? heap' p = if p ∈ boxes a r then none else AMap.get? heap p := by
  obtain ⟨m', k1, _, k3⟩ := rustEncodeTop_ok a r buf before
  rw [k1] at h
  simp only [Except.ok.injEq] at h
  subst h
  refine ⟨_, cppDecodeTop_of_rust a r v buf ⟨after, heap⟩ (k3 after hm) hd hn, ?_⟩
  intro p
  split
  · exact get?_eraseAll_mem _ _ hheap p ‹_›
  · exact get?_eraseAll _ _ _ ‹_›

/-- The two-byte schema `TupleAbi<TransmuteAbi<char>, TransmuteAbi<char>>`. -/
def twoBytes : Abi := .tuple (.cons (.transmute 1) (.cons (.transmute 1) .nil))

/-- C08: the C++ decoder of tuples relies on left-to-right argument evaluation, which C++ leaves
unspecified: with right-to-left evaluation a two-byte tuple comes back swapped. -/
theorem tuple_decode_needs_left_to_right (x y : UInt8) (before : Mem) :
    ∃ encoded, rustEncodeTop twoBytes (⟨[x], rfl⟩, ⟨[y], rfl⟩, ()) 0 before = .ok encoded ∧
      cppDecodeTop (O := Unit) .leftToRight twoBytes 0 ⟨encoded, []⟩ =
        .ok ((⟨[x], rfl⟩, ⟨[y], rfl⟩, ()), ⟨encoded, []⟩) ∧
      cppDecodeTop (O := Unit) .rightToLeft twoBytes 0 ⟨encoded, []⟩ =
        .ok ((⟨[y], rfl⟩, ⟨[x], rfl⟩, ()), ⟨encoded, []⟩) := by
  refine ⟨_, rfl, ?_, ?_⟩ <;>
  simp [cppDecodeTop, twoBytes, cppDecode, cppDecodes, Abi.size, Abis.size, Abi.kSize, Abis.kSize, getBytes, Cursor.next, toRaw, bind,
    Except.bind, pure, Except.pure, Mem.read, Mem.write, List.range, List.range.loop, putBytes]

/-! ### C10 -/

/-- C10: a successful C++ encode adds exactly one live cell per boxed object in the value, holding that
object, at fresh addresses, and leaves all other cells alone. Decoding later, from any memory that still
holds the buffer bytes and any heap in which further cells `extra` were allocated meanwhile, returns the
original value and releases exactly the added cells. -/
theorem boxed_roundtrip {O : Type} (al : Allocator O) (a : Abi) (v : a.Val O) (buf : Nat) (s s' : St O)
    (h : cppEncodeTop al a v buf s = .ok s') :
    ∃ cells : Heap O, s'.heap = cells ++ s.heap ∧ cells.map Prod.snd = (objs a v).reverse ∧
      (AMap.keys cells).Nodup ∧ (∀ p ∈ AMap.keys cells, p ∉ AMap.keys s.heap) ∧
      ∀ (after : Mem) (extra : Heap O), AgreeOn buf a.kSize after s'.mem →
        (∀ p ∈ AMap.keys cells, p ∉ AMap.keys extra) →
        cppDecodeTop .leftToRight a buf ⟨after, extra ++ s'.heap⟩ = .ok (v, ⟨after, extra ++ s.heap⟩) := by
  obtain ⟨r, h1, cells, e1, e2, e3, e4, e5⟩ := cppEncodeTop_factor al a v buf s s' h
  have hnd : (AMap.keys cells).Nodup := by rw [e2]; exact List.nodup_reverse.2 e3
  refine ⟨cells, e1, ?_, hnd, ?_, ?_⟩
  · have h2 := deref_boxes _ a r v e5
    have h3 := map_get?_keys cells s.heap hnd
    rw [e2, List.map_reverse, ← e1, h2, ← List.map_reverse] at h3
    exact (List.map_injective_iff.2 (fun _ _ e => Option.some.inj e) h3).symm
  · intro p hp; rw [e2] at hp; exact e4 p (List.mem_reverse.1 hp)
  · intro after extra hm hex
    obtain ⟨m', k1, _, k3⟩ := rustEncodeTop_ok a r buf s.mem
    rw [k1] at h1
    simp only [Except.ok.injEq] at h1
    have hne : ∀ p ∈ boxes a r, AMap.get? extra p = none := by
      intro p hp
      rw [AMap.get?_eq_none_iff]
      exact hex p (by rw [e2]; exact List.mem_reverse.2 hp)
    have := cppDecodeTop_of_rust a r v buf ⟨after, extra ++ s'.heap⟩
      (k3 after (by rw [kSize_eq] at hm; rw [h1]; exact hm))
      (by
        rw [← e5]; apply deref_congr
        intro p hp; simp [AMap.get?_append, hne p hp]) e3
    rw [this, e1]
    congr 3
    show eraseAll (extra ++ (cells ++ s.heap)) (boxes a r) = extra ++ s.heap
    have hkey : ∀ (ps : List Ptr) (rest : Heap O), (∀ p ∈ ps, p ∉ AMap.keys extra) →
        eraseAll (extra ++ rest) ps = extra ++ eraseAll rest ps := by
      intro ps
      induction ps with
      | nil => intro rest _; rfl
      | cons p ps ih =>
        intro rest hps
        show eraseAll (AMap.erase (extra ++ rest) p) ps = extra ++ eraseAll (AMap.erase rest p) ps
        rw [AMap.erase_append_of_not_mem _ _ _ (hps p (by simp))]
        exact ih _ (fun q hq => hps q (by simp [hq]))
    rw [hkey _ _ (fun p hp => hex p (by rw [e2]; exact List.mem_reverse.2 hp))]
    rw [eraseAll_new]
    rw [e2]; exact (List.reverse_perm _).symm

/-- C10: with an allocator that never fails the C++ encoder always succeeds, so `boxed_roundtrip` and
`cpp_to_rust` apply to every value. -/
theorem cpp_encode_succeeds {O : Type} (al : Allocator O) (hal : ∀ h, al.alloc h ≠ none) (a : Abi) (v : a.Val O)
    (buf : Nat) (s : St O) : ∃ s', cppEncodeTop al a v buf s = .ok s' := by
  cases h : cppEncodeTop al a v buf s with
  | ok s' => exact ⟨s', rfl⟩
  | error e =>
    obtain ⟨_, hh, hn⟩ := (cpp_encode_in_bounds al a v buf s).1 e h
    exact absurd hn (hal hh)

/-! ### Non-vacuity -/

/-- A small concrete allocator with two addresses. -/
def exPtr (b : UInt8) (h : b ≠ 0) : Ptr :=
  ⟨[b, 0, 0, 0, 0, 0, 0, 0], rfl, by simp [ptrSize, List.replicate, h]⟩

def exAlloc (O : Type) : Allocator O where
  alloc h := if exPtr 1 (by decide) ∈ AMap.keys h then
      (if exPtr 2 (by decide) ∈ AMap.keys h then none else some (exPtr 2 (by decide)))
    else some (exPtr 1 (by decide))
  fresh := by
    intro h p hp
    split at hp
    · split at hp
      · simp at hp
      · simp only [Option.some.injEq] at hp; subst hp; assumption
    · simp only [Option.some.injEq] at hp; subst hp; assumption

/-- `(OptionAbi<Boxed>, PairAbi<u16, Boxed>)`: two boxes are created, and the hypotheses of
`boxed_roundtrip`, `cpp_to_rust` and `rust_to_cpp` are met. -/
def exAbi : Abi := .tuple (.cons (.option .boxed) (.cons (.pair (.transmute 2) .boxed) .nil))
def exVal : exAbi.Val String := (some "abc", (⟨[7, 9], rfl⟩, "xyz"), ())

example : ∃ s', cppEncodeTop (exAlloc String) exAbi exVal 100 ⟨fun _ => 0xAA, []⟩ = .ok s' ∧
    s'.heap.map Prod.snd = ["xyz", "abc"] ∧ exAbi.kSize = 19 ∧ s'.mem 118 = 1 ∧ s'.mem 110 = 1 ∧
    s'.mem 108 = 7 ∧ s'.mem 109 = 9 ∧ s'.mem 100 = 2 ∧ s'.mem 99 = 0xAA ∧
    objs exAbi exVal = ["abc", "xyz"] := ⟨_, rfl, rfl, rfl, rfl, rfl, rfl, rfl, rfl, rfl, rfl⟩

example : deref [(exPtr 1 (by decide), "abc"), (exPtr 2 (by decide), "xyz")] exAbi
    (some (exPtr 1 (by decide)), (⟨[7, 9], rfl⟩, exPtr 2 (by decide)), ()) = some exVal ∧
    (boxes exAbi (some (exPtr 1 (by decide)), (⟨[7, 9], rfl⟩, exPtr 2 (by decide)), ())).Nodup :=
  ⟨rfl, by decide⟩

end Verif.Bridge

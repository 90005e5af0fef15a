/-!
# `string_view` between Rust and C++

Source: `support/cc_std_impl/string_view.rs`, `support/cc_std_impl/slice_ptr.rs`.  Pointers are addresses, memory maps
addresses to bytes; nothing is written.
-/

namespace Verif.StrView

/-- `*const [u8]`: pointer and length (`slice_ptr.rs:13–25`). -/
structure Slice where
  ptr : Nat
  len : Nat
  deriving DecidableEq

/-- `raw_string_view`: `__data_` and `__size_`. -/
structure View where
  data : Nat
  size : Nat
  deriving DecidableEq

/-- The address space. -/
def space : Nat := 2 ^ 64

/-! ## Specification -/

/-- A slice that a Rust reference may point to: never null, does not wrap around. -/
def Slice.Valid (s : Slice) : Prop := s.ptr ≠ 0 ∧ s.ptr + s.len < space

/-- A view as C++ makes them: null only if empty. -/
def View.Valid (v : View) : Prop := (v.data = 0 → v.size = 0) ∧ v.data + v.size < space

def Slice.bytes (mem : Nat → Nat) (s : Slice) : List Nat := (List.range s.len).map fun i => mem (s.ptr + i)
def View.bytes (mem : Nat → Nat) (v : View) : List Nat := (List.range v.size).map fun i => mem (v.data + i)

/-- `std::string_view::compare` ([string.view.ops]): the first `min` characters by `memcmp`, then the sizes. -/
def firstDiff : List Nat → List Nat → Ordering
  | a :: as, b :: bs => if a < b then .lt else if b < a then .gt else firstDiff as bs
  | _, _ => .eq

def cppCompare (a b : List Nat) : Ordering :=
  let n := min a.length b.length
  match firstDiff (a.take n) (b.take n) with
  | .eq => if a.length < b.length then .lt else if b.length < a.length then .gt else .eq
  | o => o

/-! ## Model -/

/-- `From<*const [u8]> for raw_string_view`, `string_view.rs:375–412`; the other conversions call it (lines 196–232,
341–373). -/
def ofSlice (s : Slice) : View := ⟨if s.len = 0 then 0 else s.ptr, s.len⟩

/-- `raw_string_view::len`, lines 277–288: `end() - begin()`. -/
def View.len (v : View) : Nat := ((v.data + v.size) % space + space - v.data) % space

/-- `From<raw_string_view> for *const [u8]`, lines 325–340; `NonNull::<u8>::dangling()` is 1. -/
def toSlice (v : View) : Slice := ⟨if v.data = 0 then 1 else v.data, v.len⟩

/-- `as_bytes`, lines 55–61. -/
def asBytes (mem : Nat → Nat) (v : View) : List Nat := (toSlice v).bytes mem

/-- `[u8]::cmp` (Rust `core`), used by `cmp`, lines 184–188. -/
def rustCmp : List Nat → List Nat → Ordering
  | [], [] => .eq
  | [], _ :: _ => .lt
  | _ :: _, [] => .gt
  | a :: as, b :: bs => if a < b then .lt else if b < a then .gt else rustCmp as bs

def viewCmp (mem : Nat → Nat) (v w : View) : Ordering := rustCmp (asBytes mem v) (asBytes mem w)
def viewEq (mem : Nat → Nat) (v w : View) : Bool := asBytes mem v = asBytes mem w

/-! ## Theorems -/

theorem len_eq {v : View} (h : v.Valid) : v.len = v.size := by
  unfold View.len
  have := h.2
  unfold space at *
  omega

/-- C++ gets a view of the same bytes, null exactly if there are none. -/
theorem to_cpp (mem : Nat → Nat) {s : Slice} (h : s.Valid) :
    (ofSlice s).Valid ∧ (ofSlice s).bytes mem = s.bytes mem ∧ ((ofSlice s).data = 0 ↔ s.len = 0) := by
  obtain ⟨h1, h2⟩ := h
  refine ⟨⟨?_, ?_⟩, ?_, ?_⟩ <;> unfold ofSlice <;> by_cases hl : s.len = 0 <;> simp_all [View.bytes, Slice.bytes, space]

/-- Rust gets a valid slice of the same bytes at the same place, even from null views. -/
theorem to_rust (mem : Nat → Nat) {v : View} (h : v.Valid) :
    (toSlice v).Valid ∧ (toSlice v).bytes mem = v.bytes mem ∧ (v.data ≠ 0 → (toSlice v).ptr = v.data) ∧
    asBytes mem v = v.bytes mem := by
  have hl := len_eq h
  obtain ⟨h1, h2⟩ := h
  have hb : (toSlice v).bytes mem = v.bytes mem := by
    unfold toSlice Slice.bytes View.bytes
    rw [hl]
    by_cases hd : v.data = 0
    · simp [hd, h1 hd]
    · simp [hd]
  refine ⟨⟨?_, ?_⟩, hb, ?_, hb⟩
  · unfold toSlice; simp only []; split <;> simp_all
  · unfold toSlice; simp only [hl]; unfold space at *; split
    · rename_i hd; have := h1 hd; omega
    · exact h2
  · intro hd; simp [toSlice, hd]

/-- Round trips: a slice with bytes comes back as it is, an empty one as an empty one; a view comes back with the same bytes. -/
theorem roundtrip_slice {s : Slice} (h : s.Valid) : (s.len ≠ 0 → toSlice (ofSlice s) = s) ∧ (toSlice (ofSlice s)).len = s.len := by
  have hv := (to_cpp (fun _ => 0) h).1
  have hl := len_eq hv
  obtain ⟨p, l⟩ := s
  have hl' : (ofSlice ⟨p, l⟩).len = l := hl
  refine ⟨?_, hl'⟩
  intro hn
  have hn' : l ≠ 0 := hn
  have hp : p ≠ 0 := h.1
  unfold toSlice
  rw [hl']
  simp [ofSlice, hn', hp]

theorem roundtrip_view (mem : Nat → Nat) {v : View} (h : v.Valid) : (ofSlice (toSlice v)).bytes mem = v.bytes mem := by
  obtain ⟨h1, h2, -⟩ := to_rust mem h
  rw [(to_cpp mem h1).2.1, h2]

theorem cppCompare_eq : ∀ a b : List Nat, cppCompare a b = rustCmp a b
  | [], [] => by simp [cppCompare, firstDiff, rustCmp]
  | [], _ :: _ => by simp [cppCompare, firstDiff, rustCmp]
  | _ :: _, [] => by simp [cppCompare, firstDiff, rustCmp]
  | a :: as, b :: bs => by
      have ih := cppCompare_eq as bs
      have hm : min (as.length + 1) (bs.length + 1) = min as.length bs.length + 1 := by omega
      unfold cppCompare at ih ⊢
      simp only [List.length_cons, hm, List.take_succ_cons, firstDiff, rustCmp]
      by_cases h1 : a < b
      · simp [h1]
      · by_cases h2 : b < a
        · simp [h1, h2]
        · simp only [h1, h2, if_false]
          rw [← ih]
          simp only [Nat.add_lt_add_iff_right]

theorem rustCmp_eq : ∀ a b : List Nat, rustCmp a b = .eq ↔ a = b
  | [], [] => by simp [rustCmp]
  | [], _ :: _ => by simp [rustCmp]
  | _ :: _, [] => by simp [rustCmp]
  | a :: as, b :: bs => by
      have ih := rustCmp_eq as bs
      unfold rustCmp
      by_cases h1 : a < b
      · simp [h1]; omega
      · by_cases h2 : b < a
        · simp [h1, h2]; omega
        · simp only [h1, h2, if_false, ih, List.cons.injEq]
          have : a = b := by omega
          simp [this]

/-- Rust compares views as C++ does. -/
theorem compare_agrees (mem : Nat → Nat) {v w : View} (hv : v.Valid) (hw : w.Valid) :
    viewCmp mem v w = cppCompare (v.bytes mem) (w.bytes mem) ∧
    (viewEq mem v w = true ↔ cppCompare (v.bytes mem) (w.bytes mem) = .eq) := by
  have h1 := (to_rust mem hv).2.2.2
  have h2 := (to_rust mem hw).2.2.2
  constructor
  · unfold viewCmp; rw [h1, h2, cppCompare_eq]
  · unfold viewEq; rw [h1, h2, cppCompare_eq, rustCmp_eq]; simp

/-! ## Cases -/

theorem example_valid : Slice.Valid ⟨4096, 3⟩ ∧ Slice.Valid ⟨1, 0⟩ ∧ View.Valid ⟨0, 0⟩ ∧ View.Valid ⟨4096, 3⟩ := by
  simp [Slice.Valid, View.Valid, space]

theorem example_run : ofSlice ⟨4096, 3⟩ = ⟨4096, 3⟩ ∧ ofSlice ⟨1, 0⟩ = ⟨0, 0⟩ ∧ toSlice ⟨0, 0⟩ = ⟨1, 0⟩ ∧
    toSlice ⟨4096, 3⟩ = ⟨4096, 3⟩ ∧ viewCmp (fun a => a % 7) ⟨4096, 3⟩ ⟨4097, 2⟩ = .lt := by decide +kernel

/-- A view with a null pointer that is not empty, as no valid C++ program makes: Rust would get a slice of that length
at address 1 (with debug assertions it stops). -/
theorem null_not_empty : toSlice ⟨0, 5⟩ = ⟨1, 5⟩ := by decide +kernel

end Verif.StrView

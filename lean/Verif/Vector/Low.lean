import Verif.Vector.Spec
/-
C64-C67: `Vec<T, StdAllocator>` in memory.
-/
namespace Verif.Vector
open Verif

/-- No allocation is used twice. -/
def Mem.Wf (m : Mem) : Prop := ∀ b, m.next ≤ b → m.heap b = none

def rest (heap : Nat → Option Buf) (L : List Nat) (b : Nat) : Option Buf := if b ∈ L then none else heap b

/-- The owner of the allocations `L` goes from `m` to `m'` and then owns `L'`; all else is as before. -/
def Frame (m m' : Mem) (L L' : List Nat) : Prop := (∀ b, rest m'.heap L' b = rest m.heap L b) ∧ (m.Wf → m'.Wf)

theorem Frame.refl (m : Mem) (L : List Nat) : Frame m m L L := ⟨fun _ => rfl, id⟩

theorem Frame.trans {m1 m2 m3 : Mem} {L1 L2 L3 : List Nat} (h : Frame m1 m2 L1 L2) (h' : Frame m2 m3 L2 L3) : Frame m1 m3 L1 L3 :=
  ⟨fun b => (h'.1 b).trans (h.1 b), h'.2 ∘ h.2⟩

theorem Frame.same {m m' : Mem} (L : List Nat) (hh : m'.heap = m.heap) (hn : m'.next = m.next) : Frame m m' L L :=
  ⟨fun b => by rw [hh], fun h => by unfold Mem.Wf; rw [hh, hn]; exact h⟩

theorem Frame.more {m m' : Mem} {L L' : List Nat} (h : Frame m m' L L') (K : List Nat) : Frame m m' (L ++ K) (L' ++ K) := by
  refine ⟨fun b => ?_, h.2⟩
  have := h.1 b
  unfold rest at *
  simp only [List.mem_append]
  by_cases hK : b ∈ K
  · simp [hK]
  · simpa [hK] using this

theorem Frame.perm {m m' : Mem} {L L' K K' : List Nat} (h : Frame m m' L L') (h1 : ∀ b, b ∈ K ↔ b ∈ L) (h2 : ∀ b, b ∈ K' ↔ b ∈ L') :
    Frame m m' K K' := by
  refine ⟨fun b => ?_, h.2⟩
  have := h.1 b
  unfold rest at *
  simp only [h1, h2]
  exact this

theorem Frame.heap {m m' : Mem} {L L' : List Nat} (h : Frame m m' L L') {b : Nat} (hb : b ∉ L) {k : Buf} (hk : m.heap b = some k) :
    m'.heap b = some k ∧ b ∉ L' := by
  have := h.1 b
  unfold rest at this
  rw [if_neg hb, hk] at this
  split at this
  · simp at this
  · exact ⟨this, ‹_›⟩

theorem Frame.region {m m' : Mem} {L L' : List Nat} (h : Frame m m' L L') {b cap i bound : Nat} {es : List Nat} (hb : b ∉ L)
    (hr : Region m.heap b cap i es bound) : Region m'.heap b cap i es bound ∧ b ∉ L' := by
  obtain ⟨k, hk, h'⟩ := hr
  exact ⟨⟨k, (h.heap hb hk).1, h'⟩, (h.heap hb hk).2⟩

theorem ok_iff (k : Buf) (i n : Nat) : k.ok i n = true ↔ i + n ≤ k.cap ∧ ∀ x, x < n → k.poisoned (i + x) = false := by
  simp [Buf.ok]

theorem get_region {m : Mem} {b cap i bound : Nat} {es : List Nat} (hr : Region m.heap b cap i es bound) {x : Nat} (hx : x < es.length)
    (hb : i + x < bound) : m.get (.mem b 0) (i + x) = some es[x] := by
  obtain ⟨k, hk, hc, -, hl, hcell, hp⟩ := hr
  unfold Mem.get
  simp only [hk, Option.bind_eq_bind, Option.bind_some]
  rw [if_pos]
  · rw [Nat.zero_add, hcell x hx]; simp [hx]
  · rw [ok_iff]
    refine ⟨by omega, fun y hy => ?_⟩
    have : y = 0 := by omega
    subst this
    rw [hp _ (by omega)]
    simp; omega

theorem setBuf_same (m : Mem) (b : Nat) (k : Option Buf) : (m.setBuf b k).heap b = k := by simp [Mem.setBuf]

theorem set_region {m : Mem} {b cap : Nat} {es : List Nat} (hr : Region m.heap b cap 0 es cap) {x e : Nat} (hx : x < cap) :
    ∃ m', m.set (.mem b 0) x e = some m' ∧ m'.w = m.w ∧ Frame m m' [b] [b] ∧
      (x < es.length → Region m'.heap b cap 0 (es.set x e) cap) ∧ (x = es.length → Region m'.heap b cap 0 (es ++ [e]) cap) := by
  obtain ⟨k, hk, hc, h0, hl, hcell, hp⟩ := hr
  refine ⟨m.setBuf b (some { k with cell := fun y => if y = 0 + x then some e else k.cell y }), ?_, rfl, ?_, ?_, ?_⟩
  · unfold Mem.set
    simp only [hk, Option.bind_eq_bind, Option.bind_some]
    rw [if_pos]
    rw [ok_iff]
    refine ⟨by omega, fun y hy => ?_⟩
    have : y = 0 := by omega
    subst this
    rw [hp _ (by omega)]
    simp; omega
  · refine ⟨fun c => ?_, fun hw c hc' => ?_⟩
    · unfold rest Mem.setBuf
      by_cases h : c = b <;> simp [h]
    · have h1 := hw c hc'
      have : c ≠ b := by rintro rfl; rw [hk] at h1; simp at h1
      simp [Mem.setBuf, this, h1]
  · intro hx'
    refine ⟨_, setBuf_same _ _ _, hc, h0, by simpa using hl, fun y hy => ?_, hp⟩
    simp only [List.length_set] at hy
    simp only [Nat.zero_add] at *
    by_cases h : y = x
    · subst h; simp [hy]
    · rw [if_neg h, hcell y hy, List.getElem?_set_ne (fun e => h e.symm)]
  · intro hx'
    refine ⟨_, setBuf_same _ _ _, hc, h0, by simp; omega, fun y hy => ?_, hp⟩
    simp only [List.length_append, List.length_singleton] at hy
    simp only [Nat.zero_add] at *
    by_cases h : y = x
    · subst h; simp [hx']
    · rw [if_neg h, hcell y (by omega), List.getElem?_append_left (by omega)]

theorem alloc_region {m : Mem} (hw : m.Wf) {cap : Nat} (hc : 0 < cap) :
    (m.alloc cap).2 = .mem m.next 0 ∧ Region (m.alloc cap).1.heap m.next cap 0 [] cap ∧ (m.alloc cap).1.w = m.w ∧
      ∀ L, Frame m (m.alloc cap).1 L (m.next :: L) := by
  have h0 : cap ≠ 0 := by omega
  unfold Mem.alloc
  rw [if_neg h0]
  refine ⟨rfl, ⟨_, by simp; rfl, rfl, hc, by simp, by simp, ?_⟩, rfl, fun L => ⟨fun b => ?_, fun _ b hb => ?_⟩⟩
  · intro x hx; simp; omega
  · unfold rest
    simp only [List.mem_cons]
    by_cases h : b = m.next
    · subst h; simp [hw _ (Nat.le_refl _)]
    · simp [h]
  · simp only at hb
    have : b ≠ m.next := by omega
    simp only [this, if_false]
    exact hw b (by omega)

theorem dealloc_region {m : Mem} {b cap i : Nat} {es : List Nat} (hr : Region m.heap b cap i es cap) (L : List Nat) (hL : b ∉ L) :
    ∃ m', m.dealloc (.mem b 0) cap = some m' ∧ m'.w = m.w ∧ Frame m m' (b :: L) L := by
  obtain ⟨k, hk, hc, h0, hl, hcell, hp⟩ := hr
  refine ⟨m.setBuf b none, ?_, rfl, fun c => ?_, fun hw c hc' => ?_⟩
  · unfold Mem.dealloc
    rw [if_neg (by omega)]
    simp only [hk, Option.bind_eq_bind, Option.bind_some]
    rw [if_pos]
    refine ⟨hc, ?_⟩
    rw [ok_iff]
    refine ⟨by omega, fun x hx => ?_⟩
    rw [hp _ (by omega)]
    simp; omega
  · unfold rest Mem.setBuf
    simp only [List.mem_cons]
    by_cases h : c = b
    · subst h; simp
    · simp [h]
  · have := hw c hc'
    unfold Mem.setBuf
    simp only
    split
    · rfl
    · exact this

/-- A `Vec` with elements `es`. -/
def IsRVec (m : Mem) (r : RVec) (es : List Nat) (cap : Nat) : Prop :=
  r.len = es.length ∧ r.cap = cap ∧ ((cap = 0 ∧ es = [] ∧ r.ptr = .dangling) ∨ ∃ b, r.ptr = .mem b 0 ∧ Region m.heap b cap 0 es cap)

theorem IsRVec.mono {m m' : Mem} {r : RVec} {es : List Nat} {cap : Nat} (h : IsRVec m r es cap) (hh : m'.heap = m.heap) : IsRVec m' r es cap := by
  unfold IsRVec at *; rw [hh]; exact h

theorem IsRVec.buf_lt {m : Mem} {r : RVec} {es : List Nat} {cap : Nat} (h : IsRVec m r es cap) (hw : m.Wf) : ∀ b ∈ r.ptr.buf, b < m.next := by
  intro b hb
  obtain ⟨-, -, ⟨-, -, hp⟩ | ⟨c, hp, k, hk, -⟩⟩ := h
  · rw [hp] at hb; simp [Ptr.buf] at hb
  · rw [hp] at hb; simp only [Ptr.buf, List.mem_singleton] at hb
    subst hb
    apply Classical.byContradiction
    intro hn
    rw [hw b (by omega)] at hk; simp at hk

theorem copy_region {m : Mem} {b c capb capc i j n : Nat} {es fs : List Nat} (hb : Region m.heap b capb 0 es capb) (hc : Region m.heap c capc 0 fs capc)
    (hne : b ≠ c) (hi : i + n ≤ capb) (hj : j + n ≤ capc) (hjl : j = fs.length) (gs : List Nat) (hg : gs.length ≤ n)
    (hgs : ∀ x, x < gs.length → i + x < es.length ∧ es[i + x]? = gs[x]?) :
    ∃ m', m.copy (.mem b 0) i (.mem c 0) j n = some m' ∧ m'.w = m.w ∧ Region m'.heap c capc 0 (fs ++ gs) capc ∧ m'.heap b = m.heap b ∧
      ∀ L, c ∈ L → Frame m m' L L := by
  by_cases hn : n = 0
  · subst hn
    have : gs = [] := List.eq_nil_of_length_eq_zero (by omega)
    subst this
    exact ⟨m, by simp [Mem.copy], rfl, by simpa using hc, rfl, fun L _ => .refl m L⟩
  obtain ⟨k, hk, hkc, hk0, hkl, hkcell, hkp⟩ := hb
  obtain ⟨l, hl, hlc, hl0, hll, hlcell, hlp⟩ := hc
  refine ⟨m.setBuf c (some { l with cell := fun x => if 0 + j ≤ x ∧ x < 0 + j + n then k.cell (0 + i + (x - (0 + j))) else l.cell x }),
    ?_, rfl, ?_, ?_, ?_⟩
  · unfold Mem.copy
    rw [if_neg hn]
    simp only [hk, hl, Option.bind_eq_bind, Option.bind_some]
    rw [if_pos]
    simp only [Bool.and_eq_true, decide_eq_true_eq]
    refine ⟨⟨(ok_iff _ _ _).2 ⟨by omega, fun x hx => ?_⟩, (ok_iff _ _ _).2 ⟨by omega, fun x hx => ?_⟩⟩, hne⟩
    · rw [hkp _ (by omega)]; simp; omega
    · rw [hlp _ (by omega)]; simp; omega
  · refine ⟨_, setBuf_same _ _ _, hlc, hl0, by simp; omega, fun x hx => ?_, hlp⟩
    simp only [List.length_append] at hx
    simp only [Nat.zero_add]
    by_cases h : x < fs.length
    · rw [if_neg (by omega), List.getElem?_append_left h]
      simpa using hlcell x h
    · rw [if_pos (by omega), List.getElem?_append_right (by omega)]
      obtain ⟨h1, h2⟩ := hgs (x - fs.length) (by omega)
      rw [← h2, hjl]
      simpa using hkcell _ h1
  · simp [Mem.setBuf, hne]
  · intro L hL
    refine ⟨fun x => ?_, fun hw x hx => ?_⟩
    · unfold rest Mem.setBuf
      by_cases h : x = c
      · subst h; simp [hL]
      · simp [h]
    · have h1 := hw x hx
      have : x ≠ c := by rintro rfl; rw [hl] at h1; simp at h1
      simp [Mem.setBuf, this, h1]

theorem Region.take {heap : Nat → Option Buf} {b cap i bound : Nat} {es : List Nat} (h : Region heap b cap i es bound) (n : Nat) :
    Region heap b cap i (es.take n) bound := by
  obtain ⟨k, hk, hc, h0, hl, hcell, hp⟩ := h
  refine ⟨k, hk, hc, h0, by simp; omega, fun x hx => ?_, hp⟩
  simp only [List.length_take] at hx
  rw [hcell x (by omega), List.getElem?_take]
  simp; omega

theorem Region.drop {heap : Nat → Option Buf} {b cap i bound : Nat} {es : List Nat} (h : Region heap b cap i es bound) (n : Nat) (hn : n ≤ es.length) :
    Region heap b cap (i + n) (es.drop n) bound := by
  obtain ⟨k, hk, hc, h0, hl, hcell, hp⟩ := h
  refine ⟨k, hk, hc, h0, by simp; omega, fun x hx => ?_, hp⟩
  simp only [List.length_drop] at hx
  rw [List.getElem?_drop, ← hcell (n + x) (by omega)]
  congr 1; omega

theorem realloc_refines {m : Mem} {r : RVec} {es : List Nat} {cap c : Nat} (h : IsRVec m r es cap) (hw : m.Wf) (hc : es.length ≤ c) :
    ∃ m' r', m.realloc r c = some (m', r') ∧ m'.w = m.w ∧ IsRVec m' r' es c ∧ Frame m m' r.ptr.buf r'.ptr.buf := by
  obtain ⟨hlen, hcap, h⟩ := h
  unfold Mem.realloc
  rw [if_pos (by omega)]
  rcases h with ⟨h0, hes, hp⟩ | ⟨b, hp, hr⟩
  · subst hes
    have hdl : ∀ m1 : Mem, m1.dealloc r.ptr r.cap = some m1 := fun m1 => by simp [Mem.dealloc, hcap, h0]
    have hcp : ∀ m1 : Mem, ∀ p, m1.copy r.ptr 0 p 0 (min r.cap c) = some m1 := fun m1 p => by simp [Mem.copy, hcap, h0]
    by_cases hc0 : c = 0
    · refine ⟨m, ⟨.dangling, 0, 0⟩, ?_, rfl, ⟨rfl, hc0.symm, Or.inl ⟨hc0, rfl, rfl⟩⟩, ?_⟩
      · subst hc0
        have : m.alloc 0 = (m, .dangling) := by simp [Mem.alloc]
        simp only [this, hcp, hdl, Option.bind_eq_bind, Option.bind_some, hlen]
        rfl
      · rw [hp]; exact .refl _ _
    · obtain ⟨h1, h2, h3, h4⟩ := alloc_region hw (show 0 < c by omega)
      refine ⟨(m.alloc c).1, ⟨.mem m.next 0, 0, c⟩, ?_, h3, ⟨rfl, rfl, Or.inr ⟨_, rfl, h2⟩⟩, ?_⟩
      · simp only [hcp, hdl, Option.bind_eq_bind, Option.bind_some, hlen, h1]
        rfl
      · rw [hp]; exact h4 []
  · have h0 : 0 < cap := by obtain ⟨k, -, -, h0, -⟩ := hr; exact h0
    by_cases hc0 : c = 0
    · have hes : es = [] := List.eq_nil_of_length_eq_zero (by omega)
      subst hes
      have hal : m.alloc c = (m, .dangling) := by simp [Mem.alloc, hc0]
      obtain ⟨m', hd, hw', hf⟩ := dealloc_region hr [] (by simp)
      refine ⟨m', ⟨.dangling, 0, 0⟩, ?_, hw', ⟨rfl, hc0.symm, Or.inl ⟨hc0, rfl, rfl⟩⟩, ?_⟩
      · simp only [hal, Option.bind_eq_bind]
        simp [Mem.copy, hp, hcap, hd, hc0, hlen]
      · rw [hp]; exact hf
    · obtain ⟨h1, h2, h3, h4⟩ := alloc_region hw (show 0 < c by omega)
      have hlt : b < m.next := by
        have := IsRVec.buf_lt (m := m) (r := r) (es := es) (cap := cap) ⟨hlen, hcap, Or.inr ⟨b, hp, hr⟩⟩ hw b (by rw [hp]; simp [Ptr.buf])
        exact this
      have hr1 := ((h4 []).region (b := b) (by simp) hr).1
      have hle : es.length ≤ cap := by obtain ⟨k, -, -, -, hl, -⟩ := hr; omega
      obtain ⟨m2, hcpy, hw2, hreg, hsame, hfr⟩ := copy_region (i := 0) (j := 0) (n := min cap c) hr1 h2 (by omega) (by omega) (by rw [Nat.zero_add]; exact Nat.min_le_right _ _) rfl es
        (by omega) (fun x hx => by simp [hx])
      have hr2 : Region m2.heap b cap 0 es cap := by
        obtain ⟨k, hk, rest⟩ := hr1
        exact ⟨k, by rw [hsame, hk], rest⟩
      obtain ⟨m3, hd, hw3, hf⟩ := dealloc_region hr2 [m.next] (by simp; omega)
      refine ⟨m3, ⟨.mem m.next 0, es.length, c⟩, ?_, by rw [hw3, hw2, h3], ⟨rfl, rfl, Or.inr ⟨_, rfl, ?_⟩⟩, ?_⟩
      · simp only [h1, hp, hcap, hcpy, hd, Option.bind_eq_bind, Option.bind_some, hlen]
        rfl
      · obtain ⟨k, hk, rest⟩ := hreg
        have hb : m3.heap m.next = some k := by
          have hne : m.next ≠ b := by omega
          have hdx : m3 = m2.setBuf b none := by
            unfold Mem.dealloc at hd
            rw [if_neg (by omega)] at hd
            obtain ⟨k2, hk2, -⟩ := hr2
            simp only [hk2, Option.bind_eq_bind, Option.bind_some] at hd
            split at hd
            · simpa using hd.symm
            · simp at hd
          rw [hdx]
          simp [Mem.setBuf, hne, hk]
        exact ⟨k, hb, by simpa using rest⟩
      · rw [hp]
        have hA : Frame m (m.alloc c).1 [b] [m.next, b] := h4 [b]
        have hB := hfr [m.next, b] (by simp)
        have hC : Frame m2 m3 [m.next, b] [m.next] := hf.perm (by intro x; simp [or_comm]) (by simp)
        exact hA.trans (hB.trans hC)

theorem drop_length_append_singleton {es : List Nat} {e : Nat} (h : es.getLast? = some e) :
    0 < es.length ∧ es[es.length - 1]? = some e ∧ es.dropLast = es.take (es.length - 1) := by
  rw [List.getLast?_eq_getElem?] at h
  refine ⟨?_, h, List.dropLast_eq_take⟩
  cases es with
  | nil => simp at h
  | cons => simp

theorem prim_refines {m : Mem} {r : RVec} {es es' : List Nat} {cap cap' : Nat} {w' : World} (p : Prim) (h : IsRVec m r es cap) (hw : m.Wf)
    (hs : p.spec m.w es cap = some (w', es', cap')) :
    ∃ m' r', p.exec m r = some (m', r') ∧ m'.w = w' ∧ IsRVec m' r' es' cap' ∧ Frame m m' r.ptr.buf r'.ptr.buf ∧
      (p.harmless = true → r'.ptr = r.ptr ∧ cap' = cap ∧ es.length ≤ es'.length) := by
  have h' := h
  obtain ⟨hlen, hcap, h⟩ := h
  cases p with
  | realloc c =>
    simp only [Prim.spec] at hs
    split at hs
    · simp only [Option.some.injEq, Prod.mk.injEq] at hs
      obtain ⟨rfl, rfl, rfl⟩ := hs
      obtain ⟨m', r', a1, a2, a3, a4⟩ := realloc_refines h' hw ‹_›
      exact ⟨m', r', a1, a2, a3, a4, by simp [Prim.harmless]⟩
    · simp at hs
  | write e =>
    simp only [Prim.spec] at hs
    split at hs
    · next hc =>
      simp only [Option.some.injEq, Prod.mk.injEq] at hs
      obtain ⟨rfl, rfl, rfl⟩ := hs
      rcases h with ⟨h0, -, -⟩ | ⟨b, hp, hr⟩
      · omega
      · obtain ⟨m', hset, hw', hf, -, hreg⟩ := set_region (e := e) hr hc.2
        refine ⟨{ m' with w := { m'.w with hand := m'.w.hand.erase e } }, { r with len := r.len + 1 }, ?_, ?_,
          ⟨?_, hcap, Or.inr ⟨b, hp, hreg rfl⟩⟩, ?_, fun _ => ⟨rfl, rfl, by simp⟩⟩
        · simp only [Prim.exec]
          rw [if_pos ⟨hc.1, by omega⟩]
          simp only [hp, hlen, hset, Option.bind_eq_bind, Option.bind_some]
          rfl
        · simp [hw']
        · simp [hlen]
        · rw [hp]; exact hf
    · simp at hs
  | take =>
    simp only [Prim.spec, Option.bind_eq_bind] at hs
    cases hl : es.getLast? with
    | none => rw [hl] at hs; simp at hs
    | some e =>
      rw [hl] at hs
      simp only [Option.bind_some, Option.pure_def, Option.some.injEq, Prod.mk.injEq] at hs
      obtain ⟨rfl, rfl, rfl⟩ := hs
      obtain ⟨h1, h2, h3⟩ := drop_length_append_singleton hl
      rcases h with ⟨-, h0, -⟩ | ⟨b, hp, hr⟩
      · simp [h0] at h1
      · have hle : es.length ≤ cap := by obtain ⟨k, -, -, -, hl, -⟩ := hr; omega
        have hg := get_region hr (x := es.length - 1) (by omega) (by omega)
        rw [Nat.zero_add] at hg
        have he : es[es.length - 1] = e := by
          have := h2; rw [List.getElem?_eq_getElem (by omega)] at this; simpa using this
        refine ⟨{ m with w := { m.w with hand := e :: m.w.hand } }, { r with len := r.len - 1 }, ?_, rfl,
          ⟨?_, hcap, Or.inr ⟨b, hp, ?_⟩⟩, .same _ rfl rfl, by simp [Prim.harmless]⟩
        · simp only [Prim.exec]
          rw [if_neg (by omega)]
          simp only [hp, hlen, hg, he, Option.bind_eq_bind, Option.bind_some]
          rfl
        · simp [hlen]
        · rw [h3]; exact hr.take _
  | dropLast =>
    simp only [Prim.spec, Option.bind_eq_bind] at hs
    cases hl : es.getLast? with
    | none => rw [hl] at hs; simp at hs
    | some e =>
      rw [hl] at hs
      simp only [Option.bind_some, Option.pure_def, Option.some.injEq, Prod.mk.injEq] at hs
      obtain ⟨rfl, rfl, rfl⟩ := hs
      obtain ⟨h1, h2, h3⟩ := drop_length_append_singleton hl
      rcases h with ⟨-, h0, -⟩ | ⟨b, hp, hr⟩
      · simp [h0] at h1
      · have hle : es.length ≤ cap := by obtain ⟨k, -, -, -, hl, -⟩ := hr; omega
        have hg := get_region hr (x := es.length - 1) (by omega) (by omega)
        rw [Nat.zero_add] at hg
        have he : es[es.length - 1] = e := by
          have := h2; rw [List.getElem?_eq_getElem (by omega)] at this; simpa using this
        refine ⟨{ m with w := m.w.drop e }, { r with len := r.len - 1 }, ?_, rfl,
          ⟨?_, hcap, Or.inr ⟨b, hp, ?_⟩⟩, .same _ rfl rfl, by simp [Prim.harmless]⟩
        · simp only [Prim.exec]
          rw [if_neg (by omega)]
          simp only [hp, hlen, hg, he, Option.bind_eq_bind, Option.bind_some]
          rfl
        · simp [hlen]
        · rw [h3]; exact hr.take _
  | swap i j =>
    simp only [Prim.spec, Option.bind_eq_bind] at hs
    cases hi : es[i]? with
    | none => rw [hi] at hs; simp at hs
    | some a =>
      cases hj : es[j]? with
      | none => rw [hi, hj] at hs; simp at hs
      | some d =>
        rw [hi, hj] at hs
        simp only [Option.bind_some, Option.pure_def, Option.some.injEq, Prod.mk.injEq] at hs
        obtain ⟨rfl, rfl, rfl⟩ := hs
        obtain ⟨hi1, hi2⟩ := List.getElem?_eq_some_iff.1 hi
        obtain ⟨hj1, hj2⟩ := List.getElem?_eq_some_iff.1 hj
        rcases h with ⟨-, h0, -⟩ | ⟨b, hp, hr⟩
        · simp [h0] at hi1
        · have hle : es.length ≤ cap := by obtain ⟨k, -, -, -, hl, -⟩ := hr; omega
          have g1 := get_region hr (x := i) hi1 (by omega)
          have g2 := get_region hr (x := j) hj1 (by omega)
          rw [Nat.zero_add] at g1 g2
          obtain ⟨m1, hs1, hw1, hf1, hr1, -⟩ := set_region (e := d) hr (x := i) (by omega)
          have hr1 := hr1 hi1
          obtain ⟨m2, hs2, hw2, hf2, hr2, -⟩ := set_region (e := a) hr1 (x := j) (by omega)
          have hr2 := hr2 (by simpa using hj1)
          refine ⟨m2, r, ?_, by rw [hw2, hw1], ⟨by simpa using hlen, hcap, Or.inr ⟨b, hp, hr2⟩⟩, ?_, fun _ => ⟨rfl, rfl, by simp⟩⟩
          · simp only [Prim.exec]
            rw [if_pos (by omega)]
            simp only [hp, g1, g2, hi2, hj2, hs1, hs2, Option.bind_eq_bind, Option.bind_some]
            rfl
          · rw [hp]; exact hf1.trans hf2
  | look i =>
    simp only [Prim.spec] at hs
    split at hs
    · next hi =>
      simp only [Option.some.injEq, Prod.mk.injEq] at hs
      obtain ⟨rfl, rfl, rfl⟩ := hs
      rcases h with ⟨-, h0, -⟩ | ⟨b, hp, hr⟩
      · simp [h0] at hi
      · have hle : es.length ≤ cap := by obtain ⟨k, -, -, -, hl, -⟩ := hr; omega
        have g1 := get_region hr (x := i) hi (by omega)
        rw [Nat.zero_add] at g1
        refine ⟨m, r, ?_, rfl, h', .refl _ _, fun _ => ⟨rfl, rfl, Nat.le_refl _⟩⟩
        simp only [Prim.exec]
        rw [if_pos (by omega)]
        simp only [hp, g1, Option.bind_eq_bind, Option.bind_some]
        rfl
    · simp at hs
  | make =>
    simp only [Prim.spec, Option.some.injEq, Prod.mk.injEq] at hs
    obtain ⟨rfl, rfl, rfl⟩ := hs
    exact ⟨_, r, rfl, rfl, h'.mono rfl, .same _ rfl rfl, fun _ => ⟨rfl, rfl, Nat.le_refl _⟩⟩
  | dropHand e =>
    simp only [Prim.spec] at hs
    split at hs
    · simp only [Option.some.injEq, Prod.mk.injEq] at hs
      obtain ⟨rfl, rfl, rfl⟩ := hs
      refine ⟨{ m with w := { m.w with hand := m.w.hand.erase e }.drop e }, r, ?_, rfl, h'.mono rfl, .same _ rfl rfl,
        fun _ => ⟨rfl, rfl, Nat.le_refl _⟩⟩
      simp only [Prim.exec]
      rw [if_pos ‹_›]
    · simp at hs

theorem prims_refine (ps : List Prim) : ∀ {m : Mem} {r : RVec} {es es' : List Nat} {cap cap' : Nat} {w' : World}, IsRVec m r es cap → m.Wf →
    specPrims m.w es cap ps = some (w', es', cap') →
    ∃ m' r', runPrims m r ps = some (m', r') ∧ m'.w = w' ∧ IsRVec m' r' es' cap' ∧ Frame m m' r.ptr.buf r'.ptr.buf ∧
      (ps.all Prim.harmless = true → r'.ptr = r.ptr ∧ cap' = cap ∧ es.length ≤ es'.length) := by
  induction ps with
  | nil =>
    intro m r es es' cap cap' w' h hw hs
    simp only [specPrims, Option.some.injEq, Prod.mk.injEq] at hs
    obtain ⟨rfl, rfl, rfl⟩ := hs
    exact ⟨m, r, rfl, rfl, h, .refl _ _, fun _ => ⟨rfl, rfl, Nat.le_refl _⟩⟩
  | cons p ps ih =>
    intro m r es es' cap cap' w' h hw hs
    simp only [specPrims, Option.bind_eq_bind] at hs
    cases h1 : p.spec m.w es cap with
    | none => rw [h1] at hs; simp at hs
    | some t =>
      obtain ⟨w1, es1, cap1⟩ := t
      rw [h1] at hs
      simp only [Option.bind_some] at hs
      obtain ⟨m1, r1, a1, a2, a3, a4, a5⟩ := prim_refines p h hw h1
      subst a2
      obtain ⟨m2, r2, b1, b2, b3, b4, b5⟩ := ih a3 (a4.2 hw) hs
      refine ⟨m2, r2, ?_, b2, b3, a4.trans b4, fun hall => ?_⟩
      · simp only [runPrims, a1, Option.bind_eq_bind, Option.bind_some, b1]
      · simp only [List.all_cons, Bool.and_eq_true] at hall
        obtain ⟨c1, c2, c3⟩ := a5 hall.1
        obtain ⟨d1, d2, d3⟩ := b5 hall.2
        exact ⟨d1.trans c1, d2.trans c2, Nat.le_trans c3 d3⟩

theorem read_region {m : Mem} {b cap i bound : Nat} {es : List Nat} (hr : Region m.heap b cap i es bound) (hb : i + es.length ≤ bound) :
    m.read (.mem b 0) i es.length = some es := by
  induction es generalizing i with
  | nil => rfl
  | cons e es ih =>
    simp only [List.length_cons, Mem.read, Option.bind_eq_bind]
    have h1 := get_region hr (x := 0) (by simp) (by simp at hb; omega)
    simp only [Nat.add_zero, List.getElem_cons_zero] at h1
    have h2 := ih (i := i + 1) (by simpa using hr.drop 1 (by simp)) (by simp at hb; omega)
    simp [h1, h2]

theorem dropRange_region {m : Mem} {b cap i bound : Nat} {es : List Nat} (hr : Region m.heap b cap i es bound) (hb : i + es.length ≤ bound) :
    m.dropRange (.mem b 0) i es.length = some { m with w := m.w.dropAll es } := by
  induction es generalizing i m with
  | nil => rfl
  | cons e es ih =>
    simp only [List.length_cons, Mem.dropRange, Option.bind_eq_bind]
    have h1 := get_region hr (x := 0) (by simp) (by simp at hb; omega)
    simp only [Nat.add_zero, List.getElem_cons_zero] at h1
    have h2 := ih (m := { m with w := m.w.drop e }) (i := i + 1) (by simpa using hr.drop 1 (by simp)) (by simp at hb; omega)
    simp only [h1, h2, Option.bind_some]
    rfl

end Verif.Vector

import Verif.Vector.Low
/-
C64-C67: the functions of `vector` in memory.
-/
namespace Verif.Vector
open Verif

theorem IsVector.len {m : Mem} {v : Vector} {es : List Nat} {cap : Nat} {c : Bool} (h : IsVector m v es cap c) : v.len = some es.length := by
  rcases h with ⟨-, rfl, rfl⟩ | ⟨b, rfl, -⟩
  · rfl
  · simp [Vector.len, Ptr.offsetFrom]

theorem IsVector.cap {m : Mem} {v : Vector} {es : List Nat} {cap : Nat} {c : Bool} (h : IsVector m v es cap c) : v.cap = some cap := by
  rcases h with ⟨rfl, -, rfl⟩ | ⟨b, rfl, -⟩
  · rfl
  · simp [Vector.cap, Ptr.offsetFrom]

theorem IsVector.mono {m m' : Mem} {v : Vector} {es : List Nat} {cap : Nat} {c : Bool} (h : IsVector m v es cap c) (hh : m'.heap = m.heap) :
    IsVector m' v es cap c := by unfold IsVector at *; rw [hh]; exact h

theorem Frame.vector {m m' : Mem} {L L' : List Nat} (h : Frame m m' L L') {v : Vector} {es : List Nat} {cap : Nat} {c : Bool}
    (hd : ∀ b ∈ v.begin_.buf, b ∉ L) (hv : IsVector m v es cap c) : IsVector m' v es cap c ∧ ∀ b ∈ v.begin_.buf, b ∉ L' := by
  rcases hv with hv | ⟨b, rfl, hr⟩
  · refine ⟨Or.inl hv, ?_⟩
    obtain ⟨-, -, rfl⟩ := hv
    simp [Ptr.buf]
  · simp only [Ptr.buf, List.mem_singleton, forall_eq] at hd ⊢
    obtain ⟨h1, h2⟩ := h.region hd hr
    exact ⟨Or.inr ⟨b, rfl, h1⟩, h2⟩

theorem Frame.rvec {m m' : Mem} {L L' : List Nat} (h : Frame m m' L L') {r : RVec} {es : List Nat} {cap : Nat}
    (hd : ∀ b ∈ r.ptr.buf, b ∉ L) (hv : IsRVec m r es cap) : IsRVec m' r es cap ∧ ∀ b ∈ r.ptr.buf, b ∉ L' := by
  obtain ⟨h1, h2, h3 | ⟨b, hb, hr⟩⟩ := hv
  · exact ⟨⟨h1, h2, Or.inl h3⟩, by simp [h3.2.2, Ptr.buf]⟩
  · rw [hb] at hd ⊢
    simp only [Ptr.buf, List.mem_singleton, forall_eq] at hd ⊢
    obtain ⟨h4, h5⟩ := h.region hd hr
    exact ⟨⟨h1, h2, Or.inr ⟨b, hb, h4⟩⟩, h5⟩

theorem annotate_frame {m : Mem} {b cap : Nat} {k : Buf} (hk : m.heap b = some k) (hc : k.cap = cap) (h0 : 0 < cap) {i j : Nat} (hi : i ≤ cap) (hj : j ≤ cap) :
    ∃ m', annotate m (.mem b 0) (.mem b cap) (.mem b i) (.mem b j) = some m' ∧ m'.w = m.w ∧ Frame m m' [b] [b] ∧
      m'.heap b = some { k with poisoned := fun x => if i ≤ x ∧ x < j then false else if j ≤ x ∧ x < i then true else k.poisoned x } := by
  refine ⟨m.setBuf b (some { k with poisoned := fun x => if i ≤ x ∧ x < j then false else if j ≤ x ∧ x < i then true else k.poisoned x }),
    ?_, rfl, ⟨fun c => ?_, fun hw c hc' => ?_⟩, setBuf_same _ _ _⟩
  · unfold annotate
    rw [if_neg (by simp; omega)]
    simp only [hk, Option.bind_eq_bind, Option.bind_some]
    rw [if_pos ⟨trivial, trivial, trivial, hc.symm, hi, hj⟩]
  · unfold rest Mem.setBuf
    by_cases h : c = b <;> simp [h]
  · have h1 := hw c hc'
    have : c ≠ b := by rintro rfl; rw [hk] at h1; simp at h1
    simp [Mem.setBuf, this, h1]

/-- Unpoisoning opens the vector. -/
theorem open_vector {m : Mem} {v : Vector} {es : List Nat} {cap : Nat} {c : Bool} (h : IsVector m v es cap c) :
    ∃ m', unpoisonTail m v = some m' ∧ m'.w = m.w ∧ IsVector m' v es cap false ∧ Frame m m' v.begin_.buf v.begin_.buf ∧
      IsRVec m' (createVecFromRawParts v.begin_ es.length cap) es cap ∧
      (createVecFromRawParts v.begin_ es.length cap).ptr.buf = v.begin_.buf := by
  rcases h with ⟨rfl, rfl, rfl⟩ | ⟨b, rfl, hr⟩
  · refine ⟨m, rfl, rfl, Or.inl ⟨rfl, rfl, rfl⟩, .refl _ _, ⟨rfl, rfl, Or.inl ⟨rfl, rfl, rfl⟩⟩, rfl⟩
  · obtain ⟨k, hk, hc, h0, hl, hcell, hp⟩ := hr
    obtain ⟨m', h1, h2, h3, h4⟩ := annotate_frame hk hc h0 (i := es.length) (j := cap) (by omega) (Nat.le_refl _)
    have hreg : Region m'.heap b cap 0 es cap := by
      refine ⟨_, h4, hc, h0, hl, hcell, fun x hx => ?_⟩
      simp only
      by_cases hx2 : es.length ≤ x
      · rw [if_pos ⟨hx2, hx⟩]; simp; omega
      · rw [if_neg (by omega), if_neg (by omega), hp x hx]
        cases c <;> simp <;> omega
    refine ⟨m', h1, h2, Or.inr ⟨b, rfl, by simpa using hreg⟩, h3, ?_, ?_⟩
    · refine ⟨?_, ?_, Or.inr ⟨b, ?_, hreg⟩⟩ <;> simp [createVecFromRawParts]
    · simp [createVecFromRawParts]

/-- Storing a `Vec` and poisoning closes the vector. -/
theorem close_vector {m : Mem} {r : RVec} {es : List Nat} {cap : Nat} (h : IsRVec m r es cap) :
    ∃ v m', setBeginLenCapacity r.ptr r.len r.cap = some v ∧ poisonTail m v = some m' ∧ m'.w = m.w ∧ IsVector m' v es cap true ∧
      v.begin_.buf = r.ptr.buf ∧ Frame m m' r.ptr.buf r.ptr.buf := by
  obtain ⟨hlen, hcap, h⟩ := h
  rcases h with ⟨rfl, rfl, hp⟩ | ⟨b, hp, hr⟩
  · refine ⟨⟨.null, .null, .null⟩, m, ?_, rfl, rfl, Or.inl ⟨rfl, rfl, rfl⟩, by rw [hp]; rfl, .refl _ _⟩
    unfold setBeginLenCapacity
    rw [hcap, hlen]
    rfl
  · obtain ⟨k, hk, hc, h0, hl, hcell, hp'⟩ := hr
    obtain ⟨m', h1, h2, h3, h4⟩ := annotate_frame hk hc h0 (i := cap) (j := es.length) (Nat.le_refl _) (by omega)
    refine ⟨⟨.mem b 0, .mem b es.length, .mem b cap⟩, m', ?_, h1, h2, Or.inr ⟨b, rfl, ?_⟩, by rw [hp], by rw [hp]; exact h3⟩
    · unfold setBeginLenCapacity
      rw [hcap, if_neg (by omega), hp, hlen]
      simp [Ptr.add]
    · refine ⟨_, h4, hc, h0, hl, hcell, fun x hx => ?_⟩
      simp only [if_true]
      rw [if_neg (by omega)]
      by_cases hx2 : es.length ≤ x
      · rw [if_pos ⟨hx2, hx⟩]; simp [hx2]
      · rw [if_neg (by omega), hp' x hx]; simp; omega

theorem fromStdVec_refines {m : Mem} {r : RVec} {es : List Nat} {cap : Nat} (h : IsRVec m r es cap) :
    ∃ m' v, fromStdVec m r = some (m', v) ∧ m'.w = m.w ∧ IsVector m' v es cap true ∧ v.begin_.buf = r.ptr.buf ∧ Frame m m' r.ptr.buf r.ptr.buf := by
  obtain ⟨v, m', h1, h2, h3, h4, h5, h6⟩ := close_vector h
  exact ⟨m', v, by simp [fromStdVec, h1, h2], h3, h4, h5, h6⟩

theorem mutate_refines {m : Mem} {v : Vector} {es fs : List Nat} {cap cap' : Nat} {c : Bool} {w' : World} (h : IsVector m v es cap c) (hw : m.Wf)
    (ps : List Prim) (hs : specPrims m.w es cap ps = some (w', fs, cap')) :
    ∃ m' v', mutate m v ps false = some (m', v') ∧ m'.w = w' ∧ IsVector m' v' fs cap' true ∧ Frame m m' v.begin_.buf v'.begin_.buf := by
  obtain ⟨m1, a1, a2, a3, a4, a5, a6⟩ := open_vector h
  rw [← a2] at hs
  obtain ⟨m2, r2, b1, b2, b3, b4, -⟩ := prims_refine ps a5 (a4.2 hw) hs
  obtain ⟨v', m3, c1, c2, c3, c4, c5, c6⟩ := close_vector b3
  refine ⟨m3, v', ?_, by rw [c3, b2], c4, ?_⟩
  · simp only [mutate, mutateSelfAsVec, a1, h.len, h.cap, b1, c1, c2, Option.bind_eq_bind, Option.bind_some, Option.pure_def, Bool.false_eq_true, if_false]
  · rw [a6] at b4
    rw [c5]
    exact a4.trans (b4.trans c6)

theorem mutate_panics {m : Mem} {v : Vector} {es fs : List Nat} {cap cap' : Nat} {c : Bool} {w' : World} (h : IsVector m v es cap c) (hw : m.Wf)
    (ps : List Prim) (hs : specPrims m.w es cap ps = some (w', fs, cap')) (hp : ps.all Prim.harmless = true) :
    ∃ m', mutate m v ps true = some (m', v) ∧ m'.w = w' ∧ IsVector m' v (fs.take es.length) cap false ∧ Frame m m' v.begin_.buf v.begin_.buf := by
  obtain ⟨m1, a1, a2, a3, a4, a5, a6⟩ := open_vector h
  rw [← a2] at hs
  obtain ⟨m2, r2, b1, b2, b3, b4, b5⟩ := prims_refine ps a5 (a4.2 hw) hs
  obtain ⟨c1, c2, c3⟩ := b5 hp
  subst c2
  refine ⟨m2, ?_, b2, ?_, ?_⟩
  · simp only [mutate, mutateSelfAsVec, a1, h.len, h.cap, b1, Option.bind_eq_bind, Option.bind_some, Option.pure_def, if_true]
  · obtain ⟨-, -, ⟨hc0, hf, hp'⟩ | ⟨b, hb, hr⟩⟩ := b3
    · rcases h with ⟨h1, h2, h3⟩ | ⟨b, rfl, hr⟩
      · refine Or.inl ⟨h1, ?_, h3⟩
        rw [hf]; simp
      · obtain ⟨k, -, -, h0, -⟩ := hr; omega
    · have hlen : (fs.take es.length).length = es.length := by simp; omega
      rcases h with ⟨h1, h2, h3⟩ | ⟨b', rfl, hr'⟩
      · obtain ⟨k, -, -, h0, -⟩ := hr; omega
      · have : b' = b := by
          rw [hb] at c1
          simp only [createVecFromRawParts] at c1
          rw [if_neg (by simp)] at c1
          simp only [Ptr.mem.injEq] at c1
          exact c1.1.symm
        subst this
        refine Or.inr ⟨b', by rw [hlen], ?_⟩
        simpa using hr.take es.length
  · have : r2.ptr.buf = v.begin_.buf := by rw [c1, a6]
    rw [this, a6] at b4
    exact a4.trans b4

/-- The allocation of a new `Vec`. -/
theorem alloc_rvec {m : Mem} (hw : m.Wf) (cap : Nat) :
    IsRVec (m.alloc cap).1 ⟨(m.alloc cap).2, 0, cap⟩ [] cap ∧ (m.alloc cap).1.w = m.w ∧ (∀ L, Frame m (m.alloc cap).1 L ((m.alloc cap).2.buf ++ L)) ∧
      (∀ b ∈ (m.alloc cap).2.buf, m.heap b = none) ∧ ∀ b, m.heap b ≠ none → (m.alloc cap).1.heap b = m.heap b := by
  by_cases h : cap = 0
  · subst h
    have : m.alloc 0 = (m, .dangling) := by simp [Mem.alloc]
    rw [this]
    exact ⟨⟨rfl, rfl, Or.inl ⟨rfl, rfl, rfl⟩⟩, rfl, fun L => .refl _ _, by simp [Ptr.buf], fun _ _ => rfl⟩
  · obtain ⟨h1, h2, h3, h4⟩ := alloc_region hw (show 0 < cap by omega)
    refine ⟨⟨rfl, rfl, Or.inr ⟨_, h1, h2⟩⟩, h3, fun L => by rw [h1]; exact h4 L, ?_, ?_⟩
    · rw [h1]; simpa [Ptr.buf] using hw _ (Nat.le_refl _)
    · intro b hb
      cases hk : m.heap b with
      | none => exact absurd hk hb
      | some k => exact ((h4 []).heap (by simp) hk).1

theorem IsRVec.heap_ne {m : Mem} {r : RVec} {es : List Nat} {cap : Nat} (h : IsRVec m r es cap) : ∀ b ∈ r.ptr.buf, m.heap b ≠ none := by
  intro b hb
  obtain ⟨-, -, ⟨-, -, hp⟩ | ⟨c, hp, k, hk, -⟩⟩ := h
  · rw [hp] at hb; simp [Ptr.buf] at hb
  · rw [hp] at hb; simp only [Ptr.buf, List.mem_singleton] at hb
    subst hb; rw [hk]; simp

/-- Copying from one `Vec` to the end of another. -/
theorem copy_rvec {m : Mem} {r o : RVec} {es fs gs : List Nat} {cap d i : Nat} (hr : IsRVec m r es cap) (ho : IsRVec m o fs d)
    (hd : ∀ b ∈ r.ptr.buf, b ∉ o.ptr.buf) (hg : gs = fs.drop i) (hi : i ≤ fs.length) (hl : es.length + gs.length ≤ cap) :
    ∃ m', m.copy o.ptr i r.ptr r.len gs.length = some m' ∧ m'.w = m.w ∧ IsRVec m' { r with len := r.len + gs.length } (es ++ gs) cap ∧
      Frame m m' r.ptr.buf r.ptr.buf := by
  by_cases h0 : gs.length = 0
  · have hgs : gs = [] := List.eq_nil_of_length_eq_zero h0
    refine ⟨m, by simp [Mem.copy, h0], rfl, ?_, .refl _ _⟩
    rw [hgs]
    simpa using hr
  · obtain ⟨hrl, hrc, ⟨hr0, hre, hrp⟩ | ⟨b, hb, hR⟩⟩ := hr
    · omega
    · obtain ⟨hol, hoc, ⟨ho0, hoe, hop⟩ | ⟨c, hc, hO⟩⟩ := ho
      · subst hoe; simp at hg; simp [hg] at h0
      · rw [hb, hc] at hd
        simp only [Ptr.buf, List.mem_singleton, forall_eq] at hd
        have hfl : fs.length ≤ d := by obtain ⟨k, -, -, -, hx, -⟩ := hO; omega
        have hgl : gs.length = fs.length - i := by rw [hg]; simp
        obtain ⟨m', h1, h2, h3, h4, h5⟩ := copy_region (i := i) (j := es.length) (n := gs.length) hO hR (fun e => hd e.symm) (by omega) hl rfl gs
          (Nat.le_refl _) (fun x hx => by
            refine ⟨by omega, ?_⟩
            rw [hg, List.getElem?_drop])
        refine ⟨m', by rw [hb, hc, hrl]; exact h1, h2, ⟨by simp [hrl], hrc, Or.inr ⟨b, hb, h3⟩⟩, ?_⟩
        rw [hb]; exact h5 [b] (by simp)

theorem append_refines {m : Mem} {v u : Vector} {es fs : List Nat} {cap d cap' : Nat} {c c' : Bool} (h : IsVector m v es cap c)
    (h' : IsVector m u fs d c') (hw : m.Wf) (hd : ∀ b ∈ v.begin_.buf, b ∉ u.begin_.buf) (hl : es.length + fs.length ≤ cap') :
    ∃ m' v' u', append m v u cap' = some (m', v', u') ∧ m'.w = m.w ∧ IsVector m' v' (es ++ fs) cap' true ∧ IsVector m' u' [] d true ∧
      Frame m m' (v.begin_.buf ++ u.begin_.buf) (v'.begin_.buf ++ u'.begin_.buf) ∧ (∀ b ∈ v'.begin_.buf, b ∉ u'.begin_.buf) := by
  obtain ⟨m1, a1, a2, a3, a4, a5, a6⟩ := open_vector h
  obtain ⟨h1', hd1⟩ := a4.vector (v := u) (fun b hb hb' => hd b hb' hb) h'
  obtain ⟨m2, b1, b2, b3, b4, b5, b6⟩ := open_vector h1'
  have hdr : ∀ b ∈ (createVecFromRawParts v.begin_ es.length cap).ptr.buf, b ∉ u.begin_.buf := by rw [a6]; exact hd
  obtain ⟨a5', -⟩ := b4.rvec hdr a5
  -- reserve
  have hres : ∃ m3 r3, m2.reserve (createVecFromRawParts v.begin_ es.length cap) cap' = some (m3, r3) ∧ m3.w = m2.w ∧ IsRVec m3 r3 es cap' ∧
      Frame m2 m3 v.begin_.buf r3.ptr.buf := by
    unfold Mem.reserve
    split
    · next hc =>
      rw [a5'.2.1] at hc
      subst hc
      exact ⟨m2, _, rfl, rfl, a5', by rw [a6]; exact .refl _ _⟩
    · obtain ⟨m3, r3, x1, x2, x3, x4⟩ := realloc_refines a5' (b4.2 (a4.2 hw)) (show es.length ≤ cap' by omega)
      rw [a6] at x4
      exact ⟨m3, r3, x1, x2, x3, x4⟩
  obtain ⟨m3, r3, x1, x2, x3, x4⟩ := hres
  have hdo : ∀ b ∈ (createVecFromRawParts u.begin_ fs.length d).ptr.buf, b ∉ v.begin_.buf := by
    rw [b6]; exact fun b hb hb' => hd b hb' hb
  obtain ⟨b5', hd3⟩ := x4.rvec hdo b5
  obtain ⟨m4, y1, y2, y3, y4⟩ := copy_rvec (i := 0) (gs := fs) x3 b5' (fun b hb hb' => hd3 b hb' hb) (by simp) (by simp) hl
  obtain ⟨b5'', hd4⟩ := y4.rvec hd3 b5'
  have hoe : IsRVec m4 { createVecFromRawParts u.begin_ fs.length d with len := 0 } [] d := by
    obtain ⟨z1, z2, z3 | ⟨b, zb, zr⟩⟩ := b5''
    · exact ⟨rfl, z2, Or.inl ⟨z3.1, rfl, z3.2.2⟩⟩
    · exact ⟨rfl, z2, Or.inr ⟨b, zb, by simpa using zr.take 0⟩⟩
  obtain ⟨u', m5, c1, c2, c3, c4, c5, c6⟩ := close_vector hoe
  have hbo : ({ createVecFromRawParts u.begin_ fs.length d with len := 0 } : RVec).ptr.buf = u.begin_.buf := b6
  rw [hbo] at c5 c6
  rw [b6] at hd4
  obtain ⟨y3', -⟩ := c6.rvec (r := { r3 with len := r3.len + fs.length }) (fun b hb hb' => hd4 b hb' hb) y3
  obtain ⟨v', m6, e1, e2, e3, e4, e5, e6⟩ := close_vector y3'
  have e5' : v'.begin_.buf = r3.ptr.buf := e5
  have e6' : Frame m5 m6 r3.ptr.buf r3.ptr.buf := e6
  obtain ⟨c4', -⟩ := e6'.vector (v := u') (by rw [c5]; exact hd4) c4
  refine ⟨m6, v', u', ?_, ?_, e4, c4', ?_, ?_⟩
  · have happ : RVec.append m2 (createVecFromRawParts v.begin_ es.length cap) (createVecFromRawParts u.begin_ fs.length d) cap' =
        some (m4, { r3 with len := r3.len + fs.length }, { createVecFromRawParts u.begin_ fs.length d with len := 0 }) := by
      unfold RVec.append
      rw [if_pos (by rw [a5'.1, b5.1]; exact hl)]
      simp only [x1, Option.bind_eq_bind, Option.bind_some, b5.1, y1]
      rfl
    simp only [append, mutateSelfAsVec, a1, h.len, h.cap, b1, h'.len, h'.cap, happ, c1, c2, e1, e2, Option.bind_eq_bind, Option.bind_some, Option.pure_def]
  · rw [e3, c3, y2, x2, b2, a2]
  · rw [e5', c5]
    have f1 := (a4.trans (.refl _ _)).more u.begin_.buf
    have f2 := (b4.more v.begin_.buf).perm (K := v.begin_.buf ++ u.begin_.buf) (K' := v.begin_.buf ++ u.begin_.buf)
      (by intro b; simp [or_comm]) (by intro b; simp [or_comm])
    have f3 := (x4.trans y4).more u.begin_.buf
    have f4 := (c6.more r3.ptr.buf).perm (K := r3.ptr.buf ++ u.begin_.buf) (K' := r3.ptr.buf ++ u.begin_.buf)
      (by intro b; simp [or_comm]) (by intro b; simp [or_comm])
    have f5 := e6'.more u.begin_.buf
    exact f1.trans (f2.trans (f3.trans (f4.trans f5)))
  · rw [e5', c5]; exact fun b hb hb' => hd4 b hb' hb

theorem splitOff_refines {m : Mem} {v : Vector} {es : List Nat} {cap i : Nat} {c : Bool} (h : IsVector m v es cap c) (hw : m.Wf) (hi : i ≤ es.length) :
    ∃ m' v' u', splitOff m v i = some (m', v', u') ∧ m'.w = m.w ∧ IsVector m' v' (es.take i) cap true ∧
      IsVector m' u' (es.drop i) (es.length - i) true ∧ Frame m m' v.begin_.buf (v'.begin_.buf ++ u'.begin_.buf) ∧
      (∀ b ∈ v'.begin_.buf, b ∉ u'.begin_.buf) := by
  obtain ⟨m1, a1, a2, a3, a4, a5, a6⟩ := open_vector h
  obtain ⟨b1, b2, b3, b4, b5⟩ := alloc_rvec (a4.2 hw) (es.length - i)
  have a5' : IsRVec (m1.alloc (es.length - i)).1 (createVecFromRawParts v.begin_ es.length cap) es cap := by
    obtain ⟨z1, z2, z3 | ⟨b, zb, k, hk, zr⟩⟩ := a5
    · exact ⟨z1, z2, Or.inl z3⟩
    · exact ⟨z1, z2, Or.inr ⟨b, zb, k, by rw [b5 b (by rw [hk]; simp), hk], zr⟩⟩
  have hdis : ∀ b ∈ (m1.alloc (es.length - i)).2.buf, b ∉ (createVecFromRawParts v.begin_ es.length cap).ptr.buf := by
    intro b hb hb'
    exact a5.heap_ne b hb' (b4 b hb)
  obtain ⟨m3, y1, y2, y3, y4⟩ := copy_rvec (i := i) (gs := es.drop i) b1 a5' hdis rfl hi (by simp)
  simp only [List.nil_append, List.length_drop, Nat.zero_add] at y1 y3
  have y4' : Frame (m1.alloc (es.length - i)).1 m3 (m1.alloc (es.length - i)).2.buf (m1.alloc (es.length - i)).2.buf := y4
  obtain ⟨a5'', -⟩ := y4'.rvec (fun b hb hb' => hdis b hb' hb) a5'
  have hr : IsRVec m3 { createVecFromRawParts v.begin_ es.length cap with len := i } (es.take i) cap := by
    obtain ⟨z1, z2, z3 | ⟨b, zb, zr⟩⟩ := a5''
    · refine ⟨by simp; omega, z2, Or.inl ⟨z3.1, by rw [z3.2.1]; simp, z3.2.2⟩⟩
    · exact ⟨by simp; omega, z2, Or.inr ⟨b, zb, zr.take i⟩⟩
  obtain ⟨v', m4, c1, c2, c3, c4, c5, c6⟩ := close_vector hr
  have hbo : ({ createVecFromRawParts v.begin_ es.length cap with len := i } : RVec).ptr.buf = v.begin_.buf := a6
  rw [hbo] at c5 c6
  rw [a6] at hdis
  obtain ⟨y3', -⟩ := c6.rvec hdis y3
  obtain ⟨m5, u', d1, d2, d3, d4, d5⟩ := fromStdVec_refines y3'
  have d4' : u'.begin_.buf = (m1.alloc (es.length - i)).2.buf := d4
  have d5' : Frame m4 m5 (m1.alloc (es.length - i)).2.buf (m1.alloc (es.length - i)).2.buf := d5
  obtain ⟨c4', -⟩ := d5'.vector (v := v') (by rw [c5]; exact fun b hb hb' => hdis b hb' hb) c4
  refine ⟨m5, v', u', ?_, by rw [d2, c3, y2, b2, a2], c4', d3, ?_, ?_⟩
  · have hsp : RVec.splitOff m1 (createVecFromRawParts v.begin_ es.length cap) i =
        some (m3, { createVecFromRawParts v.begin_ es.length cap with len := i }, ⟨(m1.alloc (es.length - i)).2, es.length - i, es.length - i⟩) := by
      unfold RVec.splitOff
      rw [if_pos (by rw [a5.1]; exact hi)]
      simp only [a5.1, y1, Option.bind_eq_bind, Option.bind_some]
      rfl
    simp only [splitOff, mutateSelfAsVec, a1, h.len, h.cap, hsp, c1, c2, d1, Option.bind_eq_bind, Option.bind_some, Option.pure_def]
  · rw [c5, d4']
    have f1 := a4.trans (b3 v.begin_.buf)
    have f2 := y4'.more v.begin_.buf
    have f3 := (c6.more (m1.alloc (es.length - i)).2.buf).perm (K := (m1.alloc (es.length - i)).2.buf ++ v.begin_.buf)
      (K' := (m1.alloc (es.length - i)).2.buf ++ v.begin_.buf) (by intro b; simp [or_comm]) (by intro b; simp [or_comm])
    have f4 := (d5'.more v.begin_.buf)
    exact (f1.trans (f2.trans (f3.trans f4))).perm (by simp) (by intro b; simp [or_comm])
  · rw [c5, d4']; exact fun b hb hb' => hdis b hb' hb

theorem drop_refines {m : Mem} {v : Vector} {es : List Nat} {cap : Nat} {c : Bool} (h : IsVector m v es cap c) :
    ∃ m', drop m v = some m' ∧ m'.w = m.w.dropAll es ∧ Frame m m' v.begin_.buf [] := by
  have h' := h
  rcases h with ⟨rfl, rfl, rfl⟩ | ⟨b, rfl, hr⟩
  · exact ⟨m, rfl, rfl, .refl _ _⟩
  · obtain ⟨m1, a1, a2, a3, a4, a5, a6⟩ := open_vector h'
    have hr1 : Region m1.heap b cap 0 es cap := by
      rcases a3 with ⟨-, -, h⟩ | ⟨b', hb, hr⟩
      · simp at h
      · simp only [Vector.mk.injEq, Ptr.mem.injEq] at hb
        obtain ⟨⟨rfl, -⟩, -⟩ := hb
        simpa using hr
    have hle : es.length ≤ cap := by obtain ⟨k, -, -, -, hl, -⟩ := hr1; omega
    have d1 := dropRange_region hr1 (by omega)
    obtain ⟨m2, e1, e2, e3⟩ := dealloc_region (m := { m1 with w := m1.w.dropAll es }) hr1 [] (by simp)
    refine ⟨m2, ?_, by rw [e2, ← a2], ?_⟩
    · have hcond : ¬ ((⟨.mem b 0, .mem b es.length, .mem b cap⟩ : Vector).begin_ = .null) := by simp
      unfold drop
      rw [if_neg hcond]
      simp only [a1, h'.len, h'.cap, RVec.drop, Option.bind_eq_bind, Option.bind_some, d1, e1]
    · have f1 : Frame m1 { m1 with w := m1.w.dropAll es } [b] [b] := .same _ rfl rfl
      exact a4.trans (f1.trans e3)

theorem intoVec_refines {m : Mem} {v : Vector} {es : List Nat} {cap : Nat} {c : Bool} (h : IsVector m v es cap c) :
    ∃ m', intoVec m v = some (m', es) ∧ m'.w = m.w ∧ Frame m m' v.begin_.buf [] := by
  obtain ⟨m1, a1, a2, a3, a4, a5, a6⟩ := open_vector h
  have hread : m.read v.begin_ 0 es.length = some es := by
    rcases h with ⟨-, rfl, rfl⟩ | ⟨b, rfl, hr⟩
    · rfl
    · have hle : es.length ≤ cap := by obtain ⟨k, -, -, -, hl, -⟩ := hr; omega
      refine read_region hr ?_
      cases c <;> simp <;> omega
  have hset : ∃ m2 v2, setLen m1 v 0 = some (m2, v2) ∧ m2.w = m1.w ∧ IsVector m2 v2 [] cap true ∧ v2.begin_ = v.begin_ ∧ Frame m1 m2 v.begin_.buf v.begin_.buf := by
    rcases a3 with ⟨h1, h2, rfl⟩ | ⟨b, rfl, hr⟩
    · exact ⟨m1, ⟨.null, .null, .null⟩, rfl, rfl, Or.inl ⟨h1, rfl, rfl⟩, rfl, .refl _ _⟩
    · have hr' : Region m1.heap b cap 0 [] cap := by simpa using hr.take 0
      obtain ⟨k, hk, hc, h0, hl, hcell, hp⟩ := hr'
      obtain ⟨m2, h1, h2, h3, h4⟩ := annotate_frame hk hc h0 (i := cap) (j := 0) (Nat.le_refl _) (by omega)
      refine ⟨m2, ⟨.mem b 0, .mem b 0, .mem b cap⟩, ?_, h2, Or.inr ⟨b, rfl, _, h4, hc, h0, hl, hcell, ?_⟩, rfl, h3⟩
      · simp only [setLen, poisonTail, Ptr.add, Option.bind_eq_bind, Option.bind_some, Nat.add_zero, h1, Option.pure_def]
      · intro x hx
        simp only [if_true]
        rw [if_neg (by omega), if_pos (by omega)]
        simp
  obtain ⟨m2, v2, b1, b2, b3, b4, b5⟩ := hset
  obtain ⟨m3, c1, c2, c3⟩ := drop_refines b3
  refine ⟨m3, ?_, by rw [c2, b2, a2]; rfl, ?_⟩
  · simp only [intoVec, h.len, hread, a1, b1, c1, Option.bind_eq_bind, Option.bind_some, Option.pure_def]
  · rw [b4] at c3
    exact a4.trans (b5.trans c3)

theorem cloneLoop_refines {m : Mem} {p q : Ptr} {b c capb capc bound i n : Nat} {es fs : List Nat} (hp : p = .mem b 0) (hq : q = .mem c 0)
    (hr : Region m.heap b capb 0 es bound) (hb : es.length ≤ bound) (hc : Region m.heap c capc 0 fs capc) (hne : b ≠ c)
    (hi : i = fs.length) (hn : i + n = es.length) (hcap : es.length ≤ capc) :
    ∃ m', RVec.cloneLoop m p q i n = some m' ∧ m'.w = m.w.makeN n ∧ Region m'.heap c capc 0 (fs ++ List.range' m.w.next n) capc ∧ Frame m m' [c] [c] := by
  induction n generalizing m i fs with
  | zero => exact ⟨m, rfl, rfl, by simpa using hc, .refl _ _⟩
  | succ n ih =>
    subst hp hq
    have hg := get_region hr (x := i) (by omega) (by omega)
    rw [Nat.zero_add] at hg
    let m1 : Mem := { m with w := { m.w.make with hand := m.w.hand } }
    obtain ⟨m2, s1, s2, s3, -, s4⟩ := set_region (m := m1) (e := m.w.next) hc (x := i) (by omega)
    have s4 := s4 hi
    have hfr : Frame m m2 [c] [c] := (Frame.same (m := m) (m' := m1) [c] rfl rfl).trans s3
    have hr2 := (hfr.region (b := b) (by simpa using hne) hr).1
    obtain ⟨m3, t1, t2, t3, t4⟩ := ih hr2 s4 (i := i + 1) (by simp [hi]) (by omega)
    refine ⟨m3, ?_, ?_, ?_, hfr.trans t4⟩
    · simp only [RVec.cloneLoop, hg, Option.bind_eq_bind, Option.bind_some]
      show (m1.set (.mem c 0) i m.w.next).bind _ = _
      rw [s1]; exact t1
    · rw [t2, s2]; rfl
    · rw [s2] at t3
      have : List.range' m.w.next (n + 1) = m.w.next :: List.range' (m.w.next + 1) n := List.range'_succ
      rw [this]
      have hn : m1.w.next = m.w.next + 1 := rfl
      rw [hn] at t3
      simpa using t3

theorem clone_refines {m : Mem} {v : Vector} {es : List Nat} {cap : Nat} {c : Bool} (h : IsVector m v es cap c) (hw : m.Wf) :
    ∃ m' u, clone m v = some (m', u) ∧ m'.w = m.w.makeN es.length ∧ IsVector m' u (List.range' m.w.next es.length) es.length true ∧
      Frame m m' [] u.begin_.buf := by
  by_cases h0 : es.length = 0
  · have hes : es = [] := List.eq_nil_of_length_eq_zero h0
    subst hes
    have hr : RVec.clone m (createVecFromRawParts v.begin_ 0 cap) = some (m, ⟨.dangling, 0, 0⟩) := by
      have hl : (createVecFromRawParts v.begin_ 0 cap).len = 0 := by unfold createVecFromRawParts; split <;> rfl
      unfold RVec.clone
      rw [hl]
      rfl
    refine ⟨m, ⟨.null, .null, .null⟩, ?_, rfl, Or.inl ⟨rfl, rfl, rfl⟩, .refl _ _⟩
    have := h.len
    simp only [List.length_nil] at this
    simp only [clone, this, h.cap, hr, Option.bind_eq_bind, Option.bind_some]
    rfl
  · rcases h with ⟨-, rfl, -⟩ | ⟨b, rfl, hr⟩
    · simp at h0
    · have hv : IsVector m ⟨.mem b 0, .mem b es.length, .mem b cap⟩ es cap c := Or.inr ⟨b, rfl, hr⟩
      obtain ⟨a1, a2, a3, a4⟩ := alloc_region hw (show 0 < es.length by omega)
      have hlt : b < m.next := by
        obtain ⟨k, hk, -⟩ := hr
        apply Classical.byContradiction
        intro hn
        rw [hw b (by omega)] at hk; simp at hk
      have hr1 := ((a4 []).region (b := b) (by simp) hr).1
      have hle : es.length ≤ cap := by obtain ⟨k, -, -, -, hl, -⟩ := hr; omega
      obtain ⟨m2, b1, b2, b3, b4⟩ := cloneLoop_refines (p := .mem b 0) (q := .mem m.next 0) (i := 0) (n := es.length) rfl rfl hr1
        (by cases c <;> simp <;> omega) a2 (by omega) rfl (by omega) (Nat.le_refl _)
      rw [a3, List.nil_append] at b3
      have hrv : IsRVec m2 ⟨.mem m.next 0, es.length, es.length⟩ (List.range' m.w.next es.length) es.length :=
        ⟨by simp, rfl, Or.inr ⟨_, rfl, b3⟩⟩
      obtain ⟨m3, u, c1, c2, c3, c4, c5⟩ := fromStdVec_refines hrv
      refine ⟨m3, u, ?_, by rw [c2, b2, a3], c3, ?_⟩
      · have hcl : RVec.clone m (createVecFromRawParts (.mem b 0) es.length cap) = some (m2, ⟨.mem m.next 0, es.length, es.length⟩) := by
          simp only [RVec.clone, createVecFromRawParts]
          rw [if_neg (by simp)]
          simp only [a1, b1, Option.bind_eq_bind, Option.bind_some]
          rfl
        simp only [clone, hv.len, hv.cap, hcl, Option.bind_eq_bind, Option.bind_some]
        exact c1
      · rw [c4]
        exact (a4 []).trans (b4.trans c5)

theorem intoIter_refines {m : Mem} {v : Vector} {es : List Nat} {cap : Nat} {c : Bool} (h : IsVector m v es cap c) :
    ∃ m' it, intoIter m v = some (m', it) ∧ m'.w = m.w ∧ IsIter m' it es ∧ Frame m m' v.begin_.buf it.ptr.buf := by
  obtain ⟨m1, a1, a2, a3, a4, a5, a6⟩ := open_vector h
  refine ⟨m1, ⟨(createVecFromRawParts v.begin_ es.length cap).ptr, (createVecFromRawParts v.begin_ es.length cap).cap, 0,
    (createVecFromRawParts v.begin_ es.length cap).len⟩, ?_, a2, ?_, ?_⟩
  · simp only [intoIter, a1, h.len, h.cap, Option.bind_eq_bind, Option.bind_some]
    rfl
  · obtain ⟨z1, z2, z3 | ⟨b, zb, zr⟩⟩ := a5
    · exact ⟨by simp [z1], Or.inl ⟨by simp only; rw [z2]; exact z3.1, z3.2⟩⟩
    · exact ⟨by simp [z1], Or.inr ⟨b, zb, by simp only; rw [z2]; exact zr⟩⟩
  · rw [a6]; exact a4

theorem next_refines {m : Mem} {it : IntoIter} {es : List Nat} (h : IsIter m it es) :
    match es with
    | [] => it.next m = some (m, it, none)
    | e :: es => ∃ it', it.next m = some ({ m with w := { m.w with hand := e :: m.w.hand } }, it', some e) ∧ IsIter m it' es ∧ it'.ptr = it.ptr := by
  obtain ⟨hj, h⟩ := h
  cases es with
  | nil => simp [IntoIter.next, hj]
  | cons e es =>
    rcases h with ⟨-, h, -⟩ | ⟨b, hb, hr⟩
    · simp at h
    · have hle : it.i + (e :: es).length ≤ it.cap := by obtain ⟨k, -, -, -, hl, -⟩ := hr; exact hl
      have hg := get_region hr (x := 0) (by simp) (by simp at hle; omega)
      simp only [Nat.add_zero, List.getElem_cons_zero] at hg
      refine ⟨{ it with i := it.i + 1 }, ?_, ⟨?_, Or.inr ⟨b, hb, ?_⟩⟩, rfl⟩
      · simp only [IntoIter.next]
        rw [if_neg (by simp at hj; omega)]
        simp only [hb, hg, Option.bind_eq_bind, Option.bind_some, Option.pure_def]
      · simp only [List.length_cons] at hj; simp only; omega
      · simpa using hr.drop 1 (by simp)

theorem nextBack_refines {m : Mem} {it : IntoIter} {es : List Nat} (h : IsIter m it es) :
    match es.getLast? with
    | none => it.nextBack m = some (m, it, none)
    | some e => ∃ it', it.nextBack m = some ({ m with w := { m.w with hand := e :: m.w.hand } }, it', some e) ∧ IsIter m it' es.dropLast ∧ it'.ptr = it.ptr := by
  obtain ⟨hj, h⟩ := h
  cases hl : es.getLast? with
  | none =>
    rw [List.getLast?_eq_none_iff] at hl
    subst hl
    simp [IntoIter.nextBack, hj]
  | some e =>
    obtain ⟨h1, h2, h3⟩ := drop_length_append_singleton hl
    rcases h with ⟨-, h, -⟩ | ⟨b, hb, hr⟩
    · simp [h] at h1
    · have hle : it.i + es.length ≤ it.cap := by obtain ⟨k, -, -, -, hl, -⟩ := hr; exact hl
      have hg := get_region hr (x := es.length - 1) (by omega) (by omega)
      have he : es[es.length - 1] = e := by
        have := h2; rw [List.getElem?_eq_getElem (by omega)] at this; simpa using this
      refine ⟨{ it with j := it.j - 1 }, ?_, ⟨?_, Or.inr ⟨b, hb, ?_⟩⟩, rfl⟩
      · simp only [IntoIter.nextBack]
        rw [if_neg (by omega)]
        have : it.j - 1 = it.i + (es.length - 1) := by omega
        simp only [hb, this, hg, he, Option.bind_eq_bind, Option.bind_some, Option.pure_def]
      · simp only [h3, List.length_take]; omega
      · rw [h3]; exact hr.take _

theorem dropIter_refines {m : Mem} {it : IntoIter} {es : List Nat} (h : IsIter m it es) :
    ∃ m', it.drop m = some m' ∧ m'.w = m.w.dropAll es ∧ Frame m m' it.ptr.buf [] := by
  obtain ⟨hj, h⟩ := h
  have hn : it.j - it.i = es.length := by omega
  unfold IntoIter.drop
  rw [hn]
  rcases h with ⟨h0, rfl, hp⟩ | ⟨b, hb, hr⟩
  · refine ⟨m, ?_, rfl, ?_⟩
    · simp [Mem.dropRange, Mem.dealloc, h0]
    · rw [hp]; exact .refl _ _
  · have hle : it.i + es.length ≤ it.cap := by obtain ⟨k, -, -, -, hl, -⟩ := hr; exact hl
    have d1 := dropRange_region hr hle
    obtain ⟨m2, e1, e2, e3⟩ := dealloc_region (m := { m with w := m.w.dropAll es }) hr [] (by simp)
    refine ⟨m2, ?_, by rw [e2], ?_⟩
    · rw [hb, d1]; simpa using e1
    · rw [hb]
      exact (Frame.same (m := m) (m' := { m with w := m.w.dropAll es }) [b] rfl rfl).trans e3

theorem specPrims_append (w : World) (es : List Nat) (cap : Nat) (ps qs : List Prim) :
    specPrims w es cap (ps ++ qs) = (specPrims w es cap ps).bind fun (w, es, cap) => specPrims w es cap qs := by
  induction ps generalizing w es cap with
  | nil => rfl
  | cons p ps ih =>
    simp only [List.cons_append, specPrims, Option.bind_eq_bind]
    cases p.spec w es cap with
    | none => rfl
    | some t => simp [ih]

theorem extend_spec (w : World) (hd es fs : List Nat) (cap : Nat) (h : fs.length + es.length ≤ cap) (hh : w.hand = es ++ hd) :
    specPrims w fs cap (extendPrims es) = some ({ w with hand := hd }, fs ++ es, cap) := by
  induction es generalizing w fs with
  | nil =>
    simp only [extendPrims, List.map_nil, specPrims, List.append_nil]
    simp only [List.nil_append] at hh
    rw [← hh]
  | cons e es ih =>
    simp only [List.length_cons] at h
    have hp : Prim.spec w fs cap (.write e) = some ({ w with hand := es ++ hd }, fs ++ [e], cap) := by
      simp only [Prim.spec]
      rw [if_pos ⟨by rw [hh]; simp, by omega⟩, hh]
      simp
    simp only [extendPrims, List.map_cons, specPrims, hp, Option.bind_eq_bind, Option.bind_some]
    have := ih (w := { w with hand := es ++ hd }) (fs := fs ++ [e]) (by simp; omega) rfl
    simp only [extendPrims] at this
    rw [this]
    simp

theorem fromVec_refines {m : Mem} {es hd : List Nat} {cap : Nat} (hw : m.Wf) (hh : m.w.hand = es ++ hd) (hc : es ≠ [] → es.length ≤ cap) :
    ∃ m' v, fromVec m es cap = some (m', v) ∧ m'.w = { m.w with hand := hd } ∧ IsVector m' v es (if es = [] then 0 else cap) true ∧
      Frame m m' [] v.begin_.buf := by
  have hn : IsVector m .new [] 0 true := Or.inl ⟨rfl, rfl, rfl⟩
  have hs1 : specPrims m.w [] 0 (if es.length = 0 then [] else [.realloc cap]) = some (m.w, [], if es = [] then 0 else cap) := by
    by_cases h : es = []
    · subst h; rfl
    · have : es.length ≠ 0 := fun h' => h (List.eq_nil_of_length_eq_zero h')
      simp [this, h, specPrims, Prim.spec]
  obtain ⟨m1, v1, a1, a2, a3, a4⟩ := mutate_refines hn hw _ hs1
  have hs2 := extend_spec m1.w hd es [] (if es = [] then 0 else cap) (by
    split
    · subst_vars; simp
    · simpa using hc ‹_›) (by rw [a2, hh])
  obtain ⟨m2, v2, b1, b2, b3, b4⟩ := mutate_refines a3 (a4.2 hw) _ hs2
  refine ⟨m2, v2, ?_, by rw [b2, a2], by simpa using b3, ?_⟩
  · simp only [fromVec, a1, b1, Option.bind_eq_bind, Option.bind_some]
  · exact a4.trans b4

theorem take_append (w : World) (es : List Nat) (e : Nat) : w.take (es ++ [e]) = (w.take es).bind fun w => w.take [e] := by
  induction es generalizing w with
  | nil => rfl
  | cons a es ih =>
    simp only [List.cons_append, World.take]
    split
    · exact ih _
    · rfl

theorem writeTail_refines {m : Mem} {v : Vector} {es fs : List Nat} {cap : Nat} {c : Bool} {w' : World} (h : IsVector m v es cap c)
    (ht : m.w.take fs = some w') (hl : es.length + fs.length ≤ cap) :
    ∃ m' v', writeTail m v fs = some (m', v') ∧ m'.w = w' ∧ IsVector m' v' (es ++ fs) cap true ∧ Frame m m' v.begin_.buf v'.begin_.buf := by
  obtain ⟨m1, a1, a2, a3, a4, a5, a6⟩ := open_vector h
  rcases a3 with ⟨h1, h2, rfl⟩ | ⟨b, rfl, hr⟩
  · have : fs = [] := List.eq_nil_of_length_eq_zero (by omega)
    subst this
    simp only [World.take, Option.some.injEq] at ht
    refine ⟨m1, ⟨.null, .null, .null⟩, ?_, by rw [a2, ht], Or.inl ⟨h1, by simp [h2], rfl⟩, a4⟩
    have hl' := h.len
    rw [h2] at hl'
    simp only [List.length_nil] at hl'
    simp only [writeTail, prepareToWriteIntoTail, a1, hl', Option.bind_eq_bind, Option.bind_some]
    rfl
  · have hloop : ∀ fs i (m1 : Mem) (gs : List Nat), es.length + i = gs.length → Region m1.heap b cap 0 gs cap → gs.length + fs.length ≤ cap →
        ∀ w', m1.w.take fs = some w' →
        ∃ m2, (fs.zipIdx i).foldlM (fun m (e, i) =>
          if e ∈ m.w.hand then ({ m with w := { m.w with hand := m.w.hand.erase e } } : Mem).set (.mem b 0) (es.length + i) e else none) m1 = some m2 ∧
          m2.w = w' ∧ Region m2.heap b cap 0 (gs ++ fs) cap ∧ Frame m1 m2 [b] [b] := by
      intro fs
      induction fs with
      | nil =>
        intro i m1 gs hi hr hl w' hw
        simp only [World.take, Option.some.injEq] at hw
        exact ⟨m1, rfl, hw, by simpa using hr, .refl _ _⟩
      | cons e fs ih =>
        intro i m1 gs hi hr hl w' hw
        simp only [World.take] at hw
        split at hw
        · next hmem =>
          simp only [List.length_cons] at hl
          obtain ⟨m2, s1, s2, s3, -, s4⟩ := set_region (m := { m1 with w := { m1.w with hand := m1.w.hand.erase e } }) (e := e) hr
            (x := es.length + i) (by omega)
          have s4 := s4 hi
          obtain ⟨m3, t1, t2, t3, t4⟩ := ih (i + 1) m2 (gs ++ [e]) (by simp; omega) s4 (by simp; omega) w' (by rw [s2]; exact hw)
          refine ⟨m3, ?_, t2, by simpa using t3, ?_⟩
          · simp only [List.zipIdx_cons, List.foldlM_cons]
            rw [if_pos hmem, s1]
            exact t1
          · exact (Frame.same (m := m1) (m' := { m1 with w := { m1.w with hand := m1.w.hand.erase e } }) [b] rfl rfl).trans (s3.trans t4)
        · simp at hw
    obtain ⟨m2, b1, b2, b3, b4⟩ := hloop fs 0 m1 es (by omega) (by simpa using hr) hl w' (by rw [a2]; exact ht)
    obtain ⟨k, hk, hc, h0, hl', hcell, hp⟩ := b3
    obtain ⟨m3, h1, h2, h3, h4⟩ := annotate_frame hk hc h0 (i := cap) (j := es.length + fs.length) (Nat.le_refl _) hl
    refine ⟨m3, ⟨.mem b 0, .mem b (es.length + fs.length), .mem b cap⟩, ?_, by rw [h2, b2], Or.inr ⟨b, by simp, _, h4, hc, h0, hl', hcell, ?_⟩, ?_⟩
    · simp only [writeTail, prepareToWriteIntoTail, a1, h.len, b1, Option.bind_eq_bind, Option.bind_some]
      simp only [setLen, Ptr.add, Option.bind_eq_bind, Option.bind_some, Nat.zero_add, poisonTail, h1, Option.pure_def]
    · intro x hx
      simp only [List.length_append] at *
      simp only [if_true]
      rw [if_neg (by omega)]
      by_cases hx2 : es.length + fs.length ≤ x
      · rw [if_pos ⟨hx2, hx⟩]; simp [hx2]
      · rw [if_neg (by omega), hp x hx]; simp; omega
    · exact a4.trans (b4.trans h3)

theorem cppVec_refines {m : Mem} (hw : m.Wf) {es : List Nat} {cap : Nat} (hl : es.length ≤ cap) :
    ∃ m' v, cppVec m es cap = some (m', v) ∧ m'.w = m.w ∧ IsVector m' v es cap true ∧ Frame m m' [] v.begin_.buf := by
  unfold cppVec
  rw [if_pos hl]
  by_cases h : cap = 0
  · rw [if_pos h]
    exact ⟨m, .new, rfl, rfl, Or.inl ⟨h, List.eq_nil_of_length_eq_zero (by omega), rfl⟩, .refl _ _⟩
  · rw [if_neg h]
    refine ⟨_, _, rfl, rfl, Or.inr ⟨_, rfl, ⟨_, by simp; rfl, rfl, by omega, by omega, ?_, ?_⟩⟩, ⟨fun b => ?_, fun hw b hb => ?_⟩⟩
    · intro x hx; simp
    · intro x hx; simp
    · unfold rest
      simp only [Ptr.buf, List.mem_singleton, List.not_mem_nil, if_false]
      by_cases hb : b = m.next
      · subst hb; simp [hw _ (Nat.le_refl _)]
      · simp [hb]
    · simp only at hb
      have : b ≠ m.next := by omega
      simp only [this, if_false]
      exact hw b (by omega)

theorem asSlice_refines {m : Mem} {v : Vector} {es : List Nat} {cap : Nat} {c : Bool} (h : IsVector m v es cap c) :
    asSlice m v = some es ∧ deref m v = some es := by
  have hl := h.len
  rcases h with ⟨-, rfl, rfl⟩ | ⟨b, rfl, hr⟩
  · exact ⟨rfl, rfl⟩
  · have hle : es.length ≤ cap := by obtain ⟨k, -, -, -, hl, -⟩ := hr; omega
    have hread : m.read (.mem b 0) 0 es.length = some es := read_region hr (by cases c <;> simp <;> omega)
    constructor
    · simp [asSlice, hl, hread]
    · simp only [deref, hl, Option.bind_eq_bind, Option.bind_some]
      split
      · next h => rw [List.eq_nil_of_length_eq_zero h]; rfl
      · exact hread

end Verif.Vector

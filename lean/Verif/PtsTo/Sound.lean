import Verif.PtsTo.Abs
/-
The points-to sets describe memory: every pointer in memory is described by an object in the points-to set of what holds it,
as long as the constraints generated so far are satisfied.
-/
namespace Verif.PtsTo
open Verif.Lifetimes

variable {Reg : Type} [CompleteLattice Reg]

/-- The objects that stand for memory whose type the caller knows. -/
def Typed (f : Fn) (o : Obj) : Prop :=
  match o.root with
  | .ret => 1 ≤ o.k ∧ o.k ≤ f.retTy.depth
  | .lit => True
  | .var v => o.k ≤ (f.vars v).ty.depth ∧
      (((f.vars v).kind = .param ∧ 1 ≤ o.k) ∨ ((f.vars v).kind = .stat ∧ (1 ≤ o.k ∨ (f.vars v).ty = .int)))

/-- `ρ` interprets the lifetimes. -/
structure RhoOk (f : Fn) (lt : Lts) (ρ : Lifetime → Reg) : Prop where
  stat : ρ .static = ⊤
  loc : ∀ l : Lifetime, l.isLocal = true → ρ l = ⊥
  typed : ∀ o, Typed f o → ρ (lt o) ≠ ⊥

def Sat (ρ : Lifetime → Reg) (cs : Constraints) : Prop := ∀ x ∈ cs, ρ x.1 ≤ ρ x.2

theorem Sat.anti {ρ : Lifetime → Reg} {cs cs' : Constraints} (h : Sat ρ cs') (hs : ∀ x ∈ cs, x ∈ cs') : Sat ρ cs := fun x hx => h x (hs x hx)

/-- The type of an object, with regions. -/
def rty (f : Fn) (lt : Lts) (ρ : Lifetime → Reg) (o : Obj) : RTy Reg := regions (fun k => ρ (lt ⟨o.root, k⟩)) (oty f o) o.k

theorem rty_ptr {f : Fn} {lt : Lts} {ρ : Lifetime → Reg} {o : Obj} {c : Bool} {t : Ty} (h : oty f o = .ptr c t) :
    rty f lt ρ o = .ptr c (ρ (lt o.next)) (rty f lt ρ o.next) := by
  unfold rty
  rw [oty_next f o h, h]
  rfl

theorem rty_int {f : Fn} {lt : Lts} {ρ : Lifetime → Reg} {o : Obj} (h : oty f o = .int) : rty f lt ρ o = .int := by
  unfold rty; rw [h]; rfl

theorem peel_depth : ∀ (t : Ty) (k : Nat), (peel t k).depth = t.depth - k
  | t, 0 => by cases t <;> rfl
  | .int, k + 1 => by simp [peel, Ty.depth]
  | .ptr _ t, k + 1 => by simp [peel, Ty.depth, peel_depth t k]

theorem typed_next {f : Fn} (hf : FnOk f) {lt : Lts} {s : St} (hs : AInv f lt s) {o : Obj} (h : Typed f o) {c : Bool} {t : Ty}
    (ht : oty f o = .ptr c t) : o.next ∈ s.pt.get o ∧ Typed f o.next := by
  have hd : 1 ≤ (rootTy f o.root).depth - o.k := by
    rw [← peel_depth]
    show 1 ≤ (oty f o).depth
    rw [ht]; simp [Ty.depth]
  obtain ⟨r, k⟩ := o
  cases r with
  | ret =>
    refine ⟨hs.next _ c t trivial ht, ?_⟩
    simp only [Typed, rootTy, Obj.next] at *
    omega
  | lit => simp [rootTy, Ty.depth] at hd
  | var v =>
    have hr : v < f.numVars := by
      by_contra hn
      have := hf.inRange v (by omega)
      simp only [Typed, this] at h
      simp at h
    have hk : 1 ≤ k := by
      simp only [Typed] at h
      rcases h.2 with h | h
      · exact h.2
      · rcases h.2 with h | h
        · exact h
        · exfalso
          simp [rootTy, h, Ty.depth] at hd
    refine ⟨hs.next _ c t ⟨hk, hr⟩ ht, ?_⟩
    simp only [Typed, rootTy, Obj.next] at *
    refine ⟨by omega, ?_⟩
    rcases h.2 with h | h
    · exact Or.inl ⟨h.1, by omega⟩
    · exact Or.inr ⟨h.1, Or.inl (by omega)⟩

section
variable (f : Fn) (lt : Lts) (W : World Reg) (ρ : Lifetime → Reg)

/-- Object `o` stands for place `l`, used as an lvalue of type `t`, const if `c`. -/
def Rv (c : Bool) (t : Ty) (l : Loc) (o : Obj) : Prop :=
  convc c (oty f o) t ∧
  ((∃ v i, l = .var v i ∧ o = ⟨.var v, 0⟩ ∧ (f.vars v).kind ≠ .stat ∧ (f.vars v).isRef = false ∧ (i = 0 ∨ (f.vars v).isArr = true)) ∨
   (Typed f o ∧ ρ (lt o) ≤ ext f.vars W l ∧ ∃ T, hty f.vars W l = some T ∧ subc c T (rty f lt ρ o)))

/-- The same, for lvalues: these can be static variables of pointer type. -/
def Lv (b c : Bool) (t : Ty) (l : Loc) (o : Obj) : Prop :=
  Rv f lt W ρ c t l o ∨
  (b = true ∧ convc c (oty f o) t ∧ ∃ v, l = .var v 0 ∧ o = ⟨.var v, 0⟩ ∧ (f.vars v).kind = .stat ∧ (f.vars v).isRef = false)

/-- Memory is described by the state. -/
structure MInv (s : St) (m : Mem) : Prop where
  vars : ∀ v i c t l, (f.vars v).ty = .ptr c t → (i = 0 ∨ (f.vars v).isArr = true) → m (.var v i) = some l →
    ∃ o ∈ s.pt.get ⟨.var v, 0⟩, Rv f lt W ρ c t l o
  cells : ∀ n, Fits f.vars W (m (.cell n)) (W.hty n)

/-- The value of an expression is described by its objects. -/
def VOk (b : Bool) : Cat → Option Loc → List Obj → Prop
  | .gl c t, x, os => ∀ l, x = some l → ∃ o ∈ os, Lv f lt W ρ b c t l o
  | .pr .int, _, _ => True
  | .pr (.ptr c t), x, os => ∀ l, x = some l → ∃ o ∈ os, Rv f lt W ρ c t l o
end

section
variable {f : Fn} {lt : Lts} {W : World Reg} {ρ : Lifetime → Reg}

theorem ext_near {a b : Loc} (h : Near f.vars W.arr a b) : ext f.vars W a = ext f.vars W b ∧ hty f.vars W a = hty f.vars W b := by
  cases h with
  | refl => exact ⟨rfl, rfl⟩
  | var _ => exact ⟨rfl, rfl⟩
  | @cell i j h =>
    obtain ⟨h1, h2⟩ := W.arrOk i j h
    exact ⟨h1, by simp [hty, h2]⟩

theorem Rv.near {c : Bool} {t : Ty} {a b : Loc} {o : Obj} (h : Rv f lt W ρ c t a o) (hn : Near f.vars W.arr a b) : Rv f lt W ρ c t b o := by
  refine ⟨h.1, ?_⟩
  rcases h.2 with ⟨v, i, rfl, h1, h2, h3, h4⟩ | h
  · left
    cases hn with
    | refl => exact ⟨v, i, rfl, h1, h2, h3, h4⟩
    | @var _ _ j ha => exact ⟨v, j, rfl, h1, h2, h3, Or.inr ha⟩
  · right
    rw [← (ext_near hn).1, ← (ext_near hn).2]
    exact h

theorem Fits.near {a b : Loc} {T : RTy Reg} (h : Fits f.vars W (some a) T) (hn : Near f.vars W.arr a b) : Fits f.vars W (some b) T := by
  cases T with
  | int => trivial
  | ptr c r t =>
    intro l hl
    cases hl
    rw [← (ext_near hn).1, ← (ext_near hn).2]
    exact h a rfl

theorem Rv.weaken {c c' : Bool} {t t' : Ty} {l : Loc} {o : Obj} (h : Rv f lt W ρ c t l o) (hc : c = true → c' = true) (ht : convc c' t t') :
    Rv f lt W ρ c' t' l o := by
  refine ⟨convc_trans h.1 hc ht, ?_⟩
  rcases h.2 with h | ⟨h1, h2, T, h3, h4⟩
  · exact Or.inl h
  · exact Or.inr ⟨h1, h2, T, h3, subc_weaken h4 hc⟩

theorem Lv.weaken {b c c' : Bool} {t t' : Ty} {l : Loc} {o : Obj} (h : Lv f lt W ρ b c t l o) (hc : c = true → c' = true) (ht : convc c' t t') :
    Lv f lt W ρ b c' t' l o := by
  rcases h with h | ⟨h1, h2, h3⟩
  · exact Or.inl (h.weaken hc ht)
  · exact Or.inr ⟨h1, convc_trans h2 hc ht, h3⟩

theorem Lv.mono {b b' c : Bool} {t : Ty} {l : Loc} {o : Obj} (h : Lv f lt W ρ b c t l o) (hb : b = true → b' = true) : Lv f lt W ρ b' c t l o := by
  rcases h with h | ⟨h1, h2⟩
  · exact Or.inl h
  · exact Or.inr ⟨hb h1, h2⟩

theorem Lv.rv {c : Bool} {t : Ty} {l : Loc} {o : Obj} (h : Lv f lt W ρ false c t l o) : Rv f lt W ρ c t l o := by
  rcases h with h | ⟨h1, _⟩
  · exact h
  · cases h1

theorem MInv.mono {s s' : St} {m : Mem} (h : MInv f lt W ρ s m) (hs : ∀ o, ∀ x ∈ s.pt.get o, x ∈ s'.pt.get o) : MInv f lt W ρ s' m where
  vars v i c t l h1 h2 h3 := by
    obtain ⟨o, ho, hr⟩ := h.vars v i c t l h1 h2 h3
    exact ⟨o, hs _ o ho, hr⟩
  cells := h.cells

/-- Reading a pointer. -/
theorem MInv.read (hf : FnOk f) {s : St} {m : Mem} (hs : AInv f lt s) (h : MInv f lt W ρ s m) {b c ct : Bool} {t : Ty} {l l' : Loc} {o : Obj}
    (hl : Lv f lt W ρ b c (.ptr ct t) l o) (hm : m l = some l') : ∃ q ∈ s.pt.get o, Rv f lt W ρ ct t l' q := by
  have hvar : ∀ v i, l = .var v i → o = ⟨.var v, 0⟩ → (i = 0 ∨ (f.vars v).isArr = true) → convc c (oty f o) (.ptr ct t) →
      ∃ q ∈ s.pt.get o, Rv f lt W ρ ct t l' q := by
    rintro v i rfl rfl hi hc
    cases ht : (f.vars v).ty with
    | int =>
      have hd := convc_depth hc
      simp [oty, rootTy, peel, ht, Ty.depth] at hd
    | ptr cv tv =>
      obtain ⟨q, hq, hr⟩ := h.vars v i cv tv l' ht hi hm
      have hc' : convc c (.ptr cv tv) (.ptr ct t) := by simpa [oty, rootTy, peel, ht] using hc
      obtain ⟨h1, h2⟩ := convc_ptr hc'
      exact ⟨q, hq, hr.weaken h1 h2⟩
  rcases hl with ⟨hc, ⟨v, i, h1, h2, _, _, h3⟩ | ⟨hT, hle, T, hT1, hT2⟩⟩ | ⟨_, hc, v, h1, h2, _⟩
  · exact hvar v i h1 h2 h3 hc
  · cases ho : oty f o with
    | int =>
      have hd := convc_depth hc
      rw [ho] at hd
      simp [Ty.depth] at hd
    | ptr co t0 =>
      obtain ⟨hn1, hn2⟩ := typed_next hf hs hT ho
      rw [rty_ptr ho] at hT2
      rw [ho] at hc
      obtain ⟨hc1, hc2⟩ := convc_ptr hc
      -- `l` is a cell
      cases T with
      | int => unfold subc at hT2; split at hT2 <;> simp [sub] at hT2
      | ptr cT rT T' =>
        cases l with
        | lit => simp [hty] at hT1
        | var v i => simp only [hty] at hT1; split at hT1 <;> simp at hT1
        | cell n =>
          simp only [hty, Option.some.injEq] at hT1
          have hfit := h.cells n
          rw [hT1] at hfit
          obtain ⟨e1, T2, e2, e3⟩ := hfit l' hm
          obtain ⟨s1, s2, s3⟩ := subc_ptr hT2
          refine ⟨o.next, hn1, ?_, Or.inr ⟨hn2, s1.trans e1, T2, e2, ?_⟩⟩
          · rw [oty_next f o ho]; exact hc2
          · exact subc_weaken (subc_trans e3 s2 s3) hc1
  · exact hvar v 0 h1 h2 (Or.inl rfl) hc

/-- Incrementing a pointer. -/
theorem MInv.step {s : St} {m : Mem} (h : MInv f lt W ρ s m) {l a b : Loc} (hm : m l = some a) (hn : Near f.vars W.arr a b) :
    MInv f lt W ρ s (m.write l (some b)) where
  vars v i c t l' h1 h2 h3 := by
    unfold Mem.write at h3
    split at h3
    · next e =>
      cases h3
      obtain ⟨o, ho, hr⟩ := h.vars v i c t a h1 h2 (e ▸ hm)
      exact ⟨o, ho, hr.near hn⟩
    · exact h.vars v i c t l' h1 h2 h3
  cells n := by
    unfold Mem.write
    split
    · next e =>
      have := h.cells n
      rw [e, hm] at this
      exact this.near hn
    · exact h.cells n

/-- The types with regions of a pointee that replaces another. -/
theorem gen_sub (hf : FnOk f) {s : St} (hs : AInv f lt s) {cs : Constraints} (hsat : Sat ρ cs) : ∀ (t : Ty) (a q : Obj) (c : Bool) (ps qs : List Obj),
    oty f a = t → t.Regular → (c = false → ∀ t', t = .ptr true t' → t' = .int) → convc c (oty f q) t → Typed f a → Typed f q →
    a ∈ ps → q ∈ qs → GenOk lt s.pt cs t ps (s.pt.getAll qs) (!c) → subc c (rty f lt ρ q) (rty f lt ρ a)
  | .int, a, q, c, ps, qs, ha, _, _, hc, _, _, _, _, _ => by
    have hq : oty f q = .int := by
      have hd := convc_depth hc
      cases h : oty f q with
      | int => rfl
      | ptr => rw [h] at hd; simp [Ty.depth] at hd
    rw [rty_int ha, rty_int hq]
    exact subc_refl _ _
  | .ptr c1 t1, a, q, c, ps, qs, ha, hreg, hreg', hc, hTa, hTq, hap, hqp, hg => by
    cases hq : oty f q with
    | int =>
      have hd := convc_depth hc
      rw [hq] at hd; simp [Ty.depth] at hd
    | ptr c1' t1' =>
      rw [hq] at hc
      obtain ⟨hc1, hc2⟩ := convc_ptr hc
      obtain ⟨na, nTa⟩ := typed_next hf hs hTa ha
      obtain ⟨nq, nTq⟩ := typed_next hf hs hTq hq
      have ma : a.next ∈ s.pt.getAll ps := (s.pt.mem_getAll _ _).mpr ⟨a, hap, na⟩
      have mq : q.next ∈ s.pt.getAll qs := (s.pt.mem_getAll _ _).mpr ⟨q, hqp, nq⟩
      obtain ⟨g1, g2⟩ := hg
      have hle := hsat _ (g1 _ ma _ mq).1
      have ih := gen_sub hf hs hsat t1 a.next q.next c1 _ _ (oty_next f a ha) hreg.1 hreg.2 (by rw [oty_next f q hq]; exact hc2) nTa nTq ma mq g2
      rw [rty_ptr ha, rty_ptr hq]
      cases c with
      | true => exact ⟨hle, hc1, ih⟩
      | false =>
        have hge := hsat _ ((g1 _ ma _ mq).2 rfl)
        have he : c1' = c1 ∧ t1' = t1 := by
          simp only [convc, Bool.false_eq_true, if_false] at hc
          cases hc; exact ⟨rfl, rfl⟩
        show RTy.ptr _ _ _ = RTy.ptr _ _ _
        rw [he.1, le_antisymm hge hle]
        congr 1
        cases c1 with
        | false => exact ih
        | true =>
          have h1 : t1 = .int := hreg' rfl t1 rfl
          rw [rty_int (by rw [oty_next f q hq, he.2, h1]), rty_int (by rw [oty_next f a ha, h1])]

/-- What constraints say about a pointer that is stored in, or returned as, something of known type. -/
theorem fits_of_gen (hf : FnOk f) (hρ : RhoOk f lt ρ) (hlt : LtsOk f lt) {s : St} (hs : AInv f lt s) {cs : Constraints} (hsat : Sat ρ cs)
    {o q : Obj} {c : Bool} {t : Ty} {l : Loc} {ps ns : List Obj} (ho : oty f o = .ptr c t) (hreg : (Ty.ptr c t).Regular)
    (hn : o.next ∈ s.pt.get o) (hT : Typed f o.next) (hop : o ∈ ps) (hq : q ∈ ns) (hr : Rv f lt W ρ c t l q)
    (hg : GenOk lt s.pt cs (.ptr c t) ps ns false) : Fits f.vars W (some l) (rty f lt ρ o) := by
  rw [rty_ptr ho]
  intro l' hl'
  cases hl'
  have mo : o.next ∈ s.pt.getAll ps := (s.pt.mem_getAll _ _).mpr ⟨o, hop, hn⟩
  obtain ⟨g1, g2⟩ := hg
  have hle := hsat _ (g1 _ mo _ hq).1
  obtain ⟨hc, ⟨v, i, -, rfl, hk, -⟩ | ⟨hTq, he, T, hT1, hT2⟩⟩ := hr
  · exfalso
    simp only [hρ.loc _ (hlt.loc v hk)] at hle
    exact hρ.typed _ hT (le_bot_iff.mp hle)
  · refine ⟨hle.trans he, T, hT1, ?_⟩
    refine subc_trans hT2 id (gen_sub hf hs hsat t o.next q c _ _ (oty_next f o ho) hreg.1 hreg.2 ?_ hT hTq mo hq g2)
    exact hc

/-- Overwriting a variable. -/
theorem MInv.set {s : St} {m : Mem} (h : MInv f lt W ρ s m) {v : Nat} {x : Option Loc} {c : Bool} {t : Ty} {os : List Obj}
    (ht : (f.vars v).ty = .ptr c t) (ha : (f.vars v).isArr = false) (hx : ∀ l, x = some l → ∃ o ∈ os, Rv f lt W ρ c t l o) :
    MInv f lt W ρ { s with pt := s.pt.set ⟨.var v, 0⟩ os } (m.write (.var v 0) x) where
  vars u i c' t' l' h1 h2 h3 := by
    simp only [Pts.get_set]
    by_cases e : v = u
    · subst e
      rw [if_pos rfl]
      rw [ht] at h1
      cases h1
      have hi : i = 0 := by simpa [ha] using h2
      subst hi
      simp only [Mem.write, if_true] at h3
      exact hx l' h3
    · rw [if_neg (by simpa using e)]
      have : m (.var u i) = some l' := by
        rw [← h3]
        unfold Mem.write
        rw [if_neg]
        simp [Ne.symm e]
      exact h.vars u i c' t' l' h1 h2 this
  cells n := by
    unfold Mem.write
    rw [if_neg (by simp)]
    exact h.cells n

theorem sub_int_ptr {c k : Bool} {r : Reg} {T : RTy Reg} : ¬ subc k (.int : RTy Reg) (.ptr c r T) := by
  unfold subc; split <;> simp [sub]

/-- Writing through an lvalue, when the set of the pointer is extended. -/
theorem MInv.weak (hf : FnOk f) (hρ : RhoOk f lt ρ) (hlt : LtsOk f lt) {s : St} (hs : AInv f lt s) {m : Mem} (h : MInv f lt W ρ s m)
    {b c : Bool} {t : Ty} {l : Loc} {x : Option Loc} {lhs rhs : List Obj} (hd : ∀ p ∈ lhs, (oty f p).depth = (Ty.ptr c t).depth)
    (hl : ∃ o ∈ lhs, Lv f lt W ρ b false (.ptr c t) l o) (hx : ∀ l, x = some l → ∃ o ∈ rhs, Rv f lt W ρ c t l o)
    (hsat : Sat ρ (extendSets lt (.ptr c t) lhs rhs s).cs) :
    MInv f lt W ρ (extendSets lt (.ptr c t) lhs rhs s) (m.write l x) := by
  have hget : ∀ o y, y ∈ (extendSets lt (.ptr c t) lhs rhs s).pt.get o ↔ y ∈ s.pt.get o ∨ (o ∈ lhs ∧ y ∈ rhs) :=
    fun o y => Pts.mem_extendAll rhs o y lhs s.pt
  have hgen : GenOk lt s.pt (extendSets lt (.ptr c t) lhs rhs s).cs (.ptr c t) lhs rhs false := (genAssign_spec lt hs.deep rhs s.cs hd).2
  obtain ⟨o, ho, hl⟩ := hl
  have hconv : oty f o = .ptr c t := by
    rcases hl with h | h
    · simpa [convc] using h.1
    · simpa [convc] using h.2.1
  refine ⟨fun u i c' t' l' h1 h2 h3 => ?_, fun n => ?_⟩
  · unfold Mem.write at h3
    split at h3
    · next e =>
      -- the variable has been written
      obtain ⟨q, hq, hr⟩ := hx l' h3
      have : o = ⟨.var u, 0⟩ := by
        rcases hl with ⟨_, ⟨v, j, rfl, hov, _⟩ | ⟨_, _, T, hT, hT'⟩⟩ | ⟨_, _, v, rfl, hov, _⟩
        · cases e; exact hov
        · exfalso
          rw [← e] at hT
          simp only [hty] at hT
          split at hT
          · cases hT; rw [rty_ptr hconv] at hT'; exact sub_int_ptr hT'
          · cases hT
        · cases e; exact hov
      subst this
      have he : (f.vars u).ty = .ptr c t := by simpa [oty, rootTy, peel] using hconv
      rw [he] at h1
      cases h1
      exact ⟨q, (hget _ _).mpr (Or.inr ⟨ho, hq⟩), hr⟩
    · obtain ⟨q, hq, hr⟩ := h.vars u i c' t' l' h1 h2 h3
      exact ⟨q, (hget _ _).mpr (Or.inl hq), hr⟩
  · unfold Mem.write
    split
    · next e =>
      subst e
      rcases hl with ⟨_, ⟨v, j, h1, _⟩ | ⟨hT, _, T, hT1, hT2⟩⟩ | ⟨_, _, v, h1, _⟩
      · cases h1
      · simp only [hty, Option.some.injEq] at hT1
        simp only [subc, Bool.false_eq_true, if_false] at hT2
        rw [hT1, hT2]
        cases x with
        | none => rw [rty_ptr hconv]; intro l hl; cases hl
        | some l =>
          obtain ⟨q, hq, hr⟩ := hx l rfl
          obtain ⟨n1, n2⟩ := typed_next hf hs hT hconv
          refine fits_of_gen hf hρ hlt hs hsat hconv ?_ n1 n2 ho hq hr hgen
          rw [← hconv]
          refine peel_regular _ _ ?_
          cases o.root with
          | var v => exact hf.regular v
          | ret => exact hf.retRegular
          | lit => trivial
      · cases h1
    · exact h.cells n
end

end Verif.PtsTo

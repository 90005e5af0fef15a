import Verif.CcLayout.Spec
/-
C59: structs.
-/
namespace Verif.CcLayout

theorem up_one (n : Nat) : up n 1 = n := by simp [up]

theorem up_dvd {n a : Nat} (h : a ∣ n) : up n a = n := by
  unfold up
  rcases Nat.eq_zero_or_pos a with rfl | ha
  · simp at h ⊢; exact h.symm
  · obtain ⟨k, rfl⟩ := h
    have : (a * k + a - 1) / a = k := by
      rw [show a * k + a - 1 = a - 1 + k * a by rw [Nat.mul_comm k a]; omega, Nat.add_mul_div_right _ _ ha, Nat.div_eq_of_lt (by omega), Nat.zero_add]
    rw [this, Nat.mul_comm]

theorem up_le (n a : Nat) (ha : 0 < a) : n ≤ up n a := by
  unfold up
  have := Nat.div_add_mod (n + a - 1) a
  have h2 := Nat.mod_lt (n + a - 1) ha
  have h3 : a * ((n + a - 1) / a) = (n + a - 1) / a * a := Nat.mul_comm _ _
  omega

theorem up_mod (n : Nat) {a : Nat} : a ∣ up n a := Nat.dvd_mul_left ..

theorem place_append (a b : List Mem) : ∀ pos, place pos (a ++ b) = ((place pos a).1 ++ (place (place pos a).2 b).1, (place (place pos a).2 b).2) := by
  induction a with
  | nil => intro pos; rfl
  | cons m a ih => intro pos; simp only [List.cons_append, place, ih]

/-! Sorting -/

theorem keyLe_total (f g : RField) : keyLe f g = true ∨ keyLe g f = true := by
  unfold keyLe; simp only [decide_eq_true_eq]; omega

theorem keyLe_trans {f g h : RField} (h1 : keyLe f g = true) (h2 : keyLe g h = true) : keyLe f h = true := by
  unfold keyLe at *; simp only [decide_eq_true_eq] at *; omega

theorem insert_perm (f : RField) (l : List RField) : (insert f l).Perm (f :: l) := by
  induction l with
  | nil => exact List.Perm.refl _
  | cons g l ih =>
    unfold insert; split
    · exact List.Perm.refl _
    · exact (List.Perm.cons g ih).trans (List.Perm.swap f g l)

theorem sort_perm (l : List RField) : (sort l).Perm l := by
  induction l with
  | nil => exact List.Perm.refl _
  | cons f l ih => exact (insert_perm f _).trans (List.Perm.cons f ih)

theorem insert_sorted {f : RField} : ∀ {l : List RField}, l.Pairwise (fun a b => keyLe a b = true) → (insert f l).Pairwise fun a b => keyLe a b = true := by
  intro l
  induction l with
  | nil => intro _; simp [insert]
  | cons g l ih =>
    intro h
    obtain ⟨h1, h2⟩ := List.pairwise_cons.mp h
    unfold insert; split
    · rename_i hfg
      refine List.pairwise_cons.mpr ⟨fun x hx => ?_, h⟩
      rcases List.mem_cons.mp hx with rfl | hx
      · exact hfg
      · exact keyLe_trans hfg (h1 x hx)
    · rename_i hfg
      refine List.pairwise_cons.mpr ⟨fun x hx => ?_, ih h2⟩
      rcases List.mem_cons.mp ((insert_perm f l).mem_iff.mp hx) with rfl | hx
      · exact (keyLe_total x g).resolve_left hfg
      · exact h1 x hx

theorem sort_sorted (l : List RField) : (sort l).Pairwise fun a b => keyLe a b = true := by
  induction l with
  | nil => simp [sort]
  | cons f l ih => exact insert_sorted ih

theorem sort_eq {l : List RField} (h : l.Pairwise fun a b => keyLe a b = true) : sort l = l := by
  induction l with
  | nil => rfl
  | cons f l ih =>
    obtain ⟨h1, h2⟩ := List.pairwise_cons.mp h
    unfold sort; rw [ih h2]
    cases l with
    | nil => rfl
    | cons g l => unfold insert; rw [if_pos (h1 g (by simp))]

/-- `packed` -/
def adj (pk : Bool) (m : Mem) : Mem := if pk then { m with align := 1 } else m

theorem members_eq (c : CClass) : c.members = c.mems.map (adj c.packed) := by
  unfold CClass.members adj
  cases c.packed <;> simp

/-- All members of the list. -/
def gen (noPad : Bool) (size : Nat) (l : List RField) : Option (List Mem) :=
  ((withNext size l).mapM fun x => emitStruct noPad x.1 x.2).map List.flatten

def nextOf (size : Nat) (l : List RField) : Nat := match l with
  | [] => size
  | g :: _ => g.offset

theorem withNext_cons (size : Nat) (f : RField) (l : List RField) : withNext size (f :: l) = (f, nextOf size l) :: withNext size l := by
  cases l <;> rfl

theorem gen_cons {noPad : Bool} {size : Nat} {f : RField} {l : List RField} {a b : List Mem} (h1 : emitStruct noPad f (nextOf size l) = some a)
    (h2 : gen noPad size l = some b) : gen noPad size (f :: l) = some (a ++ b) := by
  unfold gen at h2 ⊢
  obtain ⟨x, hx, rfl⟩ := Option.map_eq_some_iff.mp h2
  rw [withNext_cons, List.mapM_cons, h1, hx]
  rfl

theorem adj_padding (pk : Bool) (n : Nat) (f : Option RField) : adj pk ⟨f, n, 1⟩ = ⟨f, n, 1⟩ := by cases pk <;> rfl

theorem natural_append (a b : List Mem) : natural (a ++ b) = max (natural a) (natural b) := by
  have hb : ∀ l : List Mem, 1 ≤ natural l := by
    intro l
    induction l with
    | nil => simp [natural]
    | cons m l ih => simp only [natural, List.foldr_cons] at ih ⊢; omega
  induction a with
  | nil => have := hb b; simp only [List.nil_append, natural, List.foldr_nil] at this ⊢; omega
  | cons m a ih => simp only [natural, List.cons_append, List.foldr_cons] at ih ⊢; rw [ih]; omega

theorem natural_le {n : Nat} (hn : 1 ≤ n) : ∀ {l : List Mem}, (∀ m ∈ l, m.align ≤ n) → natural l ≤ n := by
  intro l
  induction l with
  | nil => intro _; exact hn
  | cons m l ih =>
    intro h
    have := ih fun x hx => h x (by simp [hx])
    have := h m (by simp)
    simp only [natural, List.foldr_cons] at *; omega

/-- What is used of each field. -/
structure FOk (pk : Bool) (align : Nat) (f : RField) : Prop where
  known : f.known = true → 0 < f.size ∧ 0 < f.align ∧ (pk = false → f.align ≤ align ∧ f.align ∣ f.offset)

/-- Neighbours in memory. -/
structure FNext (f : RField) (next : Nat) : Prop where
  le : f.offset ≤ next
  known : f.known = true → f.offset + f.size ≤ next

theorem gen_spec (pk : Bool) (size align : Nat) (hal : 1 ≤ align) : ∀ (l : List RField), (∀ f ∈ l, FOk pk align f) →
    (∀ x ∈ withNext size l, FNext x.1 x.2) →
    ∃ ms, gen false size l = some ms ∧ (∀ m ∈ ms.map (adj pk), m.align ≤ align) ∧
      let p := place (nextOf size l) (ms.map (adj pk))
      p.2 = size ∧
      (∀ f ∈ l, f.known = true → ∃ m, (m, f.offset) ∈ p.1 ∧ m.field = some f ∧ m.size = f.size) ∧
      (∀ x ∈ p.1, ∀ f, x.1.field = some f → f ∈ l ∧ x.2 = f.offset) ∧
      (∀ pre f post, l = pre ++ f :: post → ∀ b, f.offset ≤ b → b < size → (∀ g ∈ f :: post, g.offset ≤ b → g.known = false) →
        ∃ x ∈ p.1, (∃ g, x.1.field = some g ∧ g.known = false) ∧ x.2 ≤ b ∧ b < x.2 + x.1.size) := by
  intro l
  induction l with
  | nil => intro _ _; exact ⟨[], rfl, by simp, rfl, by simp, by simp [place], by intro pre f post h; simp at h⟩
  | cons f l ih =>
    intro hok hn
    rw [withNext_cons] at hn
    have hf := hok f (by simp)
    obtain ⟨n1, n2⟩ := hn (f, nextOf size l) (by simp)
    obtain ⟨ms, e1, e2, e3, e4, e5, e6⟩ := ih (fun g hg => hok g (by simp [hg])) (fun x hx => hn x (by simp [hx]))
    simp only at n1 n2
    -- the chunk of `f`
    obtain ⟨a, a1, a2, a3, a4, a5, a6⟩ : ∃ a, emitStruct false f (nextOf size l) = some a ∧ (∀ m ∈ a.map (adj pk), m.align ≤ align) ∧
        (place f.offset (a.map (adj pk))).2 = nextOf size l ∧
        (f.known = true → ∃ m, (m, f.offset) ∈ (place f.offset (a.map (adj pk))).1 ∧ m.field = some f ∧ m.size = f.size) ∧
        (∀ x ∈ (place f.offset (a.map (adj pk))).1, ∀ g, x.1.field = some g → g = f ∧ x.2 = f.offset) ∧
        (f.known = false → ∀ b, f.offset ≤ b → b < nextOf size l → ∃ x ∈ (place f.offset (a.map (adj pk))).1,
          (∃ g, x.1.field = some g ∧ g.known = false) ∧ x.2 ≤ b ∧ b < x.2 + x.1.size) := by
      cases hk : f.known with
      | true =>
        obtain ⟨k1, k2, k3⟩ := hf.known hk
        have hup : up f.offset (adj pk ⟨some f, f.size, f.align⟩).align = f.offset := by
          unfold adj
          cases hp : pk with
          | true => simp only [if_true]; exact up_one _
          | false => simp only [Bool.false_eq_true, if_false]; exact up_dvd (k3 hp).2
        have hal' : (adj pk ⟨some f, f.size, f.align⟩).align ≤ align := by
          unfold adj
          cases hp : pk with
          | true => simp only [if_true]; exact hal
          | false => simp only [Bool.false_eq_true, if_false]; exact (k3 hp).1
        have hs : (adj pk ⟨some f, f.size, f.align⟩).size = f.size := by unfold adj; split <;> rfl
        have hfd : (adj pk ⟨some f, f.size, f.align⟩).field = some f := by unfold adj; split <;> rfl
        have hle := n2 hk
        refine ⟨_, by unfold emitStruct; rw [if_pos hk, if_pos hle], ?_⟩
        by_cases hz : nextOf size l - f.offset - f.size = 0
        · simp only [hz, or_true, if_true, List.map_cons, List.map_nil, place, hup, hs, List.mem_singleton]
          refine ⟨fun m hm => by rw [hm]; exact hal', by omega, fun _ => ⟨_, rfl, hfd, hs⟩, ?_, fun h => by cases h⟩
          rintro x rfl g hg
          simp only [hfd, Option.some.injEq] at hg
          exact ⟨hg.symm, rfl⟩
        · simp only [hz, Bool.false_eq_true, or_self, if_false, List.map_cons, List.map_nil, place, hup, hs, adj_padding, up_one,
            List.mem_cons, List.not_mem_nil, or_false]
          refine ⟨?_, by omega, fun _ => ⟨_, Or.inl rfl, hfd, hs⟩, ?_, fun h => by cases h⟩
          · rintro m (rfl | rfl)
            · exact hal'
            · exact hal
          · rintro x (rfl | rfl) g hg
            · simp only [hfd, Option.some.injEq] at hg
              exact ⟨hg.symm, rfl⟩
            · cases hg
      | false =>
        refine ⟨_, by unfold emitStruct emitBlob; rw [if_neg (by simp [hk]), if_pos n1], ?_⟩
        by_cases hz : nextOf size l - f.offset = 0
        · simp only [hz, if_true, List.map_nil, place, List.not_mem_nil]
          exact ⟨by simp, by omega, fun h => (by cases h), by simp, fun _ b h1 h2 => by omega⟩
        · simp only [hz, if_false, List.map_cons, List.map_nil, place, adj_padding, up_one, List.mem_singleton]
          refine ⟨by rintro m rfl; exact hal, by omega, fun h => (by cases h), ?_, fun _ b h1 h2 => ⟨_, rfl, ⟨f, rfl, hk⟩, h1, by simp only; omega⟩⟩
          rintro x rfl g hg
          simp only [Option.some.injEq] at hg
          exact ⟨hg.symm, rfl⟩
    refine ⟨a ++ ms, gen_cons a1 e1, ?_, ?_⟩
    · intro m hm
      rw [List.map_append, List.mem_append] at hm
      exact hm.elim (a2 m) (e2 m)
    · have hno : nextOf size (f :: l) = f.offset := rfl
      simp only [hno, List.map_append, place_append, a3]
      refine ⟨e3, ?_, ?_, ?_⟩
      · intro g hg hk
        rcases List.mem_cons.mp hg with rfl | hg
        · obtain ⟨m, h1, h2⟩ := a4 hk
          exact ⟨m, List.mem_append_left _ h1, h2⟩
        · obtain ⟨m, h1, h2⟩ := e4 g hg hk
          exact ⟨m, List.mem_append_right _ h1, h2⟩
      · intro x hx g hg
        rcases List.mem_append.mp hx with hx | hx
        · obtain ⟨h1, h2⟩ := a5 x hx g hg
          subst h1
          exact ⟨by simp, h2⟩
        · obtain ⟨h1, h2⟩ := e5 x hx g hg
          exact ⟨by simp [h1], h2⟩
      · intro pre g post hl b hb1 hb2 hall
        cases pre with
        | nil =>
          simp only [List.nil_append, List.cons.injEq] at hl
          obtain ⟨rfl, rfl⟩ := hl
          have hfk := hall f (by simp) hb1
          by_cases hlt : b < nextOf size l
          · obtain ⟨x, hx, h⟩ := a6 hfk b hb1 hlt
            exact ⟨x, List.mem_append_left _ hx, h⟩
          · cases l with
            | nil => exact absurd hb2 hlt
            | cons g l =>
              have hg : g.offset ≤ b := by simpa [nextOf] using hlt
              obtain ⟨x, hx, h⟩ := e6 [] g l rfl b hg hb2 fun y hy => hall y (by simp at hy ⊢; exact Or.inr hy)
              exact ⟨x, List.mem_append_right _ hx, h⟩
        | cons p pre =>
          simp only [List.cons_append, List.cons.injEq] at hl
          obtain ⟨x, hx, h⟩ := e6 pre g post hl.2 b hb1 hb2 hall
          exact ⟨x, List.mem_append_right _ hx, h⟩

/-- The case without padding. -/
theorem gen_omit (t : RType) (pk : Bool) (size align : Nat) (hal : 1 ≤ align) : ∀ (l : List RField) (pos : Nat), t.InOrder pos l → (∀ f ∈ l, f.known = true) →
    (∀ f ∈ l, FOk pk align f) → (∀ f ∈ l, f.offset + f.size ≤ size) →
    (∀ f ∈ l, (adj pk ⟨some f, f.size, f.align⟩).align = t.fieldAlign f) →
    ∃ ms, gen true size l = some ms ∧ (∀ m ∈ ms.map (adj pk), m.align ≤ align) ∧
      let p := place pos (ms.map (adj pk))
      t.size = up p.2 t.align ∧
      (∀ f ∈ l, ∃ m, (m, f.offset) ∈ p.1 ∧ m.field = some f ∧ m.size = f.size) ∧
      (∀ x ∈ p.1, ∀ f, x.1.field = some f → f ∈ l ∧ x.2 = f.offset) := by
  intro l
  induction l with
  | nil => intro pos h _ _ _ _; exact ⟨[], rfl, by simp, h, by simp, by simp [place]⟩
  | cons f l ih =>
    intro pos h hk hok hw hfa
    obtain ⟨h1, h2⟩ := h
    obtain ⟨ms, e1, e2, e3, e4, e5⟩ := ih _ h2 (fun g hg => hk g (by simp [hg])) (fun g hg => hok g (by simp [hg])) (fun g hg => hw g (by simp [hg]))
      (fun g hg => hfa g (by simp [hg]))
    have hfk := hk f (by simp)
    obtain ⟨k1, k2, k3⟩ := (hok f (by simp)).known hfk
    have hle : f.offset + f.size ≤ nextOf size l := by
      cases l with
      | nil => exact hw f (by simp)
      | cons g l =>
        have : f.offset + f.size ≤ g.offset := by
          rw [h2.1]
          refine up_le _ _ ?_
          rw [← hfa g (by simp)]
          have := ((hok g (by simp)).known (hk g (by simp))).2.1
          unfold adj; split
          · simp
          · exact this
        exact this
    have hs : (adj pk ⟨some f, f.size, f.align⟩).size = f.size := by unfold adj; split <;> rfl
    have hfd : (adj pk ⟨some f, f.size, f.align⟩).field = some f := by unfold adj; split <;> rfl
    refine ⟨[⟨some f, f.size, f.align⟩] ++ ms, gen_cons (by unfold emitStruct; rw [if_pos hfk, if_pos hle]; simp) e1, ?_, ?_⟩
    · intro m hm
      rw [List.map_append, List.mem_append] at hm
      rcases hm with hm | hm
      · simp only [List.map_cons, List.map_nil, List.mem_singleton] at hm
        subst hm
        unfold adj
        cases hp : pk with
        | true => simp only [if_true]; exact hal
        | false => simp only [Bool.false_eq_true, if_false]; exact (k3 hp).1
      · exact e2 m hm
    · simp only [List.singleton_append, List.map_cons, place, hfa f (by simp), hs, ← h1]
      refine ⟨e3, ?_, ?_⟩
      · intro g hg
        rcases List.mem_cons.mp hg with rfl | hg
        · exact ⟨_, by simp, hfd, hs⟩
        · obtain ⟨m, h1, h2⟩ := e4 g hg
          exact ⟨m, by simp [h1], h2⟩
      · intro x hx g hg
        rcases List.mem_cons.mp hx with rfl | hx
        · simp only [hfd, Option.some.injEq] at hg
          subst hg
          exact ⟨by simp, rfl⟩
        · obtain ⟨h1, h2⟩ := e5 x hx g hg
          exact ⟨by simp [h1], h2⟩

theorem inOrder_sorted (t : RType) : ∀ (l : List RField) (pos : Nat), t.InOrder pos l → (∀ f ∈ l, 0 < f.size ∧ 0 < t.fieldAlign f) →
    (∀ f ∈ l, pos ≤ f.offset) ∧ l.Pairwise fun a b => keyLe a b = true := by
  intro l
  induction l with
  | nil => intro _ _ _; exact ⟨by simp, List.Pairwise.nil⟩
  | cons f l ih =>
    intro pos h hp
    obtain ⟨h1, h2⟩ := h
    obtain ⟨i1, i2⟩ := ih _ h2 fun g hg => hp g (by simp [hg])
    have hf := hp f (by simp)
    have := up_le pos (t.fieldAlign f) hf.2
    refine ⟨?_, List.pairwise_cons.mpr ⟨?_, i2⟩⟩
    · intro g hg
      rcases List.mem_cons.mp hg with rfl | hg
      · omega
      · have := i1 g hg; omega
    · intro g hg
      have := i1 g hg
      unfold keyLe; simp only [decide_eq_true_eq]; omega

theorem next_ok (size : Nat) : ∀ (l : List RField), l.Pairwise (fun a b => keyLe a b = true) →
    l.Pairwise (fun f g => f.offset + f.size ≤ g.offset ∨ g.offset + g.size ≤ f.offset) → (∀ f ∈ l, f.offset + f.size ≤ size) →
    (∀ f ∈ l, f.known = true → 0 < f.size) → ∀ x ∈ withNext size l, FNext x.1 x.2 := by
  intro l
  induction l with
  | nil => intro _ _ _ _ x hx; simp [withNext] at hx
  | cons f l ih =>
    intro hs hd hw hk x hx
    rw [withNext_cons] at hx
    obtain ⟨s1, s2⟩ := List.pairwise_cons.mp hs
    obtain ⟨d1, d2⟩ := List.pairwise_cons.mp hd
    rcases List.mem_cons.mp hx with rfl | hx
    · cases l with
      | nil =>
        have := hw f (by simp)
        exact ⟨by simp only [nextOf]; omega, fun _ => this⟩
      | cons g l =>
        have h1 := s1 g (by simp)
        have h2 := d1 g (by simp)
        unfold keyLe at h1
        simp only [decide_eq_true_eq] at h1
        refine ⟨by simp only [nextOf]; omega, fun hfk => ?_⟩
        have h3 := hk f (by simp) hfk
        have h4 : g.known = true → 0 < g.size := hk g (by simp)
        simp only [nextOf]
        rw [if_pos hfk] at h1
        cases hgk : g.known with
        | true => have := h4 hgk; simp only [hgk, if_true] at h1; omega
        | false => simp only [hgk, Bool.false_eq_true, if_false] at h1; omega
    · exact ih s2 d2 (fun g hg => hw g (by simp [hg])) (fun g hg => hk g (by simp [hg])) x hx

/-- C59: for every struct, in whatever order rustc places the fields, the C++ struct has its layout. -/
theorem struct_layout (t : RType) (h : t.StructOk) : ∃ c, generateStruct t = some c ∧ StructMatches t c := by
  obtain ⟨hidx, hdis, hwithin, hstart, hknown, ⟨hal, hdv⟩, hreprC⟩ := h
  have hperm := sort_perm t.fields
  have hmem : ∀ f, f ∈ sort t.fields ↔ f ∈ t.fields := fun f => hperm.mem_iff
  have hfok : ∀ f ∈ t.fields, FOk t.packed.isSome t.align f := by
    intro f hf
    refine ⟨fun hk => ?_⟩
    obtain ⟨k1, k2, k3⟩ := hknown f hf hk
    exact ⟨k1, k2, fun hp => k3 (by simpa using hp)⟩
  have hgen : ∀ noPad ms, gen noPad t.size (sort t.fields) = some ms → noPad = (t.reprC && t.fields.all (·.known)) →
      generateStruct t = some ⟨ms, t.align, t.packed.isSome⟩ := by
    intro noPad ms hg hn
    unfold gen at hg
    obtain ⟨x, hx, rfl⟩ := Option.map_eq_some_iff.mp hg
    unfold generateStruct
    rw [← hn]
    simp [hx]
  by_cases hnp : (t.reprC && t.fields.all (·.known)) = true
  · have hc : t.reprC = true := by simp at hnp; exact hnp.1
    have hall : ∀ f ∈ t.fields, f.known = true := by simp at hnp; exact hnp.2
    obtain ⟨hord, hpk⟩ := hreprC hc
    have hfa : ∀ f ∈ t.fields, (adj t.packed.isSome ⟨some f, f.size, f.align⟩).align = t.fieldAlign f := by
      intro f hf
      have := (hknown f hf (hall f hf)).2.1
      unfold adj RType.fieldAlign
      rcases hpk with hp | hp
      · rw [hp]; rfl
      · rw [hp]; simp only [Option.isSome_some, if_true]; omega
    have hsorted := (inOrder_sorted t t.fields 0 hord fun f hf => by
      have := hknown f hf (hall f hf)
      refine ⟨this.1, ?_⟩
      unfold RType.fieldAlign
      rcases hpk with hp | hp
      · rw [hp]; exact this.2.1
      · rw [hp]; simp only; omega).2
    obtain ⟨ms, g1, g2, g3, g4, g5⟩ := gen_omit t t.packed.isSome t.size t.align hal t.fields 0 hord hall hfok hwithin hfa
    rw [← sort_eq hsorted] at g1
    have hnat : natural (CClass.members ⟨ms, t.align, t.packed.isSome⟩) ≤ t.align := by
      rw [members_eq]; exact natural_le hal g2
    refine ⟨_, hgen true ms g1 hnp.symm, Or.inr hnat, ?_, ?_, ?_, ?_, ?_⟩
    · unfold CClass.sizeOf CClass.alignOf
      rw [Nat.max_eq_right hnat, members_eq]
      exact g3.symm
    · unfold CClass.alignOf; exact Nat.max_eq_right hnat
    · unfold CClass.offsets; rw [members_eq]; intro f hf _; exact g4 f hf
    · unfold CClass.offsets; rw [members_eq]; exact g5
    · intro f hf hk; rw [hall f hf] at hk; cases hk
  · have hdisL : (sort t.fields).Pairwise fun f g => f.offset + f.size ≤ g.offset ∨ g.offset + g.size ≤ f.offset := by
      have hnd : ((sort t.fields).map (·.index)).Nodup := (hperm.map _).nodup_iff.mpr hidx
      have hnd : (sort t.fields).Pairwise fun f g => f.index ≠ g.index := List.pairwise_map.mp hnd
      refine hnd.imp_of_mem ?_
      intro f g hf hg hne
      exact hdis f ((hmem f).mp hf) g ((hmem g).mp hg) hne
    obtain ⟨ms, g1, g2, g3, g4, g5, g6⟩ := gen_spec t.packed.isSome t.size t.align hal (sort t.fields) (fun f hf => hfok f ((hmem f).mp hf))
      (next_ok t.size (sort t.fields) (sort_sorted _) hdisL (fun f hf => hwithin f ((hmem f).mp hf))
        (fun f hf hk => (hknown f ((hmem f).mp hf) hk).1))
    have h0 : nextOf t.size (sort t.fields) = 0 := by
      obtain ⟨f, hf, hf0⟩ := hstart
      have hf' := (hmem f).mpr hf
      have hs := sort_sorted t.fields
      cases hl : sort t.fields with
      | nil => rw [hl] at hf'; simp at hf'
      | cons g l =>
        rw [hl] at hs hf'
        simp only [nextOf]
        rcases List.mem_cons.mp hf' with rfl | hf'
        · exact hf0
        · have := (List.pairwise_cons.mp hs).1 f hf'
          unfold keyLe at this; simp only [decide_eq_true_eq] at this; omega
    rw [h0] at g3 g4 g5 g6
    have hnat : natural (CClass.members ⟨ms, t.align, t.packed.isSome⟩) ≤ t.align := by
      rw [members_eq]; exact natural_le hal g2
    refine ⟨_, hgen false ms g1 ((Bool.not_eq_true _ ▸ hnp : (t.reprC && t.fields.all (·.known)) = false).symm), Or.inr hnat, ?_, ?_, ?_, ?_, ?_⟩
    · unfold CClass.sizeOf CClass.alignOf
      rw [Nat.max_eq_right hnat, members_eq]
      simp only [g3]
      exact up_dvd hdv
    · unfold CClass.alignOf; exact Nat.max_eq_right hnat
    · unfold CClass.offsets; rw [members_eq]; intro f hf; exact g4 f ((hmem f).mpr hf)
    · unfold CClass.offsets; rw [members_eq]
      intro x hx f hf
      obtain ⟨h1, h2⟩ := g5 x hx f hf
      exact ⟨(hmem f).mp h1, h2⟩
    · unfold CClass.offsets; rw [members_eq]
      intro f hf hk b hb1 hb2
      have hf' := (hmem f).mpr hf
      obtain ⟨pre, post, hl⟩ := List.append_of_mem hf'
      refine g6 pre f post hl b hb1 (by have := hwithin f hf; omega) ?_
      intro g hg hgb
      rcases List.mem_cons.mp hg with rfl | hg
      · exact hk
      · rw [hl] at hdisL
        have hd := (List.pairwise_cons.mp (List.pairwise_append.mp hdisL).2.1).1 g hg
        have hs := sort_sorted t.fields
        rw [hl] at hs
        have hs := (List.pairwise_cons.mp (List.pairwise_append.mp hs).2.1).1 g hg
        have hgm : g ∈ t.fields := (hmem g).mp (by rw [hl]; simp [hg])
        cases hgk : g.known with
        | false => rfl
        | true =>
          have := (hknown g hgm hgk).1
          unfold keyLe at hs; simp only [decide_eq_true_eq] at hs; omega

end Verif.CcLayout

import Verif.CcLayout.Struct
/-
C60, C61: unions and enums.
-/
namespace Verif.CcLayout

/-! ### Unions -/

theorem mapM_known : ∀ (size : Nat) (l : List RField), (∀ f ∈ l, f.known = true) →
    (withNext size l).mapM (fun x => emitUnion x.1 x.2) = some (l.map fun f => [⟨some f, f.size, f.align⟩]) := by
  intro size l
  induction l with
  | nil => intro _; rfl
  | cons f l ih =>
    intro h
    rw [withNext_cons, List.mapM_cons, ih fun g hg => h g (by simp [hg])]
    simp [emitUnion, h f (by simp)]

theorem flatten_map_single {α β} (g : α → β) (l : List α) : (l.map fun x => [g x]).flatten = l.map g := by
  induction l with
  | nil => rfl
  | cons x l ih => simp [ih]

/-- C60: a union all of whose fields have C++ types has the layout of the Rust union. -/
theorem union_layout (t : RType) (h : t.UnionOk) : ∃ c, generateUnion t = some c ∧ UnionMatches t c := by
  obtain ⟨hne, hk, hp, hs⟩ := h
  have hm := mapM_known t.size t.fields fun f hf => (hk f hf).1
  refine ⟨⟨t.fields.map fun f => ⟨some f, f.size, f.align⟩, t.align, t.packed.isSome⟩, ?_, ?_⟩
  · unfold generateUnion
    rw [hm]
    simp only [Option.bind_eq_bind, Option.bind_some, Option.pure_def, flatten_map_single]
  · have hnat : natural (CClass.members ⟨t.fields.map fun f => ⟨some f, f.size, f.align⟩, t.align, t.packed.isSome⟩) ≤ t.align := by
      rw [members_eq]
      refine natural_le hp ?_
      intro m hm
      simp only [List.map_map, List.mem_map, Function.comp_apply] at hm
      obtain ⟨f, hf, rfl⟩ := hm
      unfold adj
      cases hpk : t.packed with
      | none => exact (hk f hf).2.2.2 hpk
      | some n => exact hp
    refine ⟨Or.inr hnat, ?_, Nat.max_eq_right hnat, ?_⟩
    · unfold CClass.unionSize CClass.alignOf
      rw [Nat.max_eq_right hnat, hs, members_eq]
      congr 1
      generalize t.fields = l
      induction l with
      | nil => rfl
      | cons f l ih =>
        simp only [List.map_cons, List.foldr_cons] at ih ⊢
        rw [ih]
        congr 1
        unfold adj; split <;> rfl
    · rw [members_eq]
      simp only [List.map_map]
      refine List.map_congr_left fun f _ => ?_
      simp only [Function.comp_apply]
      unfold adj; split <;> rfl

/-! ### Enums -/

theorem pow2_pos {n : Nat} (h : Pow2 n) : 0 < n := by obtain ⟨k, rfl⟩ := h; exact Nat.pow_pos (by omega)

theorem pow2_dvd {a b : Nat} (ha : Pow2 a) (hb : Pow2 b) (h : a ≤ b) : a ∣ b := by
  obtain ⟨j, rfl⟩ := ha
  obtain ⟨k, rfl⟩ := hb
  exact Nat.pow_dvd_pow 2 ((Nat.pow_le_pow_iff_right (by omega)).mp h)

theorem pow2_max {a b : Nat} (ha : Pow2 a) (hb : Pow2 b) : Pow2 (max a b) := by
  by_cases h : a ≤ b
  · rw [Nat.max_eq_right h]; exact hb
  · rw [Nat.max_eq_left (by omega)]; exact ha

/-- Moving by a multiple. -/
theorem up_add {p x a : Nat} (ha : 0 < a) (h : a ∣ p) : up (p + x) a = p + up x a := by
  obtain ⟨k, rfl⟩ := h
  unfold up
  rw [show a * k + x + a - 1 = (x + a - 1) + k * a by rw [Nat.mul_comm k a]; omega, Nat.add_mul_div_right _ _ ha, Nat.add_mul, Nat.add_comm,
    Nat.mul_comm k a]

theorem up_mono {n m a : Nat} (h : n ≤ m) : up n a ≤ up m a := by
  unfold up
  exact Nat.mul_le_mul_right _ (Nat.div_le_div_right (by omega))

/-- The least. -/
theorem up_least {n m a : Nat} (hd : a ∣ m) (h : n ≤ m) : up n a ≤ m := by
  have := up_mono (a := a) h
  rwa [up_dvd hd] at this

theorem up_between {E X P : Nat} (h1 : E ≤ X) (h2 : X ≤ up E P) : up X P = up E P :=
  Nat.le_antisymm (up_least (up_mod E) h2) (up_mono h1)

theorem maxAlign_ge (n : Nat) (ts : List Ty) : n ≤ maxAlign n ts := by
  induction ts with
  | nil => exact Nat.le_refl _
  | cons t ts ih => simp only [maxAlign, List.foldr_cons] at ih ⊢; omega

theorem maxAlign_mem {t : Ty} (n : Nat) : ∀ {ts : List Ty}, t ∈ ts → t.align ≤ maxAlign n ts := by
  intro ts
  induction ts with
  | nil => intro h; simp at h
  | cons s ts ih =>
    intro h
    simp only [maxAlign, List.foldr_cons] at ih ⊢
    rcases List.mem_cons.mp h with rfl | h
    · omega
    · have := ih h; omega

theorem maxAlign_pow2 {n : Nat} (hn : Pow2 n) : ∀ {ts : List Ty}, (∀ t ∈ ts, Pow2 t.align) → Pow2 (maxAlign n ts) := by
  intro ts
  induction ts with
  | nil => intro _; exact hn
  | cons t ts ih =>
    intro h
    simp only [maxAlign, List.foldr_cons] at ih ⊢
    exact pow2_max (h t (by simp)) (ih fun x hx => h x (by simp [hx]))

theorem maxAlign_max (n m : Nat) (ts : List Ty) : maxAlign (max n m) ts = max n (maxAlign m ts) := by
  induction ts with
  | nil => rfl
  | cons t ts ih => simp only [maxAlign, List.foldr_cons] at ih ⊢; rw [ih]; omega

theorem enumAlign_pow2 {tag : Nat} (ht : Pow2 tag) : ∀ {vs : List (List Ty)}, (∀ ts ∈ vs, ∀ t ∈ ts, Pow2 t.align) → Pow2 (enumAlign tag vs) := by
  intro vs
  induction vs with
  | nil => intro _; exact ht
  | cons ts vs ih => intro h; exact maxAlign_pow2 (ih fun x hx => h x (by simp [hx])) (h ts (by simp))

theorem enumAlign_tag (tag : Nat) (vs : List (List Ty)) : enumAlign tag vs = max tag (enumAlign 1 vs) ∨ tag = 0 := by
  by_cases h : tag = 0
  · exact Or.inr h
  refine Or.inl ?_
  induction vs with
  | nil => simp only [enumAlign, List.foldr_nil]; omega
  | cons ts vs ih =>
    simp only [enumAlign, List.foldr_cons] at ih ⊢
    rw [ih, maxAlign_max]

theorem enumAlign_mem {n : Nat} {ts : List Ty} : ∀ {vs : List (List Ty)}, ts ∈ vs → maxAlign 1 ts ≤ enumAlign n vs ∨ n = 0 := by
  intro vs
  by_cases h0 : n = 0
  · intro _; exact Or.inr h0
  intro h; refine Or.inl ?_
  induction vs with
  | nil => simp at h
  | cons us vs ih =>
    simp only [enumAlign, List.foldr_cons] at ih ⊢
    rcases List.mem_cons.mp h with rfl | h
    · have : 1 ≤ List.foldr (fun ts a => maxAlign a ts) n vs := by
        have : ∀ l : List (List Ty), n ≤ List.foldr (fun ts a => maxAlign a ts) n l := by
          intro l
          induction l with
          | nil => exact Nat.le_refl _
          | cons a l ih => simp only [List.foldr_cons]; exact Nat.le_trans ih (maxAlign_ge _ _)
        have := this vs; omega
      have h1 := maxAlign_max (List.foldr (fun ts a => maxAlign a ts) n vs) 1 ts
      rw [Nat.max_eq_left this] at h1
      rw [h1]; omega
    · exact Nat.le_trans (ih h) (maxAlign_ge _ _)

/-- What a list of types has been assumed to be. -/
def TysOk (P : Nat) (ts : List Ty) : Prop := ∀ t ∈ ts, 0 < t.size ∧ 0 < t.align ∧ t.align ∣ P

theorem fields_shift {P : Nat} : ∀ (ts : List Ty) (i x : Nat), TysOk P ts →
    (fieldsFrom i (P + x) ts).mapM (shift P) = some (fieldsFrom i x ts) ∧ endFrom (P + x) ts = P + endFrom x ts ∧
    (fieldsFrom i (P + x) ts).map (fun f => (some f.index, f.offset, f.size)) = (fieldsFrom i x ts).map fun f => (some f.index, P + f.offset, f.size) := by
  intro ts
  induction ts with
  | nil => intro i x _; exact ⟨rfl, rfl, rfl⟩
  | cons t ts ih =>
    intro i x h
    obtain ⟨h1, h2, h3⟩ := h t (by simp)
    have hu : up (P + x) t.align = P + up x t.align := up_add h2 h3
    obtain ⟨i1, i2, i3⟩ := ih (i + 1) (up x t.align + t.size) fun s hs => h s (by simp [hs])
    simp only [fieldsFrom, endFrom, hu, Nat.add_assoc]
    refine ⟨?_, i2, ?_⟩
    · rw [List.mapM_cons, i1]
      simp [shift, sub]
    · simp only [List.map_cons, i3]

theorem fields_ge : ∀ (ts : List Ty) (i x : Nat), (∀ t ∈ ts, 0 < t.align) → ∀ f ∈ fieldsFrom i x ts, x ≤ f.offset := by
  intro ts
  induction ts with
  | nil => intro i x _ f hf; simp [fieldsFrom] at hf
  | cons t ts ih =>
    intro i x h f hf
    have hu := up_le x t.align (h t (by simp))
    simp only [fieldsFrom, List.mem_cons] at hf
    rcases hf with rfl | hf
    · exact hu
    · have := ih _ _ (fun s hs => h s (by simp [hs])) f hf
      omega

theorem fields_sorted : ∀ (ts : List Ty) (i x : Nat), (∀ t ∈ ts, 0 < t.align ∧ 0 < t.size) →
    (fieldsFrom i x ts).Pairwise fun a b => keyLe a b = true := by
  intro ts
  induction ts with
  | nil => intro i x _; exact List.Pairwise.nil
  | cons t ts ih =>
    intro i x h
    refine List.pairwise_cons.mpr ⟨fun f hf => ?_, ih _ _ fun s hs => h s (by simp [hs])⟩
    have := fields_ge ts _ _ (fun s hs => (h s (by simp [hs])).1) f hf
    have := (h t (by simp)).2
    unfold keyLe; simp only [decide_eq_true_eq]; omega

theorem fields_known : ∀ (ts : List Ty) (i x : Nat), ∀ f ∈ fieldsFrom i x ts, f.known = true := by
  intro ts
  induction ts with
  | nil => intro i x f hf; simp [fieldsFrom] at hf
  | cons t ts ih =>
    intro i x f hf
    simp only [fieldsFrom, List.mem_cons] at hf
    rcases hf with rfl | hf
    · rfl
    · exact ih _ _ f hf

theorem mapM_enum : ∀ (size : Nat) (l : List RField), (∀ f ∈ l, f.known = true) →
    (withNext size l).mapM (fun x => emitEnum x.1 x.2) = some (l.map fun f => [⟨some f, f.size, f.align⟩]) := mapM_known

/-- The members of the struct of a variant. -/
def variantMems (ts : List Ty) : List Mem := (fieldsFrom 0 0 ts).map fun f => ⟨some f, f.size, f.align⟩

theorem variant_place : ∀ (ts : List Ty) (i x : Nat),
    (place x ((fieldsFrom i x ts).map fun f => (⟨some f, f.size, f.align⟩ : Mem))).1.map (fun y => (y.1.field.map (·.index), y.2, y.1.size)) =
      (fieldsFrom i x ts).map (fun f => (some f.index, f.offset, f.size)) ∧
    (place x ((fieldsFrom i x ts).map fun f => (⟨some f, f.size, f.align⟩ : Mem))).2 = endFrom x ts := by
  intro ts
  induction ts with
  | nil => intro i x; exact ⟨rfl, rfl⟩
  | cons t ts ih =>
    intro i x
    obtain ⟨h1, h2⟩ := ih (i + 1) (up x t.align + t.size)
    simp only [fieldsFrom, List.map_cons, place, endFrom]
    exact ⟨by rw [h1]; rfl, h2⟩

theorem variant_natural : ∀ (ts : List Ty) (i x : Nat), natural ((fieldsFrom i x ts).map fun f => (⟨some f, f.size, f.align⟩ : Mem)) = maxAlign 1 ts := by
  intro ts
  induction ts with
  | nil => intro i x; rfl
  | cons t ts ih =>
    intro i x
    have := ih (i + 1) (up x t.align + t.size)
    simp only [fieldsFrom, List.map_cons, natural, maxAlign, List.foldr_cons] at this ⊢
    rw [this]

theorem end_ge : ∀ (ts : List Ty) (x : Nat), (∀ t ∈ ts, 0 < t.align ∧ 0 < t.size) → x ≤ endFrom x ts ∧ (ts ≠ [] → x < endFrom x ts) := by
  intro ts
  induction ts with
  | nil => intro x _; exact ⟨Nat.le_refl _, fun h => absurd rfl h⟩
  | cons t ts ih =>
    intro x h
    have hu := up_le x t.align (h t (by simp)).1
    have := (ih (up x t.align + t.size) fun s hs => h s (by simp [hs])).1
    have := (h t (by simp)).2
    simp only [endFrom]
    exact ⟨by omega, fun _ => by omega⟩

/-- What the struct of a variant is. -/
def variantClass (ts : List Ty) : Option CClass := if ts = [] then none else some ⟨variantMems ts, 0, false⟩

theorem variant_gen {P : Nat} (hP : 0 < P) {ts : List Ty} (h : TysOk P ts) :
    variantStruct P ⟨fieldsFrom 0 P ts, up (endFrom P ts) P, P⟩ = some (variantClass ts) := by
  obtain ⟨h1, h2, -⟩ := fields_shift (P := P) ts 0 0 h
  rw [Nat.add_zero] at h1 h2
  have hsz : up (endFrom P ts) P = P + up (endFrom 0 ts) P := by rw [h2]; exact up_add hP (Nat.dvd_refl P)
  have hpos : ∀ t ∈ ts, 0 < t.align ∧ 0 < t.size := fun t ht => ⟨(h t ht).2.1, (h t ht).1⟩
  unfold variantStruct
  simp only [hsz]
  have e1 : sub (P + up (endFrom 0 ts) P) P = some (up (endFrom 0 ts) P) := by simp [sub]
  have e2 : sub P P = some 0 := by simp [sub]
  rw [e1, h1, e2]
  simp only [Option.bind_eq_bind, Option.bind_some, Option.pure_def]
  rw [sort_eq (fields_sorted ts 0 0 hpos), mapM_enum _ _ (fields_known ts 0 0)]
  simp only [Option.bind_some, flatten_map_single]
  unfold variantClass variantMems
  by_cases hts : ts = []
  · subst hts
    have : up 0 P = 0 := up_dvd (Nat.dvd_zero P)
    simp [endFrom, this]
  · have h3 := (end_ge ts 0 hpos).2 hts
    have h4 := up_le (endFrom 0 ts) P hP
    rw [if_neg (by omega), if_neg hts]

theorem mapM_all {α β} {f : α → Option β} {g : α → β} : ∀ {l : List α}, (∀ x ∈ l, f x = some (g x)) → l.mapM f = some (l.map g) := by
  intro l
  induction l with
  | nil => intro _; rfl
  | cons x l ih =>
    intro h
    rw [List.mapM_cons, h x (by simp), ih fun y hy => h y (by simp [hy])]
    rfl

theorem class_align (ts : List Ty) : CClass.alignOf ⟨variantMems ts, 0, false⟩ = maxAlign 1 ts := by
  unfold CClass.alignOf CClass.members variantMems
  simp only [Bool.false_eq_true, if_false, variant_natural]
  omega

theorem class_size (ts : List Ty) : CClass.sizeOf ⟨variantMems ts, 0, false⟩ = up (endFrom 0 ts) (maxAlign 1 ts) := by
  unfold CClass.sizeOf
  rw [class_align]
  unfold CClass.members variantMems
  simp only [Bool.false_eq_true, if_false]
  rw [(variant_place ts 0 0).2]

theorem payloadAlign_eq (tag a : Nat) (vs : List (List Ty)) : CEnum.payloadAlign ⟨tag, tag, vs.map variantClass, a⟩ = enumAlign 1 vs := by
  unfold CEnum.payloadAlign enumAlign
  simp only
  induction vs with
  | nil => rfl
  | cons ts vs ih =>
    simp only [List.map_cons, List.foldr_cons] at ih ⊢
    rw [ih]
    have hge : ∀ l : List (List Ty), 1 ≤ List.foldr (fun ts a => maxAlign a ts) 1 l := by
      intro l
      induction l with
      | nil => exact Nat.le_refl _
      | cons a l ih => simp only [List.foldr_cons]; exact Nat.le_trans ih (maxAlign_ge _ _)
    have h1 := hge vs
    have h2 := maxAlign_max (List.foldr (fun ts a => maxAlign a ts) 1 vs) 1 ts
    rw [Nat.max_eq_left h1] at h2
    rw [h2]
    unfold variantClass
    by_cases hts : ts = []
    · subst hts; simp only [if_true, maxAlign, List.foldr_nil]; omega
    · rw [if_neg hts]; simp only [class_align]; omega

/-- C60: every `repr(C)` enum all of whose fields have C++ types has the layout of the Rust enum. -/
theorem enum_layout (tag : Nat) (vs : List (List Ty)) (h : EnumOk tag vs) :
    ∃ c, generateEnum (rustEnum tag vs) = some c ∧ EnumMatches (rustEnum tag vs) c := by
  obtain ⟨htag, hne, hty⟩ := h
  have htp := pow2_pos htag
  -- alignments
  have hPow : Pow2 (enumAlign tag vs) := enumAlign_pow2 htag fun ts hts t ht => (hty ts hts t ht).1
  have hU : Pow2 (enumAlign 1 vs) := enumAlign_pow2 ⟨0, rfl⟩ fun ts hts t ht => (hty ts hts t ht).1
  have hPU : enumAlign tag vs = max tag (enumAlign 1 vs) := (enumAlign_tag tag vs).resolve_right (by omega)
  generalize hPdef : enumAlign tag vs = P at *
  generalize hUdef : enumAlign 1 vs = U at *
  have hP0 := pow2_pos hPow
  have hU0 := pow2_pos hU
  have hUP : U ∣ P := pow2_dvd hU hPow (by omega)
  have htagP : up tag P = P := by
    refine Nat.le_antisymm (up_least (Nat.dvd_refl P) (by omega)) ?_
    have h1 := up_le tag P hP0
    exact Nat.le_of_dvd (by omega) (up_mod tag)
  have hoff : up tag U = P := by
    by_cases hle : tag ≤ U
    · have : P = U := by omega
      rw [← this]; exact htagP
    · have : P = tag := by omega
      rw [this]
      exact up_dvd (this ▸ hUP)
  have htys : ∀ ts ∈ vs, TysOk P ts := by
    intro ts hts t ht
    obtain ⟨h1, h2⟩ := hty ts hts t ht
    refine ⟨h2, pow2_pos h1, pow2_dvd h1 hPow ?_⟩
    have h3 := maxAlign_mem 1 ht
    have h4 := (enumAlign_mem (n := tag) hts).resolve_right (by omega)
    rw [hPdef] at h4
    omega
  have hpos : ∀ ts ∈ vs, ∀ t ∈ ts, 0 < t.align ∧ 0 < t.size := fun ts hts t ht => ⟨(htys ts hts t ht).2.1, (htys ts hts t ht).1⟩
  have hrust : rustEnum tag vs = ⟨tag, tag, vs.map fun ts => ⟨fieldsFrom 0 P ts, up (endFrom P ts) P, P⟩,
      (vs.map fun ts => (⟨fieldsFrom 0 P ts, up (endFrom P ts) P, P⟩ : RVariant)).foldr (fun v n => max v.size n) 0, P⟩ := by
    unfold rustEnum
    simp only [hPdef, htagP]
  have hpay : ∀ ts ∈ vs, payloadOffset ⟨fieldsFrom 0 P ts, up (endFrom P ts) P, P⟩ = P := by
    intro ts hts
    unfold payloadOffset
    cases ts with
    | nil => simp only [fieldsFrom, endFrom]; exact up_dvd (Nat.dvd_refl P)
    | cons t ts =>
      simp only [fieldsFrom]
      exact up_dvd (htys _ hts t (by simp)).2.2
  have htsp : tagSizeWithPadding (rustEnum tag vs) = some P := by
    rw [hrust]
    unfold tagSizeWithPadding
    cases vs with
    | nil => exact absurd rfl hne
    | cons ts vs =>
      simp only [List.map_cons, hpay ts (by simp)]
      rw [if_pos]
      rw [List.all_eq_true]
      intro v hv
      obtain ⟨us, hus, rfl⟩ := List.mem_map.mp hv
      simp [hpay us (by simp [hus])]
  have hgen : generateEnum (rustEnum tag vs) = some ⟨tag, tag, vs.map variantClass, P⟩ := by
    unfold generateEnum
    rw [htsp, hrust]
    simp only [Option.bind_eq_bind, Option.bind_some, List.mapM_map, Function.comp_def]
    rw [mapM_all (g := variantClass) fun ts hts => variant_gen hP0 (htys ts hts)]
    rfl
  refine ⟨_, hgen, ?_⟩
  have hpa := payloadAlign_eq tag P vs
  rw [hUdef] at hpa
  have hpo : CEnum.payloadOffset ⟨tag, tag, vs.map variantClass, P⟩ = P := by
    unfold CEnum.payloadOffset; rw [hpa]; exact hoff
  have hal : CEnum.alignOf ⟨tag, tag, vs.map variantClass, P⟩ = P := by
    unfold CEnum.alignOf; rw [hpa]; simp only; omega
  refine ⟨?_, ?_, ?_, ?_, ?_⟩
  · -- sizes
    unfold CEnum.sizeOf
    rw [hal, hpo, hrust]
    simp only
    -- the largest end
    have hrs : ∀ l : List (List Ty), (∀ ts ∈ l, ts ∈ vs) → l ≠ [] → ∃ E, ((l.map fun ts => (⟨fieldsFrom 0 P ts, up (endFrom P ts) P, P⟩ : RVariant)).foldr (fun v n => max v.size n) 0) = P + up E P ∧
        (∀ ts ∈ l, endFrom 0 ts ≤ E) ∧ E ≤ ((l.map variantClass).foldr (fun v n => max (match v with | some s => s.sizeOf | none => 0) n) 0) ∧
        ((l.map variantClass).foldr (fun v n => max (match v with | some s => s.sizeOf | none => 0) n) 0) ≤ up E P ∧
        (l.any (fun ts => !ts.isEmpty) = false → E = 0) := by
      intro l
      induction l with
      | nil => intro _ h; exact absurd rfl h
      | cons ts l ih =>
        intro hin _
        have hts := htys ts (hin ts (by simp))
        have hsz : up (endFrom P ts) P = P + up (endFrom 0 ts) P := by
          have := (fields_shift (P := P) ts 0 0 hts).2.1
          rw [Nat.add_zero] at this
          rw [this]; exact up_add hP0 (Nat.dvd_refl P)
        have hcs : endFrom 0 ts ≤ (match variantClass ts with | some s => s.sizeOf | none => 0) ∧
            (match variantClass ts with | some s => s.sizeOf | none => 0) ≤ up (endFrom 0 ts) P := by
          unfold variantClass
          by_cases h0 : ts = []
          · subst h0; simp [endFrom]
          · rw [if_neg h0]
            simp only [class_size]
            have hm : Pow2 (maxAlign 1 ts) := maxAlign_pow2 ⟨0, rfl⟩ fun t ht => (hty ts (hin ts (by simp)) t ht).1
            refine ⟨up_le _ _ (pow2_pos hm), ?_⟩
            have h4 := (enumAlign_mem (n := tag) (hin ts (by simp))).resolve_right (by omega)
            rw [hPdef] at h4
            exact up_least (Nat.dvd_trans (pow2_dvd hm hPow h4) (up_mod _)) (up_le _ _ hP0)
        by_cases hl : l = []
        · subst hl
          refine ⟨endFrom 0 ts, ?_, ?_, ?_, ?_, ?_⟩
          · simp [hsz]
          · intro us hus; simp at hus; rw [hus]; exact Nat.le_refl _
          · simp only [List.map_cons, List.map_nil, List.foldr_cons, List.foldr_nil]
            exact Nat.le_trans hcs.1 (Nat.le_max_left _ _)
          · simp only [List.map_cons, List.map_nil, List.foldr_cons, List.foldr_nil]
            exact Nat.max_le.mpr ⟨hcs.2, Nat.zero_le _⟩
          · intro hh
            simp at hh
            subst hh; rfl
        · obtain ⟨E, i1, i2, i3, i4, i5⟩ := ih (fun us hus => hin us (by simp [hus])) hl
          have hmx : max (up (endFrom 0 ts) P) (up E P) = up (max (endFrom 0 ts) E) P := by
            by_cases hle : endFrom 0 ts ≤ E
            · rw [Nat.max_eq_right hle, Nat.max_eq_right (up_mono hle)]
            · have hle : E ≤ endFrom 0 ts := by omega
              rw [Nat.max_eq_left hle, Nat.max_eq_left (up_mono hle)]
          refine ⟨max (endFrom 0 ts) E, ?_, ?_, ?_, ?_, ?_⟩
          · simp only [List.map_cons, List.foldr_cons, hsz]
            rw [i1, ← hmx]; omega
          · intro us hus
            rcases List.mem_cons.mp hus with rfl | hus
            · exact Nat.le_max_left _ _
            · exact Nat.le_trans (i2 us hus) (Nat.le_max_right _ _)
          · simp only [List.map_cons, List.foldr_cons]
            exact Nat.max_le.mpr ⟨Nat.le_trans hcs.1 (Nat.le_max_left _ _), Nat.le_trans i3 (Nat.le_max_right _ _)⟩
          · simp only [List.map_cons, List.foldr_cons]
            rw [← hmx]
            exact Nat.max_le.mpr ⟨Nat.le_trans hcs.2 (Nat.le_max_left _ _), Nat.le_trans i4 (Nat.le_max_right _ _)⟩
          · intro hh
            simp only [List.any_cons, Bool.or_eq_false_iff] at hh
            have h1 : ts = [] := by simpa using hh.1
            rw [i5 hh.2, h1]; rfl
    obtain ⟨E, r1, r2, r3, r4, r5⟩ := hrs vs (fun _ h => h) hne
    rw [r1]
    by_cases hp : CEnum.hasPayload ⟨tag, tag, vs.map variantClass, P⟩ = true
    · rw [if_pos hp, up_add hP0 (Nat.dvd_refl P)]
      congr 1
      unfold CEnum.payloadSize
      rw [hpa]
      simp only
      refine up_between (Nat.le_trans r3 (up_le _ _ hU0)) ?_
      exact up_least (Nat.dvd_trans hUP (up_mod _)) r4
    · have hE : E = 0 := by
        refine r5 ?_
        rw [List.any_eq_false]
        intro ts hts hh
        refine hp ?_
        unfold CEnum.hasPayload
        simp only [List.any_map, List.any_eq_true]
        refine ⟨ts, hts, ?_⟩
        have : ts ≠ [] := by simpa using hh
        simp [variantClass, this]
      rw [if_neg hp, hE, htagP, up_dvd (Nat.dvd_zero P)]; rfl
  · rw [hal, hrust]
  · rw [hrust]
  · intro s hs
    simp only [List.mem_map] at hs
    obtain ⟨ts, hts, hs⟩ := hs
    unfold variantClass at hs
    split at hs
    · cases hs
    · cases hs; exact Or.inl rfl
  · rw [hrust]
    simp only [List.map_map]
    refine List.map_congr_left fun ts hts => ?_
    simp only [Function.comp_apply]
    have hsh := (fields_shift (P := P) ts 0 0 (htys ts hts)).2.2
    rw [Nat.add_zero] at hsh
    rw [hsh]
    by_cases h0 : ts = []
    · subst h0; simp [variantClass, fieldsFrom]
    · have hv : variantClass ts = some ⟨variantMems ts, 0, false⟩ := by simp [variantClass, h0]
      rw [hv]
      have hpo' := hpo
      simp only [CEnum.fieldOffsets, CClass.offsets, CClass.members, Bool.false_eq_true, if_false]
      rw [hpo']
      have := congrArg (List.map fun y : Option Nat × Nat × Nat => (y.1, P + y.2.1, y.2.2)) (variant_place ts 0 0).1
      simp only [List.map_map, Function.comp_def] at this
      exact this

/-! ### Constructors of variants -/

theorem leBytes_length (n v : Nat) : (leBytes n v).length = n := by
  induction n generalizing v with
  | zero => rfl
  | succ n ih => simp [leBytes, ih]

theorem leBytes_take : ∀ (n k v : Nat), n ≤ k → (leBytes k v).take n = leBytes n v := by
  intro n
  induction n with
  | zero => intro k v _; simp [leBytes]
  | succ n ih =>
    intro k v h
    cases k with
    | zero => omega
    | succ k => simp only [leBytes, List.take_succ_cons]; rw [ih k (v / 256) (by omega)]

theorem leBytes_value : ∀ (n v : Nat), v < 256 ^ n → (leBytes n v).foldr (fun b m => b + 256 * m) 0 = v := by
  intro n
  induction n with
  | zero => intro v h; simp at h; subst h; rfl
  | succ n ih =>
    intro v h
    simp only [leBytes, List.foldr_cons]
    rw [ih (v / 256) (by rw [Nat.div_lt_iff_lt_mul (by omega)]; rw [Nat.pow_succ] at h; exact h)]
    omega

theorem leBytes_lt (n v : Nat) : ∀ b ∈ leBytes n v, b < 256 := by
  induction n generalizing v with
  | zero => simp [leBytes]
  | succ n ih =>
    intro b hb
    simp only [leBytes, List.mem_cons] at hb
    rcases hb with rfl | hb
    · omega
    · exact ih _ b hb

/-- C61: the constructor of a variant writes exactly the tag at the place of the tag, and zeros elsewhere. -/
theorem variant_bytes (bigEndian : Bool) (adtSize tagOffset tagSize tagVal : Nat) (h1 : tagOffset + tagSize ≤ adtSize) (h2 : tagSize ≤ 16)
    (h3 : tagVal < 256 ^ tagSize) :
    ∃ l, variantBytes bigEndian adtSize tagOffset tagSize tagVal = some l ∧ l.length = adtSize ∧ (∀ b ∈ l, b < 256) ∧
      fromBytes bigEndian ((l.drop tagOffset).take tagSize) = tagVal ∧
      (∀ i, i < tagOffset ∨ tagOffset + tagSize ≤ i → l.getD i 0 = 0) := by
  have hs : sub adtSize tagOffset = some (adtSize - tagOffset) := by unfold sub; rw [if_pos (by omega)]
  have hmin : min (adtSize - tagOffset) tagSize = tagSize := by omega
  obtain ⟨tag, ht, hlen, hlt, hval⟩ : ∃ tag, (if bigEndian then (leBytes 16 tagVal).reverse.drop (16 - tagSize) else (leBytes 16 tagVal).take tagSize) = tag ∧
      tag.length = tagSize ∧ (∀ b ∈ tag, b < 256) ∧ fromBytes bigEndian tag = tagVal := by
    refine ⟨_, rfl, ?_⟩
    cases bigEndian with
    | false =>
      simp only [Bool.false_eq_true, if_false, leBytes_take tagSize 16 tagVal h2, fromBytes]
      exact ⟨leBytes_length _ _, leBytes_lt _ _, leBytes_value _ _ h3⟩
    | true =>
      simp only [if_true, fromBytes]
      rw [List.drop_reverse, leBytes_length, show 16 - (16 - tagSize) = tagSize by omega, leBytes_take tagSize 16 tagVal h2, List.reverse_reverse]
      refine ⟨by rw [List.length_reverse, leBytes_length], ?_, leBytes_value _ _ h3⟩
      intro b hb
      exact leBytes_lt _ _ b (List.mem_reverse.mp hb)
  refine ⟨List.replicate tagOffset 0 ++ tag ++ List.replicate (adtSize - tagOffset - tagSize) 0, ?_, ?_, ?_, ?_, ?_⟩
  · unfold variantBytes
    rw [hs]
    simp only [Option.bind_eq_bind, Option.bind_some, Option.pure_def, hmin, if_pos h2, ht, hlen]
  · simp [hlen]; omega
  · intro b hb
    simp only [List.mem_append, List.mem_replicate] at hb
    rcases hb with (⟨-, rfl⟩ | hb) | ⟨-, rfl⟩
    · omega
    · exact hlt b hb
    · omega
  · rw [List.append_assoc, List.drop_append_of_le_length (by simp), List.drop_eq_nil_of_le (by simp), List.nil_append,
      List.take_append_of_le_length (by omega), List.take_of_length_le (by omega)]
    exact hval
  · intro i hi
    rw [List.getD_eq_getElem?_getD]
    rcases hi with hi | hi
    · rw [List.append_assoc, List.getElem?_append_left (by simpa using hi)]
      simp [hi]
    · rw [List.getElem?_append_right (by simp [hlen]; omega)]
      simp only [List.getElem?_replicate]
      split <;> rfl

end Verif.CcLayout

import Verif.PtsTo.ExecSound
/- From the state at the exit to the signature. -/
namespace Verif.PtsTo
open Verif.Lifetimes

/-! ### Everything that static pointers reach -/

theorem staticReach_spec (lt : Lts) (pt : Pts) : ∀ (fuel : Nat) (stack visited : List Obj) (cs cs' : Constraints),
    (∀ o ∈ visited, (Lifetime.static, lt o) ∈ cs ∧ ∀ x ∈ pt.get o, x ∈ visited ∨ x ∈ stack) →
    staticReach lt pt fuel stack visited cs = some cs' →
    ∃ V : List Obj, (∀ o ∈ visited, o ∈ V) ∧ (∀ o ∈ stack, o ∈ V) ∧ (∀ o ∈ V, (Lifetime.static, lt o) ∈ cs' ∧ ∀ x ∈ pt.get o, x ∈ V) ∧
      ∀ c ∈ cs, c ∈ cs'
  | 0, [], visited, cs, cs', hv, h => by
    simp only [staticReach, Option.some.injEq] at h
    subst h
    exact ⟨visited, fun o ho => ho, by simp, fun o ho => ⟨(hv o ho).1, fun x hx => by simpa using (hv o ho).2 x hx⟩, fun c hc => hc⟩
  | fuel + 1, [], visited, cs, cs', hv, h => by
    simp only [staticReach, Option.some.injEq] at h
    subst h
    exact ⟨visited, fun o ho => ho, by simp, fun o ho => ⟨(hv o ho).1, fun x hx => by simpa using (hv o ho).2 x hx⟩, fun c hc => hc⟩
  | 0, o :: stack, visited, cs, cs', hv, h => by simp [staticReach] at h
  | fuel + 1, o :: stack, visited, cs, cs', hv, h => by
    rw [staticReach] at h
    by_cases ho : o ∈ visited
    · rw [if_pos ho] at h
      obtain ⟨V, h1, h2, h3, h4⟩ := staticReach_spec lt pt fuel stack visited cs cs' (fun u hu => ⟨(hv u hu).1, fun x hx => by
        rcases (hv u hu).2 x hx with h | h
        · exact Or.inl h
        · rcases List.mem_cons.mp h with rfl | h
          · exact Or.inl ho
          · exact Or.inr h⟩) h
      refine ⟨V, h1, fun x hx => ?_, h3, h4⟩
      rcases List.mem_cons.mp hx with rfl | hx
      · exact h1 _ ho
      · exact h2 x hx
    · rw [if_neg ho] at h
      have hadd : ∀ c, c ∈ cs.addOutlives .static (lt o) ↔ c ∈ cs ∨ c = (.static, lt o) := fun c => mem_setInsert _ _ _
      obtain ⟨V, h1, h2, h3, h4⟩ := staticReach_spec lt pt fuel _ (o :: visited) _ cs' (fun u hu => by
        rcases List.mem_cons.mp hu with rfl | hu
        · exact ⟨(hadd _).mpr (Or.inr rfl), fun x hx => Or.inr (by simp [hx])⟩
        · refine ⟨(hadd _).mpr (Or.inl (hv u hu).1), fun x hx => ?_⟩
          rcases (hv u hu).2 x hx with h | h
          · exact Or.inl (by simp [h])
          · rcases List.mem_cons.mp h with rfl | h
            · exact Or.inl (by simp)
            · exact Or.inr (by simp [h])) h
      refine ⟨V, fun x hx => h1 x (by simp [hx]), fun x hx => ?_, h3, fun c hc => h4 c ((hadd c).mpr (Or.inl hc))⟩
      rcases List.mem_cons.mp hx with rfl | hx
      · exact h1 _ (by simp)
      · exact h2 x (by simp [hx])

/-- The pointees of what has not been visited. -/
def pending (pt : Pts) (visited : List Obj) : Nat := ((pt.filter fun e => decide (e.1 ∉ visited)).map fun e => e.2.length).sum

theorem pending_visit : ∀ (pt : Pts) (visited : List Obj) (o : Obj), o ∉ visited →
    (pt.get o).length + pending pt (o :: visited) ≤ pending pt visited
  | [], visited, o, _ => by simp [pending, Pts.get, AMap.get?]
  | e :: pt, visited, o, ho => by
    obtain ⟨k, s⟩ := e
    have ih := pending_visit pt visited o ho
    have hmono : pending pt (o :: visited) ≤ pending pt visited := by omega
    by_cases hk : k = o
    · subst hk
      have hg : Pts.get ((k, s) :: pt) k = s := by simp [Pts.get, AMap.get?]
      rw [hg]
      have h1 : pending ((k, s) :: pt) (k :: visited) = pending pt (k :: visited) := by simp [pending, List.filter_cons]
      have h2 : pending ((k, s) :: pt) visited = s.length + pending pt visited := by simp [pending, List.filter_cons, ho]
      omega
    · have hg : Pts.get ((k, s) :: pt) o = Pts.get pt o := by simp [Pts.get, AMap.get?, hk]
      rw [hg]
      by_cases hv : k ∈ visited
      · have h1 : pending ((k, s) :: pt) (o :: visited) = pending pt (o :: visited) := by simp [pending, List.filter_cons, hv]
        have h2 : pending ((k, s) :: pt) visited = pending pt visited := by simp [pending, List.filter_cons, hv]
        omega
      · have h1 : pending ((k, s) :: pt) (o :: visited) = s.length + pending pt (o :: visited) := by
          simp [pending, List.filter_cons, hv, hk]
        have h2 : pending ((k, s) :: pt) visited = s.length + pending pt visited := by simp [pending, List.filter_cons, hv]
        omega

theorem staticReach_fuel (lt : Lts) (pt : Pts) : ∀ (fuel : Nat) (stack visited : List Obj) (cs : Constraints),
    stack.length + pending pt visited ≤ fuel → ∃ cs', staticReach lt pt fuel stack visited cs = some cs'
  | 0, [], _, cs, _ => ⟨cs, rfl⟩
  | _ + 1, [], _, cs, _ => ⟨cs, rfl⟩
  | 0, o :: stack, _, _, h => by simp at h
  | fuel + 1, o :: stack, visited, cs, h => by
    rw [staticReach]
    simp only [List.length_cons] at h
    split
    · exact staticReach_fuel lt pt fuel _ _ _ (by omega)
    · next ho =>
      have := pending_visit pt visited o ho
      exact staticReach_fuel lt pt fuel _ _ _ (by simp only [List.length_append, List.length_reverse]; omega)

/-- The loop over everything that static pointers reach stops. -/
theorem staticReach_terminates (lt : Lts) (s : St) : ∃ cs, finalCs lt s = some cs := by
  refine staticReach_fuel lt s.pt _ _ _ _ ?_
  have : pending s.pt [] = (s.pt.map fun e => e.2.length).sum := by simp [pending]
  rw [this, staticFuel, List.length_reverse]
  omega

theorem finalCs_spec (lt : Lts) (s : St) {cs : Constraints} (h : finalCs lt s = some cs) : (∀ c ∈ s.cs, c ∈ cs) ∧
    ∃ V : List Obj, (∀ o ∈ pointersWith lt s.pt .static, o ∈ V) ∧ ∀ o ∈ V, (Lifetime.static, lt o) ∈ cs ∧ ∀ x ∈ s.pt.get o, x ∈ V := by
  obtain ⟨V, _, h2, h3, h4⟩ := staticReach_spec lt s.pt _ _ _ _ _ (by simp) h
  exact ⟨h4, V, fun o ho => h2 o (by simpa using ho), h3⟩

theorem finalCs_valid {f : Fn} {lt : Lts} (hlt : LtsOk f lt) : ∀ (pt : Pts) (fuel : Nat) (stack visited : List Obj) (cs cs' : Constraints),
    cs.Valid → staticReach lt pt fuel stack visited cs = some cs' → cs'.Valid
  | pt, 0, [], visited, cs, cs', hv, h => by
    simp only [staticReach, Option.some.injEq] at h; exact h ▸ hv
  | pt, _ + 1, [], visited, cs, cs', hv, h => by
    simp only [staticReach, Option.some.injEq] at h; exact h ▸ hv
  | pt, 0, o :: stack, visited, cs, cs', hv, h => by simp [staticReach] at h
  | pt, fuel + 1, o :: stack, visited, cs, cs', hv, h => by
    rw [staticReach] at h
    split at h
    · exact finalCs_valid hlt pt fuel _ _ _ _ hv h
    · refine finalCs_valid hlt pt fuel _ _ _ _ ?_ h
      intro x hx l hl
      rcases (mem_setInsert _ _ _).mp hx with h | rfl
      · exact hv x h l hl
      · simp only [List.mem_cons, List.not_mem_nil, or_false] at hl
        rcases hl with rfl | rfl
        · exact Or.inr (Or.inr rfl)
        · exact hlt.valid o

/-! ### Signatures -/

theorem mem_typeLts (lt : Lts) (root : Root) (x : Lifetime) : ∀ (t : Ty) (k : Nat), x ∈ typeLts lt root t k ↔ ∃ j, k < j ∧ j ≤ k + t.depth ∧ x = lt ⟨root, j⟩
  | .int, k => by
    simp only [typeLts, Ty.depth, List.not_mem_nil, false_iff]
    rintro ⟨j, h1, h2, _⟩; omega
  | .ptr c t, k => by
    rw [typeLts, List.mem_cons, mem_typeLts lt root x t (k + 1)]
    simp only [Ty.depth]
    constructor
    · rintro (h | ⟨j, h1, h2, h3⟩)
      · exact ⟨k + 1, by omega, by omega, h⟩
      · exact ⟨j, by omega, by omega, h3⟩
    · rintro ⟨j, h1, h2, h3⟩
      by_cases e : j = k + 1
      · subst e; exact Or.inl h3
      · exact Or.inr ⟨j, by omega, by omega, h3⟩

theorem mem_sigLts (f : Fn) (hf : FnOk f) (lt : Lts) (x : Lifetime) : x ∈ sigLts f lt ↔
    (∃ j, 0 < j ∧ j ≤ f.retTy.depth ∧ x = lt ⟨.ret, j⟩) ∨
    ∃ p j, (f.vars p).kind = .param ∧ 0 < j ∧ j ≤ (f.vars p).ty.depth ∧ x = lt ⟨.var p, j⟩ := by
  unfold sigLts
  rw [List.mem_append, mem_typeLts, List.mem_flatMap]
  simp only [mem_typeLts, paramsOf, List.mem_filter, List.mem_range, decide_eq_true_eq, Nat.zero_add]
  constructor
  · rintro (h | ⟨p, ⟨_, h1⟩, j, h2, h3, h4⟩)
    · exact Or.inl h
    · exact Or.inr ⟨p, j, h1, h2, h3, h4⟩
  · rintro (h | ⟨p, j, h1, h2, h3, h4⟩)
    · exact Or.inl h
    · refine Or.inr ⟨p, ⟨?_, h1⟩, j, h2, h3, h4⟩
      by_contra hn
      have := hf.inRange p (by omega)
      rw [h1] at this; cases this

theorem sigOk {f : Fn} (hf : FnOk f) {lt : Lts} (hlt : LtsOk f lt) : SigOk (sigLts f lt) := by
  intro x hx
  left
  rcases (mem_sigLts f hf lt x).mp hx with ⟨j, _, _, rfl⟩ | ⟨p, j, h1, h2, _, rfl⟩
  · exact hlt.ret j
  · obtain ⟨j, rfl⟩ : ∃ i, j = i + 1 := ⟨j - 1, by omega⟩
    exact hlt.var p j (by rw [h1]; simp)

section
variable {Reg : Type} [CompleteLattice Reg]

theorem regions_congr {r r' : Nat → Reg} : ∀ (t : Ty) (k : Nat), (∀ j, k < j → j ≤ k + t.depth → r j = r' j) → regions r t k = regions r' t k
  | .int, _, _ => rfl
  | .ptr c t, k, h => by
    simp only [regions, Ty.depth] at h ⊢
    rw [h (k + 1) (by omega) (by omega), regions_congr t (k + 1) fun j h1 h2 => h j (by omega) (by omega)]

/-- An interpretation of all lifetimes that extends one of the inferred signature. -/
theorem exists_rho {f : Fn} (hf : FnOk f) {lt : Lts} (hlt : LtsOk f lt) (ord : List Lifetime → List Lifetime) (hord : ∀ l, (ord l).Perm l)
    {cs : Constraints} (hv : cs.Valid) {out : List Lifetime} (ho : cs.applyTo ord (sigLts f lt) = some (some out))
    (hl : out.any Lifetime.isLocal = false) (σ : Lifetime → Lifetime) (hσ : out = (sigLts f lt).map σ) (τ : Lifetime → Reg) (hτ : τ .static = ⊤)
    (hτv : ∀ l ∈ out, l.isVariable = true → τ l ≠ ⊥) (hnt : (⊤ : Reg) ≠ ⊥) :
    ∃ ρ : Lifetime → Reg, RhoOk f lt ρ ∧ Sat ρ cs ∧ ∀ a ∈ sigLts f lt, ρ a = τ (σ a) := by
  rcases apply_spec ord hord cs hv _ (sigOk hf hlt) with ⟨-, e⟩ | ⟨hns, σ', e, h1, h2, h3, h4⟩
  · rw [e] at ho; simp at ho
  obtain ⟨σ'', e'', h5⟩ := apply_sound ord hord cs hv _ out (sigOk hf hlt) ho
  have hout : out = (sigLts f lt).map σ' := by
    rw [e] at ho; simp only [Option.some.injEq] at ho; exact ho.symm
  have same : ∀ {g g' : Lifetime → Lifetime}, out = (sigLts f lt).map g → out = (sigLts f lt).map g' → ∀ a ∈ sigLts f lt, g a = g' a := by
    intro g g' hg hg' a ha
    exact (List.map_inj_left (f := g) (g := g') (l := sigLts f lt)).mp (hg.symm.trans hg') a ha
  have s1 := same hσ hout
  have s2 := same hσ e''
  have hnl : ∀ a ∈ sigLts f lt, (σ a).isLocal = false := by
    intro a ha
    have hm : σ a ∈ out := by rw [hσ]; exact List.mem_map.mpr ⟨a, ha, rfl⟩
    have := List.any_eq_false.mp hl (σ a) hm
    simpa using this
  have hntl : ∀ a ∈ sigLts f lt, ¬ cs.ToLocal a := by
    intro a ha h
    have := (h2 a ha).1.mpr h
    rw [← s1 a ha, hnl a ha] at this; cases this
  let A : Lifetime → Set Reg := fun x => {y | (cs.Implies .static x ∧ y = ⊤) ∨ ∃ a ∈ sigLts f lt, cs.Implies a x ∧ y = τ (σ a)}
  have refl : ∀ x, cs.Implies x x := fun x le ho _ => ho.refl x
  have tr : ∀ {x y z}, cs.Implies x y → cs.Implies y z → cs.Implies x z :=
    fun h1 h2 le ho hh => ho.trans _ _ _ (h1 le ho hh) (h2 le ho hh)
  have hsig : ∀ a ∈ sigLts f lt, sSup (A a) = τ (σ a) := by
    intro a ha
    refine le_antisymm (sSup_le ?_) (le_sSup (Or.inr ⟨a, ha, refl a, rfl⟩))
    rintro y (⟨h, rfl⟩ | ⟨b, hb, hba, rfl⟩)
    · rw [s1 a ha, (h1 a ha).mpr h, hτ]
    · rcases h5 b hb a ha hba with h | h | h
      · rw [s2 a ha, s2 b hb, h]
      · rw [s2 a ha, h, hτ]; exact le_top
      · rw [← s2 b hb, hnl b hb] at h; cases h
  have hstat : sSup (A .static) = ⊤ := top_le_iff.mp (le_sSup (Or.inl ⟨refl _, rfl⟩))
  have hsig0 : ∀ a ∈ sigLts f lt, sSup (A a) ≠ ⊥ := by
    intro a ha
    rw [hsig a ha]
    have hm : σ a ∈ out := by rw [hσ]; exact List.mem_map.mpr ⟨a, ha, rfl⟩
    by_cases hst : cs.Implies .static a
    · rw [s1 a ha, (h1 a ha).mpr hst, hτ]; exact hnt
    · refine hτv _ hm ?_
      rw [s1 a ha]
      exact (h3 a ⟨ha, hst, hntl a ha⟩).2.1
  refine ⟨fun x => sSup (A x), ⟨hstat, fun l hl => ?_, fun o ho => ?_⟩, fun c hc => ?_, hsig⟩
  · refine le_bot_iff.mp (sSup_le ?_)
    rintro y (⟨h, rfl⟩ | ⟨a, ha, hal, rfl⟩)
    · exact absurd ⟨l, hl, h⟩ hns
    · exact absurd ⟨l, hl, hal⟩ (hntl a ha)
  · obtain ⟨r, k⟩ := o
    cases r with
    | ret =>
      refine hsig0 _ ((mem_sigLts f hf lt _).mpr (Or.inl ⟨k, ?_, ?_, rfl⟩))
      · exact ho.1
      · exact ho.2
    | lit => simp only [hlt.lit, hstat]; exact hnt
    | var v =>
      rcases ho.2 with h | h
      · exact hsig0 _ ((mem_sigLts f hf lt _).mpr (Or.inr ⟨v, k, h.1, h.2, ho.1, rfl⟩))
      · simp only [hlt.stat v k h.1, hstat]; exact hnt
  · refine sSup_le_sSup ?_
    have hstep : cs.Implies c.1 c.2 := fun le _ hh => hh c hc
    rintro y (⟨h, rfl⟩ | ⟨a, ha, h, rfl⟩)
    · exact Or.inl ⟨tr h hstep, rfl⟩
    · exact Or.inr ⟨a, ha, tr h hstep, rfl⟩

theorem Entry.congr {f : Fn} {W : World Reg} {sig sig' : Nat → Nat → Reg} {m : Mem} (h : Entry f W sig m)
    (he : ∀ p j, (f.vars p).kind = .param → 0 < j → j ≤ (f.vars p).ty.depth → sig p j = sig' p j) : Entry f W sig' m where
  params p hp := by
    rw [← regions_congr (r := sig p) (f.vars p).ty 0 fun j h1 h2 => he p j hp h1 (by omega)]
    exact h.params p hp
  statics := h.statics
  autos := h.autos
  cells := h.cells

theorem regions_top {r r' : Nat → Reg} (h : ∀ j, r j = ⊤) (h' : ∀ j, r' j = ⊤) : ∀ (t : Ty) (k k' : Nat), regions r t k = regions r' t k'
  | .int, _, _ => rfl
  | .ptr c t, k, k' => by simp only [regions]; rw [h, h', regions_top h h' t]

theorem conv_regions {r r' : Nat → Reg} (h : ∀ j, r j = ⊤) (h' : ∀ j, r' j = ⊤) : ∀ (t t' : Ty) (k k' : Nat), conv t t' → sub (regions r t k) (regions r' t' k')
  | .int, .int, _, _, _ => trivial
  | .int, .ptr .., _, _, hc => hc.elim
  | .ptr .., .int, _, _, hc => hc.elim
  | .ptr c t, .ptr c' t', k, k', ⟨h1, h2⟩ => by
    refine ⟨by rw [h, h'], h1, ?_⟩
    cases c' with
    | true => simp only [if_true] at h2 ⊢; exact conv_regions h h' t t' _ _ h2
    | false =>
      simp only [Bool.false_eq_true, if_false] at h2 ⊢
      subst h2
      exact regions_top h h' t _ _

theorem convc_regions {r r' : Nat → Reg} (h : ∀ j, r j = ⊤) (h' : ∀ j, r' j = ⊤) {c : Bool} {t t' : Ty} {k k' : Nat} (hc : convc c t t') :
    subc c (regions r t k) (regions r' t' k') := by
  unfold subc
  cases c with
  | true => exact conv_regions h h' t t' k k' hc
  | false =>
    have e : t = t' := by simpa [convc] using hc
    subst e
    exact regions_top h h' t k k'

/-- Everything reached from a static object has region ⊤. -/
theorem reach_top {f : Fn} (hf : FnOk f) {lt : Lts} {s : St} (hs : AInv f lt s) {ρ : Lifetime → Reg} (hst : ρ .static = ⊤) {cs : Constraints}
    (hsat : Sat ρ cs) {V : List Obj} (hV : ∀ o ∈ V, (Lifetime.static, lt o) ∈ cs ∧ ∀ x ∈ s.pt.get o, x ∈ V) : ∀ (t : Ty) (q : Obj),
    oty f q = t → Typed f q → q ∈ V → ∀ j, q.k ≤ j → j ≤ q.k + t.depth → ρ (lt ⟨q.root, j⟩) = ⊤
  | t, q, ht, hT, hq, j, h1, h2 => by
    by_cases e : j = q.k
    · subst e
      have := hsat _ (hV q hq).1
      simp only [hst] at this
      exact top_le_iff.mp this
    · cases t with
      | int => simp only [Ty.depth] at h2; omega
      | ptr c t =>
        obtain ⟨n1, n2⟩ := typed_next hf hs hT ht
        exact reach_top hf hs hst hsat hV t q.next (oty_next f q ht) n2 ((hV q hq).2 _ n1) j (by simp only [Obj.next]; omega)
          (by simp only [Obj.next, Ty.depth] at h2 ⊢; omega)

end

variable {f : Fn} {lt : Lts}

theorem infer_parts {ord : List Lifetime → List Lifetime} {s : St} {out : List Lifetime} (h : infer ord f lt s = some out) :
    ∃ cs, finalCs lt s = some cs ∧ cs.applyTo ord (sigLts f lt) = some (some out) ∧ out.any Lifetime.isLocal = false := by
  unfold infer at h
  simp only [Option.bind_eq_bind] at h
  obtain ⟨cs, h1, h⟩ := Option.bind_eq_some_iff.mp h
  obtain ⟨o1, h2, h⟩ := Option.bind_eq_some_iff.mp h
  obtain ⟨o2, h3, h⟩ := Option.bind_eq_some_iff.mp h
  subst h3
  simp only [Option.bind_some] at h
  split at h
  · cases h
  · next hn =>
    simp only [Option.some.injEq] at h
    subst h
    exact ⟨cs, h1, h2, by simpa using hn⟩

/-- C118: the inferred signature is sound. Its lifetimes are variables or `'static`. Take any caller, with any memory, any
regions (`Reg`, ordered by how long they live, ⊥ being the call itself) and any choice `τ` of regions longer than the call for the
lifetime variables of the inferred signature, such that the arguments fit the parameter types of the inferred signature. Then
whenever the function returns, on whichever path, the result fits the inferred return type, and the caller's memory and static
variables still hold only values that fit their types; so none of them points to a variable of the function. -/
theorem inferred_signature_sound (hf : FnOk f) (hlt : LtsOk f lt) {S : Nat → Option St} (hS : Stable f lt S)
    (ord : List Lifetime → List Lifetime) (hord : ∀ l, (ord l).Perm l) {s : St} (hs : S f.exit = some s) {out : List Lifetime}
    (hi : infer ord f lt s = some out) :
    (∀ l ∈ out, l.isVariable = true ∨ l = .static) ∧ (∃ σ : Lifetime → Lifetime, out = (sigLts f lt).map σ) ∧
    ∀ σ : Lifetime → Lifetime, out = (sigLts f lt).map σ →
    ∀ (Reg : Type) [CompleteLattice Reg] (τ : Lifetime → Reg), τ .static = ⊤ → (∀ l ∈ out, l.isVariable = true → τ l ≠ ⊥) → (⊤ : Reg) ≠ ⊥ →
    ∀ (W : World Reg) (m0 m : Mem) (r : Option Loc), Entry f W (fun p k => τ (σ (lt ⟨.var p, k⟩))) m0 → Exec f W.arr m0 f.exit m r →
      SafeExit f W (fun k => τ (σ (lt ⟨.ret, k⟩))) m r := by
  obtain ⟨cs, h1, h2, h3⟩ := infer_parts hi
  obtain ⟨hsub, V, hV0, hV⟩ := finalCs_spec lt s h1
  have ha := built_inv hf hlt (hS.built _ s hs)
  have hv : cs.Valid := finalCs_valid hlt _ _ _ _ _ _ ha.valid h1
  refine ⟨?_, ?_, ?_⟩
  · rcases apply_spec ord hord cs hv _ (sigOk hf hlt) with ⟨-, e⟩ | ⟨-, σ, e, e1, e2, e3, -⟩
    · rw [e] at h2; simp at h2
    · rw [e] at h2
      simp only [Option.some.injEq] at h2
      subst h2
      intro l hl
      obtain ⟨a, ha, rfl⟩ := List.mem_map.mp hl
      have hnl : (σ a).isLocal = false := by
        have := List.any_eq_false.mp h3 _ hl
        simpa using this
      by_cases hst : cs.Implies .static a
      · exact Or.inr ((e1 a ha).mpr hst)
      · refine Or.inl (e3 a ⟨ha, hst, fun h => ?_⟩).2.1
        have := (e2 a ha).1.mpr h
        rw [hnl] at this; cases this
  · obtain ⟨σ, h, -⟩ := apply_sound ord hord cs hv _ out (sigOk hf hlt) h2
    exact ⟨σ, h⟩
  · intro σ hσ Reg _ τ hτ hτv hnt W m0 m r hentry hexec
    obtain ⟨ρ, hρ, hsat, hag⟩ := exists_rho hf hlt ord hord hv h2 h3 σ hσ τ hτ hτv hnt
    have hentry' : Entry f W (fun p k => ρ (lt ⟨.var p, k⟩)) m0 := hentry.congr fun p j hp hj1 hj2 =>
      (hag _ ((mem_sigLts f hf lt _).mpr (Or.inr ⟨p, j, hp, hj1, hj2, rfl⟩))).symm
    obtain ⟨s', hs', hinv⟩ := exec_sound hf hρ hlt hS hentry' hexec
    rw [hs] at hs'
    cases hs'
    obtain ⟨hm, hr⟩ := hinv (hsat.anti hsub)
    refine ⟨?_, hm.cells, fun g hg => ?_⟩
    · have e : regions (fun k => τ (σ (lt ⟨.ret, k⟩))) f.retTy 0 = rty f lt ρ ⟨.ret, 0⟩ := by
        have ho : oty f ⟨.ret, 0⟩ = f.retTy := by simp [oty, rootTy, peel]
        unfold rty
        rw [ho]
        exact regions_congr _ _ fun j hj1 hj2 => (hag _ ((mem_sigLts f hf lt _).mpr (Or.inl ⟨j, hj1, by omega, rfl⟩))).symm
      rw [e]
      exact hr
    · cases ht : (f.vars g).ty with
      | int => trivial
      | ptr c t =>
        intro l hl
        obtain ⟨q, hq, hrv⟩ := hm.vars g 0 c t l ht (Or.inl rfl) hl
        have hgV : (⟨.var g, 0⟩ : Obj) ∈ V := by
          refine hV0 _ ?_
          unfold pointersWith
          refine List.mem_filter.mpr ⟨?_, by simp [hlt.stat g 0 hg]⟩
          obtain ⟨o, ho, -⟩ := s.pt.mem_of_get _ q hq
          exact List.mem_map.mpr ⟨_, ho, rfl⟩
        have hqV := (hV _ hgV).2 q hq
        obtain ⟨hc, ⟨v, i, -, rfl, hk, -⟩ | ⟨hT, hle, T, hT1, hT2⟩⟩ := hrv
        · exfalso
          have := hsat _ (hV _ hqV).1
          simp only [hρ.stat, hρ.loc _ (hlt.loc v hk)] at this
          exact hnt (le_bot_iff.mp this)
        · have htop := reach_top hf ha hρ.stat hsat hV _ q rfl hT hqV
          refine ⟨?_, T, hT1, ?_⟩
          · have := htop q.k (le_refl _) (by omega)
            rw [← this]; exact hle
          · refine subc_trans hT2 id ?_
            unfold rty
            rw [regions_congr (r' := fun _ => (⊤ : Reg)) _ _ fun j hj1 hj2 => htop j (by omega) hj2]
            exact convc_regions (fun _ => rfl) (fun _ => rfl) hc

/-- C119: the points-to sets are sound. Suppose a signature has been inferred and the arguments fit it. Whenever execution is at a
point from which the exit can be reached, and a variable holds the address of a variable of the function, the latter is in the
points-to set that the analysis has computed for the former at that point. -/
theorem points_to_sound (hf : FnOk f) (hlt : LtsOk f lt) {S : Nat → Option St} (hS : Stable f lt S)
    (ord : List Lifetime → List Lifetime) (hord : ∀ l, (ord l).Perm l) {s : St} (hs : S f.exit = some s) {out : List Lifetime}
    (hi : infer ord f lt s = some out) (σ : Lifetime → Lifetime) (hσ : out = (sigLts f lt).map σ)
    (Reg : Type) [CompleteLattice Reg] (τ : Lifetime → Reg) (hτ : τ .static = ⊤) (hτv : ∀ l ∈ out, l.isVariable = true → τ l ≠ ⊥)
    (hnt : (⊤ : Reg) ≠ ⊥) (W : World Reg) (m0 m : Mem) (r : Option Loc) (n : Nat) (hentry : Entry f W (fun p k => τ (σ (lt ⟨.var p, k⟩))) m0)
    (hexec : Exec f W.arr m0 n m r) (hreach : Relation.ReflTransGen (fun a b => b ∈ f.succ a) n f.exit) :
    ∃ sn, S n = some sn ∧ ∀ v u i, (f.vars v).ty ≠ .int → (f.vars u).kind ≠ .stat → m (.var v 0) = some (.var u i) →
      ⟨.var u, 0⟩ ∈ sn.pt.get ⟨.var v, 0⟩ := by
  obtain ⟨cs, h1, h2, h3⟩ := infer_parts hi
  obtain ⟨hsub, -⟩ := finalCs_spec lt s h1
  have ha := built_inv hf hlt (hS.built _ s hs)
  have hv : cs.Valid := finalCs_valid hlt _ _ _ _ _ _ ha.valid h1
  obtain ⟨ρ, hρ, hsat, hag⟩ := exists_rho hf hlt ord hord hv h2 h3 σ hσ τ hτ hτv hnt
  have hentry' : Entry f W (fun p k => ρ (lt ⟨.var p, k⟩)) m0 := hentry.congr fun p j hp hj1 hj2 =>
    (hag _ ((mem_sigLts f hf lt _).mpr (Or.inr ⟨p, j, hp, hj1, hj2, rfl⟩))).symm
  obtain ⟨sn, hsn, hinv⟩ := exec_sound hf hρ hlt hS hentry' hexec
  obtain ⟨s', hs', hcs⟩ := cs_reach hf hlt hS hreach hsn
  rw [hs] at hs'
  cases hs'
  obtain ⟨hm, -⟩ := hinv ((hsat.anti hsub).anti hcs)
  refine ⟨sn, hsn, fun v u i hv hu hmv => ?_⟩
  cases ht : (f.vars v).ty with
  | int => exact absurd ht hv
  | ptr c t =>
    obtain ⟨o, ho, hrv⟩ := hm.vars v 0 c t _ ht (Or.inl rfl) hmv
    obtain ⟨-, ⟨w, j, e, rfl, -⟩ | ⟨_, _, T, hT, _⟩⟩ := hrv
    · cases e; exact ho
    · simp [hty, hu] at hT

/-! ### `PropagateStaticToPointees` -/

theorem staticCheck_true (lt : Lts) (pt : Pts) (V : List Obj) (hV : ∀ o ∈ V, (lt o).isLocal = false ∧ ∀ x ∈ pt.get o, x ∈ V) (N : Nat) :
    ∀ (stack visited : List Obj), (∀ o ∈ stack, o ∈ V) → (V.filter fun o => decide (o ∉ visited)).length ≤ N →
      ∃ fuel, staticCheck lt pt fuel stack visited = some true := by
  induction N with
  | zero =>
    intro stack visited hst hN
    have hall : ∀ o ∈ V, o ∈ visited := by
      intro o ho
      by_contra hn
      have : o ∈ V.filter fun o => decide (o ∉ visited) := List.mem_filter.mpr ⟨ho, by simp [hn]⟩
      have := List.length_pos_of_mem this
      omega
    induction stack with
    | nil => exact ⟨0, rfl⟩
    | cons o stack ih =>
      have ho := hst o (by simp)
      suffices h : ∀ visited', (∀ o ∈ V, o ∈ visited') → ∃ fuel, staticCheck lt pt fuel (o :: stack) visited' = some true from h visited hall
      clear ih
      have hgen : ∀ (stack : List Obj), (∀ o ∈ stack, o ∈ V) → ∀ visited', (∀ o ∈ V, o ∈ visited') → ∃ fuel, staticCheck lt pt fuel stack visited' = some true := by
        intro stack
        induction stack with
        | nil => intros; exact ⟨0, rfl⟩
        | cons o stack ih =>
          intro hst visited' hv
          have ho := hst o (by simp)
          obtain ⟨fuel, hfu⟩ := ih (fun x hx => hst x (by simp [hx])) (visited' ++ [o]) (fun x hx => by simp [hv x hx])
          refine ⟨fuel + 1, ?_⟩
          have : (pt.get o).filter (fun x => decide (x ∉ visited' ++ [o])) = [] := by
            refine List.filter_eq_nil_iff.mpr fun x hx => ?_
            simp [hv x ((hV o ho).2 x hx)]
          simp only [staticCheck, (hV o ho).1, Bool.false_eq_true, if_false]
          rw [this]
          exact hfu
      exact fun visited' hv => hgen (o :: stack) hst visited' hv
  | succ N ih =>
    -- visiting something new
    have hnew : ∀ (o : Obj) (stack visited : List Obj), o ∈ V → o ∉ visited → (∀ x ∈ stack, x ∈ V) →
        (V.filter fun o => decide (o ∉ visited)).length ≤ N + 1 → ∃ fuel, staticCheck lt pt fuel (o :: stack) visited = some true := by
      intro o stack visited ho hn hst hN
      obtain ⟨fuel, hfu⟩ := ih (((pt.get o).filter (· ∉ visited ++ [o])).reverse ++ stack) (visited ++ [o])
        (by
          intro x hx
          rcases List.mem_append.mp hx with h | h
          · exact (hV o ho).2 x (List.mem_filter.mp (List.mem_reverse.mp h)).1
          · exact hst x h)
        (by
          have hlt : (V.filter fun x => decide (x ∉ visited ++ [o])).length < (V.filter fun x => decide (x ∉ visited)).length := by
            have : (V.filter fun x => decide (x ∉ visited ++ [o])) = (V.filter fun x => decide (x ∉ visited)).filter fun x => decide (x ≠ o) := by
              rw [List.filter_filter]
              refine List.filter_congr fun x _ => ?_
              by_cases h1 : x ∈ visited <;> by_cases h2 : x = o <;> simp [h1, h2]
            rw [this]
            refine List.length_filter_lt_length_iff_exists.mpr ⟨o, List.mem_filter.mpr ⟨ho, by simp [hn]⟩, by simp⟩
          omega)
      refine ⟨fuel + 1, ?_⟩
      simp only [staticCheck, (hV o ho).1, Bool.false_eq_true, if_false]
      exact hfu
    intro stack
    induction stack with
    | nil => intro visited _ _; exact ⟨0, rfl⟩
    | cons o stack ihs =>
      intro visited hst hN
      have ho := hst o (by simp)
      have hst' : ∀ x ∈ stack, x ∈ V := fun x hx => hst x (by simp [hx])
      by_cases hn : o ∈ visited
      · -- visited before
        have hN' : (V.filter fun x => decide (x ∉ visited ++ [o])).length ≤ N + 1 := by
          have : (V.filter fun x => decide (x ∉ visited ++ [o])) = V.filter fun x => decide (x ∉ visited) := by
            refine List.filter_congr fun x _ => ?_
            by_cases h2 : x = o
            · subst h2; simp [hn]
            · simp [h2]
          rw [this]; exact hN
        have hnx : ∃ fuel, staticCheck lt pt fuel (((pt.get o).filter (· ∉ visited ++ [o])).reverse ++ stack) (visited ++ [o]) = some true := by
          cases hr : ((pt.get o).filter (· ∉ visited ++ [o])).reverse with
          | nil => exact ihs _ hst' hN'
          | cons x xs =>
            have hmem : ∀ y ∈ x :: xs, y ∈ pt.get o ∧ y ∉ visited ++ [o] := by
              intro y hy
              rw [← hr, List.mem_reverse, List.mem_filter] at hy
              exact ⟨hy.1, by simpa using hy.2⟩
            refine hnew x _ _ ((hV o ho).2 x (hmem x (by simp)).1) (hmem x (by simp)).2 ?_ hN'
            intro y hy
            rcases List.mem_append.mp hy with h | h
            · exact (hV o ho).2 y (hmem y (by simp [h])).1
            · exact hst' y h
        obtain ⟨fuel, hfu⟩ := hnx
        refine ⟨fuel + 1, ?_⟩
        simp only [staticCheck, (hV o ho).1, Bool.false_eq_true, if_false]
        exact hfu
      · exact hnew o stack visited ho hn hst' hN

/-- C120: the loop that adds constraints for static pointers always stops. If a signature is inferred, then nothing that can be
reached from a static object through the points-to map is a local object; the check of `PropagateStaticToPointees`, which comes
after, stops and finds nothing more. -/
theorem static_reaches_no_local (hf : FnOk f) (hlt : LtsOk f lt) {S : Nat → Option St} (hS : Stable f lt S)
    (ord : List Lifetime → List Lifetime) (hord : ∀ l, (ord l).Perm l) {s : St} (hs : S f.exit = some s) :
    (∃ cs, finalCs lt s = some cs) ∧
    ∀ out, infer ord f lt s = some out →
      (∀ a b, a ∈ AMap.keys s.pt → lt a = .static → Relation.ReflTransGen (fun x y => y ∈ s.pt.get x) a b → (lt b).isLocal = false) ∧
      ∃ fuel, staticCheck lt s.pt fuel (pointersWith lt s.pt .static).reverse [] = some true := by
  refine ⟨staticReach_terminates lt s, fun out hi => ?_⟩
  obtain ⟨cs, h1, h2, h3⟩ := infer_parts hi
  obtain ⟨hsub, V, hV0, hV⟩ := finalCs_spec lt s h1
  have ha := built_inv hf hlt (hS.built _ s hs)
  have hv : cs.Valid := finalCs_valid hlt _ _ _ _ _ _ ha.valid h1
  have hns : ¬ cs.ToLocal .static := by
    rcases apply_spec ord hord cs hv _ (sigOk hf hlt) with ⟨-, e⟩ | ⟨h, -⟩
    · rw [e] at h2; simp at h2
    · exact h
  have hloc : ∀ o ∈ V, (lt o).isLocal = false := by
    intro o ho
    cases hl : (lt o).isLocal with
    | false => rfl
    | true => exact absurd ⟨lt o, hl, fun le _ hh => hh _ (hV o ho).1⟩ hns
  refine ⟨fun a b hka hla hab => ?_, ?_⟩
  · have : b ∈ V := by
      induction hab with
      | refl => exact hV0 a (List.mem_filter.mpr ⟨hka, by simp [hla]⟩)
      | tail _ hstep ih => exact (hV _ ih).2 _ hstep
    exact hloc b this
  · exact staticCheck_true lt s.pt V (fun o ho => ⟨hloc o ho, (hV o ho).2⟩) _ _ [] (fun o ho => hV0 o (by simpa using ho)) (le_refl _)

end Verif.PtsTo

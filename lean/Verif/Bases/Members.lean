import Verif.Bases.Listed
/-
The member functions of bases that become methods (C140).
-/
namespace Verif.Bases

/-- The functions among `l` that have bindings and the Rust name `n`. -/
def named (l : List Func) (n : Option String) : List Func := l.filter (fun g => g.generates && g.rsName == n)

theorem named_nil {n} : named [] n = [] := rfl

theorem named_snoc (l : List Func) (f : Func) (n) :
    named (l ++ [f]) n = named l n ++ (if f.generates && f.rsName == n then [f] else []) := by
  unfold named
  rw [List.filter_append]
  congr 1
  simp [List.filter_cons]

/-- What the map holds after the functions `l`. -/
structure Counts (own l : List Func) (m : List (Option String × (Func × Nat))) : Prop where
  keys : (m.map Prod.fst).Nodup
  count : ∀ n f k, (n, (f, k)) ∈ m ↔ own.any (fun g => g.rsName == n) = false ∧ k = (named l n).length ∧ (named l n).head? = some f

theorem lookup_mem {β} : ∀ {m : List (Option String × β)} {n v}, m.lookup n = some v → (n, v) ∈ m
  | [], n, v, h => by simp at h
  | (a, b) :: m, n, v, h => by
    rw [List.lookup_cons] at h
    split at h
    · rename_i he
      cases h
      have := eq_of_beq he
      simp [this]
    · exact List.mem_cons.2 (.inr (lookup_mem h))

theorem lookup_not_mem {β} : ∀ {m : List (Option String × β)} {n}, m.lookup n = none → n ∉ m.map Prod.fst
  | [], n, h => by simp
  | (a, b) :: m, n, h => by
    rw [List.lookup_cons] at h
    split at h
    · cases h
    · rename_i he
      have := lookup_not_mem h
      simp only [List.map_cons, List.mem_cons, not_or]
      exact ⟨by simpa using he, this⟩

theorem head_append_of_ne {l r : List Func} (h : l ≠ []) : (l ++ r).head? = l.head? := by
  cases l with
  | nil => exact absurd rfl h
  | cons a l => rfl

theorem Counts.nil (own : List Func) : Counts own [] [] := ⟨by simp, by simp [named]⟩

theorem Counts.step {own l : List Func} {m} (h : Counts own l m) (f : Func) : Counts own (l ++ [f]) (countFunc own m f) := by
  unfold countFunc
  split
  · rename_i hg
    have hg : f.generates = false := by simpa using hg
    have : ∀ n, named (l ++ [f]) n = named l n := fun n => by rw [named_snoc]; simp [hg]
    exact ⟨h.keys, fun n g k => by rw [this]; exact h.count n g k⟩
  · rename_i hg
    have hg : f.generates = true := by simpa using hg
    split
    · rename_i ho
      refine ⟨h.keys, fun n g k => ?_⟩
      rw [h.count]
      by_cases hn : f.rsName = n
      · subst hn; simp [ho]
      · have : named (l ++ [f]) n = named l n := by rw [named_snoc]; simp [hn]
        rw [this]
    · rename_i ho
      have ho : own.any (fun g => g.rsName == f.rsName) = false := by simpa using ho
      have hother : ∀ n, f.rsName ≠ n → named (l ++ [f]) n = named l n := fun n hn => by rw [named_snoc]; simp [hn]
      have hself : named (l ++ [f]) f.rsName = named l f.rsName ++ [f] := by rw [named_snoc]; simp [hg]
      split
      · rename_i v hv
        have hmem := lookup_mem hv
        obtain ⟨g0, k0⟩ := v
        have h0 := (h.count _ _ _).1 hmem
        have hne : named l f.rsName ≠ [] := by intro e; rw [e] at h0; simp at h0
        refine ⟨?_, fun n g k => ?_⟩
        · have : (m.map (fun e => if e.1 == f.rsName then (e.1, (e.2.1, e.2.2 + 1)) else e)).map Prod.fst = m.map Prod.fst := by
            rw [List.map_map]
            apply List.map_congr_left
            intro e _
            simp only [Function.comp]
            split <;> rfl
          rw [this]
          exact h.keys
        · rw [List.mem_map]
          constructor
          · rintro ⟨⟨n', g', k'⟩, he, heq⟩
            have h1 := (h.count _ _ _).1 he
            simp only at heq
            split at heq
            · rename_i hn
              have hn : n' = f.rsName := by simpa using hn
              cases heq
              subst hn
              refine ⟨ho, ?_, ?_⟩
              · rw [hself, List.length_append, ← h1.2.1]; rfl
              · rw [hself, head_append_of_ne hne]; exact h1.2.2
            · rename_i hn
              cases heq
              rw [hother _ (by intro e; exact hn (by simp [e]))]
              exact h1
          · rintro ⟨h1, h2, h3⟩
            by_cases hn : f.rsName = n
            · subst hn
              rw [hself, head_append_of_ne hne] at h3
              refine ⟨(f.rsName, g, (named l f.rsName).length), (h.count _ _ _).2 ⟨h1, rfl, h3⟩, ?_⟩
              rw [hself, List.length_append] at h2
              simp [h2]
            · rw [hother _ hn] at h2 h3
              exact ⟨(n, g, k), (h.count _ _ _).2 ⟨h1, h2, h3⟩, by simp [show ¬ n = f.rsName from fun e => hn e.symm]⟩
      · rename_i hv
        have hnm := lookup_not_mem hv
        have hempty : named l f.rsName = [] := by
          cases hc : named l f.rsName with
          | nil => rfl
          | cons g r =>
            exact absurd (List.mem_map.2 ⟨_, (h.count f.rsName g _).2 ⟨ho, rfl, by rw [hc]; rfl⟩, rfl⟩) hnm
        refine ⟨?_, fun n g k => ?_⟩
        · rw [List.map_append, List.nodup_append]
          refine ⟨h.keys, by simp, ?_⟩
          intro a ha b hb hab
          subst hab
          simp at hb
          exact hnm (hb ▸ ha)
        · rw [List.mem_append, h.count]
          by_cases hn : f.rsName = n
          · subst hn
            rw [hself, hempty]
            simp [ho]
            constructor
            · rintro ⟨rfl, rfl⟩; exact ⟨rfl, rfl⟩
            · rintro ⟨rfl, rfl⟩; exact ⟨rfl, rfl⟩
          · rw [hother _ hn]
            constructor
            · rintro (h | h)
              · exact h
              · simp at h; exact absurd h.1.symm hn
            · exact .inl

theorem Counts.foldl {own : List Func} : ∀ (r l : List Func) {m}, Counts own l m → Counts own (l ++ r) (r.foldl (countFunc own) m)
  | [], l, m, h => by simpa using h
  | f :: r, l, m, h => by
    have := Counts.foldl r (l ++ [f]) (h.step f)
    simpa using this

/-- The order of a sorted list of functions: by name. -/
def nameOf (f : Func) : String := f.rsName.getD ""

/-- `sort` sorts by name. -/
structure SortsByName (sort : List Func → List Func) : Prop where
  perm : ∀ l, (sort l).Perm l
  sorted : ∀ l, (sort l).Pairwise (fun a b => nameOf a ≤ nameOf b)

/-- `values` gives the entries of the map in some order. -/
def Shuffles (values : List (Option String × (Func × Nat)) → List (Option String × (Func × Nat))) : Prop := ∀ m, (values m).Perm m

theorem mem_filterAmbiguous {values sort} (hv : Shuffles values) (hs : SortsByName sort) (own inherited : List Func) (f : Func) :
    f ∈ filterAmbiguous values sort own inherited ↔
      (unqualified own).any (fun g => g.rsName == f.rsName) = false ∧ named inherited f.rsName = [f] := by
  have hc := Counts.foldl inherited [] (Counts.nil (unqualified own))
  rw [List.nil_append] at hc
  unfold filterAmbiguous
  rw [(hs.perm _).mem_iff, List.mem_filterMap]
  constructor
  · rintro ⟨⟨n, g, k⟩, he, hif⟩
    rw [(hv _).mem_iff, hc.count] at he
    simp only at hif
    split at hif
    · rename_i hk
      have hk : k = 1 := by simpa using hk
      cases hif
      subst hk
      obtain ⟨h1, h2, h3⟩ := he
      have hl : named inherited n = [f] := by
        cases hnm : named inherited n with
        | nil => rw [hnm] at h3; simp at h3
        | cons a r =>
          rw [hnm] at h2 h3
          simp at h2 h3
          cases r with
          | nil => rw [h3]
          | cons _ _ => simp at h2
      have hfn : f.rsName = n := by
        have : f ∈ named inherited n := by rw [hl]; simp
        unfold named at this
        rw [List.mem_filter] at this
        simpa using (Bool.and_eq_true_iff.1 this.2).2
      subst hfn
      exact ⟨h1, hl⟩
    · cases hif
  · rintro ⟨h1, h2⟩
    refine ⟨(f.rsName, f, 1), ?_, by simp⟩
    rw [(hv _).mem_iff, hc.count]
    exact ⟨h1, by rw [h2]; rfl, by rw [h2]; rfl⟩

theorem mem_fromAllBases {children : Nat → List Func} {bases : List (Nat × Option Nat)} {f : Func} :
    f ∈ fromAllBases children bases ↔ ∃ b ∈ bases, f ∈ children b.1 ∧ f.rsName.isSome := by
  simp [fromAllBases, unqualified, List.mem_flatMap, List.mem_filter]

theorem named_flatMap_ge {children : Nat → List Func} {g : Func} {n : Option String} (hg : g.generates = true) (hn : g.rsName = n)
    (hs : g.rsName.isSome = true) : ∀ {bases : List (Nat × Option Nat)} {b}, b ∈ bases → g ∈ children b.1 →
    g ∈ named (fromAllBases children bases) n := by
  intro bases b hb hm
  unfold named
  rw [List.mem_filter, mem_fromAllBases]
  exact ⟨⟨b, hb, hm, hs⟩, by simp [hg, hn]⟩

/-- Functions with the same name in different bases are counted separately, even if they look the same. -/
theorem named_one_base {children : Nat → List Func} {n : Option String} {f : Func} : ∀ {bases : List (Nat × Option Nat)},
    named (fromAllBases children bases) n = [f] → (bases.map Prod.fst).Nodup →
    ∀ b ∈ bases, ∀ b' ∈ bases, ∀ g ∈ children b.1, ∀ g' ∈ children b'.1, g.rsName.isSome = true → g.generates = true → g.rsName = n →
      g'.rsName.isSome = true → g'.generates = true → g'.rsName = n → b = b'
  | [], _, _ => fun b hb => by simp at hb
  | a :: r, h, hn => by
    intro b hb b' hb' g hg g' hg' h1 h2 h3 h1' h2' h3'
    have happ : named (fromAllBases children (a :: r)) n = named (unqualified (children a.1)) n ++ named (fromAllBases children r) n := by
      unfold named fromAllBases
      rw [List.flatMap_cons, List.filter_append]
    have here : ∀ g, g ∈ children a.1 → g.rsName.isSome = true → g.generates = true → g.rsName = n →
        g ∈ named (unqualified (children a.1)) n := by
      intro g hg h1 h2 h3
      unfold named unqualified
      rw [List.mem_filter, List.mem_filter]
      exact ⟨⟨hg, h1⟩, by simp [h2, h3]⟩
    rw [happ] at h
    have hlen := congrArg List.length h
    rw [List.length_append] at hlen
    simp only [List.length_cons, List.length_nil] at hlen
    rw [List.map_cons, List.nodup_cons] at hn
    rcases List.mem_cons.1 hb with rfl | hb
    · rcases List.mem_cons.1 hb' with rfl | hb'
      · rfl
      · have p1 := List.length_pos_of_mem (here g hg h1 h2 h3)
        have p2 := List.length_pos_of_mem (named_flatMap_ge h2' h3' h1' hb' hg')
        omega
    · have p2 := List.length_pos_of_mem (named_flatMap_ge h2 h3 h1 hb hg)
      rcases List.mem_cons.1 hb' with rfl | hb'
      · have p1 := List.length_pos_of_mem (here g' hg' h1' h2' h3')
        omega
      · have hz : named (unqualified (children a.1)) n = [] := by
          cases hz : named (unqualified (children a.1)) n with
          | nil => rfl
          | cons _ _ => rw [hz] at hlen; simp at hlen; omega
        rw [hz, List.nil_append] at h
        exact named_one_base h hn.2 b hb b' hb' g hg g' hg' h1 h2 h3 h1' h2' h3'

/-- The functions of the class and its bases that the IR has, against what C++ declares: every declaration of the name `n` in the class and
its bases is a function that has bindings, under its own name, and is in the class or in a base that is listed. -/
structure Visible (children : Nat → List Func) (declares : Nat → Prop) (d : Cls) (listed : List Nat) (n : String) : Prop where
  func : ∀ k g, IsSubobject d k g → declares g → ∃ h ∈ children g, h.rsName = some n ∧ h.generates = true
  base : ∀ g, IsBase d g → declares g → g ∈ listed

/-- C140: a function that is inherited is the one that C++ finds: it is in a base to which there is an upcast, and in every object member
name lookup finds the declarations of that base, in its one subobject. -/
theorem inherited_found (values sort) (hv : Shuffles values) (hs : SortsByName sort) (children : Nat → List Func) (offset : Nat → Nat → Nat)
    (imported : Nat → Bool) (d : Cls) (hp : d.Proper) (f : Func) (n : String) (hn : f.rsName = some n)
    (declares : Nat → Prop) (hdecl : ∀ g, f ∈ children g → declares g)
    (hvis : Visible children declares d ((unambiguousPublicBases offset imported d).map Prod.fst) n)
    (hf : f ∈ inheritedFunctions values sort children offset imported d) :
    ∃ F, F ∈ (unambiguousPublicBases offset imported d).map Prod.fst ∧ f ∈ children F ∧
      (∃ k, IsSubobject d k F) ∧ ∀ k, IsSubobject d k F → Finds declares d k F ∧ ∀ k' F', Finds declares d k' F' → k' = k ∧ F' = F := by
  unfold inheritedFunctions at hf
  rw [mem_filterAmbiguous hv hs] at hf
  obtain ⟨hown, hone⟩ := hf
  obtain ⟨hl, hnd⟩ := listed_convertible d hp offset imported
  have hfin : f ∈ named (fromAllBases children (unambiguousPublicBases offset imported d)) f.rsName := by rw [hone]; simp
  have hgen : f.generates = true := by
    unfold named at hfin
    rw [List.mem_filter] at hfin
    exact (Bool.and_eq_true_iff.1 hfin.2).1
  have hfin' := (List.mem_filter.1 hfin).1
  rw [mem_fromAllBases] at hfin'
  obtain ⟨b, hb, hfb, hsome⟩ := hfin'
  have hconv := (hl b hb).1
  -- all declarations are in that base
  have only : ∀ k g, IsSubobject d k g → declares g → g = b.1 := by
    intro k g hk hg
    obtain ⟨h, hh, hhn, hhg⟩ := hvis.func k g hk hg
    obtain ⟨p, c, hw, hc, _⟩ := hk
    by_cases hpe : p = []
    · subst hpe
      cases hw
      exfalso
      have : (unqualified (children d.id)).any (fun g => g.rsName == f.rsName) = true := by
        rw [List.any_eq_true]
        exact ⟨h, List.mem_filter.2 ⟨hc ▸ hh, by simp [hhn]⟩, by simp [hhn, hn]⟩
      rw [this] at hown
      cases hown
    · have hgl := hvis.base g ⟨p, c, hw, hpe, hc⟩ hg
      obtain ⟨b', hb', rfl⟩ := List.mem_map.1 hgl
      have := named_one_base hone hnd b' hb' b hb h hh f hfb (by simp [hhn]) hhg (by rw [hhn, hn]) hsome hgen rfl
      rw [this]
  obtain ⟨⟨p, c, hw, hpne, hc⟩, hun, _⟩ := hconv
  refine ⟨b.1, List.mem_map.2 ⟨b, hb, rfl⟩, hfb, ⟨subobject p, p, c, hw, hc, rfl⟩, fun k hk => ⟨⟨hk, hdecl _ hfb, ?_⟩, ?_⟩⟩
  · intro k' g hk' hg
    have := only k' g hk' hg
    subst this
    have := hun k' k hk' hk
    subst this
    obtain ⟨q, c', hw', _, he⟩ := hk'
    exact ⟨q, c', [], c', hw', .nil _, he, by simpa using he⟩
  · rintro k' F' ⟨h1, h2, _⟩
    have := only k' F' h1 h2
    subst this
    exact ⟨hun _ _ h1 hk, rfl⟩

/-- C140: which functions are inherited: those of the bases with upcasts whose name no other function of those bases has, and none of the
class itself. -/
theorem inherited_iff (values sort) (hv : Shuffles values) (hs : SortsByName sort) (children : Nat → List Func) (offset : Nat → Nat → Nat)
    (imported : Nat → Bool) (d : Cls) (hp : d.Proper) (hnodup : ∀ c, (children c).Nodup) (f : Func) :
    f ∈ inheritedFunctions values sort children offset imported d ↔
      f.generates = true ∧ f.rsName.isSome = true ∧ (∀ g ∈ children d.id, g.rsName ≠ f.rsName) ∧
      ∃ F ∈ (unambiguousPublicBases offset imported d).map Prod.fst, f ∈ children F ∧
        ∀ G ∈ (unambiguousPublicBases offset imported d).map Prod.fst, ∀ g ∈ children G, g.generates = true → g.rsName = f.rsName →
          G = F ∧ g = f := by
  have hnd := (listed_convertible d hp offset imported).2
  unfold inheritedFunctions
  rw [mem_filterAmbiguous hv hs]
  constructor
  · rintro ⟨hown, hone⟩
    have hfin : f ∈ named (fromAllBases children (unambiguousPublicBases offset imported d)) f.rsName := by rw [hone]; simp
    have hgen : f.generates = true := (Bool.and_eq_true_iff.1 (List.mem_filter.1 hfin).2).1
    obtain ⟨b, hb, hfb, hsome⟩ := mem_fromAllBases.1 (List.mem_filter.1 hfin).1
    refine ⟨hgen, hsome, fun g hg he => ?_, b.1, List.mem_map.2 ⟨b, hb, rfl⟩, hfb, ?_⟩
    · rw [List.any_eq_false] at hown
      exact hown g (List.mem_filter.2 ⟨hg, by rw [he]; exact hsome⟩) (by simp [he])
    · intro G hG g hg hgg hgn
      obtain ⟨b', hb', rfl⟩ := List.mem_map.1 hG
      have hgs : g.rsName.isSome = true := by rw [hgn]; exact hsome
      refine ⟨by rw [named_one_base hone hnd b' hb' b hb g hg f hfb hgs hgg hgn hsome hgen rfl], ?_⟩
      have := named_flatMap_ge hgg hgn hgs hb' hg
      rw [hone] at this
      simpa using this
  · rintro ⟨hgen, hsome, hown, F, hF, hfF, hall⟩
    constructor
    · rw [List.any_eq_false]
      intro g hg he
      exact hown g (List.mem_filter.1 hg).1 (by simpa using he)
    · obtain ⟨b, hb, rfl⟩ := List.mem_map.1 hF
      -- no function occurs twice
      have hnod : ∀ (bs : List (Nat × Option Nat)), (∀ x ∈ bs, x ∈ unambiguousPublicBases offset imported d) →
          (bs.map Prod.fst).Nodup → (named (fromAllBases children bs) f.rsName).Nodup := by
        intro bs
        induction bs with
        | nil => intro _ _; simp [fromAllBases, named]
        | cons a r ih =>
          intro hsub hn
          rw [List.map_cons, List.nodup_cons] at hn
          have happ : named (fromAllBases children (a :: r)) f.rsName =
              named (unqualified (children a.1)) f.rsName ++ named (fromAllBases children r) f.rsName := by
            unfold named fromAllBases
            rw [List.flatMap_cons, List.filter_append]
          rw [happ, List.nodup_append]
          refine ⟨((hnodup a.1).filter _).filter _, ih (fun x hx => hsub x (by simp [hx])) hn.2, ?_⟩
          intro x hx y hy hxy
          subst hxy
          have hx' := List.mem_filter.1 hx
          have hy' := List.mem_filter.1 hy
          obtain ⟨b', hb', hxb', _⟩ := mem_fromAllBases.1 hy'.1
          have hxa := (List.mem_filter.1 hx'.1).1
          have hxg := (Bool.and_eq_true_iff.1 hx'.2)
          have e1 := hall a.1 (List.mem_map.2 ⟨a, hsub a (by simp), rfl⟩) x hxa hxg.1 (by simpa using hxg.2)
          have e2 := hall b'.1 (List.mem_map.2 ⟨b', hsub b' (by simp [hb']), rfl⟩) x hxb' hxg.1 (by simpa using hxg.2)
          exact hn.1 (List.mem_map.2 ⟨b', hb', e2.1.trans e1.1.symm⟩)
      have hmem := named_flatMap_ge hgen rfl hsome hb hfF
      have hall' : ∀ g ∈ named (fromAllBases children (unambiguousPublicBases offset imported d)) f.rsName, g = f := by
        intro g hg
        have hg' := List.mem_filter.1 hg
        obtain ⟨b', hb', hgb', _⟩ := mem_fromAllBases.1 hg'.1
        have hgg := (Bool.and_eq_true_iff.1 hg'.2)
        exact (hall b'.1 (List.mem_map.2 ⟨b', hb', rfl⟩) g hgb' hgg.1 (by simpa using hgg.2)).2
      have hN := hnod _ (fun x hx => hx) hnd
      generalize named (fromAllBases children (unambiguousPublicBases offset imported d)) f.rsName = l at hmem hall' hN
      cases l with
      | nil => simp at hmem
      | cons a r =>
        have ha := hall' a (by simp)
        subst ha
        cases r with
        | nil => rfl
        | cons b r =>
          have hb := hall' b (by simp)
          subst hb
          simp at hN

theorem filterAmbiguous_names {values sort} (hv : Shuffles values) (hs : SortsByName sort) (own inherited : List Func) :
    (filterAmbiguous values sort own inherited).Nodup := by
  have hc := Counts.foldl inherited [] (Counts.nil (unqualified own))
  rw [List.nil_append] at hc
  unfold filterAmbiguous
  rw [(hs.perm _).nodup_iff, List.Perm.nodup_iff ((hv _).filterMap _)]
  have hk := hc.keys
  have hcount := hc.count
  clear hc
  generalize inherited.foldl (countFunc (unqualified own)) [] = m at hk hcount
  have hname : ∀ e ∈ m, e.2.1.rsName = e.1 := by
    rintro ⟨n, f, k⟩ he
    have h := ((hcount _ _ _).1 he).2.2
    have : f ∈ named inherited n := List.mem_of_head? h
    simpa using (Bool.and_eq_true_iff.1 (List.mem_filter.1 this).2).2
  clear hcount
  induction m with
  | nil => simp
  | cons e m ih =>
    rw [List.map_cons, List.nodup_cons] at hk
    have ih := ih hk.2 (fun x hx => hname x (by simp [hx]))
    rw [List.filterMap_cons]
    split
    · exact ih
    · rename_i f hf
      rw [List.nodup_cons]
      refine ⟨fun hin => ?_, ih⟩
      obtain ⟨e', he', hf'⟩ := List.mem_filterMap.1 hin
      have a1 : e.2.1 = f := by split at hf <;> simp_all
      have a2 : e'.2.1 = f := by split at hf' <;> simp_all
      have := hname e (by simp)
      have h2 := hname e' (by simp [he'])
      rw [a1] at this
      rw [a2, this] at h2
      exact hk.1 (List.mem_map.2 ⟨e', he', h2.symm⟩)

/-- C140: the methods, and their order, do not depend on the order of the hash map. -/
theorem inherited_deterministic (values values' sort sort') (hv : Shuffles values) (hv' : Shuffles values') (hs : SortsByName sort)
    (hs' : SortsByName sort') (children : Nat → List Func) (offset : Nat → Nat → Nat) (imported : Nat → Bool) (d : Cls) :
    inheritedFunctions values sort children offset imported d = inheritedFunctions values' sort' children offset imported d := by
  unfold inheritedFunctions
  have hsome : ∀ {values sort}, Shuffles values → SortsByName sort → ∀ {f}, f ∈ filterAmbiguous values sort (children d.id)
      (fromAllBases children (unambiguousPublicBases offset imported d)) → f.rsName.isSome = true ∧
      named (fromAllBases children (unambiguousPublicBases offset imported d)) f.rsName = [f] := by
    intro values sort hv hs f hf
    have hone := ((mem_filterAmbiguous hv hs _ _ _).1 hf).2
    have : f ∈ named (fromAllBases children (unambiguousPublicBases offset imported d)) f.rsName := by rw [hone]; simp
    obtain ⟨_, _, _, h⟩ := mem_fromAllBases.1 (List.mem_filter.1 this).1
    exact ⟨h, hone⟩
  refine List.Perm.eq_of_pairwise (le := fun a b => nameOf a ≤ nameOf b) ?_ (hs.sorted _) (hs'.sorted _) ?_
  · intro a b ha hb h1 h2
    obtain ⟨a1, a2⟩ := hsome hv hs ha
    obtain ⟨b1, b2⟩ := hsome hv' hs' hb
    have he : nameOf a = nameOf b := String.le_antisymm h1 h2
    have : a.rsName = b.rsName := by
      obtain ⟨x, hx⟩ := Option.isSome_iff_exists.1 a1
      obtain ⟨y, hy⟩ := Option.isSome_iff_exists.1 b1
      simp only [nameOf, hx, hy, Option.getD_some] at he
      rw [hx, hy, he]
    rw [this, b2] at a2
    simpa using a2.symm
  · refine (List.perm_ext_iff_of_nodup (filterAmbiguous_names hv hs _ _) (filterAmbiguous_names hv' hs' _ _)).2 (fun f => ?_)
    rw [mem_filterAmbiguous hv hs, mem_filterAmbiguous hv' hs']

end Verif.Bases

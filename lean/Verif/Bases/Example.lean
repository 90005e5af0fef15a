import Verif.Bases.Members
/-
Concrete hierarchies for C138-C140, and cases in which crubit and C++ do not agree.
-/
namespace Verif.Bases.Example

mutual
def clsAll : Cls → List Cls
  | .mk n b => .mk n b :: basesAll b
def basesAll : Bases → List Cls
  | .nil => []
  | .cons _ c rest => clsAll c ++ basesAll rest
end

theorem has_all : ∀ {bs s c}, Bases.Has bs s c → ∀ x ∈ clsAll c, x ∈ basesAll bs
  | _, _, _, .head s c rest, x, hx => by rw [basesAll]; simp [hx]
  | _, _, _, .tail s c rest s' c' h, x, hx => by rw [basesAll]; simp [has_all h x hx]

theorem way_all : ∀ {a p c}, Way a p c → c ∈ clsAll a
  | _, _, _, .nil (.mk n b) => by simp [clsAll]
  | _, _, _, .step (.mk n bs) s b p c h1 h2 => by
    rw [clsAll]
    exact List.mem_cons.2 (.inr (has_all h1 _ (way_all h2)))

theorem proper_of {d : Cls} (h : ∀ a ∈ clsAll d, ∀ b ∈ clsAll d, a.id = b.id → a = b) (h' : ∀ a ∈ clsAll d, a.bases.ids.Nodup) : d.Proper :=
  ⟨fun _ _ _ _ h1 h2 => h _ (way_all h1) _ (way_all h2), fun _ _ h1 => h' _ (way_all h1)⟩

def pubV : BSpec := { virt := true }
def pub : BSpec := {}
def priv : BSpec := { acc := .priv }

/-! ### `struct V {…}; struct A : virtual V {…}; struct B : virtual V {…}; struct D : A, B {…};` -/

abbrev V : Cls := .mk 0 .nil
abbrev A : Cls := .mk 1 (.cons pubV V .nil)
abbrev B : Cls := .mk 2 (.cons pubV V .nil)
abbrev D : Cls := .mk 3 (.cons pub A (.cons pub B .nil))

def off (c b : Nat) : Nat := if c = 3 ∧ b = 2 then 8 else 0

theorem diamond_listed : unambiguousPublicBases off (fun _ => true) D = [(1, some 0), (0, none), (2, some 8)] := by decide +kernel

theorem D_proper : D.Proper := by
  refine proper_of ?_ ?_
  · intro a ha b hb he
    simp [clsAll, basesAll] at ha hb
    rcases ha with rfl | rfl | rfl | rfl | rfl <;> rcases hb with rfl | rfl | rfl | rfl | rfl <;> simp_all [Cls.id]
  · intro a ha
    simp [clsAll, basesAll] at ha
    rcases ha with rfl | rfl | rfl | rfl | rfl <;> simp [Cls.bases, Bases.ids, Cls.id]

/-- The bases of this `D` are all convertible to. -/
theorem diamond_convertible : ∀ f ∈ [0, 1, 2], Convertible D f := by
  intro f hf
  have := (listed_convertible D D_proper off (fun _ => true)).1
  simp at hf
  rcases hf with rfl | rfl | rfl
  · exact (this (0, none) (by decide +kernel)).1
  · exact (this (1, some 0) (by decide +kernel)).1
  · exact (this (2, some 8) (by decide +kernel)).1

/-- An object: `D` and `A` at 1000, `B` at 1008, `V` at 1016 (or, in a larger object, anywhere else). -/
def addr (v : Nat) : Key → Nat
  | (none, []) => 1000
  | (none, [1]) => 1000
  | (none, [2]) => 1008
  | (some 0, []) => v
  | _ => 0

theorem D_ways : ∀ {p c s b}, Way D p c → Bases.Has c.bases s b → s.virt = false → p = [] ∧ c = D ∧ (b = A ∨ b = B) := by
  intro p c s b hw hh hv
  cases hw with
  | nil =>
    refine ⟨rfl, rfl, ?_⟩
    cases hh with
    | head => exact .inl rfl
    | tail _ _ _ _ _ h => cases h with
      | head => exact .inr rfl
      | tail _ _ _ _ _ h => cases h
  | step _ s1 b1 p1 _ h1 h2 =>
    exfalso
    have hc := way_all h2
    have hb1 : b1 = A ∨ b1 = B := by
      cases h1 with
      | head => exact .inl rfl
      | tail _ _ _ _ _ h => cases h with
        | head => exact .inr rfl
        | tail _ _ _ _ _ h => cases h
    have hcs : c = A ∨ c = B ∨ c = V := by
      rcases hb1 with rfl | rfl <;> simp [clsAll, basesAll] at hc <;> rcases hc with rfl | rfl <;> simp
    rcases hcs with rfl | rfl | rfl
    · cases hh with
      | head => simp [pubV] at hv
      | tail _ _ _ _ _ h => cases h
    · cases hh with
      | head => simp [pubV] at hv
      | tail _ _ _ _ _ h => cases h
    · cases hh

theorem placed (v : Nat) : Placed off D (addr v) := by
  intro p c s b hw hh hv
  obtain ⟨rfl, rfl, rfl | rfl⟩ := D_ways hw hh hv
  · simp [subobject, Key.step, hv, addr, off, Cls.id]
  · simp [subobject, Key.step, hv, addr, off, Cls.id]

/-- Wherever `V` is: the upcast to `B` adds 8, the one to `V` asks C++. -/
theorem diamond_upcast (v : Nat) (cxx : Nat → Nat) (hcxx : ∀ f k, Convertible D f → IsSubobject D k f → cxx f = addr v k) :
    upcastPtr cxx (2, some 8) 1000 = 1008 ∧ upcastPtr cxx (0, none) 1000 = v := by
  constructor
  · exact upcast_address D D_proper off (fun _ => true) (addr v) (placed v) cxx hcxx (2, some 8) (by decide +kernel) (none, [2])
      ⟨[⟨3, pub, B⟩], B, .step D pub B [] B (.tail _ _ _ _ _ (.head _ _ _)) (.nil _), rfl, rfl⟩
  · exact upcast_address D D_proper off (fun _ => true) (addr v) (placed v) cxx hcxx (0, none) (by decide +kernel) (some 0, [])
      ⟨[⟨3, pub, B⟩, ⟨2, pubV, V⟩], V, .step D pub B _ V (.tail _ _ _ _ _ (.head _ _ _)) (.step B pubV V [] V (.head _ _ _) (.nil _)), rfl, rfl⟩

/-- Without `virtual` there are two `V`, and no upcast to it. -/
theorem no_upcast_to_ambiguous : unambiguousPublicBases off (fun _ => true)
    (.mk 3 (.cons pub (.mk 1 (.cons pub V .nil)) (.cons pub (.mk 2 (.cons pub V .nil)) .nil))) = [(1, some 0), (2, some 8)] := by
  decide +kernel

/-- Nor is there one to a base that is private on the only way to it. -/
theorem no_upcast_to_private : unambiguousPublicBases off (fun _ => true) (.mk 3 (.cons pub (.mk 1 (.cons priv V .nil)) .nil)) = [(1, some 0)] := by
  decide +kernel

/-! ### Member functions -/

theorem sort_exists : SortsByName (fun l => l.mergeSort (fun a b => decide (nameOf a ≤ nameOf b))) where
  perm l := List.mergeSort_perm l _
  sorted l := by
    have := List.pairwise_mergeSort (le := fun a b => decide (nameOf a ≤ nameOf b)) (fun a b c h1 h2 => by
      simp only [decide_eq_true_eq] at *; exact String.le_trans h1 h2)
      (fun a b => by simpa using String.le_total (nameOf a) (nameOf b)) l
    exact this.imp (fun h => by simpa using h)

theorem shuffle_exists : Shuffles id := fun _ => List.Perm.refl _

def f0 : Func := { id := 10, ccName := "f", rsName := some "f" }
def g1 : Func := { id := 11, ccName := "g", rsName := some "g" }
def g2 : Func := { id := 12, ccName := "g", rsName := some "g" }

/-- `V` has `f`, `A` has `g`. -/
def kids : Nat → List Func
  | 0 => [f0]
  | 1 => [g1]
  | _ => []

theorem f_inherited {values sort} (hv : Shuffles values) (hs : SortsByName sort) :
    f0 ∈ inheritedFunctions values sort kids off (fun _ => true) D := by
  unfold inheritedFunctions
  exact (mem_filterAmbiguous hv hs _ _ _).2 (by decide +kernel)

/-- `d.f()` of Rust calls the `f` that C++ finds, through the one `V`. -/
theorem f_found : ∃ F, F ∈ [1, 0, 2] ∧ f0 ∈ kids F ∧ (∃ k, IsSubobject D k F) ∧
    ∀ k, IsSubobject D k F → Finds (fun g => g = 0) D k F ∧ ∀ k' F', Finds (fun g => g = 0) D k' F' → k' = k ∧ F' = F := by
  refine inherited_found id _ shuffle_exists sort_exists kids off (fun _ => true) D D_proper f0 "f" rfl (fun g => g = 0) ?_ ⟨?_, ?_⟩
    (f_inherited shuffle_exists sort_exists)
  · intro g hg
    match g, hg with
    | 0, _ => rfl
    | 1, h => simp [kids, f0, g1] at h
    | n + 2, h => simp [kids] at h
  · rintro k g _ rfl
    exact ⟨f0, by simp [kids], rfl, rfl⟩
  · rintro g _ rfl
    decide +kernel

/-- If `A` and `B` both have a `g`, `D` gets neither. -/
theorem g_in_both {values sort} (hv : Shuffles values) (hs : SortsByName sort) :
    ∀ f ∈ [g1, g2], f ∉ inheritedFunctions values sort (fun c => if c = 1 then [g1] else if c = 2 then [g2] else []) off (fun _ => true) D := by
  intro f hf h
  unfold inheritedFunctions at h
  have := (mem_filterAmbiguous hv hs _ _ _).1 h
  simp at hf
  rcases hf with rfl | rfl <;> revert this <;> decide +kernel

/-! ### Disagreements -/

/-- `struct A { void f(); }; struct B : A { private: void f(); /* or a field, or overloads, or anything without bindings */ }; struct D : B {};`:
in C++ `d.f` is `B`'s (and an error), in Rust it is `A`'s. -/
abbrev A1 : Cls := .mk 1 .nil
abbrev B1 : Cls := .mk 2 (.cons pub A1 .nil)
abbrev D1 : Cls := .mk 3 (.cons pub B1 .nil)

def f1 : Func := { id := 21, ccName := "f", rsName := some "f" }
def f2 : Func := { id := 22, ccName := "f", rsName := some "f", generates := false }

/-- With the declaration in `B` not in the IR at all (a private function, a field). -/
theorem hidden_by_private {values sort} (hv : Shuffles values) (hs : SortsByName sort) :
    f1 ∈ inheritedFunctions values sort (fun c => if c = 1 then [f1] else []) off (fun _ => true) D1 := by
  unfold inheritedFunctions
  exact (mem_filterAmbiguous hv hs _ _ _).2 (by decide +kernel)

/-- With a function in `B` that has no bindings. -/
theorem hidden_by_unbound {values sort} (hv : Shuffles values) (hs : SortsByName sort) :
    f1 ∈ inheritedFunctions values sort (fun c => if c = 1 then [f1] else if c = 2 then [f2] else []) off (fun _ => true) D1 := by
  unfold inheritedFunctions
  exact (mem_filterAmbiguous hv hs _ _ _).2 (by decide +kernel)

/-- … while C++ finds the one of `B`. -/
theorem cxx_finds_hiding : Finds (fun g => g = 1 ∨ g = 2) D1 (none, [2]) 2 := by
  have hwB : Way D1 [⟨3, pub, B1⟩] B1 := .step D1 pub B1 [] B1 (.head _ _ _) (.nil _)
  have hBA : Way B1 [⟨2, pub, A1⟩] A1 := .step B1 pub A1 [] A1 (.head _ _ _) (.nil _)
  refine ⟨⟨_, B1, hwB, rfl, rfl⟩, .inr rfl, ?_⟩
  rintro k' g ⟨p, c, hw, hc, rfl⟩ hg
  cases hw with
  | nil => simp [Cls.id] at hc; subst hc; simp at hg
  | step _ s b p _ h1 h2 =>
    cases h1 with
    | tail _ _ _ _ _ h => cases h
    | head =>
      cases h2 with
      | nil => exact ⟨_, B1, [], B1, hwB, .nil _, rfl, rfl⟩
      | step _ s b p _ h1 h2 =>
        cases h1 with
        | tail _ _ _ _ _ h => cases h
        | head =>
          cases h2 with
          | nil => exact ⟨_, B1, _, A1, hwB, hBA, rfl, rfl⟩
          | step _ s b p _ h1 h2 => cases h1

/-- `struct P { void f(); }; struct A { void f(); }; struct D : private P, public A {};`: `d.f` is ambiguous in C++, in Rust it is `A`'s. -/
theorem ambiguous_with_private_base {values sort} (hv : Shuffles values) (hs : SortsByName sort) :
    f1 ∈ inheritedFunctions values sort (fun c => if c = 1 then [f1] else if c = 0 then [f0] else []) off (fun _ => true)
      (.mk 3 (.cons priv (.mk 0 .nil) (.cons pub A1 .nil))) := by
  unfold inheritedFunctions
  exact (mem_filterAmbiguous hv hs _ _ _).2 (by decide +kernel)

/-- A base that can be converted to, but is not listed: `struct F {}; struct V : F {}; struct A : virtual V {}; struct B : virtual V {};
struct D : private A, public B {};`: the only path to `F` that is recorded is the private one. -/
abbrev FF : Cls := .mk 5 .nil
abbrev VV : Cls := .mk 0 (.cons pub FF .nil)
abbrev AA : Cls := .mk 1 (.cons pubV VV .nil)
abbrev BB : Cls := .mk 2 (.cons pubV VV .nil)
abbrev DD : Cls := .mk 3 (.cons priv AA (.cons pub BB .nil))

theorem public_path_missed : unambiguousPublicBases off (fun _ => true) DD = [(0, none), (2, some 8)] := by decide +kernel

theorem public_path_exists : PublicBase DD 5 :=
  ⟨[⟨3, pub, BB⟩, ⟨2, pubV, VV⟩, ⟨0, pub, FF⟩], FF, .step DD pub BB _ FF (.tail _ _ _ _ _ (.head _ _ _))
    (.step BB pubV VV _ FF (.head _ _ _) (.step VV pub FF _ FF (.head _ _ _) (.nil _))), rfl, by simp [pub, pubV]⟩

theorem FF_key : ∀ k, IsSubobject DD k 5 → k = (some 0, [5]) := by
  have hV : ∀ (q : List Step) c, Way VV q c → c.id = 5 → q = [⟨0, pub, FF⟩] := by
    intro q c hw hc
    cases hw with
    | nil => simp [Cls.id] at hc
    | step _ s b p _ h1 h2 =>
      cases h1 with
      | tail _ _ _ _ _ h => cases h
      | head => cases h2 with
        | nil => rfl
        | step _ s b p _ h1 h2 => cases h1
  rintro k ⟨p, c, hw, hc, rfl⟩
  cases hw with
  | nil => simp [Cls.id] at hc
  | step _ s b p _ h1 h2 =>
    cases h1 with
    | head => cases h2 with
      | nil => simp [Cls.id] at hc
      | step _ s b p _ h1 h2 => cases h1 with
        | tail _ _ _ _ _ h => cases h
        | head => rw [hV _ _ h2 hc]; rfl
    | tail _ _ _ _ _ h => cases h with
      | tail _ _ _ _ _ h => cases h
      | head => cases h2 with
        | nil => simp [Cls.id] at hc
        | step _ s b p _ h1 h2 => cases h1 with
          | tail _ _ _ _ _ h => cases h
          | head => rw [hV _ _ h2 hc]; rfl

theorem public_path_unambiguous : Unambiguous DD 5 := fun k k' h h' => (FF_key k h).trans (FF_key k' h').symm

end Verif.Bases.Example

import Verif.CcValue.Clone
import Verif.CcValue.Destroy
import Mathlib.Data.List.Perm.Basic
/-
C134: Rust programs that own, move, copy, clone and drop values of C++ classes release every C++
resource exactly once.
-/
namespace Verif.CcValue

/-! ### The programs -/

/-- A resource (memory, a file, a lock): which object acquired it, and for which of its subobjects. -/
abbrev Handle := Nat × Path

/-- A Rust value of a C++ class: the resource that each of its subobjects holds. Only subobjects
whose class has a destructor body hold one, and that body releases it. -/
structure Var where
  cls : Cls
  handle : Path → Handle

/-- The owned Rust values, and the resources that have been acquired and released, in order. -/
structure World where
  vars : List Var := []
  next : Nat := 0
  created : List Handle := []
  released : List Handle := []

/-- The subobjects that hold a resource. -/
def Cls.places (c : Cls) : List Path :=
  (c.destroy []).filterMap (fun e => match e with | .dtor q => some q | .copy _ => none)

/-- The subobject at `q` is made by the body of a copy constructor, its own or that of an object
around it: then it gets a resource of its own. All else is copied as bytes. -/
def madeByBody (trace : List Event) (q : Path) : Bool :=
  trace.any (fun e => match e with | .copy q' => q'.isPrefixOf q | .dtor _ => false)

/-- What a program does with its values; values are numbered in the order in which their variables
came to be. -/
inductive Op where
  /-- a C++ constructor makes a new value -/
  | new (c : Cls)
  /-- the value moves to another variable, or into or out of some other value -/
  | move (i : Nat)
  /-- `let y = x;` where `x` is used again -/
  | copy (i : Nat)
  /-- `let y = x.clone();` -/
  | clone (i : Nat)
  /-- the variable goes out of scope -/
  | drop (i : Nat)

/-- One step; `none` if the Rust compiler does not accept it. -/
def step (w : World) : Op → Option World
  | .new c =>
    if c.checkByValue then
      some { w with
        vars := w.vars ++ [⟨c, fun q => (w.next, q)⟩]
        next := w.next + 1
        created := w.created ++ c.places.map (fun q => (w.next, q)) }
    else none
  | .move i =>
    match w.vars[i]? with
    | none => none
    | some v => some { w with vars := w.vars.eraseIdx i ++ [v] }
  | .copy i =>
    match w.vars[i]? with
    | none => none
    | some v => if v.cls.gen.isCopy then some { w with vars := w.vars ++ [v] } else none
  | .clone i =>
    match w.vars[i]? with
    | none => none
    | some v =>
      if v.cls.gen.isClone then
        let trace := v.cls.gen.clone []
        some { w with
          vars := w.vars ++ [⟨v.cls, fun q => if madeByBody trace q then (w.next, q) else v.handle q⟩]
          next := w.next + 1
          created := w.created ++
            (v.cls.places.filter (madeByBody trace)).map (fun q => (w.next, q)) }
      else none
  | .drop i =>
    match w.vars[i]? with
    | none => none
    | some v =>
      some { w with
        vars := w.vars.eraseIdx i
        released := w.released ++ (v.cls.gen.drop []).filterMap
          (fun e => match e with | .dtor q => some (v.handle q) | .copy _ => none) }

def run (w : World) : List Op → Option World
  | [] => some w
  | op :: ops => (step w op).bind (fun w => run w ops)

/-- The rule of three: whoever writes a destructor body also writes (or deletes) the copy
constructor. -/
def Cls.ruleOfThree (c : Cls) : Prop :=
  ∀ q c', HasSub c q c' → c'.hasDtorBody →
    c'.copyKind true = .deleted ∨
      (selectCopy c'.info.copies true).map (·.how) = some .userProvided

/-- A class as it should be: rule of three, no odd copy constructors, no forced derivations, and the
Rust compiler accepts the generated code. -/
structure Cls.Good (c : Cls) : Prop where
  sane : c.sane = true
  notForced : c.notForced
  three : c.ruleOfThree
  ok : c.gen.ok = true

def Op.good : Op → Prop
  | .new c => c.Good
  | _ => True

/-! ### Copying bytes duplicates no resource -/

theorem Subs.sane_get {s : Subs} (h : s.sane = true) {n : Nat} {i : SubInfo} {c : Cls}
    (hg : s.get n = some (i, c)) : c.sane = true := by
  match s, n with
  | .nil, _ => simp [Subs.get] at hg
  | .scalar _ _ _, 0 => simp [Subs.get] at hg
  | .scalar _ _ rest, n + 1 =>
    simp only [Subs.sane] at h
    exact Subs.sane_get (s := rest) h hg
  | .obj i' c' rest, 0 =>
    simp only [Subs.sane, Bool.and_eq_true] at h
    simp only [Subs.get, Option.some.injEq, Prod.mk.injEq] at hg
    rw [← hg.2]
    exact h.1
  | .obj _ _ rest, n + 1 =>
    simp only [Subs.sane, Bool.and_eq_true] at h
    exact Subs.sane_get (s := rest) h.2 hg

theorem Subs.copy_get {s : Subs} {src : Bool} (h1 : s.copyBad src = false) {n : Nat} {i : SubInfo}
    {c : Cls} (hg : s.get n = some (i, c)) : c.copyKind (src && !i.isMutable) ≠ .deleted := by
  match s, n with
  | .nil, _ => simp [Subs.get] at hg
  | .scalar _ _ _, 0 => simp [Subs.get] at hg
  | .scalar _ _ rest, n + 1 =>
    simp only [Subs.copyBad] at h1
    exact Subs.copy_get (s := rest) h1 hg
  | .obj i' c' rest, 0 =>
    simp only [Subs.copyBad, Bool.or_eq_false_iff, beq_eq_false_iff_ne, ne_eq] at h1
    simp only [Subs.get, Option.some.injEq, Prod.mk.injEq] at hg
    rw [← hg.1, ← hg.2]
    exact h1.1.1
  | .obj _ _ rest, n + 1 =>
    simp only [Subs.copyBad, Bool.or_eq_false_iff] at h1
    exact Subs.copy_get (s := rest) h1.2 hg

theorem Subs.copyNontriv_get {s : Subs} {src : Bool} (h1 : s.copyNontriv src = false) {n : Nat}
    {i : SubInfo} {c : Cls} (hg : s.get n = some (i, c)) :
    c.copyKind (src && !i.isMutable) ≠ .nontrivial := by
  match s, n with
  | .nil, _ => simp [Subs.get] at hg
  | .scalar _ _ _, 0 => simp [Subs.get] at hg
  | .scalar _ _ rest, n + 1 =>
    simp only [Subs.copyNontriv] at h1
    exact Subs.copyNontriv_get (s := rest) h1 hg
  | .obj i' c' rest, 0 =>
    simp only [Subs.copyNontriv, Bool.or_eq_false_iff, beq_eq_false_iff_ne, ne_eq] at h1
    simp only [Subs.get, Option.some.injEq, Prod.mk.injEq] at hg
    rw [← hg.1, ← hg.2]
    exact h1.1
  | .obj _ _ rest, n + 1 =>
    simp only [Subs.copyNontriv, Bool.or_eq_false_iff] at h1
    exact Subs.copyNontriv_get (s := rest) h1.2 hg

/-- A class that is copied as bytes, all of whose parts obey the rule of three, has no destructor
body anywhere. -/
theorem trivial_copy_no_body {c : Cls} {q : Path} {c' : Cls} (hs : HasSub c q c')
    (hn : c.sane = true) (hr : c'.hasDtorBody → c'.copyKind true = .deleted ∨
      (selectCopy c'.info.copies true).map (·.how) = some .userProvided)
    (ht : c.copyKind true = .trivial) : ¬ c'.hasDtorBody := by
  induction hs with
  | here c =>
    intro hb
    rcases hr hb with h | h
    · rw [ht] at h
      cases h
    · cases c with
      | mk d subs =>
        simp only [Cls.copyKind] at ht
        split at ht
        · next he =>
          simp only [Cls.info, List.isEmpty_iff] at he h
          simp [he, selectCopy] at h
        · split at ht
          · cases ht
          · next e he =>
            simp only [Cls.info, he, Option.map_some, Option.some.injEq] at h
            simp [h] at ht
  | @sub d subs n k i c1 c2 q hu hg hk h ih =>
    obtain ⟨src, h1, h2, _⟩ := Cls.copyKind_trivial ht
    have hn1 := Subs.sane_get (Cls.sane_mk hn).2 hg
    have a := Subs.copy_get h1 hg
    have b := Subs.copyNontriv_get h2 hg
    rw [c1.sane_copyKind hn1] at a b
    refine ih hn1 hr ?_
    cases hk : c1.copyKind true
    · exact absurd hk a
    · rfl
    · exact absurd hk b

theorem mem_places {c : Cls} {q : Path} :
    q ∈ c.places ↔ ∃ c', HasSub c q c' ∧ c'.hasDtorBody := by
  unfold Cls.places
  rw [List.mem_filterMap]
  constructor
  · rintro ⟨e, he, h⟩
    obtain ⟨q', c', h1, h2, h3⟩ := (Cls.mem_destroy c [] e).mp he
    subst h3
    simp at h
    subst h
    exact ⟨c', h1, h2⟩
  · rintro ⟨c', h1, h2⟩
    exact ⟨.dtor q, (Cls.mem_destroy c [] _).mpr ⟨q, c', h1, h2, rfl⟩, rfl⟩

theorem nodup_places (c : Cls) : c.places.Nodup := by
  unfold Cls.places
  refine List.Nodup.filterMap ?_ (Cls.nodup_destroy c [])
  intro e e' q h h'
  cases e <;> cases e' <;> simp_all

theorem places_trivial {c : Cls} (hn : c.sane = true) (hr : c.ruleOfThree)
    (ht : c.copyKind true = .trivial) : c.places = [] := by
  rw [List.eq_nil_iff_forall_not_mem]
  intro q hq
  obtain ⟨c', h1, h2⟩ := mem_places.mp hq
  exact trivial_copy_no_body h1 hn (fun h => hr q c' h1 h) ht h2

/-! ### A copy constructor makes new resources for all -/

theorem mem_elems {a : Option Nat} {f : Nat → List Event} {e : Event} :
    e ∈ elems a f ↔ ∃ k, IsElem a k ∧ e ∈ f k := by
  cases a <;> simp [elems, IsElem]

theorem Subs.mem_copy {s : Subs} {src : Bool} {p : Path} {m n k : Nat} {i : SubInfo} {c : Cls}
    (hg : s.get n = some (i, c)) (hk : IsElem i.array k) {e : Event}
    (he : e ∈ c.copy (src && !i.isMutable) (p ++ [(m + n, k)])) : e ∈ s.copy src p m := by
  match s, n with
  | .nil, _ => simp [Subs.get] at hg
  | .scalar _ _ _, 0 => simp [Subs.get] at hg
  | .scalar _ _ rest, n + 1 =>
    simp only [Subs.copy]
    exact Subs.mem_copy (s := rest) (m := m + 1) (n := n) hg hk
      (by simpa [Nat.add_assoc, Nat.add_comm 1] using he)
  | .obj i' c' rest, 0 =>
    simp only [Subs.get, Option.some.injEq, Prod.mk.injEq] at hg
    obtain ⟨rfl, rfl⟩ := hg
    simp only [Subs.copy, List.mem_append]
    exact .inl (mem_elems.mpr ⟨k, hk, by simpa using he⟩)
  | .obj _ _ rest, n + 1 =>
    simp only [Subs.copy, List.mem_append]
    exact .inr (Subs.mem_copy (s := rest) (m := m + 1) (n := n) hg hk
      (by simpa [Nat.add_assoc, Nat.add_comm 1] using he))

theorem defaultKind_nontrivial {u v b n : Bool} (h : defaultKind u v b n = .nontrivial) :
    b = false := by
  revert h
  cases u <;> cases v <;> cases b <;> cases n <;> simp [defaultKind]

theorem Cls.copyKind_src (c : Cls) (hn : c.sane = true) (src src' : Bool) :
    c.copyKind src = c.copyKind src' := by
  rw [c.sane_copyKind hn src, c.sane_copyKind hn src']

/-- When a class is copied by a constructor that is not trivial, every subobject with a destructor
body is made by the body of a copy constructor: its own, or that of an object around it. -/
theorem copy_covers {c : Cls} {q : Path} {c' : Cls} (hs : HasSub c q c') (hn : c.sane = true)
    (hr : c'.hasDtorBody → c'.copyKind true = .deleted ∨
      (selectCopy c'.info.copies true).map (·.how) = some .userProvided)
    (hb : c'.hasDtorBody) (hd : c.copyKind true ≠ .deleted) (src : Bool) (p : Path) :
    ∃ q', q' <+: q ∧ Event.copy (p ++ q') ∈ c.copy src p := by
  have ht : c.copyKind true ≠ .trivial := fun h => trivial_copy_no_body hs hn hr h hb
  have hk : c.copyKind true = .nontrivial := by
    cases h : c.copyKind true
    · exact absurd h hd
    · exact absurd h ht
    · rfl
  induction hs generalizing p src with
  | here c =>
    refine ⟨[], List.prefix_rfl, ?_⟩
    rcases hr hb with h | h
    · exact absurd h hd
    · cases c with
      | mk d subs =>
        have hk' := (Cls.copyKind_src _ hn src true).trans hk
        rcases (Cls.sane_mk hn).1 with h1 | ⟨e, h1, h3⟩
        · simp [Cls.info, h1, selectCopy] at h
        · simp only [Cls.info, h1, selectCopy_one e h3, Option.map_some, Option.some.injEq] at h
          simp [Cls.copy, hk', h1, selectCopy_one e h3, h]
  | @sub d subs n k i c1 c2 q hu hg he h ih =>
    have hn1 := Subs.sane_get (Cls.sane_mk hn).2 hg
    have hk' := (Cls.copyKind_src _ hn src true).trans hk
    -- the members are copied one by one
    have members : ∀ s', subs.copyBad s' = false →
        (∀ x, x ∈ subs.copy s' p 0 → x ∈ (Cls.mk d subs).copy src p) →
        ∃ q', q' <+: (n, k) :: q ∧ Event.copy (p ++ q') ∈ (Cls.mk d subs).copy src p := by
      intro s' hbad hsub
      have a := Subs.copy_get hbad hg
      rw [c1.sane_copyKind hn1] at a
      have ht1 : c1.copyKind true ≠ .trivial := fun h' => trivial_copy_no_body h hn1 hr h' hb
      have hk1 : c1.copyKind true = .nontrivial := by
        cases h : c1.copyKind true
        · exact absurd h a
        · exact absurd h ht1
        · rfl
      obtain ⟨q', hp, hm⟩ := ih hn1 hr hb a (s' && !i.isMutable) (p ++ [(n, k)]) ht1 hk1
      refine ⟨(n, k) :: q', ?_, ?_⟩
      · simpa using hp
      · apply hsub
        have : Event.copy (p ++ [(n, k)] ++ q') ∈ c1.copy (s' && !i.isMutable) (p ++ [(0 + n, k)]) := by
          simpa using hm
        have := Subs.mem_copy hg he this
        simpa using this
    have hkm := hk
    simp only [Cls.copyKind] at hkm
    rcases (Cls.sane_mk hn).1 with h1 | ⟨e, h1, h3⟩
    · simp only [h1, List.isEmpty_nil, if_true] at hkm
      split at hkm
      · cases hkm
      · have hbad := defaultKind_nontrivial hkm
        simp only [Bool.or_eq_false_iff] at hbad
        refine members _ hbad.1 (fun x hx => ?_)
        simp only [Cls.copy, hk', h1]
        cases src <;> simpa [selectCopy] using hx
    · simp only [h1, selectCopy_one e h3, List.isEmpty_cons] at hkm
      cases hh : e.how
      · simp only [hh] at hkm
        have hbad := defaultKind_nontrivial (by simpa using hkm)
        simp only [Bool.or_eq_false_iff] at hbad
        refine members _ hbad.1 (fun x hx => ?_)
        simp only [Cls.copy, hk', h1, selectCopy_one e h3, hh]
        simpa using hx
      · simp [hh] at hkm
      · refine ⟨[], List.nil_prefix, ?_⟩
        simp [Cls.copy, hk', h1, selectCopy_one e h3, hh]

/-- `clone()` of a good class: all places that hold a resource get a new one. -/
theorem clone_fresh {c : Cls} (hg : c.Good) (hc : c.gen.isClone = true) {q : Path}
    (hq : q ∈ c.places) : madeByBody (c.gen.clone []) q = true := by
  obtain ⟨hcp, he⟩ := clone_is_copy c [] hg.sane hg.notForced (.inl hc)
  obtain ⟨c', h1, h2⟩ := mem_places.mp hq
  obtain ⟨q', hp, hm⟩ := copy_covers h1 hg.sane (fun h => hg.three q c' h1 h) h2 hcp.1 true []
  rw [he]
  unfold madeByBody
  rw [List.any_eq_true]
  exact ⟨_, hm, by simpa using hp⟩

/-! ### The invariant -/

/-- The resources a value holds. -/
def Var.owned (v : Var) : List Handle := v.cls.places.map v.handle

structure World.Inv (w : World) : Prop where
  good : ∀ v ∈ w.vars, v.cls.Good ∧ v.cls.checkByValue = true
  created_nodup : w.created.Nodup
  created_old : ∀ h ∈ w.created, h.1 < w.next
  perm : (w.released ++ w.vars.flatMap Var.owned).Perm w.created

theorem places_copy_nil {c : Cls} (hg : c.Good) (hc : c.gen.isCopy = true) : c.places = [] := by
  obtain ⟨_, _, _, h, _⟩ := copy_is_bitwise c hg.sane hg.notForced hc
  simp [Cls.places, h []]

theorem drop_places {c : Cls} (hg : c.Good) (hv : c.checkByValue = true) (f : Path → Handle) :
    (c.gen.drop []).filterMap (fun e => match e with | .dtor q => some (f q) | .copy _ => none) =
      c.places.map f := by
  rw [drop_is_destroy c [] (c.checkByValue_iff.mp hv).1 hg.ok, Cls.places, List.map_filterMap]
  congr 1
  funext e
  cases e <;> rfl

theorem fresh_nodup (w : World) (hi : w.Inv) (l : List Path) (hl : l.Nodup) :
    (w.created ++ l.map (fun q => ((w.next, q) : Handle))).Nodup := by
  rw [List.nodup_append]
  refine ⟨hi.created_nodup, ?_, ?_⟩
  · refine List.Nodup.map ?_ hl
    intro a b h
    simpa using h
  · intro a ha b hb hab
    subst hab
    obtain ⟨q, _, rfl⟩ := List.mem_map.mp hb
    have := hi.created_old _ ha
    simp at this

theorem fresh_old (w : World) (hi : w.Inv) (l : List Path) :
    ∀ h ∈ w.created ++ l.map (fun q => ((w.next, q) : Handle)), h.1 < w.next + 1 := by
  intro h hh
  rcases List.mem_append.mp hh with hh | hh
  · have := hi.created_old h hh
    omega
  · obtain ⟨q, _, rfl⟩ := List.mem_map.mp hh
    simp

theorem perm_eraseIdx {l : List Var} {i : Nat} {v : Var} (h : l[i]? = some v) :
    l.Perm (l.eraseIdx i ++ [v]) := by
  obtain ⟨hi, rfl⟩ := List.getElem?_eq_some_iff.mp h
  rw [List.eraseIdx_eq_take_drop_succ]
  have : l = l.take i ++ l[i] :: l.drop (i + 1) := by
    simp
  calc l = l.take i ++ l[i] :: l.drop (i + 1) := this
    _ |>.Perm (l.take i ++ l.drop (i + 1) ++ [l[i]]) := by
      rw [List.append_assoc]
      refine List.Perm.append_left _ ?_
      exact (List.perm_append_singleton _ _).symm

theorem step_inv (w w' : World) (op : Op) (hi : w.Inv) (hop : op.good) (hs : step w op = some w') :
    w'.Inv := by
  cases op with
  | new c =>
    simp only [step] at hs
    split at hs
    · next hv =>
      simp only [Option.some.injEq] at hs
      subst hs
      refine ⟨?_, fresh_nodup w hi _ (nodup_places c), fresh_old w hi _, ?_⟩
      · intro v h
        rcases List.mem_append.mp h with h | h
        · exact hi.good v h
        · simp only [List.mem_singleton] at h
          subst h
          exact ⟨hop, hv⟩
      · simp only [List.flatMap_append, List.flatMap_cons, List.flatMap_nil, List.append_nil,
          ← List.append_assoc]
        exact List.Perm.append_right _ hi.perm
    · cases hs
  | move i =>
    simp only [step] at hs
    split at hs
    · cases hs
    · next v hv =>
      simp only [Option.some.injEq] at hs
      subst hs
      have hp := perm_eraseIdx hv
      refine ⟨?_, hi.created_nodup, hi.created_old, ?_⟩
      · intro u hu
        exact hi.good u (hp.mem_iff.mpr hu)
      · exact ((hp.symm.flatMap_right _).append_left _).trans hi.perm
  | copy i =>
    simp only [step] at hs
    split at hs
    · cases hs
    · next v hv =>
      split at hs
      · next hc =>
        simp only [Option.some.injEq] at hs
        subst hs
        have hm := List.mem_of_getElem? hv
        refine ⟨?_, hi.created_nodup, hi.created_old, ?_⟩
        · intro u hu
          rcases List.mem_append.mp hu with h | h
          · exact hi.good u h
          · simp only [List.mem_singleton] at h
            subst h
            exact hi.good u hm
        · have : v.owned = [] := by
            simp [Var.owned, places_copy_nil (hi.good v hm).1 hc]
          simp only [List.flatMap_append, List.flatMap_cons, List.flatMap_nil, this, List.append_nil]
          exact hi.perm
      · cases hs
  | clone i =>
    simp only [step] at hs
    split at hs
    · cases hs
    · next v hv =>
      split at hs
      · next hc =>
        simp only [Option.some.injEq] at hs
        subst hs
        have hm := List.mem_of_getElem? hv
        have hg := (hi.good v hm).1
        have hf : v.cls.places.filter (madeByBody (v.cls.gen.clone [])) = v.cls.places :=
          List.filter_eq_self.mpr (fun q hq => clone_fresh hg hc hq)
        refine ⟨?_, fresh_nodup w hi _ ((nodup_places v.cls).filter _), fresh_old w hi _, ?_⟩
        · intro u hu
          rcases List.mem_append.mp hu with h | h
          · exact hi.good u h
          · simp only [List.mem_singleton] at h
            subst h
            exact hi.good v hm
        · simp only [List.flatMap_append, List.flatMap_cons, List.flatMap_nil, List.append_nil,
            ← List.append_assoc, hf]
          have : Var.owned ⟨v.cls, fun q =>
              if madeByBody (v.cls.gen.clone []) q then (w.next, q) else v.handle q⟩ =
              v.cls.places.map (fun q => ((w.next, q) : Handle)) := by
            refine List.map_congr_left (fun q hq => ?_)
            simp [clone_fresh hg hc hq]
          rw [this]
          exact List.Perm.append_right _ hi.perm
      · cases hs
  | drop i =>
    simp only [step] at hs
    split at hs
    · cases hs
    · next v hv =>
      simp only [Option.some.injEq] at hs
      subst hs
      have hm := List.mem_of_getElem? hv
      have hp := perm_eraseIdx hv
      obtain ⟨hg, hb⟩ := hi.good v hm
      refine ⟨?_, hi.created_nodup, hi.created_old, ?_⟩
      · intro u hu
        exact hi.good u (hp.mem_iff.mpr (List.mem_append_left _ hu))
      · show (w.released ++ (v.cls.gen.drop []).filterMap _ ++ (w.vars.eraseIdx i).flatMap Var.owned).Perm
          w.created
        rw [drop_places hg hb]
        have h1 : (w.vars.flatMap Var.owned).Perm (v.owned ++ (w.vars.eraseIdx i).flatMap Var.owned) := by
          refine (hp.flatMap_right _).trans ?_
          simp only [List.flatMap_append, List.flatMap_cons, List.flatMap_nil, List.append_nil]
          exact List.perm_append_comm
        rw [List.append_assoc]
        exact (h1.symm.append_left _).trans hi.perm

theorem run_inv (w w' : World) (ops : List Op) (hi : w.Inv) (hop : ∀ op ∈ ops, op.good)
    (hs : run w ops = some w') : w'.Inv := by
  induction ops generalizing w with
  | nil =>
    simp only [run, Option.some.injEq] at hs
    exact hs ▸ hi
  | cons op ops ih =>
    simp only [run] at hs
    cases h : step w op with
    | none => simp [h] at hs
    | some w1 =>
      simp only [h, Option.bind_some] at hs
      exact ih w1 (step_inv w w1 op hi (hop op (by simp)) h) (fun o ho => hop o (by simp [ho])) hs

/-- **C134.** Whatever a Rust program does with values of good C++ classes, in any order: no resource
is released twice, none is released that was not acquired, and a value that the program still has
holds no resource that was released or that another value holds too. -/
theorem no_double_release (ops : List Op) (hop : ∀ op ∈ ops, op.good) (w : World)
    (hs : run {} ops = some w) :
    w.released.Nodup ∧ (∀ h ∈ w.released, h ∈ w.created) ∧
      (w.released ++ w.vars.flatMap Var.owned).Nodup := by
  have hi := run_inv {} w ops ⟨by simp, by simp, by simp, by simp⟩ hop hs
  have hn := (hi.perm.nodup_iff).mpr hi.created_nodup
  exact ⟨(List.nodup_append.mp hn).1, fun h hh => hi.perm.mem_iff.mp (List.mem_append_left _ hh), hn⟩

/-- **C134.** A program that has dropped all its values has released every resource that C++ code
acquired for them, each exactly once. -/
theorem no_leak (ops : List Op) (hop : ∀ op ∈ ops, op.good) (w : World) (hs : run {} ops = some w)
    (he : w.vars = []) (h : Handle) :
    w.released.count h = if h ∈ w.created then 1 else 0 := by
  have hi := run_inv {} w ops ⟨by simp, by simp, by simp, by simp⟩ hop hs
  have hp := hi.perm
  simp only [he, List.flatMap_nil, List.append_nil] at hp
  rw [hp.count_eq]
  split
  · next hm => exact List.count_eq_one_of_mem hi.created_nodup hm
  · next hm => exact List.count_eq_zero.mpr hm

end Verif.CcValue

import Verif.Vector.Refine
/-
C65: every element has one owner until it is dropped, once.
-/
namespace Verif.Vector
open Verif

/-- Each element made is outside, dropped or in the rest (counted by `r`), exactly once. -/
def Good (w : World) (r : Nat → Nat) : Prop := ∀ e,
  w.hand.count e + w.log.count (.dropped e) + r e = (if e < w.next then 1 else 0) ∧ w.log.count (.made e) = if e < w.next then 1 else 0

theorem Good.congr {w : World} {r r' : Nat → Nat} (h : Good w r) (hr : ∀ e, r' e = r e) : Good w r' := by
  have : r' = r := funext hr
  rw [this]; exact h

theorem count_dropped_cons (e x : Nat) (l : List Ev) : (Ev.dropped x :: l).count (.dropped e) = l.count (.dropped e) + if x = e then 1 else 0 := by
  by_cases h : x = e
  · subst h; simp
  · rw [List.count_cons_of_ne (by simp [h])]; simp [h]

theorem count_made_cons (e x : Nat) (l : List Ev) : (Ev.made x :: l).count (.made e) = l.count (.made e) + if x = e then 1 else 0 := by
  by_cases h : x = e
  · subst h; simp
  · rw [List.count_cons_of_ne (by simp [h])]; simp [h]

theorem count_made_dropped (e x : Nat) (l : List Ev) : (Ev.made x :: l).count (.dropped e) = l.count (.dropped e) ∧
    (Ev.dropped x :: l).count (.made e) = l.count (.made e) := by
  constructor <;> rw [List.count_cons_of_ne (by simp)]

theorem count_cons' (e x : Nat) (l : List Nat) : (x :: l).count e = l.count e + if x = e then 1 else 0 := by
  by_cases h : x = e
  · subst h; simp
  · rw [List.count_cons_of_ne h]; simp [h]

theorem count_erase' {x : Nat} {l : List Nat} (hx : x ∈ l) (e : Nat) : l.count e = (l.erase x).count e + if x = e then 1 else 0 := by
  have := (List.perm_cons_erase hx).count_eq e
  rw [this, count_cons']

theorem Good.make {w : World} {r : Nat → Nat} (h : Good w r) : Good w.make r := by
  intro e
  obtain ⟨h1, h2⟩ := h e
  simp only [World.make, count_cons', count_made_cons, (count_made_dropped e _ _).1]
  by_cases he : w.next = e
  · subst he
    simp at h1 h2 ⊢
    omega
  · by_cases hl : e < w.next
    · simp only [hl, if_true] at h1 h2
      simp only [he, if_false, show e < w.next + 1 by omega, if_true]; omega
    · simp only [hl, if_false] at h1 h2
      simp only [he, if_false, show ¬ e < w.next + 1 by omega]; omega

/-- A new element goes to the rest. -/
theorem Good.makeIn {w : World} {r : Nat → Nat} (h : Good w r) : Good { w.make with hand := w.hand } (fun e => r e + if w.next = e then 1 else 0) := by
  intro e
  obtain ⟨h1, h2⟩ := h.make e
  simp only [World.make, count_cons'] at h1 h2 ⊢
  omega

theorem Good.makeN {w : World} {r : Nat → Nat} (h : Good w r) (n : Nat) : Good (w.makeN n) (fun e => (List.range' w.next n).count e + r e) := by
  induction n generalizing w r with
  | zero => exact h.congr (by simp)
  | succ n ih =>
    have := ih h.makeIn
    refine this.congr fun e => ?_
    rw [show List.range' w.next (n + 1) = w.next :: List.range' (w.next + 1) n from List.range'_succ, count_cons']
    simp only [World.make]
    omega

/-- An element outside goes to the rest. -/
theorem Good.give {w : World} {r : Nat → Nat} (h : Good w r) {x : Nat} (hx : x ∈ w.hand) :
    Good { w with hand := w.hand.erase x } (fun e => r e + if x = e then 1 else 0) := by
  intro e
  obtain ⟨h1, h2⟩ := h e
  rw [count_erase' hx e] at h1
  simp only
  exact ⟨by omega, h2⟩

theorem Good.get {w : World} {r : Nat → Nat} {x : Nat} (h : Good w (fun e => r e + if x = e then 1 else 0)) :
    Good { w with hand := x :: w.hand } r := by
  intro e
  obtain ⟨h1, h2⟩ := h e
  simp only [count_cons'] at h1 ⊢
  exact ⟨by omega, h2⟩

theorem Good.drop {w : World} {r : Nat → Nat} {x : Nat} (h : Good w (fun e => r e + if x = e then 1 else 0)) : Good (w.drop x) r := by
  intro e
  obtain ⟨h1, h2⟩ := h e
  have h3 := count_dropped_cons e x w.log
  have h4 := (count_made_dropped e x w.log).2
  refine ⟨?_, by show (Ev.dropped x :: w.log).count _ = _; rw [h4]; exact h2⟩
  show w.hand.count e + (Ev.dropped x :: w.log).count _ + r e = if e < w.next then 1 else 0
  rw [h3]
  simp only at h1
  omega

theorem Good.dropAll {w : World} {r : Nat → Nat} (es : List Nat) (h : Good w (fun e => r e + es.count e)) : Good (w.dropAll es) r := by
  induction es generalizing w with
  | nil => exact h.congr (by simp)
  | cons x es ih =>
    refine ih (Good.drop (h.congr fun e => ?_))
    rw [count_cons']; omega

theorem Good.take {w w' : World} {r : Nat → Nat} (es : List Nat) (h : Good w r) (ht : w.take es = some w') : Good w' (fun e => r e + es.count e) := by
  induction es generalizing w r with
  | nil => simp only [World.take, Option.some.injEq] at ht; subst ht; exact h.congr (by simp)
  | cons x es ih =>
    simp only [World.take] at ht
    split at ht
    · next hx =>
      refine (ih (h.give hx) ht).congr fun e => ?_
      rw [count_cons']; omega
    · simp at ht

theorem getLast_count {es : List Nat} {x : Nat} (h : es.getLast? = some x) (e : Nat) : es.count e = es.dropLast.count e + if x = e then 1 else 0 := by
  have hne : es ≠ [] := by rintro rfl; simp at h
  have h2 : es = es.dropLast ++ [x] := by
    have := (List.dropLast_concat_getLast hne).symm
    rw [List.getLast?_eq_some_getLast hne] at h
    simp only [Option.some.injEq] at h
    rw [h] at this
    exact this
  conv => lhs; rw [h2]
  rw [List.count_append, count_cons']
  simp

theorem set_count {es : List Nat} {i a b : Nat} (h : es[i]? = some a) (e : Nat) :
    (es.set i b).count e + (if a = e then 1 else 0) = es.count e + if b = e then 1 else 0 := by
  induction es generalizing i with
  | nil => simp at h
  | cons x es ih =>
    cases i with
    | zero =>
      simp only [List.getElem?_cons_zero, Option.some.injEq] at h
      subst h
      simp only [List.set_cons_zero, count_cons']
      omega
    | succ i =>
      simp only [List.getElem?_cons_succ] at h
      have := ih h
      simp only [List.set_cons_succ, count_cons']
      omega

theorem prim_good {w w' : World} {r : Nat → Nat} {es es' : List Nat} {cap cap' : Nat} (p : Prim) (hs : p.spec w es cap = some (w', es', cap'))
    (h : Good w (fun e => r e + es.count e)) : Good w' (fun e => r e + es'.count e) := by
  cases p with
  | realloc c =>
    simp only [Prim.spec] at hs
    split at hs
    · simp only [Option.some.injEq, Prod.mk.injEq] at hs
      obtain ⟨rfl, rfl, -⟩ := hs; exact h
    · simp at hs
  | write x =>
    simp only [Prim.spec] at hs
    split at hs
    · next hc =>
      simp only [Option.some.injEq, Prod.mk.injEq] at hs
      obtain ⟨rfl, rfl, -⟩ := hs
      refine (h.give hc.1).congr fun e => ?_
      rw [List.count_append, count_cons']; simp; omega
    · simp at hs
  | take =>
    simp only [Prim.spec, Option.bind_eq_bind] at hs
    cases hl : es.getLast? with
    | none => rw [hl] at hs; simp at hs
    | some x =>
      rw [hl] at hs
      simp only [Option.bind_some, Option.pure_def, Option.some.injEq, Prod.mk.injEq] at hs
      obtain ⟨rfl, rfl, -⟩ := hs
      refine Good.get (h.congr fun e => ?_)
      rw [getLast_count hl]; omega
  | dropLast =>
    simp only [Prim.spec, Option.bind_eq_bind] at hs
    cases hl : es.getLast? with
    | none => rw [hl] at hs; simp at hs
    | some x =>
      rw [hl] at hs
      simp only [Option.bind_some, Option.pure_def, Option.some.injEq, Prod.mk.injEq] at hs
      obtain ⟨rfl, rfl, -⟩ := hs
      refine Good.drop (h.congr fun e => ?_)
      rw [getLast_count hl]; omega
  | swap i j =>
    simp only [Prim.spec, Option.bind_eq_bind] at hs
    cases hi : es[i]? with
    | none => rw [hi] at hs; simp at hs
    | some a =>
      cases hj : es[j]? with
      | none => rw [hi, hj] at hs; simp at hs
      | some b =>
        rw [hi, hj] at hs
        simp only [Option.bind_some, Option.pure_def, Option.some.injEq, Prod.mk.injEq] at hs
        obtain ⟨rfl, rfl, -⟩ := hs
        refine h.congr fun e => ?_
        have h1 := set_count (b := b) hi e
        have hj' : (es.set i b)[j]? = some b := by
          by_cases hij : i = j
          · subst hij
            obtain ⟨hlt, -⟩ := List.getElem?_eq_some_iff.1 hi
            simp [hlt]
          · rw [List.getElem?_set_ne hij]; exact hj
        have h2 := set_count (b := a) hj' e
        omega
  | look i =>
    simp only [Prim.spec] at hs
    split at hs
    · simp only [Option.some.injEq, Prod.mk.injEq] at hs
      obtain ⟨rfl, rfl, -⟩ := hs; exact h
    · simp at hs
  | make =>
    simp only [Prim.spec, Option.some.injEq, Prod.mk.injEq] at hs
    obtain ⟨rfl, rfl, -⟩ := hs
    exact h.make
  | dropHand x =>
    simp only [Prim.spec] at hs
    split at hs
    · next hx =>
      simp only [Option.some.injEq, Prod.mk.injEq] at hs
      obtain ⟨rfl, rfl, -⟩ := hs
      exact (h.give hx).drop
    · simp at hs

theorem prims_good {r : Nat → Nat} (ps : List Prim) : ∀ {w w' : World} {es es' : List Nat} {cap cap' : Nat},
    specPrims w es cap ps = some (w', es', cap') → Good w (fun e => r e + es.count e) → Good w' (fun e => r e + es'.count e) := by
  induction ps with
  | nil =>
    intro w w' es es' cap cap' hs h
    simp only [specPrims, Option.some.injEq, Prod.mk.injEq] at hs
    obtain ⟨rfl, rfl, -⟩ := hs; exact h
  | cons p ps ih =>
    intro w w' es es' cap cap' hs h
    simp only [specPrims, Option.bind_eq_bind] at hs
    cases h1 : p.spec w es cap with
    | none => rw [h1] at hs; simp at hs
    | some t =>
      obtain ⟨w1, es1, cap1⟩ := t
      rw [h1] at hs
      exact ih hs (prim_good p h1 h)

/-- How often values own `e`. -/
def owns (objs : List (Nat × AObj)) (e : Nat) : Nat := (objs.map fun p => p.2.elems.count e).sum

theorem owns_cons (x : Nat) (o : AObj) (objs : List (Nat × AObj)) (e : Nat) : owns ((x, o) :: objs) e = owns objs e + o.elems.count e := by
  simp [owns]; omega

theorem owns_insert {objs : List (Nat × AObj)} {x : Nat} {o : AObj} (h : AMap.get? objs x = some o) (o' : AObj) (e : Nat) :
    owns (AMap.insert objs x o') e + o.elems.count e = owns objs e + o'.elems.count e := by
  induction objs with
  | nil => simp at h
  | cons p objs ih =>
    obtain ⟨y, q⟩ := p
    simp only [AMap.get?] at h
    simp only [AMap.insert]
    split at h
    · simp only [Option.some.injEq] at h
      subst h
      rw [if_pos ‹_›, owns_cons, owns_cons]
      omega
    · rw [if_neg ‹_›, owns_cons, owns_cons]
      have := ih h; omega

theorem owns_erase {objs : List (Nat × AObj)} {x : Nat} {o : AObj} (h : AMap.get? objs x = some o) (e : Nat) :
    owns (AMap.erase objs x) e + o.elems.count e = owns objs e := by
  induction objs with
  | nil => simp at h
  | cons p objs ih =>
    obtain ⟨y, q⟩ := p
    simp only [AMap.get?] at h
    simp only [AMap.erase]
    split at h
    · simp only [Option.some.injEq] at h
      subst h
      rw [if_pos ‹_›, owns_cons]
    · rw [if_neg ‹_›, owns_cons, owns_cons]
      have := ih h; omega

/-- The number of owners of each element. -/
def Balanced (a : AState) : Prop := Good a.w (fun e => owns a.objs e + a.leaked.count e)

theorem vec_get {a : AState} {x : Nat} {es : List Nat} {cap : Nat} (h : a.vec x = some (es, cap)) : ∃ c, AMap.get? a.objs x = some (.vec es cap c) := by
  unfold AState.vec at h
  split at h
  · next c he => simp only [Option.some.injEq, Prod.mk.injEq] at h; obtain ⟨rfl, rfl⟩ := h; exact ⟨c, he⟩
  · simp at h

theorem rvec_get {a : AState} {x : Nat} {es : List Nat} (h : a.rvec x = some es) : AMap.get? a.objs x = some (.rvec es) := by
  unfold AState.rvec at h
  split at h
  · next he => simp only [Option.some.injEq] at h; subst h; exact he
  · simp at h

theorem iter_get {a : AState} {x : Nat} {es : List Nat} (h : a.iter x = some es) : AMap.get? a.objs x = some (.iter es) := by
  unfold AState.iter at h
  split at h
  · next he => simp only [Option.some.injEq] at h; subst h; exact he
  · simp at h

theorem spec_balanced {a a' : AState} (h : Balanced a) (op : Op) (hs : op.spec a = some a') : Balanced a' := by
  unfold Balanced at *
  cases op with
  | make => simp only [Op.spec, Option.some.injEq] at hs; subst hs; exact h.make
  | dropElem x =>
    simp only [Op.spec, Option.bind_eq_bind] at hs
    cases ht : a.w.take [x] with
    | none => rw [ht] at hs; simp at hs
    | some w =>
      rw [ht] at hs
      simp only [Option.bind_some, Option.pure_def, Option.some.injEq] at hs
      subst hs
      refine Good.drop ((Good.take [x] h ht).congr fun e => ?_)
      simp [count_cons']
  | new =>
    simp only [Op.spec, Option.some.injEq] at hs; subst hs
    refine h.congr fun e => ?_
    simp [AState.add, owns_cons, AObj.elems]
  | mutate x ps panics =>
    simp only [Op.spec, Option.bind_eq_bind] at hs
    cases hv : a.vec x with
    | none => rw [hv] at hs; simp at hs
    | some ec =>
      obtain ⟨es, cap⟩ := ec
      rw [hv] at hs
      simp only [Option.bind_some] at hs
      obtain ⟨c, hg⟩ := vec_get hv
      cases hp : specPrims a.w es cap ps with
      | none => rw [hp] at hs; simp at hs
      | some t =>
        obtain ⟨w, fs, c'⟩ := t
        rw [hp] at hs
        simp only [Option.bind_some] at hs
        have hge := fun e => owns_erase hg e
        have h1 := prims_good (r := fun e => owns (AMap.erase a.objs x) e + a.leaked.count e) ps hp
          (h.congr fun e => by have := hge e; simp only [AObj.elems] at this; omega)
        cases panics with
        | false =>
          simp only [Bool.false_eq_true, if_false, Option.pure_def, Option.some.injEq] at hs
          subst hs
          refine h1.congr fun e => ?_
          have h2 := owns_insert hg (.vec fs c' true) e
          have h3 := hge e
          simp only [AState.put, AObj.elems] at *
          omega
        | true =>
          simp only [if_true] at hs
          split at hs
          · simp only [Option.pure_def, Option.some.injEq] at hs
            subst hs
            refine h1.congr fun e => ?_
            have h2 := owns_insert hg (.vec (fs.take es.length) cap false) e
            have h3 := hge e
            have h4 : fs.count e = (fs.take es.length).count e + (fs.drop es.length).count e := by
              rw [← List.count_append, List.take_append_drop]
            simp only [AState.put, AObj.elems, List.count_append] at *
            omega
          · simp at hs
  | append x y cap' =>
    simp only [Op.spec, Option.bind_eq_bind] at hs
    cases hv : a.vec x with
    | none => rw [hv] at hs; simp at hs
    | some ec =>
      obtain ⟨es, cap⟩ := ec
      cases hu : a.vec y with
      | none => rw [hv, hu] at hs; simp at hs
      | some fd =>
        obtain ⟨fs, d⟩ := fd
        rw [hv, hu] at hs
        simp only [Option.bind_some] at hs
        split at hs
        · next hc =>
          simp only [Option.pure_def, Option.some.injEq] at hs
          subst hs
          obtain ⟨c, hg⟩ := vec_get hv
          obtain ⟨c2, hg2⟩ := vec_get hu
          refine h.congr fun e => ?_
          have h2 := owns_insert hg (.vec (es ++ fs) cap' true) e
          have h3 := owns_insert (objs := AMap.insert a.objs x (.vec (es ++ fs) cap' true)) (x := y) (o := .vec fs d c2)
            (by rw [AMap.get?_insert_ne _ _ hc.1]; exact hg2) (.vec [] d true) e
          simp only [AState.put, AObj.elems, List.count_append, List.count_nil] at *
          omega
        · simp at hs
  | splitOff x i =>
    simp only [Op.spec, Option.bind_eq_bind] at hs
    cases hv : a.vec x with
    | none => rw [hv] at hs; simp at hs
    | some ec =>
      obtain ⟨es, cap⟩ := ec
      rw [hv] at hs
      simp only [Option.bind_some] at hs
      split at hs
      · simp only [Option.pure_def, Option.some.injEq] at hs
        subst hs
        obtain ⟨c, hg⟩ := vec_get hv
        refine h.congr fun e => ?_
        have h2 := owns_insert hg (.vec (es.take i) cap true) e
        have h4 : es.count e = (es.take i).count e + (es.drop i).count e := by rw [← List.count_append, List.take_append_drop]
        simp only [AState.put, AState.add, AObj.elems, owns_cons] at *
        omega
      · simp at hs
  | clone x =>
    simp only [Op.spec, Option.bind_eq_bind] at hs
    cases hv : a.vec x with
    | none => rw [hv] at hs; simp at hs
    | some ec =>
      obtain ⟨es, cap⟩ := ec
      rw [hv] at hs
      simp only [Option.bind_some, Option.pure_def, Option.some.injEq] at hs
      subst hs
      refine (h.makeN es.length).congr fun e => ?_
      simp only [AState.add, AObj.elems, owns_cons]
      omega
  | mkVec es =>
    simp only [Op.spec, Option.bind_eq_bind] at hs
    cases ht : a.w.take es with
    | none => rw [ht] at hs; simp at hs
    | some w =>
      rw [ht] at hs
      simp only [Option.bind_some, Option.pure_def, Option.some.injEq] at hs
      subst hs
      refine (Good.take es h ht).congr fun e => ?_
      simp only [AState.add, AObj.elems, owns_cons]
      omega
  | dropVec x =>
    simp only [Op.spec, Option.bind_eq_bind] at hs
    cases hv : a.rvec x with
    | none => rw [hv] at hs; simp at hs
    | some es =>
      rw [hv] at hs
      simp only [Option.bind_some, Option.pure_def, Option.some.injEq] at hs
      subst hs
      refine Good.dropAll es (h.congr fun e => ?_)
      have := owns_erase (rvec_get hv) e
      simp only [AObj.elems] at *
      omega
  | fromVec x cap =>
    simp only [Op.spec, Option.bind_eq_bind] at hs
    cases hv : a.rvec x with
    | none => rw [hv] at hs; simp at hs
    | some es =>
      rw [hv] at hs
      simp only [Option.bind_some, Option.pure_def] at hs
      have key : ∃ c, a' = a.put x (.vec es c true) := by
        split at hs
        · next he => subst he; exact ⟨0, by simpa using hs.symm⟩
        · split at hs
          · exact ⟨cap, by simpa using hs.symm⟩
          · simp at hs
      obtain ⟨c, rfl⟩ := key
      refine h.congr fun e => ?_
      have := owns_insert (rvec_get hv) (.vec es c true) e
      simp only [AState.put, AObj.elems] at *
      omega
  | intoVec x =>
    simp only [Op.spec, Option.bind_eq_bind] at hs
    cases hv : a.vec x with
    | none => rw [hv] at hs; simp at hs
    | some ec =>
      obtain ⟨es, cap⟩ := ec
      rw [hv] at hs
      simp only [Option.bind_some, Option.pure_def, Option.some.injEq] at hs
      subst hs
      obtain ⟨c, hg⟩ := vec_get hv
      refine h.congr fun e => ?_
      have := owns_insert hg (.rvec es) e
      simp only [AState.put, AObj.elems] at *
      omega
  | intoIter x =>
    simp only [Op.spec, Option.bind_eq_bind] at hs
    cases hv : a.vec x with
    | none => rw [hv] at hs; simp at hs
    | some ec =>
      obtain ⟨es, cap⟩ := ec
      rw [hv] at hs
      simp only [Option.bind_some, Option.pure_def, Option.some.injEq] at hs
      subst hs
      obtain ⟨c, hg⟩ := vec_get hv
      refine h.congr fun e => ?_
      have := owns_insert hg (.iter es) e
      simp only [AState.put, AObj.elems] at *
      omega
  | next x =>
    simp only [Op.spec, Option.bind_eq_bind] at hs
    cases hv : a.iter x with
    | none => rw [hv] at hs; simp at hs
    | some es =>
      rw [hv] at hs
      simp only [Option.bind_some] at hs
      cases es with
      | nil => simp only [Option.pure_def, Option.some.injEq] at hs; subst hs; exact h
      | cons y es =>
        simp only [Option.pure_def, Option.some.injEq] at hs
        subst hs
        refine Good.get (h.congr fun e => ?_)
        have := owns_insert (iter_get hv) (.iter es) e
        simp only [AState.put, AObj.elems, count_cons'] at *
        omega
  | nextBack x =>
    simp only [Op.spec, Option.bind_eq_bind] at hs
    cases hv : a.iter x with
    | none => rw [hv] at hs; simp at hs
    | some es =>
      rw [hv] at hs
      simp only [Option.bind_some] at hs
      cases hl : es.getLast? with
      | none => rw [hl] at hs; simp only [Option.pure_def, Option.some.injEq] at hs; subst hs; exact h
      | some y =>
        rw [hl] at hs
        simp only [Option.pure_def, Option.some.injEq] at hs
        subst hs
        refine Good.get (h.congr fun e => ?_)
        have := owns_insert (iter_get hv) (.iter es.dropLast) e
        have h2 := getLast_count hl e
        simp only [AState.put, AObj.elems] at *
        omega
  | dropIter x =>
    simp only [Op.spec, Option.bind_eq_bind] at hs
    cases hv : a.iter x with
    | none => rw [hv] at hs; simp at hs
    | some es =>
      rw [hv] at hs
      simp only [Option.bind_some, Option.pure_def, Option.some.injEq] at hs
      subst hs
      refine Good.dropAll es (h.congr fun e => ?_)
      have := owns_erase (iter_get hv) e
      simp only [AObj.elems] at *
      omega
  | prepare x =>
    simp only [Op.spec, Option.bind_eq_bind] at hs
    cases hv : a.vec x with
    | none => rw [hv] at hs; simp at hs
    | some ec =>
      obtain ⟨es, cap⟩ := ec
      rw [hv] at hs
      simp only [Option.bind_some, Option.pure_def, Option.some.injEq] at hs
      subst hs
      obtain ⟨c, hg⟩ := vec_get hv
      refine h.congr fun e => ?_
      have := owns_insert hg (.vec es cap false) e
      simp only [AState.put, AObj.elems] at *
      omega
  | writeTail x fs =>
    simp only [Op.spec, Option.bind_eq_bind] at hs
    cases hv : a.vec x with
    | none => rw [hv] at hs; simp at hs
    | some ec =>
      obtain ⟨es, cap⟩ := ec
      rw [hv] at hs
      simp only [Option.bind_some] at hs
      cases ht : a.w.take fs with
      | none => rw [ht] at hs; simp at hs
      | some w =>
        rw [ht] at hs
        simp only [Option.bind_some] at hs
        split at hs
        · simp only [Option.pure_def, Option.some.injEq] at hs
          subst hs
          obtain ⟨c, hg⟩ := vec_get hv
          refine (Good.take fs h ht).congr fun e => ?_
          have := owns_insert hg (.vec (es ++ fs) cap true) e
          simp only [AState.put, AObj.elems, List.count_append] at *
          omega
        · simp at hs
  | drop x =>
    simp only [Op.spec, Option.bind_eq_bind] at hs
    cases hv : a.vec x with
    | none => rw [hv] at hs; simp at hs
    | some ec =>
      obtain ⟨es, cap⟩ := ec
      rw [hv] at hs
      simp only [Option.bind_some, Option.pure_def, Option.some.injEq] at hs
      subst hs
      obtain ⟨c, hg⟩ := vec_get hv
      refine Good.dropAll es (h.congr fun e => ?_)
      have := owns_erase hg e
      simp only [AObj.elems] at *
      omega
  | cpp es cap =>
    simp only [Op.spec, Option.bind_eq_bind] at hs
    cases ht : a.w.take es with
    | none => rw [ht] at hs; simp at hs
    | some w =>
      rw [ht] at hs
      simp only [Option.bind_some] at hs
      split at hs
      · simp only [Option.pure_def, Option.some.injEq] at hs
        subst hs
        refine (Good.take es h ht).congr fun e => ?_
        simp only [AState.add, AObj.elems, owns_cons]
        omega
      · simp at hs

theorem run_balanced (ops : List Op) : ∀ {a a' : AState}, Balanced a → specRun a ops = some a' → Balanced a' := by
  induction ops with
  | nil => intro a a' h hs; simp only [specRun, Option.some.injEq] at hs; subst hs; exact h
  | cons op ops ih =>
    intro a a' h hs
    simp only [specRun, Option.bind_eq_bind] at hs
    cases h1 : op.spec a with
    | none => rw [h1] at hs; simp at hs
    | some a1 => rw [h1] at hs; exact ih (spec_balanced h op h1) hs

theorem init_balanced : Balanced .init := by intro e; simp [AState.init, owns]

end Verif.Vector

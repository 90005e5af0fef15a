import Verif.CcCall.Model

/-!
# What each stage of a call leaves in memory

Every parameter goes through the same stages; an `Item` is a parameter together with the way it is
shown in Rust and the value passed.  `f0` … `f3`, `rest`, `f6` are its memory after each stage.
-/

namespace Verif.CcCall

/-- A parameter, its position, how it is shown, and what is passed for it. -/
structure Item where
  idx : Nat
  p : Param
  s : Shown
  v : Arg

namespace Item

/-- The parameter's name. -/
abbrev n (it : Item) : Nat := it.p.name

/-- The parameter is shown as the generator shows it, and the value fits. -/
structure Good (it : Item) : Prop where
  shown : it.s = .plain it.p.ty ∨ (it.s = .constRef it.p.ty ∧ it.p.ty = .record true) ∨
    (it.s = .rvalue it.p.ty ∧ it.p.ty = .record false)
  fits : Fits it.s it.v

/-- The register that carries it. -/
def reg (it : Item) : Reg :=
  match it.s, it.v with
  | .plain (.record true), .own _ => .addr (.loc it.n)
  | .plain (.existing false), .own _ => .addr (.loc it.n)
  | .plain (.record false), .own _ => .addr (.temp it.n)
  | .plain (.bridged _), .own _ => .bytes it.n
  | .constRef _, .ref _ => .addr (.temp it.n)
  | _, .own l => .val l
  | _, .ref a => .addr (.obj a)

/-- Memory when the Rust function is entered. -/
def f0 (it : Item) : PFrame :=
  match it.v with
  | .own l => { PFrame.empty with loc := some l }
  | .ref _ => .empty

/-- Memory when the arguments have been evaluated. -/
def f1 (K : Ops) (W : World) (it : Item) : PFrame :=
  match it.s, it.v with
  | .plain (.record true), .own l => { PFrame.empty with loc := some l }
  | .plain (.existing false), .own l => { PFrame.empty with loc := some l }
  | .plain (.record false), .own l => { PFrame.empty with temp := some l }
  | .plain (.bridged k), .own l => { PFrame.empty with buf := some { l with val := K.rEnc k l.val } }
  | .constRef _, .ref a => { PFrame.empty with temp := some (K.clone (W a)) }
  | _, _ => .empty

/-- Memory when the thunk has been entered. -/
def f2 (K : Ops) (W : World) (it : Item) : PFrame :=
  match it.s, it.v with
  | .plain (.existing true), .own l => { PFrame.empty with thunk := some l }
  | _, _ => it.f1 K W

/-- Memory of the Rust side when the called function's parameter has been initialised. -/
def rest (K : Ops) (W : World) (it : Item) : PFrame :=
  match it.s, it.v with
  | .plain (.record true), .own l => { PFrame.empty with loc := some (K.moved l) }
  | .plain (.existing false), .own l => { PFrame.empty with loc := some (K.moved l) }
  | .plain (.record false), .own l => { PFrame.empty with temp := some (K.moved l) }
  | .plain (.existing true), .own l => { PFrame.empty with thunk := some (K.moved l) }
  | .constRef _, .ref a => { PFrame.empty with temp := some (K.moved (K.clone (W a))) }
  | _, _ => .empty

/-- The called function's parameter object. -/
def obj (K : Ops) (W : World) (it : Item) : Option Leaf :=
  if it.p.ty.isClass then
    match seen K W it.s it.v with
    | .own l => some l
    | .ref _ => none
  else none

/-- Memory when the called function's parameter has been initialised. -/
def f3 (K : Ops) (W : World) (it : Item) : PFrame := { it.rest K W with cpp := it.obj K W }

end Item

/-- Names are distinct. -/
def Distinct (its : List Item) : Prop := (its.map Item.n).Nodup

/-- Positions count up from `i`. -/
def Counted : Nat → List Item → Prop
  | _, [] => True
  | i, it :: its => it.idx = i ∧ Counted (i + 1) its

/-- The memory of every parameter is as `f` says, and the rest is as in `s0`. -/
structure Frames (its : List Item) (f : Item → PFrame) (s0 s : St) : Prop where
  own : ∀ it ∈ its, s.fr it.n = f it
  others : ∀ m, m ∉ its.map Item.n → s.fr m = s0.fr m

theorem St.set_fr (s : St) (n m : Nat) (p : PFrame) :
    (s.set n p).fr m = if m = n then p else s.fr m := rfl

@[simp] theorem St.set_world (s : St) (n : Nat) (p : PFrame) : (s.set n p).world = s.world := rfl
@[simp] theorem St.set_ret (s : St) (n : Nat) (p : PFrame) : (s.set n p).ret = s.ret := rfl
@[simp] theorem St.set_retBuf (s : St) (n : Nat) (p : PFrame) : (s.set n p).retBuf = s.retBuf := rfl
@[simp] theorem St.set_rel (s : St) (n : Nat) (p : PFrame) : (s.set n p).rel = s.rel := rfl
@[simp] theorem St.set_same (s : St) (n : Nat) (p : PFrame) : (s.set n p).fr n = p := by
  simp [St.set]

theorem Distinct.tail {it : Item} {its : List Item} (h : Distinct (it :: its)) : Distinct its := by
  simp only [Distinct, List.map_cons, List.nodup_cons] at h
  exact h.2

theorem Distinct.head {it : Item} {its : List Item} (h : Distinct (it :: its)) :
    it.n ∉ its.map Item.n := by
  simp only [Distinct, List.map_cons, List.nodup_cons] at h
  exact h.1

/-- Processing the head, then the tail. -/
theorem Frames.cons {it : Item} {its : List Item} {f : Item → PFrame} {s0 s1 s : St}
    (hd : Distinct (it :: its)) (h1 : s1.fr it.n = f it)
    (hother : ∀ m, m ≠ it.n → s1.fr m = s0.fr m) (ht : Frames its f s1 s) :
    Frames (it :: its) f s0 s := by
  constructor
  · intro x hx
    rcases List.mem_cons.mp hx with rfl | hx
    · rw [ht.others _ hd.head, h1]
    · exact ht.own x hx
  · intro m hm
    simp only [List.map_cons, List.mem_cons, not_or] at hm
    rw [ht.others m hm.2, hother m hm.1]

/-- Processing the tail, then the head. -/
theorem Frames.consLast {it : Item} {its : List Item} {f : Item → PFrame} {s0 s1 s : St}
    (hd : Distinct (it :: its)) (ht : Frames its f s0 s1) (h1 : s.fr it.n = f it)
    (hother : ∀ m, m ≠ it.n → s.fr m = s1.fr m) :
    Frames (it :: its) f s0 s := by
  constructor
  · intro x hx
    rcases List.mem_cons.mp hx with rfl | hx
    · exact h1
    · have : x.n ≠ it.n := by
        intro h
        exact hd.head (h ▸ List.mem_map_of_mem hx)
      rw [hother _ this, ht.own x hx]
  · intro m hm
    simp only [List.map_cons, List.mem_cons, not_or] at hm
    rw [hother m hm.1, ht.others m hm.2]

/-- The tail's memory is untouched by what happens to the head. -/
theorem own_tail {it : Item} {its : List Item} {f : Item → PFrame} {s s1 : St}
    (hd : Distinct (it :: its)) (h : ∀ x ∈ it :: its, s.fr x.n = f x)
    (hother : ∀ m, m ≠ it.n → s1.fr m = s.fr m) : ∀ x ∈ its, s1.fr x.n = f x := by
  intro x hx
  have : x.n ≠ it.n := by
    intro e
    exact hd.head (e ▸ List.mem_map_of_mem hx)
  rw [hother _ this]
  exact h x (List.mem_cons_of_mem _ hx)

/-! ## Entering the Rust function -/

theorem enterRust_ok (its : List Item) (s : St) (hd : Distinct its)
    (h : ∀ it ∈ its, s.fr it.n = .empty) :
    Frames its Item.f0 s (enterRust (its.map fun it => (it.p, it.v)) s) ∧
    (enterRust (its.map fun it => (it.p, it.v)) s).world = s.world ∧
    (enterRust (its.map fun it => (it.p, it.v)) s).ret = s.ret ∧
    (enterRust (its.map fun it => (it.p, it.v)) s).retBuf = s.retBuf ∧
    (enterRust (its.map fun it => (it.p, it.v)) s).rel = s.rel := by
  induction its generalizing s with
  | nil => exact ⟨⟨by simp, by simp [enterRust]⟩, rfl, rfl, rfl, rfl⟩
  | cons it its ih =>
      obtain ⟨i, p, sh, v⟩ := it
      have he := h _ (List.mem_cons_self ..)
      cases v with
      | own l =>
          simp only [List.map_cons, enterRust]
          have hother : ∀ m, m ≠ p.name →
              (s.set p.name { s.fr p.name with loc := some l }).fr m = s.fr m := by
            intro m hm; simp [St.set_fr, hm]
          obtain ⟨h1, h2, h3, h4, h5⟩ := ih (s.set p.name { s.fr p.name with loc := some l }) hd.tail
            (own_tail (f := fun _ => .empty) hd h hother)
          refine ⟨Frames.cons hd ?_ hother h1, h2, h3, h4, h5⟩
          simp only [St.set_same, he, Item.f0]
      | ref a =>
          simp only [List.map_cons, enterRust]
          obtain ⟨h1, h2, h3, h4, h5⟩ := ih s hd.tail
            (fun x hx => h x (List.mem_cons_of_mem _ hx))
          exact ⟨Frames.cons hd he (fun _ _ => rfl) h1, h2, h3, h4, h5⟩

/-! ## Evaluating the arguments -/

/-- One argument. -/
theorem evalRArg_ok (K : Ops) (up : Nat → Nat) (it : Item) (hg : it.Good) (s : St)
    (h : s.fr it.n = it.f0) :
    ∃ s1, evalRArg K up it.n it.v (rustArg it.s) s = some (it.reg, s1) ∧
      s1.fr it.n = it.f1 K s.world ∧ (∀ m, m ≠ it.n → s1.fr m = s.fr m) ∧
      s1.world = s.world ∧ s1.ret = s.ret ∧ s1.retBuf = s.retBuf ∧ s1.rel = s.rel := by
  obtain ⟨i, ⟨n, t⟩, sh, v⟩ := it
  obtain ⟨hs, hf⟩ := hg
  simp only at hs hf h
  rcases hs with rfl | ⟨rfl, rfl⟩ | ⟨rfl, rfl⟩
  · cases t <;> cases v <;> simp only [Fits] at hf <;>
      first
      | exact absurd hf id
      | (rename_i b l
         cases b <;>
         simp [evalRArg, rustArg, Ty.conv, Ty.isOwnedPtr, Ty.isBridge, Ty.isUnpin, Ty.isCAbi, h,
          Item.reg, Item.f0, Item.f1, PFrame.empty, St.set_fr] <;>
         intro m hm <;> simp [hm])
      | (simp [evalRArg, rustArg, Ty.conv, Ty.isOwnedPtr, Ty.isBridge, Ty.isUnpin, Ty.isCAbi, h,
          Item.reg, Item.f0, Item.f1, PFrame.empty, St.set_fr, Ty.codec] <;>
          intro m hm <;> simp [hm])
  · cases v <;> simp only [Fits] at hf <;>
      first
      | exact absurd hf id
      | (simp [evalRArg, rustArg, h, Item.reg, Item.f0, Item.f1, PFrame.empty, St.set_fr] <;>
          intro m hm <;> simp [hm])
  · cases v <;> simp only [Fits] at hf <;>
      first
      | exact absurd hf id
      | simp [evalRArg, rustArg, h, Item.reg, Item.f0, Item.f1]

/-- Everything but the parameters' memory is the same. -/
structure Same (s0 s : St) : Prop where
  world : s.world = s0.world
  ret : s.ret = s0.ret
  retBuf : s.retBuf = s0.retBuf
  rel : s.rel = s0.rel

theorem Same.refl (s : St) : Same s s := ⟨rfl, rfl, rfl, rfl⟩

theorem Same.trans {a b c : St} (h : Same a b) (h' : Same b c) : Same a c :=
  ⟨h'.1.trans h.1, h'.2.trans h.2, h'.3.trans h.3, h'.4.trans h.4⟩

/-- A list of arguments, none of which is `self`. -/
theorem evalRArgs_tail (K : Ops) (up : Nat → Nat) (its : List Item) (s : St) (hd : Distinct its)
    (hg : ∀ it ∈ its, it.Good) (h : ∀ it ∈ its, s.fr it.n = it.f0) :
    ∃ s1, evalRArgs K up (its.map fun it => (it.p, it.v)) (its.map fun it => rustArg it.s) s =
        some (its.map Item.reg, s1) ∧
      Frames its (Item.f1 K s.world) s s1 ∧ Same s s1 := by
  induction its generalizing s with
  | nil => exact ⟨s, rfl, ⟨by simp, by simp⟩, Same.refl s⟩
  | cons it its ih =>
      obtain ⟨s1, e1, h1, ho, w1, r1, b1, l1⟩ := evalRArg_ok K up it (hg it (by simp)) s
        (h it (by simp))
      obtain ⟨s2, e2, f2, c2⟩ := ih s1 hd.tail (fun x hx => hg x (by simp [hx]))
        (own_tail hd h ho)
      refine ⟨s2, ?_, Frames.cons hd h1 ho (w1 ▸ f2), Same.trans ⟨w1, r1, b1, l1⟩ c2⟩
      simp only [List.map_cons, evalRArgs, e1, Option.bind_eq_bind, Option.bind_some, e2]
      rfl

/-- The types `this` can have. -/
def Ty.isThis : Ty → Bool
  | .ptr => true
  | .ptrRef => true
  | .lref => true
  | .rref => true
  | _ => false

/-- What is passed for the first parameter. -/
def headArg (up : Nat → Nat) (sh : Shape) (v : Arg) : Arg := if sh.derived then v.up up else v

/-- What the generator knows of the first parameter: `self` is not a bridged type, nor an immovable
type by value; an inherited method is called on its `this`. -/
structure HeadOk (sh : Shape) (s : Shown) : Prop where
  self : sh.selfFirst = true → ∀ t, s = .plain t → t.isBridge = false ∧ t.isUnpin = true
  derived : sh.derived = true → ∃ t, s = .plain t ∧ t.isThis = true

/-- The first argument. -/
theorem evalSelf_ok (K : Ops) (up : Nat → Nat) (sh : Shape) (it : Item) (hg : it.Good)
    (hh : HeadOk sh it.s) (s : St) (h : s.fr it.n = it.f0) :
    ∃ s1, evalRArg K up it.n it.v (selfArg sh it.s) s =
        some (Item.reg { it with v := headArg up sh it.v }, s1) ∧
      s1.fr it.n = Item.f1 K s.world { it with v := headArg up sh it.v } ∧
      (∀ m, m ≠ it.n → s1.fr m = s.fr m) ∧ Same s s1 := by
  obtain ⟨i, ⟨n, t⟩, sw, v⟩ := it
  obtain ⟨mat, cr, ng, dr, self, der⟩ := sh
  have hplain : der = false → self = false →
      ∃ s1, evalRArg K up n v (rustArg sw) s =
        some (Item.reg ⟨i, ⟨n, t⟩, sw, v⟩, s1) ∧
      s1.fr n = Item.f1 K s.world ⟨i, ⟨n, t⟩, sw, v⟩ ∧
      (∀ m, m ≠ n → s1.fr m = s.fr m) ∧ Same s s1 := by
    intro _ _
    obtain ⟨s1, a, b, c, d, e, g, j⟩ := evalRArg_ok K up _ hg s h
    exact ⟨s1, a, b, c, d, e, g, j⟩
  cases der with
  | false =>
      simp only [headArg]
      cases self with
      | false =>
          have : selfArg ⟨mat, cr, ng, dr, false, false⟩ sw = rustArg sw := by
            cases sw <;> simp [selfArg]
          simp only [this]
          exact hplain rfl rfl
      | true =>
          have : selfArg ⟨mat, cr, ng, dr, true, false⟩ sw = rustArg sw ∨
              ((∃ l, v = .own l) ∧ selfArg ⟨mat, cr, ng, dr, true, false⟩ sw = .use ∧
                rustArg sw = .transmute) := by
            cases sw with
            | constRef t => exact .inl rfl
            | rvalue t => exact .inl rfl
            | plain u =>
                have hu := hh.self rfl u rfl
                have hf := hg.fits
                simp only at hf
                cases u <;> simp_all [selfArg, rustArg, Ty.conv, Ty.isOwnedPtr, Ty.isBridge,
                  Ty.isUnpin, Ty.isCAbi]
                · cases v <;> simp_all [Fits]
                · rename_i b
                  cases b <;> simp
          obtain ⟨s1, a, b, c, d, e, g, j⟩ := evalRArg_ok K up _ hg s h
          rcases this with this | ⟨⟨l, rfl⟩, h1, h2⟩
          · simp only [this]
            exact ⟨s1, a, b, c, d, e, g, j⟩
          · simp only [h1]
            simp only [h2] at a
            refine ⟨s1, Eq.trans ?_ a, b, c, d, e, g, j⟩
            simp [evalRArg]
  | true =>
      obtain ⟨u, hu, hthis⟩ := hh.derived rfl
      simp only at hu
      subst hu
      have hf := hg.fits
      simp only at hf h
      have he : selfArg ⟨mat, cr, ng, dr, self, true⟩ (.plain u) = .upcast := by
        cases u <;> cases self <;> simp_all [selfArg, Ty.isThis, Ty.isCAbi]
      simp only [he, headArg]
      cases u <;> simp only [Ty.isThis, Bool.false_eq_true] at hthis <;> cases v <;>
        simp only [Fits] at hf <;>
        first
        | exact absurd hf id
        | (refine ⟨_, rfl, ?_, fun _ _ => rfl, Same.refl _⟩
           simp [h, Item.f0, Item.f1, Arg.up])
        | (simp only [evalRArg, h, Item.f0]
           refine ⟨_, rfl, ?_, ?_, ⟨rfl, rfl, rfl, rfl⟩⟩
           · simp [Item.f1, Arg.up, PFrame.empty]
           · intro m hm
             simp [St.set_fr, hm])

/-- The items with what is passed after the conversion to the base class. -/
def upItems (up : Nat → Nat) (sh : Shape) : List Item → List Item
  | [] => []
  | it :: its => { it with v := headArg up sh it.v } :: its

theorem upItems_names (up : Nat → Nat) (sh : Shape) (its : List Item) :
    (upItems up sh its).map Item.n = its.map Item.n := by
  cases its <;> rfl

/-- All arguments. -/
theorem evalRArgs_ok (K : Ops) (up : Nat → Nat) (sh : Shape) (its : List Item) (s : St)
    (hd : Distinct its) (hg : ∀ it ∈ its, it.Good)
    (hh : ∀ it, its.head? = some it → HeadOk sh it.s) (h : ∀ it ∈ its, s.fr it.n = it.f0) :
    ∃ s1, evalRArgs K up (its.map fun it => (it.p, it.v)) (rustArgs sh (its.map Item.s)) s =
        some ((upItems up sh its).map Item.reg, s1) ∧
      Frames (upItems up sh its) (Item.f1 K s.world) s s1 ∧ Same s s1 := by
  cases its with
  | nil => exact ⟨s, rfl, ⟨by simp [upItems], by simp⟩, Same.refl s⟩
  | cons it its =>
      obtain ⟨s1, e1, h1, ho, c1⟩ := evalSelf_ok K up sh it (hg it (by simp)) (hh it rfl) s
        (h it (by simp))
      obtain ⟨s2, e2, f2, c2⟩ := evalRArgs_tail K up its s1 hd.tail
        (fun x hx => hg x (by simp [hx])) (own_tail hd h ho)
      refine ⟨s2, ?_, ?_, Same.trans c1 c2⟩
      · simp only [List.map_cons, rustArgs, evalRArgs, e1, upItems]
        simp only [List.map_map]
        have : (its.map (rustArg ∘ Item.s)) = its.map fun it => rustArg it.s := rfl
        rw [this]
        simp only [Option.bind_eq_bind, Option.bind_some, e2]
        rfl
      · have hd' : Distinct ({ it with v := headArg up sh it.v } :: its) := hd
        exact Frames.cons (it := { it with v := headArg up sh it.v }) hd' h1 ho (c1.world ▸ f2)

end Verif.CcCall

import Verif.CcCall.Stages

/-!
# The C++ side, stage by stage
-/

namespace Verif.CcCall

/-- The thunk's names stand for the parameters' registers. -/
def EnvOk (env : Env) (its : List Item) : Prop := ∀ it ∈ its, env (.par it.n) = some it.reg

/-! ## Entering and leaving the thunk -/

theorem enterThunk_ok (K : Ops) (W : World) (env : Env) (its : List Item) (s : St)
    (hd : Distinct its) (hg : ∀ it ∈ its, it.Good) (he : EnvOk env its)
    (h : ∀ it ∈ its, s.fr it.n = it.f1 K W) :
    Frames its (Item.f2 K W) s (enterThunk env (its.map Item.p) s) ∧
      Same s (enterThunk env (its.map Item.p) s) := by
  induction its generalizing s with
  | nil => exact ⟨⟨by simp, by simp [enterThunk]⟩, Same.refl s⟩
  | cons it its ih =>
      have he0 := he it (by simp)
      have hg0 := hg it (by simp)
      have h0 := h it (by simp)
      have step : ∃ s1, enterThunk env ((it :: its).map Item.p) s =
            enterThunk env (its.map Item.p) s1 ∧ s1.fr it.n = it.f2 K W ∧
          (∀ m, m ≠ it.n → s1.fr m = s.fr m) ∧ Same s s1 := by
        obtain ⟨i, ⟨n, t⟩, sh, v⟩ := it
        obtain ⟨hs, hf⟩ := hg0
        simp only at hs hf h0 he0
        simp only [List.map_cons, enterThunk]
        rcases hs with rfl | ⟨rfl, rfl⟩ | ⟨rfl, rfl⟩
        · cases t with
          | existing b =>
              cases v with
              | ref a => exact absurd hf (by simp [Fits])
              | own l =>
                  cases b with
                  | true =>
                      have : env (.par n) = some (.val l) := he0
                      simp only [this, Ty.isClass]
                      refine ⟨_, rfl, ?_, ?_, ⟨rfl, rfl, rfl, rfl⟩⟩
                      · simp only [St.set_same, h0]
                        simp [Item.f1, Item.f2, PFrame.empty]
                      · intro m hm
                        simp [St.set_fr, hm]
                  | false =>
                      have : env (.par n) = some (.addr (.loc n)) := he0
                      simp only [this, Ty.isClass]
                      exact ⟨_, rfl, h0, fun _ _ => rfl, Same.refl _⟩
          | record b =>
              cases v with
              | ref a => exact absurd hf (by simp [Fits])
              | own l =>
                  have : ∃ x, env (.par n) = some (.addr x) := by
                    cases b
                    · exact ⟨_, he0⟩
                    · exact ⟨_, he0⟩
                  obtain ⟨x, hx⟩ := this
                  simp only [hx, Ty.isClass]
                  exact ⟨_, rfl, h0, fun _ _ => rfl, Same.refl _⟩
          | bridged k =>
              cases v with
              | ref a => exact absurd hf (by simp [Fits])
              | own l =>
                  have : env (.par n) = some (.bytes n) := he0
                  simp only [this, Ty.isClass]
                  exact ⟨_, rfl, h0, fun _ _ => rfl, Same.refl _⟩
          | _ =>
              simp only [Ty.isClass]
              exact ⟨_, rfl, h0, fun _ _ => rfl, Same.refl _⟩
        · cases v with
          | own l => exact absurd hf (by simp [Fits])
          | ref a =>
              have : env (.par n) = some (.addr (.temp n)) := he0
              simp only [this, Ty.isClass]
              exact ⟨_, rfl, h0, fun _ _ => rfl, Same.refl _⟩
        · cases v with
          | own l => exact absurd hf (by simp [Fits])
          | ref a =>
              have : env (.par n) = some (.addr (.obj a)) := he0
              simp only [this, Ty.isClass]
              exact ⟨_, rfl, h0, fun _ _ => rfl, Same.refl _⟩
      obtain ⟨s1, e1, h1, ho, c1⟩ := step
      obtain ⟨f, c⟩ := ih s1 hd.tail (fun x hx => hg x (by simp [hx]))
        (fun x hx => he x (by simp [hx])) (own_tail hd h ho)
      rw [e1]
      exact ⟨Frames.cons hd h1 ho f, Same.trans c1 c⟩

/-- Memory of the Rust side when the thunk is left. -/
def Item.f6 (K : Ops) (W : World) (it : Item) : PFrame := { it.rest K W with thunk := none }

/-- What the thunk's own parameter owns when the thunk is left. -/
def Item.thunkLeft (K : Ops) (W : World) (it : Item) : List Nat :=
  ((it.rest K W).thunk.bind (·.res)).toList

/-- What the Rust local and temporary own when the Rust function is left. -/
def Item.rustLeft (K : Ops) (W : World) (it : Item) : List Nat :=
  ((it.rest K W).temp.bind (·.res)).toList ++ ((it.rest K W).loc.bind (·.res)).toList

theorem Item.rest_buf (K : Ops) (W : World) (it : Item) :
    (it.rest K W).buf = none ∧ (it.rest K W).cpp = none := by
  obtain ⟨i, p, sh, v⟩ := it
  unfold Item.rest
  split <;> simp [PFrame.empty]

/-- The same, but for the parameters' memory, and `x` has been released. -/
structure Released (x : List Nat) (s0 s : St) : Prop where
  world : s.world = s0.world
  ret : s.ret = s0.ret
  retBuf : s.retBuf = s0.retBuf
  rel : s.rel.Perm (s0.rel ++ x)

theorem exitThunk_ok (K : Ops) (W : World) (its : List Item) (s : St) (hd : Distinct its)
    (h : ∀ it ∈ its, s.fr it.n = it.rest K W) :
    Frames its (Item.f6 K W) s (exitThunk (its.map Item.p) s) ∧
      Released (its.flatMap (Item.thunkLeft K W)) s (exitThunk (its.map Item.p) s) := by
  induction its with
  | nil => exact ⟨⟨by simp, by simp [exitThunk]⟩, ⟨rfl, rfl, rfl, by simp [exitThunk]⟩⟩
  | cons it its ih =>
      obtain ⟨f, c⟩ := ih hd.tail (fun x hx => h x (by simp [hx]))
      have h0 : (exitThunk (its.map Item.p) s).fr it.n = it.rest K W := by
        rw [f.others _ hd.head]
        exact h it (by simp)
      simp only [List.map_cons, exitThunk]
      refine ⟨Frames.consLast hd f ?_ ?_, ⟨c.world, c.ret, c.retBuf, ?_⟩⟩
      · simp only [St.set_same]
        have : (exitThunk (its.map Item.p) s).fr it.p.name = it.rest K W := h0
        rw [this]
        rfl
      · intro m hm
        have hm' : m ≠ it.p.name := hm
        simp [St.set_fr, hm', destroy]
      · have : (exitThunk (its.map Item.p) s).fr it.p.name = it.rest K W := h0
        simp only [St.set_rel, destroy, this, List.flatMap_cons]
        refine (List.Perm.append_right _ c.rel).trans ?_
        rw [List.append_assoc]
        exact List.Perm.append_left _ List.perm_append_comm

theorem exitRust_ok (K : Ops) (W : World) (its : List Item) (s : St) (hd : Distinct its)
    (h : ∀ it ∈ its, s.fr it.n = it.f6 K W) :
    Frames its (fun _ => .empty) s (exitRust (its.map Item.p) s) ∧
      Released (its.flatMap (Item.rustLeft K W)) s (exitRust (its.map Item.p) s) := by
  induction its with
  | nil => exact ⟨⟨by simp, by simp [exitRust]⟩, ⟨rfl, rfl, rfl, by simp [exitRust]⟩⟩
  | cons it its ih =>
      obtain ⟨f, c⟩ := ih hd.tail (fun x hx => h x (by simp [hx]))
      have h0 : (exitRust (its.map Item.p) s).fr it.p.name = it.f6 K W := by
        have := f.others _ hd.head
        exact this.trans (h it (by simp))
      obtain ⟨r3, r4⟩ := Item.rest_buf K W it
      simp only [List.map_cons, exitRust]
      refine ⟨Frames.consLast hd f ?_ ?_, ⟨c.world, c.ret, c.retBuf, ?_⟩⟩
      · simp only [St.set_same]
        rw [h0]
        simp only [Item.f6, r3, r4, PFrame.empty]
      · intro m hm
        have hm' : m ≠ it.p.name := hm
        simp [St.set_fr, hm', destroy]
      · simp only [St.set_rel, destroy, h0, Item.f6, List.flatMap_cons]
        rw [List.append_assoc]
        refine (List.Perm.append_right _ c.rel).trans ?_
        rw [List.append_assoc]
        exact List.Perm.append_left _ List.perm_append_comm

/-! ## The called function -/

theorem leaveParams_ok (K : Ops) (W : World) (g : Item → PFrame) (post : Nat → Leaf) (its : List Item) (i : Nat) (s : St)
    (hd : Distinct its) (hc : Counted i its)
    (hobj : ∀ it ∈ its, (it.obj K W).isSome = it.p.ty.isClass)
    (h : ∀ it ∈ its, s.fr it.n = { g it with cpp := it.obj K W }) :
    Frames its (fun it => { g it with cpp := if it.p.ty.isClass then some (post it.idx) else none }) s (leaveParams post i (its.map Item.p) s) ∧
      Same s (leaveParams post i (its.map Item.p) s) := by
  induction its generalizing s i with
  | nil => exact ⟨⟨by simp, by simp [leaveParams]⟩, Same.refl s⟩
  | cons it its ih =>
      have h0 : s.fr it.p.name = { g it with cpp := it.obj K W } := h it (by simp)
      have ho := hobj it (by simp)
      obtain ⟨hi, hc'⟩ := hc
      simp only [List.map_cons, leaveParams, h0, ho]
      by_cases hcl : it.p.ty.isClass = true
      · simp only [hcl, if_true]
        have hother : ∀ m, m ≠ it.n → (s.set it.p.name { g it with
            cpp := some (post i) }).fr m = s.fr m := by
          intro m hm
          have hm' : m ≠ it.p.name := hm
          simp [St.set_fr, hm']
        obtain ⟨f, c⟩ := ih (i + 1) (s.set it.p.name { g it with
            cpp := some (post i) }) hd.tail hc' (fun x hx => hobj x (by simp [hx]))
            (own_tail (f := fun it => { g it with cpp := it.obj K W }) hd h hother)
        refine ⟨Frames.cons hd ?_ hother f, ⟨c.world, c.ret, c.retBuf, c.rel⟩⟩
        simp only [St.set_same, hcl, hi, if_true]
      · simp only [hcl, if_false, Bool.false_eq_true]
        obtain ⟨f, c⟩ := ih (i + 1) s hd.tail hc' (fun x hx => hobj x (by simp [hx]))
            (fun x hx => h x (by simp [hx]))
        refine ⟨Frames.cons hd ?_ (fun _ _ => rfl) f, c⟩
        have : s.fr it.n = { g it with cpp := it.obj K W } := h0
        rw [this]
        simp only [hcl, if_false, Bool.false_eq_true]
        simp only [hcl] at ho
        cases hob : it.obj K W with
        | none => rfl
        | some x => rw [hob] at ho; simp at ho

theorem exitCallee_ok (K : Ops) (W : World) (g : Item → PFrame) (post : Nat → Leaf) (its : List Item) (i : Nat) (s : St)
    (hd : Distinct its) (hc : Counted i its) (hgc : ∀ it ∈ its, (g it).cpp = none) (h : ∀ it ∈ its, s.fr it.n =
      { g it with cpp := if it.p.ty.isClass then some (post it.idx) else none }) :
    Frames its g s (exitCallee (its.map Item.p) s) ∧
      (exitCallee (its.map Item.p) s).world = s.world ∧
      (exitCallee (its.map Item.p) s).ret = s.ret ∧
      (exitCallee (its.map Item.p) s).retBuf = s.retBuf ∧
      (exitCallee (its.map Item.p) s).rel =
        s.rel ++ paramRel post i (its.map fun it => it.p.ty) := by
  induction its generalizing s i with
  | nil => exact ⟨⟨by simp, by simp [exitCallee]⟩, rfl, rfl, rfl, by simp [exitCallee, paramRel]⟩
  | cons it its ih =>
      have h0 : s.fr it.p.name =
          { g it with cpp := if it.p.ty.isClass then some (post it.idx) else none } := h it (by simp)
      obtain ⟨hi, hc'⟩ := hc
      simp only [List.map_cons, exitCallee]
      have hother : ∀ m, m ≠ it.n → ((destroy (s.fr it.p.name).cpp s).set it.p.name
          { (destroy (s.fr it.p.name).cpp s).fr it.p.name with cpp := none }).fr m = s.fr m := by
        intro m hm
        have hm' : m ≠ it.p.name := hm
        simp [St.set_fr, hm', destroy]
      obtain ⟨f, w, r, b, l⟩ := ih (i + 1) ((destroy (s.fr it.p.name).cpp s).set it.p.name
          { (destroy (s.fr it.p.name).cpp s).fr it.p.name with cpp := none }) hd.tail hc'
          (fun x hx => hgc x (by simp [hx])) (own_tail (f := fun it =>
            { g it with cpp := if it.p.ty.isClass then some (post it.idx) else none }) hd h hother)
      refine ⟨Frames.cons hd ?_ hother f, w, r, b, ?_⟩
      · have h4 := hgc it (by simp)
        simp only [St.set_same, destroy, h0]
        cases hr : g it
        rw [hr] at h4
        simp only at h4
        simp [h4]
      · rw [l]
        simp only [St.set_rel, destroy, h0, paramRel, hi]
        by_cases hcl : it.p.ty.isClass = true
        · simp [hcl]
        · simp [hcl]

theorem Item.Good.obj_isSome {K : Ops} {W : World} {it : Item} (hg : it.Good) :
    (it.obj K W).isSome = it.p.ty.isClass := by
  obtain ⟨i, ⟨n, t⟩, sh, v⟩ := it
  obtain ⟨hs, hf⟩ := hg
  simp only at hs hf
  unfold Item.obj
  rcases hs with rfl | ⟨rfl, rfl⟩ | ⟨rfl, rfl⟩ <;> cases v <;>
    first
    | (cases t <;> simp_all [Fits, seen, Ty.isClass])
    | simp_all [Fits, seen, Ty.isClass]

/-- Run the body and destroy the parameters. -/
theorem runBody_ok (K : Ops) (W : World) (g : Item → PFrame) (body : Body) (its : List Item) (i : Nat) (args : List Arg)
    (s : St) (hd : Distinct its) (hc : Counted i its) (hg : ∀ it ∈ its, it.Good)
    (hgc : ∀ it ∈ its, (g it).cpp = none)
    (h : ∀ it ∈ its, s.fr it.n = { g it with cpp := it.obj K W }) :
    (runBody body i (its.map Item.p) args s).1 = (body args s.world).ret ∧
      Frames its g s (runBody body i (its.map Item.p) args s).2 ∧
      (runBody body i (its.map Item.p) args s).2.world = (body args s.world).world ∧
      (runBody body i (its.map Item.p) args s).2.ret = s.ret ∧
      (runBody body i (its.map Item.p) args s).2.retBuf = s.retBuf ∧
      (runBody body i (its.map Item.p) args s).2.rel = s.rel ++ (body args s.world).rel ++
        paramRel (body args s.world).post i (its.map fun it => it.p.ty) := by
  simp only [runBody]
  generalize hs1 : ({ s with world := (body args s.world).world, rel := s.rel ++ (body args s.world).rel } : St) = s1
  have hfr : s1.fr = s.fr := by rw [← hs1]
  obtain ⟨f1, c1⟩ := leaveParams_ok K W g (body args s.world).post its i s1 hd hc
    (fun it hit => (hg it hit).obj_isSome) (fun it hit => by rw [hfr]; exact h it hit)
  obtain ⟨f2, w2, r2, b2, l2⟩ := exitCallee_ok K W g (body args s.world).post its i _ hd hc hgc f1.own
  refine ⟨trivial, ⟨f2.own, fun m hm => ?_⟩, ?_, ?_, ?_, ?_⟩
  · rw [f2.others m hm, f1.others m hm, hfr]
  · rw [w2, c1.world, ← hs1]
  · rw [r2, c1.ret, ← hs1]
  · rw [b2, c1.retBuf, ← hs1]
  · rw [l2, c1.rel, ← hs1]

/-! ## Initialising the parameters -/

/-- The objects moved from. -/
def moves (its : List Item) : List Nat := movedObjs (its.map fun it => (it.s, it.v))

theorem moves_cons (it : Item) (its : List Item) :
    moves (it :: its) = (match it.s, it.v with
      | .rvalue _, .ref a => [a]
      | _, _ => []) ++ moves its := by
  obtain ⟨i, p, sh, v⟩ := it
  cases sh <;> cases v <;> rfl

/-- One parameter.  `W` is the world in which the Rust arguments were evaluated. -/
theorem initParam_ok (K : Ops) (W : World) (env : Env) (it : Item) (hg : it.Good)
    (he : env (.par it.n) = some it.reg) (s : St) (h : s.fr it.n = it.f2 K W)
    (hw : ∀ a, it.s = .rvalue it.p.ty → it.v = .ref a → s.world a = W a) :
    ∃ s1, (evalC K env it.p.ty.isFn (cppArg it.p) s).bind (fun x => initParam K it.p x.1 x.2) =
        some (seen K W it.s it.v, s1) ∧
      s1.fr it.n = it.f3 K W ∧ (∀ m, m ≠ it.n → s1.fr m = s.fr m) ∧
      s1.world = worldAtEntry K (moves [it]) s.world ∧
      s1.ret = s.ret ∧ s1.retBuf = s.retBuf ∧ s1.rel = s.rel := by
  obtain ⟨i, ⟨n, t⟩, sh, v⟩ := it
  obtain ⟨hs, hf⟩ := hg
  simp only at hs hf h he
  rcases hs with rfl | ⟨rfl, rfl⟩ | ⟨rfl, rfl⟩
  · have hm : moves [⟨i, ⟨n, t⟩, .plain t, v⟩] = [] := rfl
    have hwe : worldAtEntry K [] s.world = s.world := by funext a; simp [worldAtEntry]
    rw [hm, hwe]
    cases t <;> cases v <;> simp only [Fits] at hf <;>
      first
      | exact absurd hf id
      | (rename_i b l
         cases b <;>
         simp [Item.reg] at he <;>
         simp [Item.f1, Item.f2, PFrame.empty] at h <;>
         simp [evalC, cppArg, Ty.conv, Ty.isOwnedPtr, Ty.isBridge, Ty.isUnpin, Ty.isCAbi, he, h,
           Ty.isFn, initParam, Ty.isClass, St.read, St.write, seen, Item.f3, Item.rest, Item.obj,
           PFrame.empty, St.set_fr, St.isThunkObj, Ty.isPrimitive] <;>
         intro m hm <;> simp [hm])
      | (simp [Item.reg] at he
         simp [Item.f1, Item.f2, PFrame.empty] at h
         simp [evalC, cppArg, Ty.conv, Ty.isOwnedPtr, Ty.isBridge, Ty.isUnpin, Ty.isCAbi, he, h,
           Ty.isFn, initParam, Ty.isClass, St.read, St.write, seen, Item.f3, Item.rest, Item.obj,
           PFrame.empty, St.set_fr, St.isThunkObj, Ty.isPrimitive, Ty.codec] <;>
           intro m hm <;> simp [hm])
  · have hm : moves [⟨i, ⟨n, .record true⟩, .constRef (.record true), v⟩] = [] := rfl
    have hwe : worldAtEntry K [] s.world = s.world := by funext a; simp [worldAtEntry]
    rw [hm, hwe]
    cases v <;> simp only [Fits] at hf <;>
      first
      | exact absurd hf id
      | (simp [Item.reg] at he
         simp [Item.f1, Item.f2, PFrame.empty] at h
         simp [evalC, cppArg, Ty.conv, Ty.isOwnedPtr, Ty.isBridge, Ty.isUnpin, Ty.isCAbi, he, h,
           Ty.isFn, initParam, Ty.isClass, St.read, St.write, seen, Item.f3, Item.rest, Item.obj,
           PFrame.empty, St.set_fr]
         intro m hm
         simp [hm])
  · cases v <;> simp only [Fits] at hf <;>
      first
      | exact absurd hf id
      | (rename_i a
         have hwa := hw a rfl rfl
         simp [Item.reg] at he
         simp [Item.f1, Item.f2, PFrame.empty] at h
         simp [evalC, cppArg, Ty.conv, Ty.isOwnedPtr, Ty.isBridge, Ty.isUnpin, Ty.isCAbi, he, h,
           Ty.isFn, initParam, Ty.isClass, St.read, St.write, seen, Item.f3, Item.rest, Item.obj,
           PFrame.empty, St.set_fr, hwa]
         refine ⟨?_, ?_⟩
         · intro m hm
           simp [hm]
         · funext b
           simp only [worldAtEntry, moves, List.map_cons, List.map_nil, movedObjs, List.mem_singleton]
           by_cases hb : b = a
           · subst hb; simp [hwa]
           · simp [hb])

theorem worldAtEntry_append (K : Ops) (as bs : List Nat) (W : World) (hd : (as ++ bs).Nodup) :
    worldAtEntry K bs (worldAtEntry K as W) = worldAtEntry K (as ++ bs) W := by
  funext a
  simp only [worldAtEntry, List.mem_append]
  by_cases ha : a ∈ as
  · have : a ∉ bs := fun hb => (List.nodup_append.mp hd).2.2 a ha a hb rfl
    simp [ha, this]
  · by_cases hb : a ∈ bs <;> simp [ha, hb]

theorem initParams_ok (K : Ops) (W : World) (env : Env) (its : List Item) (s : St)
    (hd : Distinct its) (hg : ∀ it ∈ its, it.Good) (he : EnvOk env its)
    (h : ∀ it ∈ its, s.fr it.n = it.f2 K W) (hw : ∀ a ∈ moves its, s.world a = W a)
    (hm : (moves its).Nodup) :
    ∃ s1, initParams K env (its.map Item.p) ((its.map Item.p).map cppArg) s =
        some (its.map (fun it => seen K W it.s it.v), s1) ∧
      Frames its (Item.f3 K W) s s1 ∧ s1.world = worldAtEntry K (moves its) s.world ∧
      s1.ret = s.ret ∧ s1.retBuf = s.retBuf ∧ s1.rel = s.rel := by
  induction its generalizing s with
  | nil =>
      refine ⟨s, rfl, ⟨by simp, by simp⟩, ?_, rfl, rfl, rfl⟩
      funext a
      simp [worldAtEntry, moves, movedObjs]
  | cons it its ih =>
      have hsplit : moves (it :: its) = moves [it] ++ moves its := by
        rw [moves_cons it its, moves_cons it []]
        simp [moves, movedObjs]
      rw [hsplit] at hw hm
      obtain ⟨s1, e1, h1, ho, w1, r1, b1, l1⟩ := initParam_ok K W env it
        (hg it (by simp)) (he it (by simp)) s (h it (by simp)) (by
          intro a h1 h2
          refine hw a (List.mem_append_left _ ?_)
          rw [moves_cons, h1, h2]
          simp)
      have hdisj : ∀ a ∈ moves its, a ∉ moves [it] :=
        fun a ha hb => (List.nodup_append.mp hm).2.2 a hb a ha rfl
      obtain ⟨s2, e2, f2, w2, r2, b2, l2⟩ := ih s1 hd.tail (fun x hx => hg x (by simp [hx]))
        (fun x hx => he x (by simp [hx])) (own_tail hd h ho)
        (by
          intro a ha
          rw [w1]
          simp only [worldAtEntry, hdisj a ha, if_false]
          exact hw a (List.mem_append_right _ ha))
        (List.nodup_append.mp hm).2.1
      refine ⟨s2, ?_, Frames.cons hd h1 ho f2, ?_, r2.trans r1, b2.trans b1, l2.trans l1⟩
      · cases e0 : evalC K env it.p.ty.isFn (cppArg it.p) s with
        | none => rw [e0] at e1; simp at e1
        | some x =>
            rw [e0] at e1
            simp only [Option.bind_some] at e1
            simp only [List.map_cons, initParams, e0, Option.bind_eq_bind, Option.bind_some, e1, e2]
            rfl
      · rw [w2, w1, worldAtEntry_append K _ _ _ hm, hsplit]

/-! ## Arriving in registers -/

theorem nativeParams_ok (K : Ops) (W : World) (its : List Item) (s : St) (hd : Distinct its)
    (hg : ∀ it ∈ its, it.Good) (hc : ∀ it ∈ its, it.p.ty.isCAbi = true)
    (h : ∀ it ∈ its, s.fr it.n = it.f1 K W) :
    ∃ s1, nativeParams (its.map Item.p) (its.map Item.reg) s =
        some (its.map (fun it => seen K W it.s it.v), s1) ∧
      Frames its (fun it => { PFrame.empty with cpp := it.obj K W }) s s1 ∧ Same s s1 := by
  induction its generalizing s with
  | nil => exact ⟨s, rfl, ⟨by simp, by simp⟩, Same.refl s⟩
  | cons it its ih =>
      have h0 := h it (by simp)
      have hg0 := hg it (by simp)
      have hc0 := hc it (by simp)
      have step : ∃ s1, nativeParam it.p it.reg s = some (seen K W it.s it.v, s1) ∧
          s1.fr it.n = { PFrame.empty with cpp := it.obj K W } ∧
          (∀ m, m ≠ it.n → s1.fr m = s.fr m) ∧ Same s s1 := by
        obtain ⟨i, ⟨n, t⟩, sh, v⟩ := it
        obtain ⟨hs, hf⟩ := hg0
        simp only at hs hf h0 hc0
        rcases hs with rfl | ⟨rfl, rfl⟩ | ⟨rfl, rfl⟩
        · cases t <;> cases v <;> simp only [Fits] at hf <;>
            first
            | exact absurd hf id
            | (simp [Ty.isCAbi] at hc0; done)
            | (simp [Ty.isCAbi] at hc0
               subst hc0
               simp [Item.f1, PFrame.empty] at h0
               simp only [nativeParam, Item.reg, Ty.isClass, if_true, h0]
               refine ⟨_, rfl, ?_, ?_, ⟨rfl, rfl, rfl, rfl⟩⟩
               · simp [Item.obj, Ty.isClass, seen, PFrame.empty]
               · intro m hm
                 simp [St.set_fr, hm])
            | (simp [Item.f1, PFrame.empty] at h0
               refine ⟨s, ?_, ?_, fun _ _ => rfl, Same.refl s⟩
               · simp [nativeParam, Item.reg, Ty.isClass, seen]
               · simp [h0, Item.obj, Ty.isClass, PFrame.empty])
        · simp [Ty.isCAbi] at hc0
        · simp [Ty.isCAbi] at hc0
      obtain ⟨s1, e1, h1, ho, c1⟩ := step
      obtain ⟨s2, e2, f2, c2⟩ := ih s1 hd.tail (fun x hx => hg x (by simp [hx]))
        (fun x hx => hc x (by simp [hx])) (own_tail hd h ho)
      refine ⟨s2, ?_, Frames.cons hd h1 ho f2, Same.trans c1 c2⟩
      simp only [List.map_cons, nativeParams]
      simp only [Option.bind_eq_bind, Option.bind_some, e1, e2]
      rfl

/-! ## Names -/

theorem bindRegs_ok (its : List Item) (xs : List CName) (rs : List Reg) (hd : Distinct its)
    (hx : ∀ x ∈ xs, ∀ it ∈ its, x ≠ .par it.n) (hlen : xs.length = rs.length) :
    ∃ env, bindRegs (xs ++ (its.map Item.p).map fun p => .par p.name) (rs ++ its.map Item.reg) =
        some env ∧ EnvOk env its ∧
      (∀ x r, xs = [x] → rs = [r] → env x = some r) := by
  induction xs generalizing rs with
  | nil =>
      cases rs with
      | cons _ _ => simp at hlen
      | nil =>
          simp only [List.nil_append]
          suffices ∃ env, bindRegs ((its.map Item.p).map fun p => .par p.name)
              (its.map Item.reg) = some env ∧ EnvOk env its by
            obtain ⟨env, h1, h2⟩ := this
            exact ⟨env, h1, h2, by simp⟩
          clear hx hlen
          induction its with
          | nil => exact ⟨_, rfl, by simp [EnvOk]⟩
          | cons it its ih =>
              obtain ⟨env, h1, h2⟩ := ih hd.tail
              refine ⟨_, by simp only [List.map_cons, bindRegs, h1, Option.map_some]; rfl, ?_⟩
              intro x hx
              rcases List.mem_cons.mp hx with rfl | hx
              · simp
              · have : x.n ≠ it.n := fun e => hd.head (e ▸ List.mem_map_of_mem hx)
                simp only [CName.par.injEq]
                have h' : x.n ≠ it.p.name := this
                simp only [h', if_false]
                exact h2 x hx
  | cons x xs ih =>
      cases rs with
      | nil => simp at hlen
      | cons r rs =>
          obtain ⟨env, h1, h2, h3⟩ := ih rs (fun y hy => hx y (by simp [hy])) (by simpa using hlen)
          refine ⟨_, by simp only [List.cons_append, bindRegs, h1, Option.map_some]; rfl, ?_, ?_⟩
          · intro it hit
            have : CName.par it.n ≠ x := fun e => hx x (by simp) it hit e.symm
            simp only [this, if_false]
            exact h2 it hit
          · intro y r' hy hr
            simp only [List.cons.injEq] at hy hr
            simp [hy.1, hr.1]

end Verif.CcCall

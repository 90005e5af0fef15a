import Verif.PtsTo.Facts
import Mathlib.Data.List.Nodup
import Mathlib.Tactic.ByContra
/- What holds of every state the dataflow engine computes, whatever the program does. -/
namespace Verif.PtsTo
open Verif.Lifetimes

/-- Objects that are only ever weakly updated. -/
def Keep (f : Fn) (o : Obj) : Prop :=
  match o.root with
  | .ret => True
  | .lit => False
  | .var v => 1 ≤ o.k ∧ v < f.numVars

structure AInv (f : Fn) (lt : Lts) (s : St) : Prop where
  nodup : (AMap.keys s.pt).Nodup
  deep : Deep f s.pt
  next : ∀ o c t, Keep f o → oty f o = .ptr c t → o.next ∈ s.pt.get o
  sv : ∀ o ∈ s.sv, ∃ v, o = ⟨.var v, 0⟩ ∧ (f.vars v).isArr = false
  valid : s.cs.Valid

def DepthOk (f : Fn) : Cat → List Obj → Prop
  | .gl _ t, os => ∀ o ∈ os, (oty f o).depth = t.depth
  | .pr .int, _ => True
  | .pr (.ptr _ t), os => ∀ o ∈ os, (oty f o).depth = t.depth

theorem LtsOk.valid {f : Fn} {lt : Lts} (h : LtsOk f lt) (o : Obj) :
    (lt o).isVariable = true ∨ (lt o).isLocal = true ∨ lt o = .static := by
  obtain ⟨r, k⟩ := o
  cases r with
  | ret => exact Or.inl (h.ret k)
  | lit => exact Or.inr (Or.inr (h.lit k))
  | var v =>
    by_cases hs : (f.vars v).kind = .stat
    · exact Or.inr (Or.inr (h.stat v k hs))
    · cases k with
      | zero => exact Or.inr (Or.inl (h.loc v hs))
      | succ k => exact Or.inl (h.var v k hs)

theorem genAssign_valid {f : Fn} {lt : Lts} (hlt : LtsOk f lt) (pt : Pts) (t : Ty) (ps ns : List Obj) (cs : Constraints) (h : cs.Valid) :
    (genAssign lt pt t ps ns cs).Valid := by
  intro x hx l hl
  have := genRec_range lt pt (fun l => l.isVariable = true ∨ l.isLocal = true ∨ l = .static) hlt.valid t ps ns false cs []
    (fun x hx => ⟨h x hx _ (by simp), h x hx _ (by simp)⟩) x hx
  simp only [List.mem_cons, List.not_mem_nil, or_false] at hl
  rcases hl with rfl | rfl
  · exact this.1
  · exact this.2

theorem nodup_extendAll' (s : List Obj) : ∀ (os : List Obj) (p : Pts), (AMap.keys p).Nodup →
    (AMap.keys (os.foldl (fun (p : Pts) o => p.extend o s) p)).Nodup
  | [], _, h => h
  | o :: os, p, h => nodup_extendAll' s os _ (AMap.nodup_insert _ _ _ h)

theorem nodup_union : ∀ (q p : Pts), (AMap.keys p).Nodup → (AMap.keys (p.union q)).Nodup
  | [], _, h => h
  | e :: q, p, h => nodup_union q _ (AMap.nodup_insert _ _ _ h)

theorem mem_union_iff {p q : Pts} (hq : (AMap.keys q).Nodup) (o x : Obj) : x ∈ (p.union q).get o ↔ x ∈ p.get o ∨ x ∈ q.get o := by
  constructor
  · intro h
    rcases (Pts.mem_union o x q p).mp h with h | ⟨e, he, rfl, hx⟩
    · exact Or.inl h
    · right
      unfold Pts.get
      rw [AMap.get?_of_mem q hq (k := e.1) (v := e.2) he]
      exact hx
  · rintro (h | h)
    · exact (Pts.mem_union o x q p).mpr (Or.inl h)
    · exact Pts.mem_union_right p q o x h

variable {f : Fn} {lt : Lts}

theorem AInv.join {a b : St} (ha : AInv f lt a) (hb : AInv f lt b) : AInv f lt (a.join b) where
  nodup := nodup_union _ _ ha.nodup
  deep o x hx := by
    rcases (mem_union_iff hb.nodup o x).mp hx with h | h
    · exact ha.deep o x h
    · exact hb.deep o x h
  next o c t hk ht := (mem_union_iff hb.nodup _ _).mpr (Or.inl (ha.next o c t hk ht))
  sv o ho := ha.sv o (List.mem_filter.mp ho).1
  valid := by
    intro x hx
    rcases (mem_setInsertAll _ _ x).mp hx with h | h
    · exact ha.valid x h
    · exact hb.valid x h

theorem le_join_left {a b : St} (hb : (AMap.keys b.pt).Nodup) : a.le (a.join b) :=
  ⟨fun o x hx => (mem_union_iff hb o x).mpr (Or.inl hx), fun _ hc => (mem_setInsertAll _ _ _).mpr (Or.inl hc),
    fun _ ho => (List.mem_filter.mp ho).1⟩

theorem le_join_right {a b : St} (hb : (AMap.keys b.pt).Nodup) : b.le (a.join b) :=
  ⟨fun o x hx => (mem_union_iff hb o x).mpr (Or.inr hx), fun _ hc => (mem_setInsertAll _ _ _).mpr (Or.inr hc),
    fun _ ho => by simpa using (List.mem_filter.mp ho).2⟩

theorem AInv.extend (hlt : LtsOk f lt) {s : St} (h : AInv f lt s) {t : Ty} {ps ns : List Obj}
    (hp : ∀ p ∈ ps, (oty f p).depth = t.depth) (hn : ∀ n ∈ ns, (oty f n).depth + 1 = t.depth) : AInv f lt (extendSets lt t ps ns s) where
  nodup := nodup_extendAll' _ _ _ h.nodup
  deep o x hx := by
    rcases (Pts.mem_extendAll ns o x ps s.pt).mp hx with hx | ⟨ho, hx⟩
    · exact h.deep o x hx
    · rw [hn x hx, hp o ho]
  next o c t' hk ht := (Pts.mem_extendAll ns o _ ps s.pt).mpr (Or.inl (h.next o c t' hk ht))
  sv := h.sv
  valid := genAssign_valid hlt _ _ _ _ _ h.valid

theorem AInv.set {s : St} (h : AInv f lt s) {v : Nat} {ns : List Obj}
    (hn : ∀ n ∈ ns, (oty f n).depth + 1 = (f.vars v).ty.depth) : AInv f lt { s with pt := s.pt.set ⟨.var v, 0⟩ ns } where
  nodup := AMap.nodup_insert _ _ _ h.nodup
  deep o x hx := by
    rw [Pts.get_set] at hx
    split at hx
    · next e => subst e; have := hn x hx; simpa [oty, rootTy, peel] using this
    · exact h.deep o x hx
  next o c t hk ht := by
    rw [Pts.get_set, if_neg]
    · exact h.next o c t hk ht
    · rintro rfl
      have := hk.1
      simp at this
  sv := h.sv
  valid := h.valid

theorem extend_cs {s : St} (h : AInv f lt s) {t : Ty} {ps ns : List Obj} (hp : ∀ p ∈ ps, (oty f p).depth = t.depth) :
    ∀ x ∈ s.cs, x ∈ (extendSets lt t ps ns s).cs := (genAssign_spec lt h.deep ns s.cs hp).1

theorem getAll_depth {s : St} (h : AInv f lt s) {os : List Obj} {c : Bool} {t : Ty} (ho : ∀ o ∈ os, (oty f o).depth = (Ty.ptr c t).depth) :
    ∀ x ∈ s.pt.getAll os, (oty f x).depth = t.depth := by
  intro x hx
  obtain ⟨o, hm, hx⟩ := (s.pt.mem_getAll x os).mp hx
  have h1 := h.deep o x hx
  have h2 := ho o hm
  simp only [Ty.depth] at h2
  omega

/-- Transfer of an expression keeps all this. -/
theorem transfer_inv (hlt : LtsOk f lt) {e : Expr} {k : Cat} (hk : HasCat f.vars e k) : ∀ {s : St}, AInv f lt s →
    AInv f lt (transfer f lt e s).1 ∧ DepthOk f k (transfer f lt e s).2 ∧ ∀ x ∈ s.cs, x ∈ (transfer f lt e s).1.cs := by
  induction hk with
  | @var v h1 h2 =>
    intro s hs
    refine ⟨hs, ?_, fun x hx => hx⟩
    simp [transfer, h1, DepthOk, oty, rootTy, peel]
  | @refVar v c t h1 h2 =>
    intro s hs
    refine ⟨hs, ?_, fun x hx => hx⟩
    simp only [transfer, h1, if_true, DepthOk]
    intro o ho
    have := hs.deep _ o ho
    simp only [oty, rootTy, peel, h2, Ty.depth] at this ⊢
    omega
  | null => intro s hs; exact ⟨hs, by simp [transfer, DepthOk], fun x hx => hx⟩
  | str => intro s hs; exact ⟨hs, by simp [transfer, DepthOk, oty, rootTy, peel], fun x hx => hx⟩
  | intE => intro s hs; exact ⟨hs, trivial, fun x hx => hx⟩
  | @load e c t _ ih =>
    intro s hs
    obtain ⟨h1, h2, h3⟩ := ih hs
    refine ⟨h1, ?_, h3⟩
    cases t with
    | int => trivial
    | ptr c' t => exact getAll_depth h1 h2
  | addr _ _ ih => intro s hs; exact ih hs
  | deref _ ih => intro s hs; exact ih hs
  | pre _ ih => intro s hs; exact ih hs
  | @post e t _ ih =>
    intro s hs
    obtain ⟨h1, h2, h3⟩ := ih hs
    refine ⟨h1, ?_, h3⟩
    cases t with
    | int => trivial
    | ptr c' t => exact getAll_depth h1 h2
  | add _ ih => intro s hs; exact ih hs
  | index _ ih => intro s hs; exact ih hs
  | @decay v h1 h2 =>
    intro s hs
    refine ⟨hs, ?_, fun x hx => hx⟩
    simp [transfer, DepthOk, oty, rootTy, peel]
  | @assign t l r _ _ ihl ihr =>
    intro s hs
    obtain ⟨a1, a2, a3⟩ := ihr hs
    obtain ⟨b1, b2, b3⟩ := ihl a1
    have hcs : ∀ x ∈ s.cs, x ∈ (transfer f lt l (transfer f lt r s).1).1.cs := fun x hx => b3 x (a3 x hx)
    cases t with
    | int => exact ⟨b1, b2, hcs⟩
    | ptr c t =>
      have hw : ∀ lhs, lhs = (transfer f lt l (transfer f lt r s).1).2 →
          AInv f lt (extendSets lt (.ptr c t) lhs (transfer f lt r s).2 (transfer f lt l (transfer f lt r s).1).1) ∧
          ∀ x ∈ s.cs, x ∈ (extendSets lt (.ptr c t) lhs (transfer f lt r s).2 (transfer f lt l (transfer f lt r s).1).1).cs := by
        rintro _ rfl
        refine ⟨b1.extend hlt b2 ?_, fun x hx => extend_cs b1 b2 x (hcs x hx)⟩
        intro n hn
        have := a2 n hn
        simp only [Ty.depth, this]
      simp only [transfer, Ty.isPtr, Bool.not_true, Bool.false_eq_true, if_false]
      split
      · next o he =>
        split
        · next hsv =>
          refine ⟨?_, b2, hcs⟩
          obtain ⟨v, rfl, _⟩ := b1.sv o hsv
          refine b1.set fun n hn => ?_
          have h1 := a2 n hn
          have h2 := b2 ⟨.var v, 0⟩ (by rw [he]; simp)
          simp only [oty, rootTy, peel, Ty.depth] at h1 h2 ⊢
          omega
        · exact ⟨(hw _ rfl).1, b2, (hw _ rfl).2⟩
      · exact ⟨(hw _ rfl).1, b2, (hw _ rfl).2⟩
  | @cond c a b k0 k _ _ _ ihc iha ihb =>
    intro s hs
    obtain ⟨c1, _, c3⟩ := ihc hs
    obtain ⟨a1, a2, a3⟩ := iha c1
    obtain ⟨b1, b2, _⟩ := ihb c1
    refine ⟨a1.join b1, ?_, fun x hx => (le_join_left b1.nodup).2.1 x (a3 x (c3 x hx))⟩
    show DepthOk f k (addAll _ _)
    cases k with
    | gl c t =>
      intro o ho
      rcases (mem_addAll _ _ o).mp ho with h | h
      · exact a2 o h
      · exact b2 o h
    | pr t =>
      cases t with
      | int => trivial
      | ptr c t =>
        intro o ho
        rcases (mem_addAll _ _ o).mp ho with h | h
        · exact a2 o h
        · exact b2 o h
  | @qualP e t t' _ hc ih =>
    intro s hs
    obtain ⟨h1, h2, h3⟩ := ih hs
    refine ⟨h1, ?_, h3⟩
    cases t with
    | int => cases t' with
      | int => trivial
      | ptr => exact hc.elim
    | ptr c t => cases t' with
      | int => exact hc.elim
      | ptr c' t' =>
        intro o ho
        rw [h2 o ho]
        exact convc_depth (conv_ptr.mp hc).2
  | @qualG e c c' t t' _ _ hc ih =>
    intro s hs
    obtain ⟨h1, h2, h3⟩ := ih hs
    exact ⟨h1, fun o ho => by rw [h2 o ho]; exact convc_depth hc, h3⟩

theorem transferInits_inv (hlt : LtsOk f lt) {c : Bool} {t : Ty} : ∀ {es : List Expr} {s : St}, (∀ e ∈ es, HasCat f.vars e (.pr (.ptr c t))) →
    AInv f lt s → AInv f lt (transferInits f lt es s).1 ∧ (∀ o ∈ (transferInits f lt es s).2, (oty f o).depth = t.depth) ∧
      ∀ x ∈ s.cs, x ∈ (transferInits f lt es s).1.cs
  | [], s, _, hs => ⟨hs, by simp [transferInits], fun x hx => hx⟩
  | e :: es, s, he, hs => by
    obtain ⟨a1, a2, a3⟩ := transfer_inv hlt (he e (by simp)) hs
    obtain ⟨b1, b2, b3⟩ := transferInits_inv hlt (es := es) (fun e h => he e (by simp [h])) a1
    refine ⟨b1, fun o ho => ?_, fun x hx => b3 x (a3 x hx)⟩
    rcases (mem_addAll _ _ o).mp ho with h | h
    · exact a2 o h
    · exact b2 o h

theorem transferInits_int (hlt : LtsOk f lt) : ∀ {es : List Expr} {s : St}, (∀ e ∈ es, HasCat f.vars e (.pr .int)) →
    AInv f lt s → AInv f lt (transferInits f lt es s).1 ∧ ∀ x ∈ s.cs, x ∈ (transferInits f lt es s).1.cs
  | [], s, _, hs => ⟨hs, fun x hx => hx⟩
  | e :: es, s, he, hs => by
    obtain ⟨a1, _, a3⟩ := transfer_inv hlt (he e (by simp)) hs
    obtain ⟨b1, b3⟩ := transferInits_int hlt (es := es) (fun e h => he e (by simp [h])) a1
    exact ⟨b1, fun x hx => b3 x (a3 x hx)⟩

theorem transferStmt_inv (hlt : LtsOk f lt) {st : Stmt} (hk : StmtOk f st) {s : St} (hs : AInv f lt s) :
    AInv f lt (transferStmt f lt st s) ∧ ∀ x ∈ s.cs, x ∈ (transferStmt f lt st s).cs := by
  have hset : ∀ {v : Nat} {s' : St} {os : List Obj}, AInv f lt s' → (∀ x ∈ s.cs, x ∈ s'.cs) →
      ((f.vars v).ty.isPtr = true → ∀ o ∈ os, (oty f o).depth + 1 = (f.vars v).ty.depth) →
      AInv f lt (if (f.vars v).ty.isPtr then { s' with pt := s'.pt.set ⟨.var v, 0⟩ os } else s') ∧
      ∀ x ∈ s.cs, x ∈ (if (f.vars v).ty.isPtr then { s' with pt := s'.pt.set ⟨.var v, 0⟩ os } else s').cs := by
    intro v s' os h1 h2 h3
    split
    · next hp => exact ⟨h1.set (h3 hp), h2⟩
    · exact ⟨h1, h2⟩
  have hret : ∀ {os : List Obj} {s' : St}, AInv f lt s' → (∀ x ∈ s.cs, x ∈ s'.cs) →
      AInv f lt (if f.retTy.isPtr then { s' with cs := genAssign lt s'.pt f.retTy [⟨.ret, 0⟩] os s'.cs } else s') ∧
      ∀ x ∈ s.cs, x ∈ (if f.retTy.isPtr then { s' with cs := genAssign lt s'.pt f.retTy [⟨.ret, 0⟩] os s'.cs } else s').cs := by
    intro os s' h1 h2
    split
    · refine ⟨⟨h1.nodup, h1.deep, h1.next, h1.sv, genAssign_valid hlt _ _ _ _ _ h1.valid⟩, fun x hx => ?_⟩
      refine (genAssign_spec (f := f) lt h1.deep os s'.cs ?_).1 x (h2 x hx)
      simp [oty, rootTy, peel]
    · exact ⟨h1, h2⟩
  cases hk with
  | skip => exact ⟨hs, fun x hx => hx⟩
  | expr h => exact ⟨(transfer_inv hlt h hs).1, (transfer_inv hlt h hs).2.2⟩
  | decl => exact ⟨hs, fun x hx => hx⟩
  | @declInit v e _ _ _ h =>
    obtain ⟨h1, h2, h3⟩ := transfer_inv hlt h hs
    refine hset h1 h3 fun hp o ho => ?_
    cases ht : (f.vars v).ty with
    | int => rw [ht] at hp; cases hp
    | ptr c t => rw [ht] at h2; rw [h2 o ho]; rfl
  | @declRef v e c t _ _ ht h _ =>
    obtain ⟨h1, h2, h3⟩ := transfer_inv hlt h hs
    refine hset h1 h3 fun hp o ho => ?_
    rw [ht, h2 o ho]; rfl
  | @declArr v es _ _ h =>
    cases ht : (f.vars v).ty with
    | int =>
      rw [ht] at h
      obtain ⟨h1, h3⟩ := transferInits_int hlt h hs
      refine hset h1 h3 fun hp => ?_
      rw [ht] at hp; cases hp
    | ptr c t =>
      rw [ht] at h
      obtain ⟨h1, h2, h3⟩ := transferInits_inv hlt h hs
      refine hset h1 h3 fun hp o ho => ?_
      rw [ht, h2 o ho]; rfl
  | ret _ h =>
    obtain ⟨h1, _, h3⟩ := transfer_inv hlt h hs
    exact hret h1 h3
  | retRef _ _ h _ =>
    obtain ⟨h1, _, h3⟩ := transfer_inv hlt h hs
    exact hret h1 h3

/-! ### The initial state -/

theorem mem_chain (root : Root) (e : Obj × List Obj) : ∀ (t : Ty) (k : Nat), e ∈ chain root t k ↔
    ∃ j c t', peel t j = .ptr c t' ∧ e = (⟨root, k + j⟩, [⟨root, k + j + 1⟩])
  | .int, k => by
    simp only [chain, List.not_mem_nil, false_iff]
    rintro ⟨j, c, t', h, -⟩
    cases j <;> cases h
  | .ptr c t, k => by
    rw [chain, List.mem_cons, mem_chain root e t (k + 1)]
    constructor
    · rintro (h | ⟨j, c', t', h, h'⟩)
      · exact ⟨0, c, t, rfl, h⟩
      · refine ⟨j + 1, c', t', h, ?_⟩
        rw [h', Nat.add_assoc k 1 j, Nat.add_comm 1 j]
    · rintro ⟨j, c', t', h, h'⟩
      cases j with
      | zero => exact Or.inl h'
      | succ j =>
        refine Or.inr ⟨j, c', t', h, ?_⟩
        rw [h', Nat.add_assoc k 1 j, Nat.add_comm 1 j]

theorem nodup_chain (root : Root) : ∀ (t : Ty) (k : Nat), (AMap.keys (chain root t k)).Nodup ∧ ∀ o ∈ AMap.keys (chain root t k), o.root = root ∧ k ≤ o.k
  | .int, k => by simp [chain, AMap.keys]
  | .ptr c t, k => by
    obtain ⟨h1, h2⟩ := nodup_chain root t (k + 1)
    constructor
    · rw [chain]
      simp only [AMap.keys, List.map_cons, List.nodup_cons]
      exact ⟨fun h => by have := (h2 _ h).2; simp only at this; omega, h1⟩
    · intro o ho
      rw [chain] at ho
      simp only [AMap.keys, List.map_cons, List.mem_cons] at ho
      rcases ho with rfl | ho
      · simp
      · have := h2 o ho; exact ⟨this.1, by omega⟩

theorem nodup_roots (f : Fn) : (roots f).Nodup := by
  unfold roots
  rw [List.nodup_cons]
  refine ⟨by simp, ?_⟩
  exact List.Nodup.map (fun a b h => by cases h; rfl) List.nodup_range

theorem nodup_initPts (f : Fn) : (AMap.keys (initPts f)).Nodup := by
  have : AMap.keys (initPts f) = (roots f).flatMap fun r => AMap.keys (chain r (rootTy f r) 0) := by
    unfold AMap.keys initPts
    rw [List.map_flatMap]
  rw [this, List.nodup_flatMap]
  refine ⟨fun r _ => (nodup_chain r _ 0).1, ?_⟩
  refine List.Pairwise.imp ?_ (nodup_roots f)
  intro a b hab o ho1 ho2
  exact hab (((nodup_chain a _ 0).2 o ho1).1.symm.trans ((nodup_chain b _ 0).2 o ho2).1)

theorem mem_initPts (f : Fn) (e : Obj × List Obj) : e ∈ initPts f ↔ e.1.root ∈ roots f ∧ (∃ c t, oty f e.1 = .ptr c t) ∧ e.2 = [e.1.next] := by
  unfold initPts
  rw [List.mem_flatMap]
  constructor
  · rintro ⟨r, hr, he⟩
    obtain ⟨j, c, t, h, rfl⟩ := (mem_chain r e _ 0).mp he
    refine ⟨hr, ⟨c, t, ?_⟩, rfl⟩
    simpa [oty] using h
  · rintro ⟨hr, ⟨c, t, h⟩, he⟩
    refine ⟨e.1.root, hr, (mem_chain _ e _ 0).mpr ⟨e.1.k, c, t, h, ?_⟩⟩
    obtain ⟨⟨r, k⟩, l⟩ := e
    simp only at he
    simp [he, Obj.next]

theorem get_initPts (f : Fn) (o : Obj) (hr : o.root ∈ roots f) {c : Bool} {t : Ty} (h : oty f o = .ptr c t) :
    (initPts f).get o = [o.next] := by
  unfold Pts.get
  rw [AMap.get?_of_mem _ (nodup_initPts f) ((mem_initPts f (o, [o.next])).mpr ⟨hr, ⟨c, t, h⟩, rfl⟩)]
  rfl

theorem init_inv (f : Fn) (lt : Lts) : AInv f lt (initSt f) where
  nodup := nodup_initPts f
  deep o x hx := by
    obtain ⟨s, hs, hx⟩ := (initPts f).mem_of_get o x hx
    obtain ⟨-, ⟨c, t, h⟩, he⟩ := (mem_initPts f _).mp hs
    simp only at h he
    rw [he, List.mem_singleton] at hx
    rw [hx, oty_next f o h, h]; rfl
  next o c t hk ht := by
    show _ ∈ (initPts f).get o
    rw [get_initPts f o ?_ ht]
    · simp
    · unfold Keep at hk
      unfold roots
      split at hk
      · next e => rw [e]; simp
      · exact hk.elim
      · next v e => rw [e]; simp [hk.2]
  sv o ho := by
    simp only [initSt, initSv, List.mem_map, List.mem_filter, List.mem_range] at ho
    obtain ⟨v, ⟨_, h⟩, rfl⟩ := ho
    exact ⟨v, rfl, by simpa using h⟩
  valid := by intro x hx; cases hx

theorem built_inv (hf : FnOk f) (hlt : LtsOk f lt) {s : St} (h : Built f lt s) : AInv f lt s := by
  induction h with
  | init => exact init_inv f lt
  | join _ _ ih1 ih2 => exact ih1.join ih2
  | transfer _ ih => exact (transferStmt_inv hlt (hf.stmts _) ih).1

end Verif.PtsTo

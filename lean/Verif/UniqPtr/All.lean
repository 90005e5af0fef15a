import Verif.UniqPtr.Model
import Verif.Common.Own
import Mathlib.Tactic.Convert
import Batteries.Data.List.Basic

/-!
# `unique_ptr` in Rust: theorems
-/

namespace Verif.UniqPtr

open Verif.Own (Good updO good_alloc good_delete good_move good_set good_live)

inductive Owner where
  | var (v : Nat)
  | raw (r : Nat)
  deriving DecidableEq

def State.own (c : State) : Owner → Option Nat
  | .var v => (c.vars v).bind Var.ptr
  | .raw r => (c.raws r).join

def AState.own (a : AState) : Owner → Option Obj
  | .var v => (a.vars v).bind AVar.obj
  | .raw r => (a.raws r).join

/-- A live object in its memory. -/
def InCell (dflt : Nat) (o : Obj) (x : Cell) : Prop := x = ⟨o.ty.req dflt, some o⟩

theorem set_eq {α : Type} (f : Nat → Option α) (k : Nat) (v : Option α) : set f k v = Own.upd f k v := rfl

@[simp] theorem set_set {α : Type} (f : Nat → Option α) (k : Nat) (v w : Option α) : set (set f k v) k w = set f k w := by
  funext n; unfold set; split <;> rfl

theorem good_moveO {ι α β : Type} [DecidableEq ι] {R : β → α → Prop} {heap : Nat → Option α} {next : Nat}
    {deleted : List Nat} {ow : ι → Option Nat} {ao : ι → Option β} (g : Good R heap next deleted ow ao) {o o' : ι}
    (ho' : ow o' = none) :
    Good R heap next deleted (updO (updO ow o none) o' (ow o)) (updO (updO ao o none) o' (ao o)) := by
  cases h : ow o with
  | some p =>
      obtain ⟨x, b, hx, -, -⟩ := good_live g h
      rw [hx]
      exact good_move g h hx ho'
  | none =>
      have h1 : ao o = none := (g.same o).2 h
      have h2 : ao o' = none := (g.same o').2 ho'
      rw [h1]
      have e1 : updO (updO ow o none) o' none = ow := by
        funext k; unfold updO; repeat' split
        all_goals simp_all
      have e2 : updO (updO ao o none) o' none = ao := by
        funext k; unfold updO; repeat' split
        all_goals simp_all
      rw [e1, e2]
      exact g

/-- Memory and logs are in order. -/
structure Mem (g : Cfg) (heap : Nat → Option Cell) (next : Nat) (ow : Owner → Option Nat) (ao : Owner → Option Obj)
    (created destroyed : List (Nat × Ty)) (freed : List (Nat × Free)) : Prop where
  good : Good (InCell g.dflt) heap next (freed.map Prod.fst) ow ao
  log : List.Forall₂ (fun d f => d.1 = f.1 ∧ f.2.fits (d.2.req g.dflt)) destroyed freed
  made : created.map Prod.fst = List.range' 1 (next - 1)
  types : ∀ p t, (p, t) ∈ created → (∃ o, heap p = some ⟨t.req g.dflt, some o⟩ ∧ o.ty = t) ∨ (p, t) ∈ destroyed
  real : ∀ d ∈ destroyed, d ∈ created
  live : ∀ p o r, heap p = some ⟨r, some o⟩ → (p, o.ty) ∈ created

section mem

variable {g : Cfg} {heap : Nat → Option Cell} {next : Nat} {ow : Owner → Option Nat} {ao : Owner → Option Obj}
  {created destroyed : List (Nat × Ty)} {freed : List (Nat × Free)}

theorem mem_own {ow' : Owner → Option Nat} {ao' : Owner → Option Obj}
    (m : Mem g heap next ow ao created destroyed freed)
    (h : Good (InCell g.dflt) heap next (freed.map Prod.fst) ow' ao') :
    Mem g heap next ow' ao' created destroyed freed :=
  ⟨h, m.log, m.made, m.types, m.real, m.live⟩

theorem forall₂_snoc {α β : Type} {R : α → β → Prop} : ∀ {l : List α} {l' : List β} {a : α} {b : β}, List.Forall₂ R l l' →
    R a b → List.Forall₂ R (l ++ [a]) (l' ++ [b])
  | _, _, _, _, .nil, h => .cons h .nil
  | _, _, _, _, .cons h t, h' => .cons h (forall₂_snoc t h')

theorem mem_kill (m : Mem g heap next ow ao created destroyed freed) {o : Owner} {p : Nat} {ob : Obj} {f : Free}
    (ho : ow o = some p) (ha : ao o = some ob) (hf : f.fits (ob.ty.req g.dflt)) :
    Mem g (set heap p none) next (updO ow o none) (updO ao o none) created (destroyed ++ [(p, ob.ty)])
      (freed ++ [(p, f)]) := by
  obtain ⟨b, hb, hx⟩ := m.good.val o ob p ha ho
  unfold InCell at hx
  subst hx
  refine ⟨?_, forall₂_snoc m.log ⟨rfl, hf⟩, m.made, ?_, ?_, ?_⟩
  · have := good_delete m.good ho
    simpa [set_eq] using this
  · intro q t hq
    by_cases hqp : q = p
    · subst hqp
      rcases m.types q t hq with ⟨o', h1, h2⟩ | h
      · rw [hb] at h1
        simp only [Option.some.injEq, Cell.mk.injEq] at h1
        obtain ⟨-, rfl⟩ := h1
        subst h2
        simp
      · exact .inr (by simp [h])
    · rcases m.types q t hq with ⟨o', h1, h2⟩ | h
      · exact .inl ⟨o', by simp [set, hqp, h1], h2⟩
      · exact .inr (by simp [h])
  · intro d hd
    simp only [List.mem_append, List.mem_singleton] at hd
    rcases hd with hd | rfl
    · exact m.real d hd
    · exact m.live _ _ _ hb
  · intro q o' r h
    unfold set at h
    split at h
    · simp at h
    · exact m.live _ _ _ h

theorem mem_new (m : Mem g heap next ow ao created destroyed freed) {o : Owner} (ho : ow o = none) (t : Ty) (b : Nat) :
    Mem g (set heap next (some ⟨t.req g.dflt, some ⟨t, b⟩⟩)) (next + 1) (updO ow o (some next)) (updO ao o (some ⟨t, b⟩))
      (created ++ [(next, t)]) destroyed freed := by
  have hpos := m.good.pos
  refine ⟨?_, m.log, ?_, ?_, ?_, ?_⟩
  · exact good_alloc m.good ho (x := ⟨t, b⟩) rfl
  · rw [List.map_append, m.made]
    obtain ⟨n, rfl⟩ : ∃ n, next = n + 1 := ⟨next - 1, by omega⟩
    simp [List.range'_concat, Nat.add_comm]
  · intro p u hp
    simp only [List.mem_append, List.mem_singleton, Prod.mk.injEq] at hp
    rcases hp with hp | ⟨rfl, rfl⟩
    · rcases m.types p u hp with ⟨o', h1, h2⟩ | h
      · refine .inl ⟨o', ?_, h2⟩
        have := (m.good.bound _ _ h1).2
        simp [set, show p ≠ next by omega, h1]
      · exact .inr h
    · exact .inl ⟨⟨u, b⟩, by simp [set], rfl⟩
  · intro d hd
    simp [m.real d hd]
  · intro p o' r h
    unfold set at h
    split at h
    · rename_i he
      simp only [Option.some.injEq, Cell.mk.injEq] at h
      obtain ⟨-, rfl⟩ := h
      simp [he]
    · simp [m.live _ _ _ h]

theorem mem_write (m : Mem g heap next ow ao created destroyed freed) {o : Owner} {p : Nat} {ob : Obj} {b : Nat}
    (ho : ow o = some p) (ha : ao o = some ob) :
    Mem g (set heap p (some ⟨ob.ty.req g.dflt, some { ob with content := b }⟩)) next ow
      (updO ao o (some { ob with content := b })) created destroyed freed := by
  obtain ⟨x, hb, hx⟩ := m.good.val o ob p ha ho
  unfold InCell at hx
  subst hx
  refine ⟨good_set m.good ho (x := { ob with content := b }) rfl, m.log, m.made, ?_, m.real, ?_⟩
  · intro q t hq
    rcases m.types q t hq with ⟨o', h1, h2⟩ | h
    · by_cases hqp : q = p
      · subst hqp
        rw [hb] at h1
        simp only [Option.some.injEq, Cell.mk.injEq] at h1
        obtain ⟨h1, rfl⟩ := h1
        subst h2
        exact .inl ⟨{ ob with content := b }, by simp [set], rfl⟩
      · exact .inl ⟨o', by simp [set, hqp, h1], h2⟩
    · exact .inr h
  · intro q o' r h
    unfold set at h
    split at h
    · rename_i he
      subst he
      simp only [Option.some.injEq, Cell.mk.injEq] at h
      obtain ⟨-, rfl⟩ := h
      exact m.live q ob _ hb
    · exact m.live _ _ _ h

end mem

/-- The memory implements what the program means. -/
structure Rel (g : Cfg) (derives : Ty → Ty → Bool) (a : AState) (c : State) : Prop where
  mem : Mem g c.heap c.next c.own a.own c.created c.destroyed c.freed
  vars : ∀ v, (a.vars v).map (fun x => (x.kind, x.ty)) = (c.vars v).map (fun x => (x.kind, x.ty))
  raws : ∀ r, (a.raws r).isSome = (c.raws r).isSome
  ok : ∀ v x, a.vars v = some x → wrapOk (fun s t => derives s t = true) x.kind x.ty x.obj

section rel

variable {g : Cfg} {derives : Ty → Ty → Bool} {a : AState} {c : State}

theorem rel_var (h : Rel g derives a c) {v : Nat} {x : AVar} (hv : a.vars v = some x) :
    ∃ p, c.vars v = some ⟨x.kind, x.ty, p⟩ ∧ (x.obj = none ↔ p = none) := by
  have := h.vars v
  rw [hv] at this
  cases hc : c.vars v with
  | none => rw [hc] at this; simp at this
  | some y =>
      rw [hc] at this
      obtain ⟨k, t, p⟩ := y
      simp only [Option.map_some, Option.some.injEq, Prod.mk.injEq] at this
      refine ⟨p, by simp [this], ?_⟩
      have := h.mem.good.same (.var v)
      simpa [AState.own, State.own, hv, hc] using this

theorem rel_var_none (h : Rel g derives a c) {v : Nat} (hv : a.vars v = none) : c.vars v = none := by
  have := h.vars v
  rw [hv] at this
  simpa using this.symm

theorem rel_raw (h : Rel g derives a c) {r : Nat} {x : Option Obj} (hv : a.raws r = some x) :
    ∃ p, c.raws r = some p ∧ (x = none ↔ p = none) := by
  have := h.raws r
  rw [hv] at this
  cases hc : c.raws r with
  | none => rw [hc] at this; simp at this
  | some p =>
      refine ⟨p, rfl, ?_⟩
      have := h.mem.good.same (.raw r)
      simpa [AState.own, State.own, hv, hc] using this

theorem rel_raw_none (h : Rel g derives a c) {r : Nat} (hv : a.raws r = none) : c.raws r = none := by
  have := h.raws r
  rw [hv] at this
  simpa using this.symm

end rel

/-- `cpp_delete` calls the `operator delete` that fits `new`. -/
theorem cppDelete_ok (g : Cfg) (c : State) (p : Nat) (t : Ty) (h : c.heap p = some ⟨t.req g.dflt, none⟩) :
    ∃ f, f.fits (t.req g.dflt) ∧
      c.cppDelete g p t.size t.align = some { c with heap := set c.heap p none, freed := c.freed ++ [(p, f)] } := by
  unfold State.cppDelete
  by_cases hs : g.sized = true <;> by_cases ha : t.align ≤ g.dflt <;>
    simp [hs, ha, State.operatorDelete, h, Ty.req, Free.fits]

theorem deleteExpr_ok (g : Cfg) (c : State) (p : Nat) (o : Obj) (h : c.heap p = some ⟨o.ty.req g.dflt, some o⟩) :
    ∃ f, f.fits (o.ty.req g.dflt) ∧
      c.deleteExpr g p = some { c with heap := set c.heap p none, freed := c.freed ++ [(p, f)],
                                       destroyed := c.destroyed ++ [(p, o.ty)] } := by
  refine ⟨⟨if g.sized then some o.ty.size else none, (o.ty.req g.dflt).align⟩, ?_, ?_⟩
  · unfold Free.fits Ty.req
    by_cases hs : g.sized = true <;> simp [hs]
  · unfold State.deleteExpr
    simp only [h, State.destroy, if_true]
    have hp : set c.heap p (some ⟨o.ty.req g.dflt, none⟩) p = some ⟨o.ty.req g.dflt, none⟩ := by simp [set]
    have hsz : (o.ty.req g.dflt).size = o.ty.size := rfl
    by_cases hs : g.sized = true <;> simp [hs, State.operatorDelete, hp, hsz]

theorem dropVar_ok (g : Cfg) (derives : Ty → Ty → Bool) (c : State) (k : Kind) (t : Ty) (p : Nat) (o : Obj)
    (h : c.heap p = some ⟨o.ty.req g.dflt, some o⟩) (hw : wrapOk (fun s t => derives s t = true) k t (some o)) :
    ∃ f, f.fits (o.ty.req g.dflt) ∧
      c.dropVar g derives ⟨k, t, some p⟩ = some { c with heap := set c.heap p none, freed := c.freed ++ [(p, f)],
                                                         destroyed := c.destroyed ++ [(p, o.ty)] } := by
  cases k with
  | plain =>
      have ht : o.ty = t := hw
      subst ht
      obtain ⟨f, h1, h2⟩ := cppDelete_ok g
        { c with heap := set c.heap p (some ⟨o.ty.req g.dflt, none⟩), destroyed := c.destroyed ++ [(p, o.ty)] } p o.ty
        (by simp [set])
      refine ⟨f, h1, ?_⟩
      simp only [State.dropVar, State.destroy, h, if_true, h2]
      simp
  | virt =>
      have ht : derives o.ty t = true := hw
      obtain ⟨f, h1, h2⟩ := deleteExpr_ok g c p o h
      exact ⟨f, h1, by simp [State.dropVar, h, ht, h2]⟩

section step

variable {g : Cfg} {derives : Ty → Ty → Bool}

theorem own_eq_raw (c : State) (r : Nat) (x : Option (Option Nat)) {h : Nat → Option Cell} {n : Nat}
    {c1 c2 : List (Nat × Ty)} {c3 : List (Nat × Free)} :
    State.own ⟨h, n, c.vars, set c.raws r x, c1, c2, c3⟩ = updO c.own (.raw r) x.join := by
  funext o
  cases o <;> simp [State.own, updO, set]
  split <;> rfl

theorem aown_eq_raw (a : AState) (r : Nat) (x : Option (Option Obj)) :
    AState.own ⟨a.vars, set a.raws r x⟩ = updO a.own (.raw r) x.join := by
  funext o
  cases o <;> simp [AState.own, updO, set]
  split <;> rfl

theorem own_eq_var (c : State) (v : Nat) (x : Option Var) {h : Nat → Option Cell} {n : Nat}
    {c1 c2 : List (Nat × Ty)} {c3 : List (Nat × Free)} :
    State.own ⟨h, n, set c.vars v x, c.raws, c1, c2, c3⟩ = updO c.own (.var v) (x.bind Var.ptr) := by
  funext o
  cases o <;> simp [State.own, updO, set]
  split <;> rfl

theorem aown_eq_var (a : AState) (v : Nat) (x : Option AVar) :
    AState.own ⟨set a.vars v x, a.raws⟩ = updO a.own (.var v) (x.bind AVar.obj) := by
  funext o
  cases o <;> simp [AState.own, updO, set]
  split <;> rfl

theorem updO_same {α : Type} (f : Owner → Option α) (o : Owner) : updO f o (f o) = f := by
  funext k; unfold updO; split
  · rename_i h; rw [h]
  · rfl

theorem updO_updO {α : Type} (f : Owner → Option α) (o : Owner) (x y : Option α) : updO (updO f o x) o y = updO f o y := by
  funext k; unfold updO; split <;> rfl

theorem vars_set {a : AState} {c : State}
    (h : ∀ v, (a.vars v).map (fun x => (x.kind, x.ty)) = (c.vars v).map (fun x => (x.kind, x.ty))) (v : Nat)
    (x : Option AVar) (y : Option Var) (hx : x.map (fun x => (x.kind, x.ty)) = y.map (fun x => (x.kind, x.ty))) :
    ∀ w, (set a.vars v x w).map (fun x => (x.kind, x.ty)) = (set c.vars v y w).map (fun x => (x.kind, x.ty)) := by
  intro w; unfold set; split
  · exact hx
  · exact h w

theorem raws_set {a : AState} {c : State} (h : ∀ v, (a.raws v).isSome = (c.raws v).isSome) (v : Nat)
    (x : Option (Option Obj)) (y : Option (Option Nat)) (hx : x.isSome = y.isSome) :
    ∀ w, (set a.raws v x w).isSome = (set c.raws v y w).isSome := by
  intro w; unfold set; split
  · exact hx
  · exact h w

theorem ok_set {vars : Nat → Option AVar}
    (h : ∀ v x, vars v = some x → wrapOk (fun s t => derives s t = true) x.kind x.ty x.obj) (v : Nat)
    (x : Option AVar) (hx : ∀ y, x = some y → wrapOk (fun s t => derives s t = true) y.kind y.ty y.obj) :
    ∀ w y, set vars v x w = some y → wrapOk (fun s t => derives s t = true) y.kind y.ty y.obj := by
  intro w y hy; unfold set at hy; split at hy
  · exact hx y hy
  · exact h w y hy

/-- Each operation does what it means, and has no undefined behaviour. -/
theorem step_sim {a a' : AState} {c : State} {op : Op} {o : Obs} (h : Rel g derives a c)
    (hs : AState.Step (fun s t => derives s t = true) a op a' o) :
    ∃ c', c.step g derives op = some (c', o) ∧ Rel g derives a' c' := by
  cases hs with
  | @cppNew r t b hr =>
      have hr' := rel_raw_none h hr
      refine ⟨{ c with heap := set c.heap c.next (some ⟨t.req g.dflt, some ⟨t, b⟩⟩), next := c.next + 1,
                       raws := set c.raws r (some (some c.next)), created := c.created ++ [(c.next, t)] },
        by simp [State.step, hr'], ?_, h.vars, raws_set h.raws _ _ _ rfl, h.ok⟩
      have := mem_new h.mem (o := .raw r) (by simp [State.own, hr']) t b
      rw [aown_eq_raw]
      simpa [own_eq_raw] using this
  | @nullptr r hr =>
      have hr' := rel_raw_none h hr
      refine ⟨{ c with raws := set c.raws r (some none) }, by simp [State.step, hr'], ?_, h.vars,
        raws_set h.raws _ _ _ rfl, h.ok⟩
      have e1 : c.own (.raw r) = none := by simp [State.own, hr']
      have e2 : a.own (.raw r) = none := by simp [AState.own, hr]
      have := h.mem
      rw [aown_eq_raw, own_eq_raw]
      have k1 := updO_same c.own (.raw r)
      have k2 := updO_same a.own (.raw r)
      rw [e1] at k1; rw [e2] at k2
      simpa [k1, k2] using this
  | @cppDelete r x hr =>
      obtain ⟨p, hp, hn⟩ := rel_raw h hr
      cases p with
      | none =>
          have hx := hn.2 rfl
          subst hx
          refine ⟨{ c with raws := set c.raws r none }, by simp [State.step, hp], ?_, h.vars,
            raws_set h.raws _ _ _ rfl, h.ok⟩
          have e1 : c.own (.raw r) = none := by simp [State.own, hp]
          have e2 : a.own (.raw r) = none := by simp [AState.own, hr]
          have := h.mem
          rw [aown_eq_raw, own_eq_raw]
          have k1 := updO_same c.own (.raw r)
          have k2 := updO_same a.own (.raw r)
          rw [e1] at k1; rw [e2] at k2
          simpa [k1, k2] using this
      | some p =>
          cases x with
          | none => simp at hn
          | some ob =>
              have e1 : c.own (.raw r) = some p := by simp [State.own, hp]
              have e2 : a.own (.raw r) = some ob := by simp [AState.own, hr]
              obtain ⟨b, hb, hx⟩ := h.mem.good.val _ _ _ e2 e1
              unfold InCell at hx
              subst hx
              obtain ⟨f, hf, hd⟩ := deleteExpr_ok g { c with raws := set c.raws r none } p ob hb
              refine ⟨{ c with heap := set c.heap p none, freed := c.freed ++ [(p, f)], raws := set c.raws r none,
                               destroyed := c.destroyed ++ [(p, ob.ty)] },
                by simp only [State.step, hp, hd, Option.map_some], ?_, h.vars,
                raws_set h.raws _ _ _ rfl, h.ok⟩
              have := mem_kill h.mem e1 e2 hf
              rw [aown_eq_raw]
              simpa [own_eq_raw] using this
  | @wrap k t r v x hr hv hw =>
      obtain ⟨p, hp, hn⟩ := rel_raw h hr
      have hv' := rel_var_none h hv
      refine ⟨{ c with raws := set c.raws r none, vars := set c.vars v (some ⟨k, t, p⟩) }, by simp [State.step, hp, hv'], ?_,
        vars_set h.vars _ _ _ rfl, raws_set h.raws _ _ _ rfl, ok_set h.ok _ _ ?_⟩
      · have := mem_own h.mem (good_moveO h.mem.good (o := .raw r) (o' := .var v) (by simp [State.own, hv']))
        convert this using 1
        · funext k; cases k <;> simp [State.own, updO, set, hp] <;> split <;> rfl
        · funext k; cases k <;> simp [AState.own, updO, set, hr] <;> split <;> rfl
      · rintro y hy
        simp only [Option.some.injEq] at hy
        subst hy
        exact hw
  | @release v r x hv hr =>
      obtain ⟨p, hp, hn⟩ := rel_var h hv
      have hr' := rel_raw_none h hr
      refine ⟨{ c with vars := set c.vars v (some ⟨x.kind, x.ty, none⟩), raws := set c.raws r (some p) },
        by simp [State.step, hp, hr'], ?_, vars_set h.vars _ _ _ rfl, raws_set h.raws _ _ _ rfl, ok_set h.ok _ _ ?_⟩
      · have := mem_own h.mem (good_moveO h.mem.good (o := .var v) (o' := .raw r) (by simp [State.own, hr']))
        convert this using 1
        · funext k; cases k <;> simp [State.own, updO, set, hp] <;> split <;> rfl
        · funext k; cases k <;> simp [AState.own, updO, set, hv] <;> split <;> rfl
      · rintro y hy
        simp only [Option.some.injEq] at hy
        subst hy
        trivial
  | @isNull v x hv =>
      obtain ⟨p, hp, hn⟩ := rel_var h hv
      refine ⟨c, ?_, h⟩
      simp only [State.step, hp, Option.some.injEq, Prod.mk.injEq, true_and, Obs.bool.injEq]
      rw [Bool.eq_iff_iff]
      simp [hn]
  | @read v x hv =>
      obtain ⟨p, hp, hn⟩ := rel_var h hv
      refine ⟨c, ?_, h⟩
      cases p with
      | none => simp [State.step, hp, hn.2 rfl]
      | some p =>
          cases hx : x.obj with
          | none => rw [hx] at hn; simp at hn
          | some ob =>
              have e1 : c.own (.var v) = some p := by simp [State.own, hp]
              have e2 : a.own (.var v) = some ob := by simp [AState.own, hv, hx]
              obtain ⟨b, hb, hx⟩ := h.mem.good.val _ _ _ e2 e1
              unfold InCell at hx
              subst hx
              simp [State.step, hp, hb]
  | @write v x b hv =>
      obtain ⟨p, hp, hn⟩ := rel_var h hv
      cases p with
      | none =>
          have hx := hn.2 rfl
          refine ⟨c, by simp [State.step, hp, hx], ?_⟩
          have : set a.vars v (some { x with obj := x.obj.map fun o => { o with content := b } }) = a.vars := by
            funext k; unfold set; split
            · rename_i hk
              rw [hk, hv]
              obtain ⟨k, t, ob⟩ := x
              simp_all
            · rfl
          rw [this]
          exact h
      | some p =>
          cases hx : x.obj with
          | none => rw [hx] at hn; simp at hn
          | some ob =>
              have e1 : c.own (.var v) = some p := by simp [State.own, hp]
              have e2 : a.own (.var v) = some ob := by simp [AState.own, hv, hx]
              obtain ⟨b', hb, hx'⟩ := h.mem.good.val _ _ _ e2 e1
              unfold InCell at hx'
              subst hx'
              refine ⟨{ c with heap := set c.heap p (some ⟨ob.ty.req g.dflt, some { ob with content := b }⟩) },
                by simp [State.step, hp, hb], ?_, ?_, h.raws, ok_set h.ok _ _ ?_⟩
              · have := mem_write h.mem e1 e2 (b := b)
                rw [aown_eq_var]
                exact this
              · intro w
                show (set a.vars v _ w).map _ = (c.vars w).map _
                unfold set
                split
                · rename_i hw; rw [hw, ← h.vars v, hv]; rfl
                · exact h.vars w
              · rintro y hy
                simp only [Option.some.injEq] at hy
                subst hy
                have := h.ok v x hv
                rw [hx] at this
                exact this
  | @drop v x hv =>
      obtain ⟨p, hp, hn⟩ := rel_var h hv
      cases p with
      | none =>
          have hx := hn.2 rfl
          refine ⟨{ c with vars := set c.vars v none }, by simp [State.step, hp, State.dropVar], ?_,
            vars_set h.vars _ _ _ rfl, h.raws, ok_set h.ok _ _ (by simp)⟩
          have e1 : c.own (.var v) = none := by simp [State.own, hp]
          have e2 : a.own (.var v) = none := by simp [AState.own, hv, hx]
          have := h.mem
          rw [aown_eq_var, own_eq_var]
          have k1 := updO_same c.own (.var v)
          have k2 := updO_same a.own (.var v)
          rw [e1] at k1; rw [e2] at k2
          simpa [k1, k2] using this
      | some p =>
          cases hx : x.obj with
          | none => rw [hx] at hn; simp at hn
          | some ob =>
              have e1 : c.own (.var v) = some p := by simp [State.own, hp]
              have e2 : a.own (.var v) = some ob := by simp [AState.own, hv, hx]
              obtain ⟨b', hb, hx'⟩ := h.mem.good.val _ _ _ e2 e1
              unfold InCell at hx'
              subst hx'
              have hw := h.ok v x hv
              rw [hx] at hw
              obtain ⟨f, hf, hd⟩ := dropVar_ok g derives { c with vars := set c.vars v none } x.kind x.ty p ob hb hw
              refine ⟨{ c with heap := set c.heap p none, freed := c.freed ++ [(p, f)], vars := set c.vars v none,
                               destroyed := c.destroyed ++ [(p, ob.ty)] },
                by simp only [State.step, hp, hd, Option.map_some], ?_, vars_set h.vars _ _ _ rfl, h.raws,
                ok_set h.ok _ _ (by simp)⟩
              have := mem_kill h.mem e1 e2 hf
              rw [aown_eq_var]
              simpa [own_eq_var] using this
  | @move v w x hv hw =>
      obtain ⟨p, hp, hn⟩ := rel_var h hv
      have hw' := rel_var_none h hw
      refine ⟨{ c with vars := set (set c.vars v none) w (some ⟨x.kind, x.ty, p⟩) }, by simp [State.step, hp, hw'], ?_, ?_, h.raws,
        ok_set (ok_set h.ok _ _ (by simp)) _ _ ?_⟩
      · have := mem_own h.mem (good_moveO h.mem.good (o := .var v) (o' := .var w) (by simp [State.own, hw']))
        convert this using 1
        · funext k; cases k <;> simp [State.own, updO, set, hp] <;> repeat' split
          all_goals rfl
        · funext k; cases k <;> simp [AState.own, updO, set, hv] <;> repeat' split
          all_goals rfl
      · intro u
        simp only [set]
        split
        · rfl
        · split
          · rfl
          · exact h.vars u
      · rintro y hy
        simp only [Option.some.injEq] at hy
        subst hy
        exact h.ok v x hv
  | @cppMove v w x hv hw =>
      obtain ⟨p, hp, hn⟩ := rel_var h hv
      have hw' := rel_var_none h hw
      refine ⟨{ c with vars := set (set c.vars v (some ⟨x.kind, x.ty, none⟩)) w (some ⟨x.kind, x.ty, p⟩) },
        by simp [State.step, hp, hw'], ?_, ?_, h.raws, ok_set (ok_set h.ok _ _ ?_) _ _ ?_⟩
      · have := mem_own h.mem (good_moveO h.mem.good (o := .var v) (o' := .var w) (by simp [State.own, hw']))
        convert this using 1
        · funext k; cases k <;> simp [State.own, updO, set, hp] <;> repeat' split
          all_goals rfl
        · funext k; cases k <;> simp [AState.own, updO, set, hv] <;> repeat' split
          all_goals rfl
      · intro u
        simp only [set]
        split
        · rfl
        · split
          · rfl
          · exact h.vars u
      · rintro y hy
        simp only [Option.some.injEq] at hy
        subst hy
        trivial
      · rintro y hy
        simp only [Option.some.injEq] at hy
        subst hy
        exact h.ok v x hv

end step

theorem rel_init (g : Cfg) (derives : Ty → Ty → Bool) : Rel g derives AState.init State.init := by
  refine ⟨⟨⟨?_, ?_, ?_, ?_, ?_, ?_, ?_, ?_, ?_⟩, .nil, rfl, by simp [State.init], by simp [State.init], by simp [State.init]⟩,
    by simp [AState.init, State.init], by simp [AState.init, State.init], by simp [AState.init]⟩
  · intro o; cases o <;> simp [AState.own, State.own, AState.init, State.init]
  · intro o x p h; cases o <;> simp [AState.own, AState.init] at h
  · intro o o' p h; cases o <;> simp [State.own, State.init] at h
  · intro p b h; simp [State.init] at h
  · intro p b h; simp [State.init] at h
  · simp [State.init]
  · simp [State.init]
  · intro p h1 h2; simp [State.init] at h2; omega
  · simp [State.init]

theorem run_sim {g : Cfg} {derives : Ty → Ty → Bool} : ∀ {ops : List Op} {a a' : AState} {c : State} {os : List Obs},
    Rel g derives a c → AState.Run (fun s t => derives s t = true) a ops a' os →
    ∃ c', c.run g derives ops = some (c', os) ∧ Rel g derives a' c'
  | _, _, _, c, _, h, .nil => ⟨c, rfl, h⟩
  | _, _, _, _, _, h, .cons hs hr => by
      obtain ⟨c1, h1, h2⟩ := step_sim h hs
      obtain ⟨c2, h3, h4⟩ := run_sim h2 hr
      exact ⟨c2, by simp [State.run, h1, h3], h4⟩

/-- A program that keeps the contract of `new` has no undefined behaviour, and sees what it means: a `unique_ptr` is
nothing, or an object of its own. -/
theorem unique_ptr_refines (g : Cfg) (derives : Ty → Ty → Bool) {ops : List Op} {a : AState} {os : List Obs}
    (h : AState.Run (fun s t => derives s t = true) AState.init ops a os) :
    ∃ c, State.init.run g derives ops = some (c, os) := by
  obtain ⟨c, h1, -⟩ := run_sim (rel_init g derives) h
  exact ⟨c, h1⟩

/-- At any time each object made is alive, owned by one variable or raw pointer, or was destroyed once, by the destructor
of its own most derived type, and then given back once, to the `operator delete` that fits its allocation. -/
theorem destroyed_once (g : Cfg) (derives : Ty → Ty → Bool) {ops : List Op} {a : AState} {os : List Obs} {c : State}
    (h : AState.Run (fun s t => derives s t = true) AState.init ops a os) (hc : State.init.run g derives ops = some (c, os)) :
    (c.destroyed.map Prod.fst).Nodup ∧
    (∀ p t, (p, t) ∈ c.created →
      ((∃ o, c.own o = some p) ∧ (p, t) ∉ c.destroyed) ∨ ((∀ o, c.own o ≠ some p) ∧ (p, t) ∈ c.destroyed)) ∧
    (∀ d ∈ c.destroyed, d ∈ c.created) ∧
    (∀ o o' p, c.own o = some p → c.own o' = some p → o = o') ∧
    List.Forall₂ (fun d f => d.1 = f.1 ∧ f.2.fits (d.2.req g.dflt)) c.destroyed c.freed := by
  obtain ⟨c1, h1, h2⟩ := run_sim (rel_init g derives) h
  rw [h1] at hc
  simp only [Option.some.injEq, Prod.mk.injEq, and_true] at hc
  subst hc
  have m := h2.mem
  have he : c1.destroyed.map Prod.fst = c1.freed.map Prod.fst := by
    have := m.log
    revert this
    generalize c1.destroyed = l, c1.freed = l'
    intro hl
    induction hl with
    | nil => rfl
    | cons h _ ih => simp [h.1, ih]
  have hdead : ∀ p t, (p, t) ∈ c1.destroyed → c1.heap p = none := by
    intro p t hp
    refine (m.good.dead p ?_).2
    rw [← he]
    exact List.mem_map_of_mem (f := Prod.fst) hp
  refine ⟨by rw [he]; exact m.good.nodup, ?_, m.real, m.good.inj, m.log⟩
  intro p t hp
  by_cases hd : (p, t) ∈ c1.destroyed
  · refine .inr ⟨?_, hd⟩
    intro o ho
    obtain ⟨x, b, -, hb, -⟩ := good_live m.good ho
    rw [hdead p t hd] at hb
    simp at hb
  · rcases m.types p t hp with ⟨ob, hb, -⟩ | hd'
    · exact .inl ⟨m.good.noLeak p _ hb, hd⟩
    · exact absurd hd' hd

/-- When no variable is left, every object made has been destroyed. -/
theorem all_destroyed (g : Cfg) (derives : Ty → Ty → Bool) {ops : List Op} {a : AState} {os : List Obs} {c : State}
    (h : AState.Run (fun s t => derives s t = true) AState.init ops a os) (hc : State.init.run g derives ops = some (c, os))
    (hv : ∀ v, a.vars v = none) (hr : ∀ r, a.raws r = none) :
    ∀ d, d ∈ c.destroyed ↔ d ∈ c.created := by
  obtain ⟨-, h2, h3, -, -⟩ := destroyed_once g derives h hc
  obtain ⟨c1, h1, hrel⟩ := run_sim (rel_init g derives) h
  rw [h1] at hc
  simp only [Option.some.injEq, Prod.mk.injEq, and_true] at hc
  subst hc
  intro d
  refine ⟨h3 d, fun hd => ?_⟩
  obtain ⟨p, t⟩ := d
  rcases h2 p t hd with ⟨⟨o, ho⟩, -⟩ | ⟨-, h⟩
  · cases o with
    | var v => simp [State.own, rel_var_none hrel (hv v)] at ho
    | raw r => simp [State.own, rel_raw_none hrel (hr r)] at ho
  · exact h

end Verif.UniqPtr

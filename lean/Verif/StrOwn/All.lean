import Verif.StrOwn.Model
import Mathlib.Tactic.Convert
import Batteries.Data.List.Basic

/-!
# C++ strings owned by Rust: theorems
-/

namespace Verif.StrOwn

/-- Owners of strings on the heap: Rust variables and values in bridge buffers. -/
inductive Owner where
  | var (v : Nat)
  | wire (t : Nat)
  deriving DecidableEq

def State.own (c : State) : Owner → Option Nat
  | .var v => c.vars v
  | .wire t => c.wire t

def AState.own (a : AState) : Owner → Option Val
  | .var v => a.vars v
  | .wire t => a.wire t

def updO {α : Type} (f : Owner → Option α) (k : Owner) (v : Option α) : Owner → Option α :=
  fun n => if n = k then v else f n

/-- Memory is in order. -/
structure Good (heap : Nat → Option Bytes) (next : Nat) (deleted : List Nat) (ow : Owner → Option Nat)
    (ao : Owner → Option Val) : Prop where
  same : ∀ o, ao o = none ↔ ow o = none
  val : ∀ o x p, ao o = some x → ow o = some p → ∃ b, heap p = some b ∧ x.allows b
  inj : ∀ o o' p, ow o = some p → ow o' = some p → o = o'
  noLeak : ∀ p b, heap p = some b → ∃ o, ow o = some p
  bound : ∀ p b, heap p = some b → 1 ≤ p ∧ p < next
  nodup : deleted.Nodup
  dead : ∀ p ∈ deleted, (1 ≤ p ∧ p < next) ∧ heap p = none
  all : ∀ p, 1 ≤ p → p < next → heap p = none → p ∈ deleted
  pos : 1 ≤ next

variable {heap : Nat → Option Bytes} {next : Nat} {deleted : List Nat} {ow : Owner → Option Nat}
  {ao : Owner → Option Val}

theorem good_alloc (g : Good heap next deleted ow ao) {o : Owner} (ho : ow o = none) {x : Val} {b : Bytes}
    (hx : x.allows b) :
    Good (upd heap next (some b)) (next + 1) deleted (updO ow o (some next)) (updO ao o (some x)) := by
  have hfree : heap next = none := by
    cases h : heap next with
    | none => rfl
    | some b => exact absurd (g.bound _ _ h).2 (by omega)
  have hne : ∀ o' p, ow o' = some p → p ≠ next := by
    rintro o' p h rfl
    cases ha : ao o' with
    | none => rw [(g.same o').1 ha] at h; simp at h
    | some y =>
        obtain ⟨b, hb, -⟩ := g.val o' y _ ha h
        rw [hfree] at hb; simp at hb
  refine ⟨?_, ?_, ?_, ?_, ?_, g.nodup, ?_, ?_, by have := g.pos; omega⟩
  · intro o'
    unfold updO
    split
    · simp
    · exact g.same o'
  · intro o' y p h1 h2
    unfold updO at h1 h2
    unfold upd
    split at h1
    · rename_i he
      rw [if_pos he] at h2
      simp only [Option.some.injEq] at h1 h2
      subst h1 h2
      exact ⟨b, by simp, hx⟩
    · rename_i he
      rw [if_neg he] at h2
      rw [if_neg (hne _ _ h2)]
      exact g.val o' y p h1 h2
  · intro o1 o2 p h1 h2
    unfold updO at h1 h2
    split at h1 <;> split at h2
    · simp_all
    · simp only [Option.some.injEq] at h1; exact absurd h1.symm (hne _ _ h2)
    · simp only [Option.some.injEq] at h2; exact absurd h2.symm (hne _ _ h1)
    · exact g.inj _ _ _ h1 h2
  · intro p b' h
    unfold upd at h
    split at h
    · rename_i he; exact ⟨o, by simp [updO, he]⟩
    · obtain ⟨o', ho'⟩ := g.noLeak p b' h
      refine ⟨o', ?_⟩
      unfold updO
      rw [if_neg]
      · exact ho'
      · rintro rfl; rw [ho] at ho'; simp at ho'
  · intro p b' h
    unfold upd at h
    split at h
    · have := g.pos; omega
    · have := g.bound _ _ h; omega
  · intro p hp
    obtain ⟨h1, h2⟩ := g.dead p hp
    refine ⟨by omega, ?_⟩
    unfold upd
    rw [if_neg (by omega)]
    exact h2
  · intro p h1 h2 h3
    unfold upd at h3
    split at h3
    · simp at h3
    · exact g.all p h1 (by omega) h3

theorem good_live (g : Good heap next deleted ow ao) {o : Owner} {p : Nat} (ho : ow o = some p) :
    ∃ x b, ao o = some x ∧ heap p = some b ∧ x.allows b := by
  cases ha : ao o with
  | none => rw [(g.same o).1 ha] at ho; simp at ho
  | some x =>
      obtain ⟨b, hb, hx⟩ := g.val o x p ha ho
      exact ⟨x, b, rfl, hb, hx⟩

theorem good_delete (g : Good heap next deleted ow ao) {o : Owner} {p : Nat} (ho : ow o = some p) :
    Good (upd heap p none) next (deleted ++ [p]) (updO ow o none) (updO ao o none) := by
  obtain ⟨x, b, -, hb, -⟩ := good_live g ho
  have hother : ∀ o' q, o' ≠ o → ow o' = some q → q ≠ p := by
    rintro o' q hne h rfl
    exact hne (g.inj _ _ _ h ho)
  refine ⟨?_, ?_, ?_, ?_, ?_, ?_, ?_, ?_, g.pos⟩
  · intro o'
    unfold updO
    split
    · simp
    · exact g.same o'
  · intro o' y q h1 h2
    unfold updO at h1 h2
    split at h1
    · simp at h1
    · rename_i he
      rw [if_neg he] at h2
      unfold upd
      rw [if_neg (hother _ _ he h2)]
      exact g.val _ _ _ h1 h2
  · intro o1 o2 q h1 h2
    unfold updO at h1 h2
    split at h1
    · simp at h1
    · split at h2
      · simp at h2
      · exact g.inj _ _ _ h1 h2
  · intro q b' h
    unfold upd at h
    split at h
    · simp at h
    · rename_i hq
      obtain ⟨o', ho'⟩ := g.noLeak q b' h
      refine ⟨o', ?_⟩
      unfold updO
      rw [if_neg]
      · exact ho'
      · rintro rfl; rw [ho] at ho'; simp only [Option.some.injEq] at ho'; exact hq ho'.symm
  · intro q b' h
    unfold upd at h
    split at h
    · simp at h
    · exact g.bound _ _ h
  · rw [List.nodup_append]
    refine ⟨g.nodup, by simp, ?_⟩
    intro q hq r hr
    simp only [List.mem_singleton] at hr
    subst hr
    rintro rfl
    rw [(g.dead _ hq).2] at hb; simp at hb
  · intro q hq
    simp only [List.mem_append, List.mem_singleton] at hq
    unfold upd
    rcases hq with hq | rfl
    · obtain ⟨h1, h2⟩ := g.dead q hq
      refine ⟨h1, ?_⟩
      split
      · rfl
      · exact h2
    · exact ⟨g.bound _ _ hb, by simp⟩
  · intro q h1 h2 h3
    unfold upd at h3
    simp only [List.mem_append, List.mem_singleton]
    split at h3
    · rename_i h; exact .inr h
    · exact .inl (g.all q h1 h2 h3)

theorem good_move (g : Good heap next deleted ow ao) {o o' : Owner} {p : Nat} {x : Val} (ho : ow o = some p)
    (ha : ao o = some x) (ho' : ow o' = none) :
    Good heap next deleted (updO (updO ow o none) o' (some p)) (updO (updO ao o none) o' (some x)) := by
  have hne : o ≠ o' := by rintro rfl; rw [ho] at ho'; simp at ho'
  refine ⟨?_, ?_, ?_, ?_, g.bound, g.nodup, g.dead, g.all, g.pos⟩
  · intro k
    unfold updO
    split
    · simp
    · split
      · simp
      · exact g.same k
  · intro k y q h1 h2
    unfold updO at h1 h2
    split at h1
    · rename_i he
      rw [if_pos he] at h2
      simp only [Option.some.injEq] at h1 h2
      subst h1 h2
      exact g.val _ _ _ ha ho
    · rename_i he
      rw [if_neg he] at h2
      split at h1
      · simp at h1
      · rename_i he'
        rw [if_neg he'] at h2
        exact g.val _ _ _ h1 h2
  · intro k1 k2 q h1 h2
    unfold updO at h1 h2
    split at h1 <;> split at h2
    · simp_all
    · split at h2
      · simp at h2
      · rename_i hk
        simp only [Option.some.injEq] at h1
        subst h1
        exact absurd (g.inj _ _ _ h2 ho) hk
    · split at h1
      · simp at h1
      · rename_i hk
        simp only [Option.some.injEq] at h2
        subst h2
        exact absurd (g.inj _ _ _ h1 ho) hk
    · split at h1
      · simp at h1
      · split at h2
        · simp at h2
        · exact g.inj _ _ _ h1 h2
  · intro q b h
    obtain ⟨k, hk⟩ := g.noLeak q b h
    by_cases hko : k = o
    · subst hko
      rw [ho] at hk
      simp only [Option.some.injEq] at hk
      subst hk
      exact ⟨o', by simp [updO]⟩
    · refine ⟨k, ?_⟩
      unfold updO
      rw [if_neg, if_neg hko]
      · exact hk
      · rintro rfl; rw [ho'] at hk; simp at hk

theorem good_set (g : Good heap next deleted ow ao) {o : Owner} {p : Nat} (ho : ow o = some p) {b : Bytes} {x : Val}
    (hx : x.allows b) :
    Good (upd heap p (some b)) next deleted ow (updO ao o (some x)) := by
  obtain ⟨y, b0, hy, hb, -⟩ := good_live g ho
  refine ⟨?_, ?_, g.inj, ?_, ?_, g.nodup, ?_, ?_, g.pos⟩
  · intro k
    unfold updO
    split
    · rename_i he; subst he; simp [ho]
    · exact g.same k
  · intro k z q h1 h2
    unfold updO at h1
    unfold upd
    split at h1
    · rename_i he
      subst he
      rw [ho] at h2
      simp only [Option.some.injEq] at h1 h2
      subst h1 h2
      exact ⟨b, by simp, hx⟩
    · rename_i he
      rw [if_neg]
      · exact g.val _ _ _ h1 h2
      · rintro rfl; exact he (g.inj _ _ _ h2 ho)
  · intro q b' h
    unfold upd at h
    split at h
    · rename_i hq; subst hq; exact ⟨o, ho⟩
    · exact g.noLeak _ _ h
  · intro q b' h
    unfold upd at h
    split at h
    · rename_i hq; subst hq; exact g.bound _ _ hb
    · exact g.bound _ _ h
  · intro q hq
    obtain ⟨h1, h2⟩ := g.dead q hq
    refine ⟨h1, ?_⟩
    unfold upd
    rw [if_neg]
    · exact h2
    · rintro rfl; rw [hb] at h2; simp at h2
  · intro q h1 h2 h3
    unfold upd at h3
    split at h3
    · simp at h3
    · exact g.all _ h1 h2 h3

/-- The memory implements what the program means. -/
structure Rel (a : AState) (c : State) : Prop where
  good : Good c.heap c.next c.deleted c.own a.own
  same : ∀ s, a.places s = none ↔ c.places s = none
  val : ∀ s x b, a.places s = some x → c.places s = some b → x.allows b

theorem own_var (c : State) (v : Nat) (p : Option Nat) :
    ({ c with vars := upd c.vars v p } : State).own = updO c.own (.var v) p := by
  funext o
  cases o <;> simp [State.own, updO, upd]

theorem own_wire (c : State) (t : Nat) (p : Option Nat) :
    ({ c with wire := upd c.wire t p } : State).own = updO c.own (.wire t) p := by
  funext o
  cases o <;> simp [State.own, updO, upd]

theorem aown_var (a : AState) (v : Nat) (p : Option Val) :
    ({ a with vars := upd a.vars v p } : AState).own = updO a.own (.var v) p := by
  funext o
  cases o <;> simp [AState.own, updO, upd]

theorem aown_wire (a : AState) (t : Nat) (p : Option Val) :
    ({ a with wire := upd a.wire t p } : AState).own = updO a.own (.wire t) p := by
  funext o
  cases o <;> simp [AState.own, updO, upd]

theorem rel_var_none {a : AState} {c : State} (h : Rel a c) {v : Nat} : a.vars v = none ↔ c.vars v = none :=
  h.good.same (.var v)

theorem rel_var {a : AState} {c : State} (h : Rel a c) {v : Nat} {x : Val} (hv : a.vars v = some x) :
    ∃ p b, c.vars v = some p ∧ c.heap p = some b ∧ x.allows b := by
  cases hp : c.vars v with
  | none => rw [(rel_var_none h).2 hp] at hv; simp at hv
  | some p =>
      obtain ⟨b, hb, hx⟩ := h.good.val (.var v) x p hv hp
      exact ⟨p, b, rfl, hb, hx⟩

theorem rel_wire {a : AState} {c : State} (h : Rel a c) {t : Nat} {x : Val} (hv : a.wire t = some x) :
    ∃ p b, c.wire t = some p ∧ c.heap p = some b ∧ x.allows b := by
  cases hp : c.wire t with
  | none => rw [show a.wire t = none from (h.good.same (.wire t)).2 hp] at hv; simp at hv
  | some p =>
      obtain ⟨b, hb, hx⟩ := h.good.val (.wire t) x p hv hp
      exact ⟨p, b, rfl, hb, hx⟩

theorem rel_place {a : AState} {c : State} (h : Rel a c) {s : Nat} {x : Val} (hv : a.places s = some x) :
    ∃ b, c.places s = some b ∧ x.allows b := by
  cases hp : c.places s with
  | none => rw [(h.same s).2 hp] at hv; simp at hv
  | some b => exact ⟨b, rfl, h.val s x b hv hp⟩

theorem places_upd {ap : Nat → Option Val} {cp : Nat → Option Bytes} (hs : ∀ s, ap s = none ↔ cp s = none)
    (hv : ∀ s x b, ap s = some x → cp s = some b → x.allows b) (k : Nat) (x : Val) (b : Bytes) (hx : x.allows b) :
    (∀ s, upd ap k (some x) s = none ↔ upd cp k (some b) s = none) ∧
    (∀ s y b', upd ap k (some x) s = some y → upd cp k (some b) s = some b' → y.allows b') := by
  constructor
  · intro s; unfold upd; split
    · simp
    · exact hs s
  · intro s y b' h1 h2
    unfold upd at h1 h2
    split at h1
    · rename_i he
      rw [if_pos he] at h2
      simp only [Option.some.injEq] at h1 h2
      subst h1 h2
      exact hx
    · rename_i he
      rw [if_neg he] at h2
      exact hv s y b' h1 h2

theorem allows_some (b : Bytes) : Val.allows (some b) b := .inr rfl
theorem allows_none (b : Bytes) : Val.allows none b := .inl rfl

theorem same_allows {x y : Val} {a b : Bytes} (hx : x.allows a) (hy : y.allows b) :
    (Obs.bool (sameBytes x y)).allows (.bool (some (decide (a = b)))) := by
  rcases hx with rfl | rfl <;> rcases hy with rfl | rfl <;> simp [sameBytes, Obs.allows]

/-- Each operation does what it means, and has no undefined behaviour. -/
theorem step_sim (junk : Bytes → Bytes) {a a' : AState} {c : State} {op : Op} {o : Obs} (h : Rel a c)
    (hs : a.step op = some (a', o)) : ∃ c' o', c.step junk op = some (c', o') ∧ o.allows o' ∧ Rel a' c' := by
  cases op with
  | fromBytes v b =>
      simp only [AState.step] at hs
      split at hs
      · simp at hs
      · rename_i hn
        have hn' : a.vars v = none := by simpa using hn
        have hc := (rel_var_none h).1 hn'
        simp only [Option.some.injEq, Prod.mk.injEq] at hs
        obtain ⟨rfl, rfl⟩ := hs
        refine ⟨{ c with heap := upd c.heap c.next (some b), next := c.next + 1, vars := upd c.vars v (some c.next) }, .nothing,
          by simp [State.step, State.alloc, State.define, hc], trivial, ?_, h.same, h.val⟩
        have := good_alloc h.good (o := .var v) hc (allows_some b)
        rw [aown_var]
        convert this using 1
        funext k; cases k <;> simp [State.own, updO, upd]
  | clone v w =>
      simp only [AState.step] at hs
      split at hs
      · rename_i x hv hw
        simp only [Option.some.injEq, Prod.mk.injEq] at hs
        obtain ⟨rfl, rfl⟩ := hs
        obtain ⟨p, b, hp, hb, hx⟩ := rel_var h hv
        have hc := (rel_var_none h).1 hw
        refine ⟨{ c with heap := upd c.heap c.next (some b), next := c.next + 1, vars := upd c.vars w (some c.next) }, .nothing,
          by simp [State.step, State.alloc, State.define, hc, hp, hb], trivial, ?_, h.same, h.val⟩
        have := good_alloc h.good (o := .var w) hc hx
        rw [aown_var]
        convert this using 1
        funext k; cases k <;> simp [State.own, updO, upd]
      · simp at hs
  | drop v =>
      simp only [AState.step] at hs
      split at hs
      · rename_i x hv
        simp only [Option.some.injEq, Prod.mk.injEq] at hs
        obtain ⟨rfl, rfl⟩ := hs
        obtain ⟨p, b, hp, hb, hx⟩ := rel_var h hv
        refine ⟨{ c with heap := upd c.heap p none, deleted := c.deleted ++ [p], vars := upd c.vars v none }, .nothing,
          by simp [State.step, State.delete, hp, hb], trivial, ?_, h.same, h.val⟩
        have := good_delete h.good (o := .var v) hp
        rw [aown_var]
        convert this using 1
        funext k; cases k <;> simp [State.own, updO, upd]
      · simp at hs
  | read v =>
      simp only [AState.step] at hs
      split at hs
      · rename_i x hv
        simp only [Option.some.injEq, Prod.mk.injEq] at hs
        obtain ⟨rfl, rfl⟩ := hs
        obtain ⟨p, b, hp, hb, hx⟩ := rel_var h hv
        exact ⟨c, .bytes (some b), by simp [State.step, hp, hb], hx, h⟩
      · simp at hs
  | eq v w =>
      simp only [AState.step] at hs
      split at hs
      · rename_i x y hv hw
        simp only [Option.some.injEq, Prod.mk.injEq] at hs
        obtain ⟨rfl, rfl⟩ := hs
        obtain ⟨p, b, hp, hb, hx⟩ := rel_var h hv
        obtain ⟨q, b', hq, hb', hy⟩ := rel_var h hw
        exact ⟨c, .bool (some (decide (b = b'))), by simp [State.step, hp, hb, hq, hb'], same_allows hx hy, h⟩
      · simp at hs
  | encode v t =>
      simp only [AState.step] at hs
      split at hs
      · rename_i x hv hw
        simp only [Option.some.injEq, Prod.mk.injEq] at hs
        obtain ⟨rfl, rfl⟩ := hs
        obtain ⟨p, b, hp, hb, hx⟩ := rel_var h hv
        have hc := (h.good.same (.wire t)).1 hw
        have hc' : c.wire t = none := hc
        refine ⟨{ c with vars := upd c.vars v none, wire := upd c.wire t (some p) }, .nothing,
          by simp [State.step, hp, hc'], trivial, ?_, h.same, h.val⟩
        have := good_move h.good (o := .var v) (o' := .wire t) hp hv hc
        convert this using 1
        · funext k; cases k <;> simp [State.own, updO, upd]
        · funext k; cases k <;> simp [AState.own, updO, upd]
      · simp at hs
  | decode t v =>
      simp only [AState.step] at hs
      split at hs
      · rename_i x hv hw
        simp only [Option.some.injEq, Prod.mk.injEq] at hs
        obtain ⟨rfl, rfl⟩ := hs
        obtain ⟨p, b, hp, hb, hx⟩ := rel_wire h hv
        have hc := (rel_var_none h).1 hw
        refine ⟨{ c with wire := upd c.wire t none, vars := upd c.vars v (some p) }, .nothing,
          by simp [State.step, State.define, hp, hc], trivial, ?_, h.same, h.val⟩
        have := good_move h.good (o := .wire t) (o' := .var v) hp hv hc
        convert this using 1
        · funext k; cases k <;> simp [State.own, updO, upd]
        · funext k; cases k <;> simp [AState.own, updO, upd]
      · simp at hs
  | toCpp v s =>
      simp only [AState.step] at hs
      split at hs
      · rename_i x hv hw
        simp only [Option.some.injEq, Prod.mk.injEq] at hs
        obtain ⟨rfl, rfl⟩ := hs
        obtain ⟨p, b, hp, hb, hx⟩ := rel_var h hv
        have hc := (h.same s).1 hw
        obtain ⟨k1, k2⟩ := places_upd h.same h.val s x b hx
        refine ⟨{ c with heap := upd c.heap p (some (junk b)), places := upd c.places s (some b) }, .nothing,
          by simp [State.step, State.construct, hp, hb, hc], trivial, ?_, k1, k2⟩
        have := good_set h.good (o := .var v) hp (allows_none (junk b))
        convert this using 1
        all_goals (funext k; cases k <;> first | rfl | simp [AState.own, updO, upd])
      · simp at hs
  | toRust s v =>
      simp only [AState.step] at hs
      split at hs
      · rename_i x hv hw
        simp only [Option.some.injEq, Prod.mk.injEq] at hs
        obtain ⟨rfl, rfl⟩ := hs
        obtain ⟨b, hb, hx⟩ := rel_place h hv
        have hc := (rel_var_none h).1 hw
        obtain ⟨k1, k2⟩ := places_upd h.same h.val s none (junk b) (allows_none _)
        refine ⟨{ c with heap := upd c.heap c.next (some b), next := c.next + 1, places := upd c.places s (some (junk b)), vars := upd c.vars v (some c.next) },
          .nothing, by simp [State.step, State.alloc, State.define, hb, hc], trivial, ?_, k1, k2⟩
        have := good_alloc h.good (o := .var v) hc hx
        convert this using 1
        · funext k; cases k <;> simp [State.own, updO, upd]
        · funext k; cases k <;> simp [AState.own, updO, upd]
      · simp at hs
  | newDefault s =>
      simp only [AState.step] at hs
      split at hs
      · simp at hs
      · rename_i hn
        have hn' : a.places s = none := by simpa using hn
        have hc := (h.same s).1 hn'
        simp only [Option.some.injEq, Prod.mk.injEq] at hs
        obtain ⟨rfl, rfl⟩ := hs
        obtain ⟨k1, k2⟩ := places_upd h.same h.val s (some []) [] (allows_some _)
        exact ⟨{ c with places := upd c.places s (some []) }, .nothing, by simp [State.step, State.construct, hc], trivial,
          h.good, k1, k2⟩
  | newBytes s b =>
      simp only [AState.step] at hs
      split at hs
      · simp at hs
      · rename_i hn
        have hn' : a.places s = none := by simpa using hn
        have hc := (h.same s).1 hn'
        simp only [Option.some.injEq, Prod.mk.injEq] at hs
        obtain ⟨rfl, rfl⟩ := hs
        obtain ⟨k1, k2⟩ := places_upd h.same h.val s (some b) b (allows_some _)
        exact ⟨{ c with places := upd c.places s (some b) }, .nothing, by simp [State.step, State.construct, hc], trivial,
          h.good, k1, k2⟩
  | newCopy s src =>
      simp only [AState.step] at hs
      split at hs
      · rename_i x hv hw
        simp only [Option.some.injEq, Prod.mk.injEq] at hs
        obtain ⟨rfl, rfl⟩ := hs
        obtain ⟨b, hb, hx⟩ := rel_place h hv
        have hc := (h.same s).1 hw
        obtain ⟨k1, k2⟩ := places_upd h.same h.val s x b hx
        exact ⟨{ c with places := upd c.places s (some b) }, .nothing, by simp [State.step, State.construct, hc, hb], trivial,
          h.good, k1, k2⟩
      · simp at hs
  | newMove s src =>
      simp only [AState.step] at hs
      split at hs
      · rename_i x hv hw
        simp only [Option.some.injEq, Prod.mk.injEq] at hs
        obtain ⟨rfl, rfl⟩ := hs
        obtain ⟨b, hb, hx⟩ := rel_place h hv
        have hc := (h.same s).1 hw
        have hne : s ≠ src := by rintro rfl; rw [hv] at hw; simp at hw
        obtain ⟨k1, k2⟩ := places_upd h.same h.val src none (junk b) (allows_none _)
        obtain ⟨k3, k4⟩ := places_upd k1 k2 s x b hx
        refine ⟨{ c with places := upd (upd c.places src (some (junk b))) s (some b) }, .nothing, ?_, trivial, h.good, k3, k4⟩
        simp [State.step, State.construct, hb, upd, hne, hc]
      · simp at hs
  | destroy s =>
      simp only [AState.step] at hs
      split at hs
      · rename_i x hv
        simp only [Option.some.injEq, Prod.mk.injEq] at hs
        obtain ⟨rfl, rfl⟩ := hs
        obtain ⟨b, hb, hx⟩ := rel_place h hv
        refine ⟨{ c with places := upd c.places s none }, .nothing, by simp [State.step, hb], trivial, h.good, ?_, ?_⟩
        · intro k; simp only [upd]; split
          · simp
          · exact h.same k
        · intro k y b' h1 h2
          simp only [upd] at h1 h2
          split at h1
          · simp at h1
          · rename_i he
            rw [if_neg he] at h2
            exact h.val k y b' h1 h2
      · simp at hs
  | readNew s =>
      simp only [AState.step] at hs
      split at hs
      · rename_i x hv
        simp only [Option.some.injEq, Prod.mk.injEq] at hs
        obtain ⟨rfl, rfl⟩ := hs
        obtain ⟨b, hb, hx⟩ := rel_place h hv
        exact ⟨c, .bytes (some b), by simp [State.step, hb], hx, h⟩
      · simp at hs
  | writeNew s i b0 =>
      simp only [AState.step] at hs
      split at hs
      · rename_i x hv
        split at hs
        · rename_i hi
          simp only [Option.some.injEq, Prod.mk.injEq] at hs
          obtain ⟨rfl, rfl⟩ := hs
          obtain ⟨b, hb, hx⟩ := rel_place h hv
          have hxb : x = b := by
            rcases hx with hx | hx
            · simp at hx
            · simpa using hx
          subst hxb
          obtain ⟨k1, k2⟩ := places_upd h.same h.val s (some (x.set i b0)) (x.set i b0) (allows_some _)
          exact ⟨{ c with places := upd c.places s (some (x.set i b0)) }, .nothing, by simp [State.step, hb, hi], trivial,
            h.good, k1, k2⟩
        · simp at hs
      · simp at hs
  | eqNew s s' =>
      simp only [AState.step] at hs
      split at hs
      · rename_i x y hv hw
        simp only [Option.some.injEq, Prod.mk.injEq] at hs
        obtain ⟨rfl, rfl⟩ := hs
        obtain ⟨b, hb, hx⟩ := rel_place h hv
        obtain ⟨b', hb', hy⟩ := rel_place h hw
        exact ⟨c, .bool (some (decide (b = b'))), by simp [State.step, hb, hb'], same_allows hx hy, h⟩
      · simp at hs

theorem rel_init : Rel AState.init State.init := by
  refine ⟨⟨?_, ?_, ?_, ?_, ?_, List.nodup_nil, ?_, ?_, Nat.le_refl _⟩, ?_, ?_⟩
  · intro o; cases o <;> simp [AState.own, State.own, AState.init, State.init]
  · intro o x p h; cases o <;> simp [AState.own, AState.init] at h
  · intro o o' p h; cases o <;> simp [State.own, State.init] at h
  · intro p b h; simp [State.init] at h
  · intro p b h; simp [State.init] at h
  · intro p h; simp [State.init] at h
  · intro p h1 h2; simp only [State.init] at h2; omega
  · intro s; simp [AState.init, State.init]
  · intro s x b h; simp [AState.init] at h

theorem run_sim (junk : Bytes → Bytes) : ∀ {ops : List Op} {a a' : AState} {c : State} {os : List Obs}, Rel a c →
    a.run ops = some (a', os) → ∃ c' os', c.run junk ops = some (c', os') ∧ List.Forall₂ Obs.allows os os' ∧ Rel a' c'
  | [], a, a', c, os, h, hr => by
      simp only [AState.run, Option.some.injEq, Prod.mk.injEq] at hr
      obtain ⟨rfl, rfl⟩ := hr
      exact ⟨c, [], rfl, .nil, h⟩
  | op :: ops, a, a', c, os, h, hr => by
      simp only [AState.run] at hr
      split at hr
      · simp at hr
      · rename_i a1 o hs
        split at hr
        · simp at hr
        · rename_i a2 os2 hr2
          simp only [Option.some.injEq, Prod.mk.injEq] at hr
          obtain ⟨rfl, rfl⟩ := hr
          obtain ⟨c1, o1, hc1, ho1, h1⟩ := step_sim junk h hs
          obtain ⟨c2, os2', hc2, hos, h2⟩ := run_sim junk h1 hr2
          exact ⟨c2, o1 :: os2', by simp [State.run, hc1, hc2], .cons ho1 hos, h2⟩

/-- Whatever a program does with its strings, it never touches a string that is not there, and sees what it means:
strings are sequences of bytes, whatever a C++ library leaves in strings that were moved from. -/
theorem strings_refine (junk : Bytes → Bytes) {ops : List Op} {a : AState} {os : List Obs}
    (hr : AState.init.run ops = some (a, os)) :
    ∃ c os', State.init.run junk ops = some (c, os') ∧ List.Forall₂ Obs.allows os os' := by
  obtain ⟨c, os', h1, h2, -⟩ := run_sim junk rel_init hr
  exact ⟨c, os', h1, h2⟩

/-- No string is deleted twice; a string is there exactly if one Rust variable or one buffer owns it; every string
ever allocated is there or was deleted. -/
theorem strings_owned (junk : Bytes → Bytes) {ops : List Op} {a : AState} {os : List Obs} {c : State} {os' : List Obs}
    (hr : AState.init.run ops = some (a, os)) (hc : State.init.run junk ops = some (c, os')) :
    c.deleted.Nodup ∧
    (∀ p, (c.heap p).isSome = true ↔ ∃ o, c.own o = some p) ∧
    (∀ o o' p, c.own o = some p → c.own o' = some p → o = o') ∧
    (∀ p, 1 ≤ p → p < c.next → ((c.heap p).isSome = true ↔ p ∉ c.deleted)) := by
  obtain ⟨c1, os1, h1, -, h⟩ := run_sim junk rel_init hr
  rw [h1] at hc
  simp only [Option.some.injEq, Prod.mk.injEq] at hc
  obtain ⟨rfl, -⟩ := hc
  refine ⟨h.good.nodup, ?_, h.good.inj, ?_⟩
  · intro p
    constructor
    · intro hp
      obtain ⟨b, hb⟩ := Option.isSome_iff_exists.1 hp
      exact h.good.noLeak p b hb
    · rintro ⟨o, ho⟩
      obtain ⟨-, b, -, hb, -⟩ := good_live h.good ho
      simp [hb]
  · intro p hp1 hp2
    constructor
    · intro hp hd
      rw [(h.good.dead p hd).2] at hp; simp at hp
    · intro hd
      cases hh : c1.heap p with
      | some b => rfl
      | none => exact absurd (h.good.all p hp1 hp2 hh) hd

/-- When all variables are gone and no value is in a buffer, every string has been deleted exactly once. -/
theorem strings_freed (junk : Bytes → Bytes) {ops : List Op} {a : AState} {os : List Obs} {c : State} {os' : List Obs}
    (hr : AState.init.run ops = some (a, os)) (hc : State.init.run junk ops = some (c, os'))
    (hv : ∀ v, a.vars v = none) (hw : ∀ t, a.wire t = none) :
    (∀ p, c.heap p = none) ∧ c.deleted.Nodup ∧ ∀ p, p ∈ c.deleted ↔ 1 ≤ p ∧ p < c.next := by
  obtain ⟨c1, os1, h1, -, h⟩ := run_sim junk rel_init hr
  rw [h1] at hc
  simp only [Option.some.injEq, Prod.mk.injEq] at hc
  obtain ⟨rfl, -⟩ := hc
  have he : ∀ p, c1.heap p = none := by
    intro p
    cases hp : c1.heap p with
    | none => rfl
    | some b =>
        obtain ⟨o, ho⟩ := h.good.noLeak p b hp
        cases o with
        | var v => rw [show c1.own (.var v) = none from (h.good.same (.var v)).1 (hv v)] at ho; simp at ho
        | wire t => rw [show c1.own (.wire t) = none from (h.good.same (.wire t)).1 (hw t)] at ho; simp at ho
  refine ⟨he, h.good.nodup, fun p => ⟨fun hp => (h.good.dead p hp).1, fun hp => h.good.all p hp.1 hp.2 (he p)⟩⟩

end Verif.StrOwn

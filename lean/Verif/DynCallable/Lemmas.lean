import Verif.DynCallable.Model
import Mathlib.Tactic.ByCases

namespace Verif.DynCallable.Impl

open Spec (Cell dropOf)

/-- The object `o` represents the cell `c`. -/
inductive Rep : Obj → Cell → Prop
  | empty (st) : Rep ⟨st, .empty, .null⟩ .empty
  | holds (b) : Rep ⟨.closure b, .rust, .rust⟩ (.holds b)
  | spent (st) : Rep ⟨st, .empty, .afterMove⟩ .spent

/-- The places after dropping what a cell holds. -/
def dropPlace (p : Nat → Place) : Cell → Nat → Place
  | .holds b => Function.update p b .gone
  | _ => p

section
variable {α β : Type}

theorem bind_def (m : M α) (f : α → M β) (s : State) :
    (m >>= f) s = (match m s with
      | .ok a s' => f a s'
      | .terminated l => .terminated l
      | .ub => .ub
      | .ill => .ill) := rfl

theorem pure_def (a : α) (s : State) : (pure a : M α) s = .ok a s := rfl
end

theorem managerDispose_rep {s : State} {l : Loc} {o : Obj} {c : Cell}
    (hm : s.mem l = some o) (hr : Rep o c)
    (hp : ∀ b, c = .holds b → s.place b = .cpp) :
    managerDispose o.manager l s =
      .ok () { s with place := dropPlace s.place c, log := s.log ++ dropOf c } := by
  cases hr with
  | empty st => simp [managerDispose, pure_def, dropPlace, dropOf]
  | spent st => simp [managerDispose, pure_def, dropPlace, dropOf]
  | holds b =>
    have := hp b rfl
    simp [managerDispose, bind_def, read, hm, useBox, this, emit, dropPlace, dropOf]

theorem implAssign_ne {s : State} {d r : Loc} {od or : Obj} {cd cr : Cell} (hne : d ≠ r)
    (hd : s.mem d = some od) (hr : s.mem r = some or) (rd : Rep od cd) (rr : Rep or cr)
    (hp : ∀ b, cd = .holds b → s.place b = .cpp) :
    ∃ m' od' or', implAssign d r s =
        .ok () { mem := m', place := dropPlace s.place cd, log := s.log ++ dropOf cd } ∧
      m' d = some od' ∧ Rep od' cr ∧ m' r = some or' ∧ Rep or' .empty ∧
      ∀ l, l ≠ d → l ≠ r → m' l = s.mem l := by
  have hne' : r ≠ d := fun h => hne h.symm
  have hdis := managerDispose_rep hd rd hp
  cases rr with
  | empty st =>
    refine ⟨Function.update (Function.update s.mem d (some ⟨od.storage, .empty, .null⟩)) r
        (some ⟨st, .empty, .null⟩),
      ⟨od.storage, .empty, .null⟩, ⟨st, .empty, .null⟩, ?_, ?_, .empty _, ?_, .empty _, ?_⟩
    · simp only [implAssign, managedAssign, bind_def, read, hd, hdis, hr, managerRelocate, pure_def,
        modify, Function.update_apply, hne, hne', if_true, if_false]
      congr 2
      funext l
      simp only [Function.update_apply]
      by_cases h1 : l = r <;> by_cases h2 : l = d <;> simp_all
    · simp [Function.update_apply, hne]
    · simp [Function.update_apply]
    · intro l h1 h2; simp [Function.update_apply, h1, h2]
  | spent st =>
    refine ⟨Function.update (Function.update s.mem d (some ⟨od.storage, .empty, .afterMove⟩)) r
        (some ⟨st, .empty, .null⟩),
      ⟨od.storage, .empty, .afterMove⟩, ⟨st, .empty, .null⟩, ?_, ?_, .spent _, ?_,
      .empty _, ?_⟩
    · simp only [implAssign, managedAssign, bind_def, read, hd, hdis, hr, managerRelocate, pure_def,
        modify, Function.update_apply, hne, hne', if_true, if_false]
      congr 2
      funext l
      simp only [Function.update_apply]
      by_cases h1 : l = r <;> by_cases h2 : l = d <;> simp_all
    · simp [Function.update_apply, hne]
    · simp [Function.update_apply]
    · intro l h1 h2; simp [Function.update_apply, h1, h2]
  | holds b =>
    refine ⟨Function.update (Function.update s.mem d (some ⟨.closure b, .rust, .rust⟩)) r
        (some ⟨.closure b, .empty, .null⟩),
      ⟨.closure b, .rust, .rust⟩, ⟨.closure b, .empty, .null⟩, ?_, ?_, .holds _, ?_,
      .empty _, ?_⟩
    · simp only [implAssign, managedAssign, bind_def, read, hd, hdis, hr, managerRelocate,
        modify, Function.update_apply, hne, hne', if_true, if_false]
      congr 2
      funext l
      simp only [Function.update_apply]
      by_cases h1 : l = r <;> by_cases h2 : l = d <;> simp_all
    · simp [Function.update_apply, hne]
    · simp [Function.update_apply]
    · intro l h1 h2; simp [Function.update_apply, h1, h2]

/-- Self-assignment of an object that owns nothing leaves it empty. -/
theorem implAssign_self {s : State} {d : Loc} {od : Obj} {cd : Cell}
    (hd : s.mem d = some od) (rd : Rep od cd) (hc : ∀ b, cd ≠ .holds b) :
    ∃ m' od', implAssign d d s = .ok () { s with mem := m' } ∧
      m' d = some od' ∧ Rep od' .empty ∧ ∀ l, l ≠ d → m' l = s.mem l := by
  have hdis := managerDispose_rep hd rd (fun b h => absurd h (hc b))
  have key : ∀ st iv, od = ⟨st, .empty, iv⟩ → ∃ m' od', implAssign d d s = .ok () { s with mem := m' } ∧
      m' d = some od' ∧ Rep od' .empty ∧ ∀ l, l ≠ d → m' l = s.mem l := by
    rintro st iv rfl
    refine ⟨Function.update s.mem d (some ⟨st, .empty, .null⟩),
      ⟨st, .empty, .null⟩, ?_, ?_, .empty _, ?_⟩
    · simp only [implAssign, managedAssign, bind_def, read, hd, managerDispose, managerRelocate,
        pure_def, modify, Function.update_apply, if_true]
      congr 2
      funext l
      simp only [Function.update_apply]
      split <;> simp_all
    · simp
    · intro l h; simp [Function.update_apply, h]
  cases rd with
  | empty st => exact key _ _ rfl
  | spent st => exact key _ _ rfl
  | holds b => exact absurd rfl (hc b)

/-- Self-assignment of an object that owns a closure is undefined behaviour. -/
theorem implAssign_self_holds {s : State} {d : Loc} {od : Obj} {b : Nat}
    (hd : s.mem d = some od) (rd : Rep od (.holds b)) (hp : s.place b = .cpp) :
    implAssign d d s = .ub := by
  cases rd
  simp [implAssign, managedAssign, bind_def, read, hd, managerDispose, useBox, hp, emit,
    managerRelocate, ub]

theorem implMoveCtor_eq {s : State} {d r : Loc} {or : Obj} {cr : Cell}
    (hd : s.mem d = none) (hr : s.mem r = some or) (rr : Rep or cr) :
    ∃ m' od' or', implMoveCtor d r s = .ok () { s with mem := m' } ∧
      m' d = some od' ∧ Rep od' cr ∧ m' r = some or' ∧ Rep or' .empty ∧
      ∀ l, l ≠ d → l ≠ r → m' l = s.mem l := by
  have hne : d ≠ r := by rintro rfl; simp [hd] at hr
  have hne' : r ≠ d := fun h => hne h.symm
  obtain ⟨m', od', or', h1, h2, h3, h4, h5, h6⟩ :=
    implAssign_ne (s := { s with mem := Function.update s.mem d (some defaultObj) })
      (od := defaultObj) (or := or) (cd := .empty) (cr := cr) hne (by simp)
      (by simp [Function.update_apply, hne', hr]) (.empty _) rr (by intro b h; cases h)
  refine ⟨m', od', or', ?_, h2, h3, h4, h5, ?_⟩
  · simp [implMoveCtor, bind_def, read, hr, create, hd, h1, dropPlace, dropOf]
  · intro l h7 h8
    rw [h6 l h7 h8]; simp [Function.update_apply, h7]

theorem destructor_eq {s : State} {l : Loc} {o : Obj} {c : Cell}
    (hm : s.mem l = some o) (hr : Rep o c) (hp : ∀ b, c = .holds b → s.place b = .cpp) :
    destructor l s = .ok ()
      { mem := Function.update s.mem l none
        place := dropPlace s.place c
        log := s.log ++ dropOf c } := by
  simp [destructor, bind_def, read, hm, managerDispose_rep hm hr hp, free]

theorem hasValue_eq {s : State} {l : Loc} {o : Obj} {c : Cell}
    (hm : s.mem l = some o) (hr : Rep o c) :
    hasValue l s = .ok (decide (c ≠ .empty)) s := by
  cases hr <;> simp [hasValue, bind_def, read, hm, pure_def]

end Verif.DynCallable.Impl

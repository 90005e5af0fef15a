import Verif.Vector.Props
/-
C64-C67: concrete programs.
-/
namespace Verif.Vector
open Verif

/-- A vector with one element. -/
def one : List Op := [.make, .make, .new, .mutate 0 [.realloc 1, .write 0] false]

/-- Disagreement: `v.extend(iter)` where `iter` panics after the vector had to grow: `v` still points to freed memory, and dropping it is
undefined behaviour. -/
theorem panic_after_growth : (specRun .init one).isSome = true ∧
    (run .init (one ++ [.mutate 0 [.realloc 2, .write 1] true])).isSome = true ∧
    (run .init (one ++ [.mutate 0 [.realloc 2, .write 1] true, .drop 0])).isNone = true := by
  refine ⟨?_, ?_, ?_⟩ <;> decide +kernel

/-- Disagreement: a removal followed by a panic, as in `truncate` and `retain` when dropping an element panics: the element is dropped
again with the vector. -/
theorem panic_double_drop :
    (run .init (one ++ [.mutate 0 [.dropLast] true, .drop 0])).map (fun s => s.mem.w.log.count (.dropped 0)) = some 2 := by
  decide +kernel

/-- Disagreement: `set_len(0)` and later `set_len(2)`, allowed by its safety comment because the elements are still initialized, leaves the
elements poisoned: the next read is reported by ASan. -/
theorem set_len_poisons :
    (run .init [.make, .make, .cpp [0, 1] 2]).bind (fun s => (s.vec 0).bind fun v => asSlice s.mem v) = some [0, 1] ∧
    (run .init [.make, .make, .cpp [0, 1] 2]).bind (fun s => (s.vec 0).bind fun v => (setLen s.mem v 0).bind fun (m, v) =>
      (setLen m v 2).bind fun (m, v) => (v.len).bind fun n => if n = 2 then some (asSlice m v) else none) = some none := by
  refine ⟨?_, ?_⟩ <;> decide +kernel

/-- A program that uses everything: its final state has no owner left. -/
def example_ops : List Op :=
  [.make, .make, .make, .make, .cpp [0, 1] 3, .new, .mutate 1 (pushPs 0 0 2 4) false, .append 0 1 8, .splitOff 0 1, .clone 0,
   .intoIter 2, .next 2, .nextBack 2, .next 2, .dropIter 2, .prepare 0, .writeTail 0 [3], .mutate 0 [.look 0] true, .intoVec 0, .fromVec 0 5,
   .mutate 0 (truncatePs 2 1) false, .drop 0, .drop 1, .intoVec 3, .dropVec 3, .dropElem 1, .mkVec [2], .dropVec 4]

theorem example_runs : (specRun .init example_ops).map (fun a => (a.objs.length, a.w.hand, a.leaked, a.w.log)) =
    some (0, [], [], [.dropped 2, .dropped 1, .dropped 4, .dropped 0, .dropped 3, .made 4, .made 3, .made 2, .made 1, .made 0]) := by
  decide +kernel

/-- The hypotheses of the theorems hold for it. -/
example : ∃ a s, specRun .init example_ops = some a ∧ run .init example_ops = some s ∧ (∀ b, s.mem.heap b = none) := by
  have h := example_runs
  cases ha : specRun .init example_ops with
  | none => rw [ha] at h; simp at h
  | some a =>
    rw [ha] at h
    simp only [Option.map_some, Option.some.injEq, Prod.mk.injEq, List.length_eq_zero_iff] at h
    obtain ⟨s, hs, -, -, -, hf⟩ := memory_freed _ _ ha
    exact ⟨a, s, rfl, hs, hf h.1⟩

/-- Those of `panic_harmless` too: `v.extend(iter)` where `iter` panics after one element, with room for two. -/
example : (specRun .init (one ++ [.make, .cpp [1] 3])).bind (fun a => (specPrims a.w [1] 3 [.write 2]).map fun r => (a.vec 1, r.2)) =
    some (some ([1], 3), [1, 2], 3) := by
  decide +kernel

end Verif.Vector

import Verif.StrOwn.All

/-!
# Example run

A wrapper is made, cloned, sent over the bridge, moved into a C++ place and back; everything is dropped.
-/

namespace Verif.StrOwn

deriving instance DecidableEq for Obs

def prog : List Op :=
  [.fromBytes 0 [104, 105], .clone 0 1, .eq 0 1, .encode 1 5, .decode 5 2, .toCpp 0 7, .readNew 7, .read 0, .toRust 7 3,
   .eq 2 3, .newMove 8 7, .newDefault 9, .newCopy 10 9, .eqNew 9 10, .newBytes 11 [1, 2, 3], .writeNew 11 1 9, .readNew 11,
   .destroy 11, .destroy 10, .drop 0, .drop 2, .drop 3]

theorem prog_spec : (AState.init.run prog).map Prod.snd =
    some [.nothing, .nothing, .bool (some true), .nothing, .nothing, .nothing, .bytes (some [104, 105]), .bytes none,
      .nothing, .bool (some true), .nothing, .nothing, .nothing, .bool (some true), .nothing, .nothing,
      .bytes (some [1, 9, 3]), .nothing, .nothing, .nothing, .nothing, .nothing] := by decide +kernel

/-- A library that leaves `x` behind. -/
theorem prog_code : (State.init.run (fun _ => [120]) prog).map (fun r => (r.2, r.1.deleted, r.1.next)) =
    some ([.nothing, .nothing, .bool (some true), .nothing, .nothing, .nothing, .bytes (some [104, 105]), .bytes (some [120]),
      .nothing, .bool (some true), .nothing, .nothing, .nothing, .bool (some true), .nothing, .nothing,
      .bytes (some [1, 9, 3]), .nothing, .nothing, .nothing, .nothing, .nothing], [1, 2, 3], 4) := by decide +kernel

/-- The hypotheses of `strings_freed` are met by this run. -/
theorem prog_freed : ∃ a os, AState.init.run prog = some (a, os) ∧ (∀ v, a.vars v = none) ∧ (∀ t, a.wire t = none) := by
  refine ⟨_, _, rfl, ?_, ?_⟩
  · intro v
    simp [upd, AState.init]
    intro h3 h2 h0
    by_cases h1 : v = 1 <;> simp [h1, h3, h2, h0]
  · intro t
    simp [upd, AState.init]

end Verif.StrOwn

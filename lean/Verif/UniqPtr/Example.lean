import Verif.UniqPtr.All

/-!
# Example run

An object of a derived, over-aligned class behind a `virtual_unique_ptr` of its base, a plain one that is written, moved
in C++ and in Rust, released and wrapped again.
-/

namespace Verif.UniqPtr

def base : Ty := ⟨0, 8, 8⟩
def derived : Ty := ⟨1, 64, 64⟩

def derivesEx (s t : Ty) : Bool := s = t || (s = derived && t = base)

def prog : List Op :=
  [.cppNew 0 derived 5, .wrap .virt base 0 1, .cppNew 2 base 6, .wrap .plain base 2 3, .write 3 9, .read 3, .cppMove 3 4,
   .isNull 3, .move 4 5, .read 5, .release 5 6, .read 5, .wrap .plain base 6 7, .read 1, .drop 1, .drop 3, .drop 5, .drop 7]

def obs : List Obs :=
  [.nothing, .nothing, .nothing, .nothing, .bool true, .content (some 9), .nothing, .bool true, .nothing, .content (some 9),
   .nothing, .content none, .nothing, .content (some 5), .nothing, .nothing, .nothing, .nothing]

/-- The code, with sized deallocation. -/
theorem prog_code : (State.init.run ⟨16, true⟩ derivesEx prog).map (fun r => (r.2, r.1.created, r.1.destroyed, r.1.freed)) =
    some (obs, [(1, derived), (2, base)], [(1, derived), (2, base)], [(1, ⟨some 64, some 64⟩), (2, ⟨some 8, none⟩)]) := by
  rfl

/-- The program keeps the contract: the hypotheses of the theorems are met. -/
theorem prog_spec : ∃ a, AState.Run (fun s t => derivesEx s t = true) AState.init prog a obs ∧
    (∀ v, a.vars v = none) ∧ (∀ r, a.raws r = none) := by
  refine ⟨_, .cons (.cppNew rfl) (.cons (.wrap (x := some ⟨derived, 5⟩) rfl rfl (show derivesEx derived base = true by decide)) (.cons (.cppNew rfl)
    (.cons (.wrap (x := some ⟨base, 6⟩) rfl rfl rfl)
    (.cons (.write (x := ⟨.plain, base, some ⟨base, 6⟩⟩) rfl) (.cons (.read (x := ⟨.plain, base, some ⟨base, 9⟩⟩) rfl)
    (.cons (.cppMove (x := ⟨.plain, base, some ⟨base, 9⟩⟩) rfl rfl)
    (.cons (.isNull (x := ⟨.plain, base, none⟩) rfl) (.cons (.move (x := ⟨.plain, base, some ⟨base, 9⟩⟩) rfl rfl)
    (.cons (.read (x := ⟨.plain, base, some ⟨base, 9⟩⟩) rfl) (.cons (.release (x := ⟨.plain, base, some ⟨base, 9⟩⟩) rfl rfl)
    (.cons (.read (x := ⟨.plain, base, none⟩) rfl) (.cons (.wrap (x := some ⟨base, 9⟩) rfl rfl rfl)
    (.cons (.read (x := ⟨.virt, base, some ⟨derived, 5⟩⟩) rfl) (.cons (.drop (x := ⟨.virt, base, some ⟨derived, 5⟩⟩) rfl)
    (.cons (.drop (x := ⟨.plain, base, none⟩) rfl) (.cons (.drop (x := ⟨.plain, base, none⟩) rfl)
    (.cons (.drop (x := ⟨.plain, base, some ⟨base, 9⟩⟩) rfl) .nil))))))))))))))))), ?_, ?_⟩
  · intro v
    simp only [set, AState.init]
    by_cases h1 : v = 1 <;> by_cases h3 : v = 3 <;> by_cases h4 : v = 4 <;> by_cases h5 : v = 5 <;> by_cases h7 : v = 7 <;>
      simp_all
  · intro r
    simp only [set, AState.init]
    by_cases h0 : r = 0 <;> by_cases h2 : r = 2 <;> by_cases h6 : r = 6 <;> simp_all

end Verif.UniqPtr

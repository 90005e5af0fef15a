import Verif.Future.Rc

/-!
# Rust futures polled from C++: concrete schedules
-/

namespace Verif.Future

/-- An `async fn` whose future (7) is pending once — it hands a clone of the waker (object 50) to another
thread, which wakes it — is moved, passed on in registers, and ready the second time. -/
def story : List Act :=
  [.create 0 7, .begin 0 50 900, .ctxClone 0 50 0, .finish 0 none, .moveTo 1 0, .begin 0 50 901,
   .finish 0 none, .wake 0, .relocate 2 1, .begin 2 50 902, .ctxWake 2, .finish 2 (some (some 42)),
   .destroy 2, .destroy 0]

example : (St.init.run story).map St.log = some
    [.polled 7, .call .erased (.clone 50 50), .returned false, .idle, .returned false,
     .call .erased (.wakeAndDestroy 50), .polled 7, .call .erased (.wakeByRef 50), .wrote 902 42,
     .returned true, .dropped 7] := by decide +kernel

/-- Afterwards the two boxes (the future's, and that of the moved-from variable) are gone. -/
example : (St.init.run story).map (fun s => (s.next, s.heap 0, s.heap 1)) = some (2, none, none) := by
  decide +kernel

/-- A `DynFuture`: dropped as soon as it is ready; polling it again panics; its wakers use the other
table. -/
example : (St.init.run
    [.dynNew 3 8, .dynAsk 3, .begin 3 60 0, .ctxClone 3 61 5, .finish 3 (some none), .dynAsk 3,
     .begin 3 60 0, .clone 5 62 6, .drop 5, .wakeByRef 6, .dynInto 3, .dynNew 4 9, .dynInto 4,
     .drop 6]).map St.log = some
    [.answer false, .polled 8, .call .dyn (.clone 60 61), .dropped 8, .returned true, .answer true,
     .panicked, .call .dyn (.clone 61 62), .call .dyn (.destroy 61), .call .dyn (.wakeByRef 62),
     .handed none, .handed (some 9), .call .dyn (.destroy 62)] := by decide +kernel

/-- Polling a finished future is refused. -/
example : (St.init.run [.create 0 7, .begin 0 50 9, .finish 0 (some none), .begin 0 50 9]).isNone := by
  decide +kernel

/-- The accounts of the first schedule. -/
example : made 7 story = 1 ∧ (St.init.run story).map (fun s => ended 7 s.log) = some 1 ∧
    (St.init.run story).map (fun s => (given .erased 50 s.log, givenBack .erased 50 s.log)) =
      some (1, 1) := by decide +kernel

/-- C++ makes object 50, lends it to a poll during which it is cloned, and gives it up: the object lives
on in the Rust waker (count 1), and dies when that is dropped. -/
example : ∃ w, W.Run W.init
      [.act (.create 0 7), .own .erased 50, .act (.begin 0 50 900), .act (.ctxClone 0 50 0),
       .act (.finish 0 none), .disown .erased 50, .act (.drop 0)] (.ok w) ∧
    w.rc .erased 50 = 0 := by
  refine ⟨_, .cons (.act (es := []) rfl rfl rfl (by simp) rfl) (.cons (.own rfl)
    (.cons (.act (es := [.polled 7]) rfl rfl rfl (by simp [selfClone]) rfl)
    (.cons (.act (es := [.call .erased (.clone 50 50)]) rfl rfl rfl (by simp [selfClone]) rfl)
    (.cons (.act (es := [.returned false]) rfl rfl rfl (by simp [selfClone]) rfl)
    (.cons (.disown rfl ?_)
    (.cons (.act (es := [.call .erased (.destroy 50)]) rfl rfl rfl (by simp [selfClone]) rfl)
    (.nil _))))))), ?_⟩
  · rintro ⟨x, out, h⟩
    by_cases e : x = 0
    · subst e; simp [upd, St.emit] at h
    · simp [upd, St.emit, e, create, St.alloc, St.init, W.init] at h
  · rfl

end Verif.Future

import Verif.CallOrder.Model

/-!
# The stack of functions being visited
-/

namespace Verif.CallOrder

variable {L E : Type}

/-- The functions of a stack. -/
def funcs (v : List Entry) : List Nat := v.map (·.func)

/-- `c` is in the stack, and all entries from the newest to it are marked. -/
def MarkedDown (c : Nat) : List Entry → Prop
  | [] => False
  | e :: v => e.inCycle = true ∧ (e.func = c ∨ MarkedDown c v)

/-- The same functions, with more marks. -/
inductive More : List Entry → List Entry → Prop where
  | nil : More [] []
  | cons {e e' v v'} : e.func = e'.func → (e.inCycle = true → e'.inCycle = true) → More v v' → More (e :: v) (e' :: v')

theorem More.refl : ∀ v, More v v
  | [] => .nil
  | _ :: v => .cons rfl id (More.refl v)

theorem More.trans {u v w : List Entry} (h : More u v) (h' : More v w) : More u w := by
  induction h generalizing w with
  | nil => exact h'
  | cons hf hc _ ih => cases h' with | cons hf' hc' ht => exact .cons (hf.trans hf') (hc' ∘ hc) (ih ht)

theorem More.funcs {v v' : List Entry} (h : More v v') : funcs v' = funcs v := by
  induction h with
  | nil => rfl
  | cons hf _ _ ih => simp only [CallOrder.funcs, List.map_cons] at *; rw [ih, hf]

theorem More.length {v v' : List Entry} (h : More v v') : v'.length = v.length := by
  have := congrArg List.length h.funcs
  simpa [CallOrder.funcs] using this

theorem More.marked {c : Nat} {v v' : List Entry} (h : More v v') (hm : MarkedDown c v) : MarkedDown c v' := by
  induction h with
  | nil => exact hm
  | cons hf hc _ ih =>
      simp only [MarkedDown] at hm ⊢
      exact ⟨hc hm.1, hm.2.imp (fun h => by rw [← hf]; exact h) ih⟩

theorem More.all {v v' : List Entry} (h : More v v') (ha : ∀ e ∈ v, e.inCycle = true) : ∀ e ∈ v', e.inCycle = true := by
  induction h with
  | nil => simp
  | cons hf hc _ ih =>
      intro e he
      simp only [List.mem_cons] at he
      rcases he with rfl | he
      · exact hc (ha _ (by simp))
      · exact ih (fun e h => ha e (List.mem_cons_of_mem _ h)) e he

/-- The stack after a split. -/
theorem More.append {u v w : List Entry} (h : More (u ++ v) w) : ∃ u' v', w = u' ++ v' ∧ More u u' ∧ More v v' := by
  induction u generalizing w with
  | nil => exact ⟨[], w, rfl, .nil, h⟩
  | cons e u ih =>
      cases h with
      | cons hf hc ht =>
          obtain ⟨u', v', rfl, h1, h2⟩ := ih ht
          exact ⟨_ :: u', v', rfl, .cons hf hc h1, h2⟩

theorem marked_append {c : Nat} {u v : List Entry} (h : MarkedDown c (u ++ v)) : c ∈ funcs u ∨ MarkedDown c v := by
  induction u with
  | nil => exact .inr h
  | cons e u ih =>
      simp only [List.cons_append, MarkedDown] at h
      rcases h.2 with h | h
      · exact .inl (by simp [funcs, h])
      · rcases ih h with h | h
        · exact .inl (by simp only [funcs, List.map_cons, List.mem_cons] at h ⊢; exact .inr h)
        · exact .inr h

theorem marked_mem {c : Nat} {v : List Entry} (h : MarkedDown c v) : c ∈ funcs v := by
  rcases marked_append (u := v) (v := []) (by simpa using h) with h | h
  · exact h
  · simp [MarkedDown] at h

theorem mark_none {f : Nat} {v : List Entry} (h : mark f v = none) : f ∉ funcs v := by
  induction v with
  | nil => simp [funcs]
  | cons e v ih =>
      simp only [mark] at h
      split at h
      · simp at h
      · rename_i hne
        simp only [Option.map_eq_none_iff] at h
        simp only [funcs, List.map_cons, List.mem_cons, not_or]
        exact ⟨fun h => hne h.symm, ih h⟩

theorem mark_some {f : Nat} {v v' : List Entry} (h : mark f v = some v') : More v v' ∧ MarkedDown f v' := by
  induction v generalizing v' with
  | nil => simp [mark] at h
  | cons e v ih =>
      simp only [mark] at h
      split at h
      · rename_i he
        simp only [Option.some.injEq] at h
        subst h
        exact ⟨.cons rfl (fun _ => rfl) (More.refl v), rfl, .inl he⟩
      · simp only [Option.map_eq_some_iff] at h
        obtain ⟨w, hw, rfl⟩ := h
        obtain ⟨h1, h2⟩ := ih hw
        exact ⟨.cons rfl (fun _ => rfl) h1, rfl, .inr h2⟩

/-- Later results. -/
def Ext (a b : Results L E) : Prop := ∀ f r, a f = some r → b f = some r

theorem Ext.refl (a : Results L E) : Ext a a := fun _ _ h => h
theorem Ext.trans {a b c : Results L E} (h : Ext a b) (h' : Ext b c) : Ext a c := fun f r hf => h' f r (h f r hf)

/-- There is nothing to wait for. -/
def Done (p : Prog L E) (a : Results L E) (c : Nat) : Prop := p.builtin c = true ∨ (a c).isSome = true

theorem Done.ext {p : Prog L E} {a b : Results L E} {c : Nat} (h : Done p a c) (he : Ext a b) : Done p b c := by
  rcases h with h | h
  · exact .inl h
  · obtain ⟨r, hr⟩ := Option.isSome_iff_exists.1 h
    exact .inr (by rw [he c r hr]; rfl)

end Verif.CallOrder

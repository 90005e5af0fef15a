import Verif.ModName.Modules

/-!
# Pass 1: the names of the items
-/

namespace Verif.ModName

/-- The sequence of uses of one name. -/
def runs (decl : Nat → Item) : Option Resolved → List Item → Option (Option Resolved)
  | o, [] => some o
  | o, i :: is => match resolved i with
      | none => runs decl o is
      | some r => match combine decl o r with
          | none => none
          | some v => runs decl (some v) is

theorem resolved_isSome (i : Item) : (resolved i).isSome = i.named := by
  unfold resolved Item.named
  cases i.tag <;> simp
  cases i.ident <;> simp

/-- Names are independent. -/
theorem pass1_runs (decl : Nat → Item) : ∀ (items : List Item) (m : Names),
    ((∃ m', pass1 decl m items = some m') ↔
      ∀ n, ∃ o, runs decl (AMap.get? m n) (items.filter fun i => i.name == n) = some o) ∧
    ∀ m', pass1 decl m items = some m' →
      ∀ n, runs decl (AMap.get? m n) (items.filter fun i => i.name == n) = some (AMap.get? m' n)
  | [], m => by simp [pass1, runs]
  | i :: is, m => by
      simp only [pass1]
      cases hr : resolved i with
      | none =>
          obtain ⟨h1, h2⟩ := pass1_runs decl is m
          have key : ∀ o n, runs decl o ((i :: is).filter fun i => i.name == n) =
              runs decl o (is.filter fun i => i.name == n) := by
            intro o n
            simp only [List.filter_cons]
            split
            · simp [runs, hr]
            · rfl
          simp only [key]
          exact ⟨h1, h2⟩
      | some r =>
          have other : ∀ o n, i.name ≠ n → runs decl o ((i :: is).filter fun i => i.name == n) =
              runs decl o (is.filter fun i => i.name == n) := by
            intro o n hn
            simp [List.filter_cons, hn]
          have same : ∀ o, runs decl o ((i :: is).filter fun j => j.name == i.name) =
              match combine decl o r with
              | none => none
              | some v => runs decl (some v) (is.filter fun j => j.name == i.name) := by
            intro o
            simp [runs, hr]
          cases hc : combine decl (AMap.get? m i.name) r with
          | none =>
              simp only [insertName, hc, Option.map_none, reduceCtorEq, exists_false, false_iff]
              refine ⟨fun h => ?_, by simp⟩
              obtain ⟨o, ho⟩ := h i.name
              rw [same, hc] at ho
              simp at ho
          | some v =>
              simp only [insertName, hc, Option.map_some]
              obtain ⟨h1, h2⟩ := pass1_runs decl is (AMap.insert m i.name v)
              have step : ∀ n, runs decl (AMap.get? m n) ((i :: is).filter fun i => i.name == n) =
                  runs decl (AMap.get? (AMap.insert m i.name v) n) (is.filter fun i => i.name == n) := by
                intro n
                by_cases hn : i.name = n
                · subst hn
                  rw [same, hc, AMap.get?_insert_self]
                · rw [other _ _ hn, AMap.get?_insert_ne _ _ hn]
              simp only [step]
              exact ⟨h1, h2⟩

/-- What a resolved name says, without the item. -/
inductive State where
  | value
  | ns (c : Nat)
  | types (u : Use)
  deriving DecidableEq

/-- The state of a name after some uses. -/
def Use.state : Use → State
  | .namespace c => .ns c
  | .value => .value
  | u => .types u

def State.next : State → Use → Option State
  | .value, .value => some .value
  | .value, .namespace _ => none
  | .value, u => some (.types u)
  | .ns c, .namespace d => if c = d then some (.ns c) else none
  | .ns _, _ => none
  | .types t, .value => some (.types t)
  | .types _, .namespace _ => none
  | .types .existing, .existing => some (.types .existing)
  | .types .declared, .defined => some (.types .defined)
  | .types .defined, .declared => some (.types .defined)
  | .types _, _ => none

def State.run : State → List Use → Bool
  | _, [] => true
  | s, u :: l => match s.next u with
      | none => false
      | some s' => State.run s' l

/-- The state that a resolved name stands for. -/
def Stands (decl : Nat → Item) (n : Name) (r : Resolved) (s : State) : Prop := match r, s with
  | .namespace c, .ns d => c = d
  | .valueItem _, .value => True
  | .explicitItem id, .types u => (decl id).use = u ∧ (decl id).name = n ∧ (∃ j, resolved (decl id) = some (.explicitItem j))
  | _, _ => False

theorem resolved_stands (decl : Nat → Item) (i : Item) (hd : decl i.id = i) (r : Resolved) (h : resolved i = some r) :
    Stands decl i.name r i.use.state := by
  have hd' : resolved (decl i.id) = some r := by rw [hd]; exact h
  unfold resolved at h
  cases ht : i.tag <;> rw [ht] at h <;> simp at h <;> (try subst h) <;>
    simp_all [Stands, Use.state, Item.use]
  obtain ⟨-, rfl⟩ := h
  simp

theorem combine_next (decl : Nat → Item) (n : Name) (old : Resolved) (s : State) (hs : Stands decl n old s) (i : Item)
    (hd : decl i.id = i) (hn : i.name = n) (r : Resolved) (h : resolved i = some r) :
    match combine decl (some old) r, s.next i.use with
    | none, none => True
    | some v, some t => Stands decl n v t
    | _, _ => False := by
  have hr := resolved_stands decl i hd r h
  rw [hn] at hr
  cases old with
  | recordNestedItems _ => cases s <;> simp [Stands] at hs
  | «namespace» c =>
      cases s with
      | ns d =>
          simp only [Stands] at hs
          subst hs
          cases r with
          | recordNestedItems _ => cases hu : i.use <;> simp [Stands, hu, Use.state] at hr
          | «namespace» d =>
              cases hu : i.use <;> simp [Stands, hu, Use.state] at hr
              subst hr
              by_cases hcd : c = d
              · subst hcd; simp [combine, action, coalesce, State.next, Stands]
              · simp [combine, action, coalesce, State.next, hcd]
          | valueItem d => cases hu : i.use <;> simp [Stands, hu, Use.state] at hr <;> simp [combine, action, coalesce, State.next]
          | explicitItem d => cases hu : i.use <;> simp [Stands, hu, Use.state] at hr <;> simp [combine, action, coalesce, State.next]
      | value => simp [Stands] at hs
      | types _ => simp [Stands] at hs
  | valueItem c =>
      cases s with
      | value =>
          cases r with
          | recordNestedItems _ => cases hu : i.use <;> simp [Stands, hu, Use.state] at hr
          | «namespace» d => cases hu : i.use <;> simp [Stands, hu, Use.state] at hr <;> simp [combine, action, coalesce, State.next]
          | valueItem d => cases hu : i.use <;> simp [Stands, hu, Use.state] at hr <;> simp [combine, action, coalesce, State.next, Stands]
          | explicitItem d =>
              cases hu : i.use <;> simp [Stands, hu, Use.state] at hr <;>
                simp only [combine, action, coalesce, State.next] <;> simpa [Stands] using hr
      | ns _ => simp [Stands] at hs
      | types _ => simp [Stands] at hs
  | explicitItem c =>
      cases s with
      | types u =>
          cases r with
          | recordNestedItems _ => cases hu : i.use <;> simp [Stands, hu, Use.state] at hr
          | «namespace» d => cases hu : i.use <;> simp [Stands, hu, Use.state] at hr <;> cases u <;> simp [combine, action, coalesce, State.next]
          | valueItem d =>
              cases hu : i.use <;> simp [Stands, hu, Use.state] at hr
              simp only [combine, action, coalesce]
              cases u <;> simpa [State.next] using hs
          | explicitItem d =>
              have hid : d = i.id := by
                unfold resolved at h
                cases ht : i.tag <;> rw [ht] at h <;> simp at h <;> first | exact h.symm | skip
              subst hid
              obtain ⟨hs1, hs2, j, hs3⟩ := hs
              simp only [combine, action, hd]
              unfold resolved at hs3
              unfold resolved at h
              subst hs1
              cases ht : i.tag <;> rw [ht] at h <;> simp at h <;>
              cases ht' : (decl c).tag <;> rw [ht'] at hs3 <;> simp at hs3 <;>
              simp [Item.use, ht, ht', State.next, coalesce, Stands, hd, hn, hs2, resolved, hs3]
      | ns _ => simp [Stands] at hs
      | value => simp [Stands] at hs

theorem runs_run (decl : Nat → Item) (n : Name) : ∀ (items : List Item) (old : Resolved) (s : State),
    Stands decl n old s → (∀ i ∈ items, decl i.id = i ∧ i.name = n) →
    ((∃ o, runs decl (some old) items = some o) ↔ s.run ((items.filter Item.named).map Item.use) = true)
  | [], old, s, _, _ => by simp [runs, State.run]
  | i :: is, old, s, hs, hd => by
      have hi := hd i (by simp)
      have hd' := fun j h => hd j (List.mem_cons_of_mem _ h)
      simp only [runs]
      cases hr : resolved i with
      | none =>
          have hnm : i.named = false := by rw [← resolved_isSome, hr]; rfl
          simp only [List.filter_cons, hnm]
          exact runs_run decl n is old s hs hd'
      | some r =>
          have hnm : i.named = true := by rw [← resolved_isSome, hr]; rfl
          simp only [List.filter_cons, hnm, if_true, List.map_cons, State.run]
          have := combine_next decl n old s hs i hi.1 hi.2 r hr
          cases hc : combine decl (some old) r with
          | none =>
              cases hx : s.next i.use with
              | none => simp
              | some t => rw [hc, hx] at this; simp at this
          | some v =>
              cases hx : s.next i.use with
              | none => rw [hc, hx] at this; simp at this
              | some t =>
                  rw [hc, hx] at this
                  exact runs_run decl n is v t this hd'

theorem runs_start (decl : Nat → Item) (n : Name) : ∀ (items : List Item), (∀ i ∈ items, decl i.id = i ∧ i.name = n) →
    ((∃ o, runs decl none items = some o) ↔ match (items.filter Item.named).map Item.use with
      | [] => True
      | u :: l => u.state.run l = true)
  | [], _ => by simp [runs]
  | i :: is, hd => by
      have hi := hd i (by simp)
      have hd' := fun j h => hd j (List.mem_cons_of_mem _ h)
      simp only [runs]
      cases hr : resolved i with
      | none =>
          have hnm : i.named = false := by rw [← resolved_isSome, hr]; rfl
          simp only [List.filter_cons, hnm]
          exact runs_start decl n is hd'
      | some r =>
          have hnm : i.named = true := by rw [← resolved_isSome, hr]; rfl
          simp only [List.filter_cons, hnm, if_true, List.map_cons, combine]
          have hst := resolved_stands decl i hi.1 r hr
          rw [hi.2] at hst
          exact runs_run decl n is r _ hst hd'

end Verif.ModName

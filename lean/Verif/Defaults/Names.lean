import Verif.Common.AMap
/-
C52: lifetime names handed out while default lifetimes are added.
Model of `BindingContext`, rs_bindings_from_cc/generate_bindings/lifetime_defaults_transform.rs lines 19-31 and 194-268.
Names are lists of characters (`Rc<str>` in the code); hash maps are association lists.
-/
namespace Verif.Defaults

abbrev Name := List Char

/-- Decimal digits of `n`, least significant first; `fuel` is large enough at `n + 1`. -/
def decRev : Nat → Nat → List Char
  | 0, _ => []
  | fuel + 1, n => Char.ofNat (48 + n % 10) :: if n / 10 = 0 then [] else decRev fuel (n / 10)

/-- `format!("{}", n)`. -/
def dec (n : Nat) : List Char := (decRev (n + 1) n).reverse

/-- `format!("{}_{}", id, ix)`, line 237. -/
def numbered (id : Name) (ix : Nat) : Name := id ++ '_' :: dec ix

/-- `BindingContext`, lines 26-31 (`VariableBinding` is its list of renamings). -/
structure Ctx where
  bindings : List (Name × List Name)
  names : List Name

/-- The loop of `fresh_name_for`, lines 235-242; `none` if `fuel` iterations do not suffice. -/
def freshLoop (names : List Name) (id : Name) : Nat → Nat → Option Name
  | 0, _ => none
  | fuel + 1, ix => if numbered id ix ∈ names then freshLoop names id fuel (ix + 1) else some (numbered id ix)

/-- Value of a list of digits, least significant first. -/
def valRev : List Char → Nat
  | [] => 0
  | c :: cs => (c.toNat - 48) + 10 * valRev cs

theorem digit_val (d : Nat) (h : d < 10) : (Char.ofNat (48 + d)).toNat - 48 = d := by
  have : d = 0 ∨ d = 1 ∨ d = 2 ∨ d = 3 ∨ d = 4 ∨ d = 5 ∨ d = 6 ∨ d = 7 ∨ d = 8 ∨ d = 9 := by omega
  rcases this with rfl | rfl | rfl | rfl | rfl | rfl | rfl | rfl | rfl | rfl <;> rfl

theorem valRev_decRev : ∀ fuel n, n < fuel → valRev (decRev fuel n) = n := by
  intro fuel
  induction fuel with
  | zero => intro n h; omega
  | succ fuel ih =>
    intro n h
    unfold decRev valRev
    rw [digit_val _ (Nat.mod_lt _ (by omega))]
    by_cases e : n / 10 = 0
    · rw [if_pos e]; simp only [valRev]; omega
    · rw [if_neg e, ih _ (by omega)]; omega

theorem dec_inj {a b : Nat} (h : dec a = dec b) : a = b := by
  unfold dec at h
  have h := List.reverse_inj.mp h
  have := congrArg valRev h
  rwa [valRev_decRev _ _ (by omega), valRev_decRev _ _ (by omega)] at this

theorem numbered_inj {id : Name} {a b : Nat} (h : numbered id a = numbered id b) : a = b := by
  unfold numbered at h
  have := List.append_cancel_left h
  simp only [List.cons.injEq, true_and] at this
  exact dec_inj this

theorem freshLoop_none (names : List Name) (id : Name) : ∀ fuel ix, freshLoop names id fuel ix = none →
    ∀ k, k < fuel → numbered id (ix + k) ∈ names := by
  intro fuel
  induction fuel with
  | zero => intro ix _ k hk; omega
  | succ fuel ih =>
    intro ix h k hk
    unfold freshLoop at h
    by_cases e : numbered id ix ∈ names
    · rw [if_pos e] at h
      cases k with
      | zero => exact e
      | succ k =>
        have := ih (ix + 1) h k (by omega)
        rwa [show ix + (k + 1) = ix + 1 + k by omega]
    · rw [if_neg e] at h; cases h

theorem freshLoop_some (names : List Name) (id : Name) : ∀ fuel ix n, freshLoop names id fuel ix = some n →
    ∃ k, n = numbered id (ix + k) ∧ n ∉ names ∧ ∀ j < k, numbered id (ix + j) ∈ names := by
  intro fuel
  induction fuel with
  | zero => intro ix n h; cases h
  | succ fuel ih =>
    intro ix n h
    unfold freshLoop at h
    by_cases e : numbered id ix ∈ names
    · rw [if_pos e] at h
      obtain ⟨k, h1, h2, h3⟩ := ih _ _ h
      refine ⟨k + 1, by rw [h1]; congr 1; omega, h2, ?_⟩
      intro j hj
      cases j with
      | zero => exact e
      | succ j => have := h3 j (by omega); rwa [show ix + (j + 1) = ix + 1 + j by omega]
    · rw [if_neg e, Option.some.injEq] at h
      subst h
      exact ⟨0, rfl, e, fun j hj => by omega⟩

/-- The loop ends after at most one iteration more than there are names. -/
theorem freshLoop_ends (names : List Name) (id : Name) : (freshLoop names id (names.length + 1) 0).isSome = true := by
  cases h : freshLoop names id (names.length + 1) 0 with
  | some _ => rfl
  | none =>
    exfalso
    have := freshLoop_none names id _ _ h
    have hnd : ((List.range (names.length + 1)).map (numbered id)).Nodup :=
      (List.nodup_range (n := names.length + 1)).map (numbered id) fun a b hab e => hab (numbered_inj e)
    have hsub : ((List.range (names.length + 1)).map (numbered id)) ⊆ names := by
      intro x hx
      obtain ⟨k, hk, rfl⟩ := List.mem_map.mp hx
      have := this k (List.mem_range.mp hk)
      rwa [Nat.zero_add] at this
    have := hnd.length_le_of_subset hsub
    simp at this
    omega

/-- `fresh_name_for`, lines 231-243. -/
def Ctx.fresh (c : Ctx) (id : Name) : Name :=
  if id ∈ c.names then (freshLoop c.names id (c.names.length + 1) 0).get (freshLoop_ends _ _) else id

/-- `push_new_binding`, lines 200-208. -/
def Ctx.push (c : Ctx) (id : Name) : Name × Ctx :=
  let renamed := (AMap.get? c.bindings id).getD []
  let fresh := c.fresh id
  (fresh, ⟨AMap.insert (AMap.erase c.bindings id) id (renamed ++ [fresh]), fresh :: c.names⟩)

/-- `push_fresh_binding`, lines 211-217. -/
def Ctx.pushFresh (c : Ctx) (hint : Option Name) : Name × Ctx := c.push (c.fresh (hint.getD ['l', 't']))

/-- `get_or_push_new_binding`, lines 221-228; the flag says whether the callback was called. An empty list of renamings, on
which the code panics, gives the empty name; `runs_refine` shows that there is none. -/
def Ctx.getOrPush (c : Ctx) (id : Name) : Name × Bool × Ctx :=
  match AMap.get? c.bindings id with
  | some renamed => (renamed.getLast?.getD [], false, c)
  | none => let (n, c) := c.push id; (n, true, c)

/-- `pop_binding`, lines 246-252; `none` if it panics. -/
def Ctx.pop (c : Ctx) (id : Name) : Option Ctx := do
  let renamed ← AMap.get? c.bindings id
  let bindings := AMap.erase c.bindings id
  return ⟨if renamed.dropLast.isEmpty then bindings else AMap.insert bindings id renamed.dropLast, c.names⟩

def sStatic : Name := ['s', 't', 'a', 't', 'i', 'c']
def sUnknown : Name := ['u', 'n', 'k', 'n', 'o', 'w', 'n']

/-- `BindingContext::new`, lines 255-260. -/
def Ctx.new : Ctx := (((⟨[], []⟩ : Ctx).push sStatic).2.push sUnknown).2

/-! ### Specification -/

/-- The first name for `id` not among `used`: `id` itself, or `id_k` with the least `k`. -/
def FirstUnused (used : List Name) (id n : Name) : Prop :=
  n ∉ used ∧ (n = id ∨ (id ∈ used ∧ ∃ k, n = numbered id k ∧ ∀ j < k, numbered id j ∈ used))

/-- What a user does with the context. -/
inductive Op
  | bind (id : Name)
  | fresh (hint : Option Name)
  | use (id : Name)
  | pop (id : Name)

/-- The open bindings, newest first, as pairs of the name used in the source and the name handed out. -/
abbrev Scopes := List (Name × Name)

def removeNewest (id : Name) : Scopes → Scopes
  | [] => []
  | p :: s => if p.1 = id then s else p :: removeNewest id s

/-- What each operation must do to the open bindings, the used names and its result. -/
def Step (s : Scopes) (used : List Name) : Op → Option Name → Scopes → List Name → Prop
  | .bind id, r, s', used' => ∃ n, r = some n ∧ FirstUnused used id n ∧ s' = (id, n) :: s ∧ used' = n :: used
  | .fresh h, r, s', used' => ∃ n, r = some n ∧ FirstUnused used (h.getD ['l', 't']) n ∧ s' = (n, n) :: s ∧ used' = n :: used
  | .use id, r, s', used' =>
    match AMap.get? s id with
    | some n => r = some n ∧ s' = s ∧ used' = used
    | none => ∃ n, r = some n ∧ FirstUnused used id n ∧ s' = (id, n) :: s ∧ used' = n :: used
  | .pop id, r, s', used' => r = none ∧ s' = removeNewest id s ∧ used' = used

inductive Runs : Scopes → List Name → List Op → List (Option Name) → Scopes → List Name → Prop
  | nil {s used} : Runs s used [] [] s used
  | cons {s used op r s' used' ops rs s'' used''} : Step s used op r s' used' → Runs s' used' ops rs s'' used'' →
      Runs s used (op :: ops) (r :: rs) s'' used''

/-- One operation of the model; `none` if it panics. -/
def Ctx.step (c : Ctx) : Op → Option (Option Name × Ctx)
  | .bind id => let (n, c) := c.push id; some (some n, c)
  | .fresh h => let (n, c) := c.pushFresh h; some (some n, c)
  | .use id => let (n, _, c) := c.getOrPush id; some (some n, c)
  | .pop id => (c.pop id).map fun c => (none, c)

def Ctx.run (c : Ctx) : List Op → Option (List (Option Name) × Ctx)
  | [] => some ([], c)
  | op :: ops => do
    let (r, c) ← c.step op
    let (rs, c) ← c.run ops
    return (r :: rs, c)

/-! ### Proofs -/

theorem fresh_spec (c : Ctx) (id : Name) : FirstUnused c.names id (c.fresh id) := by
  unfold Ctx.fresh
  by_cases e : id ∈ c.names
  · rw [if_pos e]
    obtain ⟨n, hn⟩ := Option.isSome_iff_exists.mp (freshLoop_ends c.names id)
    have hg : (freshLoop c.names id (c.names.length + 1) 0).get (freshLoop_ends _ _) = n := by
      simp only [hn, Option.get_some]
    rw [hg]
    obtain ⟨k, h1, h2, h3⟩ := freshLoop_some _ _ _ _ _ hn
    rw [Nat.zero_add] at h1
    exact ⟨h2, Or.inr ⟨e, k, h1, fun j hj => by have := h3 j hj; rwa [Nat.zero_add] at this⟩⟩
  · rw [if_neg e]; exact ⟨e, Or.inl rfl⟩

theorem fresh_not_mem (c : Ctx) (id : Name) : c.fresh id ∉ c.names := (fresh_spec c id).1

theorem fresh_of_not_mem {c : Ctx} {id : Name} (h : id ∉ c.names) : c.fresh id = id := by
  unfold Ctx.fresh; rw [if_neg h]

/-- The open names for `id`, oldest first. -/
def openFor (s : Scopes) (id : Name) : List Name := ((s.filter (·.1 = id)).map Prod.snd).reverse

structure Sim (c : Ctx) (s : Scopes) (used : List Name) : Prop where
  names : c.names = used
  nodup : (AMap.keys c.bindings).Nodup
  get : ∀ id, AMap.get? c.bindings id = if openFor s id = [] then none else some (openFor s id)

theorem openFor_cons (p : Name × Name) (s : Scopes) (id : Name) : openFor (p :: s) id = if p.1 = id then openFor s id ++ [p.2] else openFor s id := by
  unfold openFor
  by_cases e : p.1 = id
  · simp [e]
  · simp [e]

theorem openFor_last (s : Scopes) (id : Name) : (openFor s id).getLast? = AMap.get? s id := by
  induction s with
  | nil => rfl
  | cons p s ih =>
    rw [openFor_cons]
    obtain ⟨a, b⟩ := p
    unfold AMap.get?
    by_cases e : a = id
    · simp [e]
    · simp [e, ih]

theorem openFor_remove (s : Scopes) (id x : Name) : openFor (removeNewest id s) x = if x = id then (openFor s x).dropLast else openFor s x := by
  induction s with
  | nil => simp [removeNewest, openFor]
  | cons p s ih =>
    unfold removeNewest
    by_cases e : p.1 = id
    · rw [if_pos e, openFor_cons]
      by_cases ex : x = id
      · simp [e, ex]
      · have : ¬ p.1 = x := fun h => ex (h ▸ e)
        simp [ex, this]
    · rw [if_neg e, openFor_cons, ih, openFor_cons]
      by_cases ex : x = id
      · have : ¬ p.1 = x := fun h => e (h ▸ ex)
        simp [ex, e]
      · simp [ex]

theorem push_sim {c : Ctx} {s : Scopes} {used : List Name} (h : Sim c s used) (id : Name) :
    Sim (c.push id).2 ((id, (c.push id).1) :: s) ((c.push id).1 :: used) := by
  refine ⟨by simp only [Ctx.push, h.names], ?_, fun x => ?_⟩
  · exact AMap.nodup_insert _ _ _ (AMap.nodup_erase _ _ h.nodup)
  · simp only [Ctx.push, AMap.get?_insert, openFor_cons]
    by_cases e : id = x
    · subst e
      simp only [if_true, h.get]
      by_cases eo : openFor s id = []
      · simp [eo]
      · simp [eo]
    · simp only [if_neg e, AMap.get?_erase_ne _ e, h.get]

theorem step_refines {c : Ctx} {s : Scopes} {used : List Name} (h : Sim c s used) (op : Op) :
    (∃ r c' s' used', c.step op = some (r, c') ∧ Step s used op r s' used' ∧ Sim c' s' used') ∨
    (∃ id, op = .pop id ∧ AMap.get? s id = none ∧ c.step op = none) := by
  have hf : ∀ id, FirstUnused used id (c.push id).1 := fun id => h.names ▸ fresh_spec c id
  cases op with
  | bind id => exact Or.inl ⟨_, _, _, _, rfl, ⟨_, rfl, hf id, rfl, rfl⟩, push_sim h id⟩
  | fresh hint =>
    have e : (c.pushFresh hint).1 = c.fresh (hint.getD ['l', 't']) := fresh_of_not_mem (fresh_not_mem _ _)
    have := push_sim h (c.fresh (hint.getD ['l', 't']))
    refine Or.inl ⟨_, _, _, _, rfl, ⟨(c.pushFresh hint).1, rfl, ?_, rfl, rfl⟩, ?_⟩
    · rw [e]; exact h.names ▸ fresh_spec c _
    · have h2 : Sim (c.pushFresh hint).2 ((c.fresh (hint.getD ['l', 't']), (c.pushFresh hint).1) :: s) ((c.pushFresh hint).1 :: used) := this
      rw [← e] at h2; exact h2
  | use id =>
    refine Or.inl ?_
    simp only [Ctx.step, Ctx.getOrPush, Step]
    rw [h.get, ← openFor_last]
    by_cases eo : openFor s id = []
    · simp only [eo, if_true, List.getLast?_nil]
      exact ⟨_, _, _, _, rfl, ⟨_, rfl, hf id, rfl, rfl⟩, push_sim h id⟩
    · simp only [if_neg eo]
      rw [List.getLast?_eq_some_getLast eo]
      exact ⟨_, _, s, used, rfl, ⟨rfl, rfl, rfl⟩, h⟩
  | pop id =>
    simp only [Ctx.step, Ctx.pop, Step]
    rw [h.get]
    by_cases eo : openFor s id = []
    · refine Or.inr ⟨id, rfl, by rw [← openFor_last, eo]; rfl, by simp [eo]⟩
    · refine Or.inl ?_
      simp only [if_neg eo, Option.bind_eq_bind, Option.bind_some, Option.pure_def, Option.map_some]
      refine ⟨_, _, removeNewest id s, used, rfl, ⟨rfl, rfl, rfl⟩, h.names, ?_, fun x => ?_⟩
      · simp only
        split
        · exact AMap.nodup_erase _ _ h.nodup
        · exact AMap.nodup_insert _ _ _ (AMap.nodup_erase _ _ h.nodup)
      · simp only [openFor_remove]
        by_cases ex : x = id
        · subst ex
          by_cases ed : (openFor s x).dropLast = []
          · simp [ed, AMap.get?_erase _ _ _ h.nodup]
          · have ed' : (openFor s x).dropLast.isEmpty = false := by
              cases hq : (openFor s x).dropLast with
              | nil => exact absurd hq ed
              | cons => rfl
            simp [ed, ed', AMap.get?_insert]
        · have ex' : id ≠ x := fun h => ex h.symm
          simp only [if_neg ex]
          split
          · rw [AMap.get?_erase_ne _ ex', h.get]
          · rw [AMap.get?_insert_ne _ _ ex', AMap.get?_erase_ne _ ex', h.get]

theorem run_refines {c : Ctx} {s : Scopes} {used : List Name} (h : Sim c s used) : ∀ (ops : List Op),
    (∃ rs c' s' used', c.run ops = some (rs, c') ∧ Runs s used ops rs s' used' ∧ Sim c' s' used') ∨
    (c.run ops = none ∧ ∃ pre id post rs s' used', ops = pre ++ .pop id :: post ∧ Runs s used pre rs s' used' ∧ AMap.get? s' id = none) := by
  intro ops
  induction ops generalizing c s used with
  | nil => exact Or.inl ⟨_, _, _, _, rfl, .nil, h⟩
  | cons op ops ih =>
    rcases step_refines h op with ⟨r, c', s', used', h1, h2, h3⟩ | ⟨id, h1, h2, h3⟩
    · rcases ih h3 with ⟨rs, c'', s'', used'', g1, g2, g3⟩ | ⟨g1, pre, id, post, rs, s'', used'', g2, g3, g4⟩
      · exact Or.inl ⟨r :: rs, c'', s'', used'', by simp [Ctx.run, h1, g1], .cons h2 g2, g3⟩
      · exact Or.inr ⟨by simp [Ctx.run, h1, g1], op :: pre, id, post, r :: rs, s'', used'', by rw [g2]; rfl, .cons h2 g3, g4⟩
    · exact Or.inr ⟨by simp [Ctx.run, h3], [], id, ops, [], s, used, by rw [h1]; rfl, .nil, h2⟩

theorem new_sim : Sim .new [(sUnknown, sUnknown), (sStatic, sStatic)] [sUnknown, sStatic] := by
  have h0 : Sim ⟨[], []⟩ [] [] := ⟨rfl, List.nodup_nil, fun id => by simp [openFor]⟩
  have h1 := push_sim h0 sStatic
  have h2 := push_sim h1 sUnknown
  exact h2

/-- C52: any history of binding names, asking for fresh names, using names and closing bindings behaves as a stack of open
bindings: a use gives the newest open binding (or makes one), a new binding gets the first name nobody had before, closing
removes the newest; the only failure is to close what is not open. `static` and `unknown` are open at the start. -/
theorem binding_context_scopes (ops : List Op) :
    (∃ rs c, Ctx.new.run ops = some (rs, c) ∧ ∃ s used, Runs [(sUnknown, sUnknown), (sStatic, sStatic)] [sUnknown, sStatic] ops rs s used) ∨
    (Ctx.new.run ops = none ∧ ∃ pre id post rs s used, ops = pre ++ .pop id :: post ∧
      Runs [(sUnknown, sUnknown), (sStatic, sStatic)] [sUnknown, sStatic] pre rs s used ∧ AMap.get? s id = none) := by
  rcases run_refines new_sim ops with ⟨rs, c, s, used, h1, h2, -⟩ | h
  · exact Or.inl ⟨rs, c, h1, s, used, h2⟩
  · exact Or.inr h

/-- C52: no name is handed out twice, not even after its binding was closed, and none is a name in use at the start. -/
theorem names_never_reused {s used ops rs s' used'} (h : Runs s used ops rs s' used') :
    ∃ created, used' = created ++ used ∧ (used.Nodup → used'.Nodup) := by
  induction h with
  | nil => exact ⟨[], rfl, id⟩
  | @cons s used op r s1 used1 ops rs s2 used2 hs _ ih =>
    obtain ⟨cr, h1, h2⟩ := ih
    have key : used1 = used ∨ ∃ n, n ∉ used ∧ used1 = n :: used := by
      cases op with
      | bind id => obtain ⟨n, -, h, -, e⟩ := hs; exact Or.inr ⟨n, h.1, e⟩
      | fresh id => obtain ⟨n, -, h, -, e⟩ := hs; exact Or.inr ⟨n, h.1, e⟩
      | use id =>
        simp only [Step] at hs
        split at hs
        · exact Or.inl hs.2.2
        · obtain ⟨n, -, h, -, e⟩ := hs; exact Or.inr ⟨n, h.1, e⟩
      | pop id => exact Or.inl hs.2.2
    rcases key with rfl | ⟨n, hn, rfl⟩
    · exact ⟨cr, h1, h2⟩
    · exact ⟨cr ++ [n], by rw [h1]; simp, fun hu => h2 (List.nodup_cons.mpr ⟨hn, hu⟩)⟩

/-- Binding `a` twice, closing once and using it gives the older name; binding once more gives a third name. -/
example : (Ctx.new.run [.bind ['a'], .bind ['a'], .pop ['a'], .use ['a'], .bind ['a'], .fresh none, .bind sStatic]).map (·.1) =
    some [some ['a'], some ['a', '_', '0'], none, some ['a'], some ['a', '_', '1'], some ['l', 't'], some (sStatic ++ ['_', '0'])] := by decide

end Verif.Defaults

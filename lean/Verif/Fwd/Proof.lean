import Verif.Fwd.Spec
import Mathlib.Tactic.Tauto

namespace Verif.Fwd

theorem unpin_iff (E : Env) (t : Ty) : t.unpin E = true ↔ Movable E t := by
  induction t with
  | inc s d => simp only [Ty.unpin]; constructor <;> intro h <;> cases h
  | complete c => exact ⟨fun h => .complete c h, fun h => by cases h; assumption⟩
  | ptr k t => exact ⟨fun _ => .ptr k t, fun _ => rfl⟩
  | arr n t ih => exact ⟨fun h => .arr n t (ih.mp h), fun h => by cases h with | arr _ _ h => exact ih.mpr h⟩
  | slice t ih => exact ⟨fun h => .slice t (ih.mp h), fun h => by cases h with | slice _ h => exact ih.mpr h⟩
  | other c => exact ⟨fun _ => .other c, fun _ => rfl⟩

theorem sized_iff (t : Ty) : t.sized = true ↔ ∀ w, t ≠ .slice w := by
  cases t <;> simp [Ty.sized]

theorem size_bytes (E : Env) (t : Ty) (n : Nat) (h : HasBytes E t n) : t.size E = n := by
  induction h with
  | inc => rfl
  | complete => rfl
  | fat => rfl
  | thin k t h => simp [Ty.size, (sized_iff t).mpr h]
  | arr n t b _ ih => simp [Ty.size, ih]
  | other => rfl

theorem formed_iff (E : Env) (t : Ty) : Formed E t ↔ ∃ n, cppName E t = some n := by
  constructor
  · intro h
    induction h with
    | decl t s h => cases h <;> exact ⟨_, rfl⟩
    | ptr k t h1 h2 ih =>
      obtain ⟨n, hn⟩ := ih
      cases k <;> simp [cppName, hn]
      exact (unpin_iff E t).mpr (h2 _ rfl)
    | arr n t h1 h2 ih => obtain ⟨m, hm⟩ := ih; simp [cppName, hm, (sized_iff t).mpr h2]
    | slice t h1 h2 ih => obtain ⟨m, hm⟩ := ih; simp [cppName, hm, (sized_iff t).mpr h2]
  · induction t with
    | inc s d => intro _; exact .decl _ s (.forward s d)
    | complete c => intro _; exact .decl _ _ (.define c)
    | ptr k t ih =>
      intro h
      have ht : ∃ n, cppName E t = some n := by
        obtain ⟨n, hn⟩ := h
        cases hc : cppName E t with
        | some m => exact ⟨m, rfl⟩
        | none => cases k <;> simp [cppName, hc] at hn
      refine .ptr k t (ih ht) ?_
      rintro a rfl
      obtain ⟨n, hn⟩ := h
      rw [← unpin_iff]
      cases hu : t.unpin E with
      | true => rfl
      | false => simp [cppName, hu] at hn
    | arr n t ih =>
      rintro ⟨m, hm⟩
      cases hs : t.sized with
      | false => simp [cppName, hs] at hm
      | true =>
        cases hc : cppName E t with
        | none => simp [cppName, hc] at hm
        | some k => exact .arr n t (ih ⟨k, hc⟩) ((sized_iff t).mp hs)
    | slice t ih =>
      rintro ⟨m, hm⟩
      cases hs : t.sized with
      | false => simp [cppName, hs] at hm
      | true =>
        cases hc : cppName E t with
        | none => simp [cppName, hc] at hm
        | some k => exact .slice t (ih ⟨k, hc⟩) ((sized_iff t).mp hs)
    | other c => rintro ⟨n, hn⟩; simp [cppName] at hn

theorem declares_name (E : Env) (t : Ty) (s : List Char) (h : Declares E t s) :
    cppName E t = some (.sym s) := by
  cases h <;> rfl

theorem declares_cases (E : Env) (t : Ty) (s : List Char) (h : Declares E t s) :
    (∃ d, t = .inc s d) ∨ ∃ c, t = .complete c := by
  cases h with
  | forward _ d => exact .inl ⟨d, rfl⟩
  | define c => exact .inr ⟨c, rfl⟩

theorem declares_sized (E : Env) (t : Ty) (s : List Char) (h : Declares E t s) :
    t.sized = true := by
  cases h <;> rfl

/-- The name of a pointer. -/
def Ptr.wrap : Ptr → Name → Name
  | .const => .const
  | .mut => .mut
  | .ref a | .pinRef a | .cref a => .ref a
  | .mutRef a | .pinMut a | .cmut a => .mutRef a

theorem wrap_eq (k l : Ptr) (n m : Name) :
    k.wrap n = l.wrap m ↔ k.access = l.access ∧ k.lifetime = l.lifetime ∧ n = m := by
  cases k <;> cases l <;> simp [Ptr.wrap, Ptr.access, Ptr.lifetime]

theorem name_ptr (E : Env) (k : Ptr) (t : Ty) (n : Name) (h : cppName E (.ptr k t) = some n) :
    ∃ m, cppName E t = some m ∧ n = k.wrap m := by
  cases hc : cppName E t with
  | none => cases k <;> simp [cppName, hc] at h
  | some m =>
    refine ⟨m, rfl, ?_⟩
    cases k <;> simp [cppName, hc] at h <;> simp [Ptr.wrap, h]

theorem name_arr (E : Env) (k : Nat) (t : Ty) (n : Name) (h : cppName E (.arr k t) = some n) :
    ∃ m, cppName E t = some m ∧ n = .arr k m := by
  cases hc : cppName E t with
  | none => simp [cppName, hc] at h
  | some m => refine ⟨m, rfl, ?_⟩; simp [cppName, hc] at h; exact h.2.symm

theorem name_slice (E : Env) (t : Ty) (n : Name) (h : cppName E (.slice t) = some n) :
    ∃ m, cppName E t = some m ∧ n = .arr usizeMax m := by
  cases hc : cppName E t with
  | none => simp [cppName, hc] at h
  | some m => refine ⟨m, rfl, ?_⟩; simp [cppName, hc] at h; exact h.2.symm

theorem same_name (E : Env) (t u : Ty) (h : Same E t u) (n m : Name) (hn : cppName E t = some n)
    (hm : cppName E u = some m) : n = m := by
  induction h generalizing n m with
  | decl t u s h1 h2 =>
    rw [declares_name E t s h1] at hn
    rw [declares_name E u s h2] at hm
    rw [← Option.some.inj hn, ← Option.some.inj hm]
  | ptr k l t u h1 h2 _ ih =>
    obtain ⟨n', a1, rfl⟩ := name_ptr E k t n hn
    obtain ⟨m', a2, rfl⟩ := name_ptr E l u m hm
    exact (wrap_eq k l n' m').mpr ⟨h1, h2, ih n' m' a1 a2⟩
  | arr k t u _ ih =>
    obtain ⟨n', a1, rfl⟩ := name_arr E k t n hn
    obtain ⟨m', a2, rfl⟩ := name_arr E k u m hm
    rw [ih n' m' a1 a2]
  | slice t u _ ih =>
    obtain ⟨n', a1, rfl⟩ := name_slice E t n hn
    obtain ⟨m', a2, rfl⟩ := name_slice E u m hm
    rw [ih n' m' a1 a2]
  | arrSlice t u _ ih =>
    obtain ⟨n', a1, rfl⟩ := name_arr E _ t n hn
    obtain ⟨m', a2, rfl⟩ := name_slice E u m hm
    rw [ih n' m' a1 a2, usizeMax]
  | sliceArr t u _ ih =>
    obtain ⟨n', a1, rfl⟩ := name_slice E t n hn
    obtain ⟨m', a2, rfl⟩ := name_arr E _ u m hm
    rw [ih n' m' a1 a2, usizeMax]

theorem has_bytes (E : Env) (t : Ty) (h : Formed E t) (hs : ∀ w, t ≠ .slice w) :
    ∃ n, HasBytes E t n := by
  induction h with
  | decl t s h => cases h <;> exact ⟨_, by constructor⟩
  | ptr k t h1 h2 ih =>
    by_cases h : ∃ w, t = .slice w
    · obtain ⟨w, rfl⟩ := h; exact ⟨_, .fat k w⟩
    · exact ⟨_, .thin k t fun w hw => h ⟨w, hw⟩⟩
  | arr n t h1 h2 ih => obtain ⟨b, hb⟩ := ih h2; exact ⟨_, .arr n t b hb⟩
  | slice t => exact absurd rfl (hs t)

theorem name_same (E : Env) (t u : Ty) (n : Name) (hn : cppName E t = some n)
    (hm : cppName E u = some n) : Same E t u := by
  have leaf : ∀ (t : Ty) (s : List Char), cppName E t = some (.sym s) → Declares E t s := by
    intro t s h
    cases t with
    | inc s' d => simp [cppName] at h; subst h; exact .forward _ _
    | complete c => simp [cppName] at h; subst h; exact .define c
    | ptr k t => obtain ⟨m, -, h⟩ := name_ptr E k t _ h; cases k <;> cases h
    | arr k t => obtain ⟨m, -, h⟩ := name_arr E k t _ h; cases h
    | slice t => obtain ⟨m, -, h⟩ := name_slice E t _ h; cases h
    | other c => simp [cppName] at h
  induction t generalizing u n with
  | inc s d =>
    simp [cppName] at hn; subst hn
    exact .decl _ _ s (.forward s d) (leaf u s hm)
  | complete c =>
    simp [cppName] at hn; subst hn
    exact .decl _ _ _ (.define c) (leaf u _ hm)
  | ptr k t ih =>
    obtain ⟨n', a1, rfl⟩ := name_ptr E k t n hn
    cases u with
    | inc s d => simp [cppName] at hm; cases k <;> cases hm
    | complete c => simp [cppName] at hm; cases k <;> cases hm
    | ptr l u =>
      obtain ⟨m', a2, h⟩ := name_ptr E l u _ hm
      obtain ⟨h1, h2, rfl⟩ := (wrap_eq k l n' m').mp h
      exact .ptr k l t u h1 h2 (ih u n' a1 a2)
    | arr i u => obtain ⟨m', -, h⟩ := name_arr E i u _ hm; cases k <;> cases h
    | slice u => obtain ⟨m', -, h⟩ := name_slice E u _ hm; cases k <;> cases h
    | other c => simp [cppName] at hm
  | arr k t ih =>
    obtain ⟨n', a1, rfl⟩ := name_arr E k t n hn
    cases u with
    | inc s d => simp [cppName] at hm
    | complete c => simp [cppName] at hm
    | ptr l u => obtain ⟨m', -, h⟩ := name_ptr E l u _ hm; cases l <;> cases h
    | arr i u =>
      obtain ⟨m', a2, h⟩ := name_arr E i u _ hm
      injection h with h1 h2
      subst h1; subst h2
      exact .arr k t u (ih u n' a1 a2)
    | slice u =>
      obtain ⟨m', a2, h⟩ := name_slice E u _ hm
      injection h with h1 h2
      subst h2; rw [h1, usizeMax]
      exact .arrSlice t u (ih u n' a1 a2)
    | other c => simp [cppName] at hm
  | slice t ih =>
    obtain ⟨n', a1, rfl⟩ := name_slice E t n hn
    cases u with
    | inc s d => simp [cppName] at hm
    | complete c => simp [cppName] at hm
    | ptr l u => obtain ⟨m', -, h⟩ := name_ptr E l u _ hm; cases l <;> cases h
    | arr i u =>
      obtain ⟨m', a2, h⟩ := name_arr E i u _ hm
      injection h with h1 h2
      subst h2; rw [← h1, usizeMax]
      exact .sliceArr t u (ih u n' a1 a2)
    | slice u =>
      obtain ⟨m', a2, h⟩ := name_slice E u _ hm
      injection h with h1 h2
      subst h2
      exact .slice t u (ih u n' a1 a2)
    | other c => simp [cppName] at hm
  | other c => simp [cppName] at hn

theorem bound_iff (E : Env) (t u : Ty) :
    bound E t u = true ↔ Formed E t ∧ Formed E u ∧ Same E t u := by
  constructor
  · intro h
    unfold bound at h
    split at h
    · next n m hn hm =>
      have e : n = m := by simpa using h
      subst e
      exact ⟨(formed_iff E t).mpr ⟨_, hn⟩, (formed_iff E u).mpr ⟨_, hm⟩, name_same E t u _ hn hm⟩
    · cases h
  · rintro ⟨h1, h2, h3⟩
    obtain ⟨n, hn⟩ := (formed_iff E t).mp h1
    obtain ⟨m, hm⟩ := (formed_iff E u).mp h2
    simp [bound, hn, hm, same_name E t u h3 n m hn hm]

/-- A cast compiles exactly if both types are types of C++ that can be named, and the same one. -/
theorem compiles_iff (E : Env) (t u : Ty) (v : List Nat) :
    coerce E t u v ≠ .rejected ↔
      (∀ w, t ≠ .slice w) ∧ (∀ w, u ≠ .slice w) ∧ Formed E t ∧ Formed E u ∧ Same E t u := by
  rw [← bound_iff, ← sized_iff, ← sized_iff]
  unfold coerce
  split
  · next h =>
    simp only [Bool.and_eq_true] at h
    split <;> simp [h]
  · next h =>
    simp only [Bool.and_eq_true] at h
    simp only [ne_eq, not_true_eq_false, false_iff]
    tauto

/-- A cast that compiles gives back all bytes unchanged, or panics, exactly if sizes differ. -/
theorem result (E : Env) (t u : Ty) (v : List Nat) (h : coerce E t u v ≠ .rejected)
    (n m : Nat) (hn : HasBytes E t n) (hm : HasBytes E u m) (hv : v.length = n) :
    (n = m → coerce E t u v = .ok v) ∧ (n ≠ m → coerce E t u v = .panic) := by
  rw [← size_bytes E t n hn] at hv ⊢
  rw [← size_bytes E u m hm]
  unfold coerce at h ⊢
  split at h
  · next hc =>
    constructor
    · intro e
      simp only [hc, if_true, e]
      rw [List.take_of_length_le (by omega)]
    · intro e; simp [hc, e]
  · exact absurd rfl h

/-- Casts can be undone, as far as types go. -/
theorem back (E : Env) (t u : Ty) (v w : List Nat) (h : coerce E t u v ≠ .rejected) :
    coerce E u t w ≠ .rejected := by
  rw [compiles_iff] at h ⊢
  obtain ⟨h1, h2, h3, h4, h5⟩ := h
  refine ⟨h2, h1, h4, h3, ?_⟩
  obtain ⟨n, hn⟩ := (formed_iff E t).mp h3
  obtain ⟨m, hm⟩ := (formed_iff E u).mp h4
  have := same_name E t u h5 n m hn hm
  subst this
  exact name_same E u t n hm hn

/-- Two casts lead nowhere one cast would not lead. -/
theorem chain (E : Env) (t u w : Ty) (x y z : List Nat) (h : coerce E t u x ≠ .rejected)
    (h' : coerce E u w y ≠ .rejected) : coerce E t w z ≠ .rejected := by
  rw [compiles_iff] at h h' ⊢
  obtain ⟨h1, h2, h3, h4, h5⟩ := h
  obtain ⟨k1, k2, k3, k4, k5⟩ := h'
  refine ⟨h1, k2, h3, k4, ?_⟩
  obtain ⟨n, hn⟩ := (formed_iff E t).mp h3
  obtain ⟨m, hm⟩ := (formed_iff E u).mp h4
  obtain ⟨p, hp⟩ := (formed_iff E w).mp k4
  have e1 := same_name E t u h5 n m hn hm
  have e2 := same_name E u w k5 m p hm hp
  subst e1; subst e2
  exact name_same E t w n hn hp

/-- `Casts E t u`: from `t` one gets to `u` by any number of casts. -/
inductive Casts (E : Env) : Ty → Ty → Prop
  | one (t u v) : coerce E t u v ≠ .rejected → Casts E t u
  | more (t u w v) : Casts E t u → coerce E u w v ≠ .rejected → Casts E t w

theorem casts_one (E : Env) (t u : Ty) (h : Casts E t u) : coerce E t u [] ≠ .rejected := by
  induction h with
  | one u v h => rw [compiles_iff] at h ⊢; exact h
  | more u w v _ h ih => exact chain E t u w [] v [] ih h

/-- However many casts there are: a pointer to a complete type becomes a pointer to a complete
type only if that is the same one, with the same access and lifetime; names are those of one
complete type each, as `unsafe_define!` demands. -/
theorem no_confusion (E : Env) (hE : ∀ c d, E.name c = E.name d → c = d) (k l : Ptr) (c d : Nat)
    (h : Casts E (.ptr k (.complete c)) (.ptr l (.complete d))) :
    c = d ∧ k.access = l.access ∧ k.lifetime = l.lifetime := by
  have h := casts_one E _ _ h
  rw [compiles_iff] at h
  obtain ⟨-, -, -, -, h⟩ := h
  cases h with
  | decl _ _ s h => cases h
  | ptr _ _ _ _ h1 h2 h3 =>
    refine ⟨?_, h1, h2⟩
    cases h3 with
    | decl _ _ s a b =>
      cases a
      generalize ht : Ty.complete d = t at b
      generalize hs : E.name c = s at b
      cases b with
      | forward => cases ht
      | define => injection ht with ht; exact hE c d (by rw [hs, ht])

/-- No casts lead to an unpinned `&mut` to something that must not be moved - not to a forward
declaration, either. -/
theorem stays_pinned (E : Env) (t u : Ty) (a : Nat) (h : Casts E t (.ptr (.mutRef a) u)) :
    Movable E u := by
  have h := casts_one E _ _ h
  rw [compiles_iff] at h
  obtain ⟨-, -, -, h, -⟩ := h
  cases h with
  | decl _ s h => cases h
  | ptr _ _ _ h => exact h a rfl

/-- Pointers of any kind have the same size when one is cast to the other, unless one points to
a slice and the other to an array of `usize::MAX` elements: only then a cast of a pointer
panics. -/
theorem pointer_panics_iff (E : Env) (k l : Ptr) (t u : Ty) (v : List Nat)
    (h : coerce E (.ptr k t) (.ptr l u) v ≠ .rejected) :
    coerce E (.ptr k t) (.ptr l u) v = .panic ↔
      (∃ w, t = .slice w) ∧ (∃ w, u = .arr (2 ^ 64 - 1) w) ∨
      (∃ w, u = .slice w) ∧ (∃ w, t = .arr (2 ^ 64 - 1) w) := by
  have hs := (compiles_iff E _ _ v).mp h
  obtain ⟨-, -, -, -, hs⟩ := hs
  have hp : coerce E (.ptr k t) (.ptr l u) v = .panic ↔ t.sized ≠ u.sized := by
    unfold coerce at h ⊢
    split at h
    · next hc =>
      simp only [hc, if_true, Ty.size]
      by_cases a : t.sized = true <;> by_cases b : u.sized = true <;> simp [a, b]
    · exact absurd rfl h
  rw [hp]
  cases hs with
  | decl _ _ s h => cases h
  | ptr _ _ _ _ _ _ hs =>
    cases hs with
    | decl _ _ s a b =>
      rcases declares_cases E _ s a with ⟨_, rfl⟩ | ⟨_, rfl⟩ <;>
        rcases declares_cases E _ s b with ⟨_, rfl⟩ | ⟨_, rfl⟩ <;> simp [Ty.sized]
    | ptr => simp [Ty.sized]
    | arr => simp [Ty.sized]
    | slice => simp [Ty.sized]
    | arrSlice => simp [Ty.sized]
    | sliceArr => simp [Ty.sized]

theorem same_size (E : Env) (hE : ∀ c d, E.name c = E.name d → c = d) (t u : Ty) (h : Same E t u)
    (ht : Solid t) (hu : Solid u) (nt : NoHuge t) (nu : NoHuge u) : t.size E = u.size E := by
  induction h with
  | decl t u s a b =>
    cases a with
    | forward => cases ht
    | define c =>
      generalize hs : E.name c = s at b
      cases b with
      | forward => cases hu
      | define d => rw [hE c d hs]
  | ptr k l t u _ _ hs =>
    have : t.sized = u.sized := by
      cases hs with
      | decl _ _ s a b => rw [declares_sized E _ s a, declares_sized E _ s b]
      | ptr => rfl
      | arr => rfl
      | slice => rfl
      | arrSlice => exact absurd rfl nt.1
      | sliceArr => exact absurd rfl nu.1
    simp [Ty.size, this]
  | arr n t u _ ih =>
    cases ht with | arr _ _ ht =>
    cases hu with | arr _ _ hu =>
    simp [Ty.size, ih ht hu nt.2 nu.2]
  | slice => cases ht
  | arrSlice => cases hu
  | sliceArr => cases ht

/-- Between types without forward declarations outside of pointers (and huge arrays) a cast
never panics. -/
theorem never_panics (E : Env) (hE : ∀ c d, E.name c = E.name d → c = d) (t u : Ty) (v : List Nat)
    (h : coerce E t u v ≠ .rejected) (n : Nat) (hn : HasBytes E t n) (hv : v.length = n) (ht : Solid t) (hu : Solid u)
    (nt : NoHuge t) (nu : NoHuge u) : coerce E t u v = .ok v :=
  (result E t u v h n n hn (by
    have hs := same_size E hE t u ((compiles_iff E t u v).mp h).2.2.2.2 ht hu nt nu
    obtain ⟨m, hm⟩ := has_bytes E u ((compiles_iff E t u v).mp h).2.2.2.1
      ((compiles_iff E t u v).mp h).2.1
    rw [size_bytes E t n hn, size_bytes E u m hm] at hs
    exact hs ▸ hm) hv).1 rfl

/-- Vectors of references can be cast exactly if what they refer to is the same type. -/
theorem vec_compiles_iff (E : Env) (t u : Ty) (v : RawVec) :
    coerceVec E t u v ≠ none ↔ Formed E t ∧ Formed E u ∧ Same E t u := by
  rw [← bound_iff]
  unfold coerceVec
  split <;> simp_all

/-- The memory of a vector of references has the size its capacity says. -/
def RawVec.Fits (E : Env) (t : Ty) (v : RawVec) : Prop :=
  v.len ≤ v.cap ∧ ∃ b, HasBytes E (.ptr (.ref 0) t) b ∧ v.bytes.length = v.cap * b

/-- A vector of references arrives unchanged and fits its new type if no array of `usize::MAX`
elements is involved (see `vec_reinterpreted`). -/
theorem vec_fits (E : Env) (t u : Ty) (v w : RawVec) (h : coerceVec E t u v = some w)
    (hv : v.Fits E t) (nt : NoHuge t) (nu : NoHuge u) : w = v ∧ w.Fits E u := by
  unfold coerceVec at h
  split at h
  · next hb' =>
    injection h with h
    subst h
    refine ⟨rfl, hv.1, ?_⟩
    have hs := ((bound_iff E t u).mp hb').2.2
    have : t.sized = u.sized := by
      cases hs with
      | decl _ _ s a b => rw [declares_sized E _ s a, declares_sized E _ s b]
      | ptr => rfl
      | arr => rfl
      | slice => rfl
      | arrSlice => exact absurd rfl nt.1
      | sliceArr => exact absurd rfl nu.1
    obtain ⟨-, b, hb, hl⟩ := hv
    refine ⟨b, ?_, hl⟩
    obtain ⟨-, hfu, -⟩ := (bound_iff E t u).mp hb'
    have e : (Ty.ptr (.ref 0) t).size E = (Ty.ptr (.ref 0) u).size E := by simp [Ty.size, this]
    obtain ⟨m, hm⟩ := has_bytes E (.ptr (.ref 0) u) (.ptr _ u hfu (by simp)) (by simp)
    rw [size_bytes E _ b hb, size_bytes E _ m hm] at e
    exact e ▸ hm
  · cases h

/-! Concrete cases, and what is wrong -/

def E0 : Env := ⟨fun c => if c = 0 then ['A'] else ['B', Char.ofNat c], fun c => 4 * (c + 1), fun c => c != 0⟩
def incA : Ty := .inc ['A'] 7

example : coerce E0 (.ptr (.pinMut 1) (.complete 0)) (.ptr (.cmut 1) incA) [1, 2, 3, 4, 5, 6, 7, 8]
    = .ok [1, 2, 3, 4, 5, 6, 7, 8] := by decide
example : coerce E0 (.ptr (.pinMut 1) incA) (.ptr (.mutRef 1) (.complete 0)) [] = .rejected := by decide
example : coerce E0 (.ptr (.ref 1) incA) (.ptr (.ref 2) (.complete 0)) [] = .rejected := by decide
example : coerce E0 (.ptr .const incA) (.ptr .mut incA) [] = .rejected := by decide
example : coerce E0 (.ptr (.ref 1) (.complete 0)) (.ptr (.ref 1) (.complete 1)) [] = .rejected := by decide
/-- By value a complete type is not its forward declaration: the cast compiles and panics. -/
example : coerce E0 (.complete 0) incA [1, 2, 3, 4] = .panic := by decide
example : Casts E0 (.ptr .mut (.complete 0)) (.ptr .mut (.complete 0)) :=
  .more _ (.ptr .mut incA) _ [] (.one _ _ [] (by decide)) (by decide)
example : coerce E0 (.ptr (.ref 0) (.slice incA)) (.ptr (.ref 0) (.arr (2 ^ 64 - 1) incA)) [] = .panic := by
  decide

/-- A vector of references to slices is cast to one of references to arrays without a check: its
elements have half the size then. -/
theorem vec_reinterpreted :
    ∃ (t u : Ty) (v : RawVec), v.Fits E0 t ∧ coerceVec E0 t u v = some v ∧ ¬ v.Fits E0 u :=
  ⟨.slice incA, .arr (2 ^ 64 - 1) incA, ⟨List.replicate 16 0, 1, 1⟩,
    ⟨by decide, 16, .fat _ _, by decide⟩, by decide, fun h => by
      obtain ⟨-, b, hb, hl⟩ := h
      cases hb with | thin => exact absurd hl (by decide)⟩

/-- Contrary to the comment on arrays, a slice of a complete type can be cast to a slice of its
forward declaration, whose elements are all at the same address. -/
theorem slice_of_forward :
    coerce E0 (.ptr (.ref 0) (.slice (.complete 0))) (.ptr (.ref 0) (.slice incA)) (List.replicate 16 0)
      = .ok (List.replicate 16 0) ∧ (Ty.complete 0).size E0 ≠ incA.size E0 := by decide

end Verif.Fwd

import Verif.CcValue.Drop
import Mathlib.Data.List.Nodup
/-
C132: what C++ does when it destroys an object, stated for every subobject on its own: the body of
the destructor of each subobject runs once.
-/
namespace Verif.CcValue

/-- The base or field number `n`. -/
def Subs.get : Subs → Nat → Option (SubInfo × Cls)
  | .nil, _ => none
  | .scalar _ _ _, 0 => none
  | .scalar _ _ rest, n + 1 => rest.get n
  | .obj i c _, 0 => some (i, c)
  | .obj _ _ rest, n + 1 => rest.get n

/-- `k` is the number of an element: of the array, or `0` for a single object. -/
def IsElem (a : Option Nat) (k : Nat) : Prop :=
  match a with
  | none => k = 0
  | some m => k < m

/-- An object of class `c` has a subobject of class `c'` at a place. (The members of a union are not
counted: the union does not know which of them there is.) -/
inductive HasSub : Cls → Path → Cls → Prop where
  | here (c : Cls) : HasSub c [] c
  | sub {d : ClassInfo} {subs : Subs} {n k : Nat} {i : SubInfo} {c c' : Cls} {q : Path}
      (hu : d.isUnion = false) (hg : subs.get n = some (i, c)) (hk : IsElem i.array k)
      (h : HasSub c q c') : HasSub (.mk d subs) ((n, k) :: q) c'

/-- The author of the class wrote a body for its destructor. -/
def Cls.hasDtorBody (c : Cls) : Prop := c.info.dtorHow = some .userProvided

theorem mem_elemsRev {a : Option Nat} {f : Nat → List Event} {e : Event} :
    e ∈ elemsRev a f ↔ ∃ k, IsElem a k ∧ e ∈ f k := by
  cases a <;> simp [elemsRev, IsElem]

mutual
theorem Cls.mem_destroy (c : Cls) (p : Path) (e : Event) :
    e ∈ c.destroy p ↔ ∃ q c', HasSub c q c' ∧ c'.hasDtorBody ∧ e = .dtor (p ++ q) := by
  match c with
  | .mk d subs =>
    simp only [Cls.destroy, List.mem_append]
    constructor
    · rintro (h | h)
      · split at h
        · next hb =>
          refine ⟨[], _, .here _, hb, ?_⟩
          simpa using h
        · simp at h
      · by_cases hu : d.isUnion = true
        · simp [hu] at h
        · simp only [hu] at h
          obtain ⟨n, i, c, k, q, c', hg, hk, hs, hb, he⟩ :=
            (Subs.mem_destroy subs p 0 e).mp (by simpa using h)
          exact ⟨(n, k) :: q, c', .sub (by simpa using hu) hg hk hs, hb, by simpa using he⟩
    · rintro ⟨q, c', hs, hb, he⟩
      cases hs with
      | here =>
        left
        have hb' : d.dtorHow = some .userProvided := hb
        simp [hb', he]
      | @sub _ _ n k i c _ q hu hg hk h =>
        right
        simp only [hu, Bool.false_eq_true, if_false]
        exact (Subs.mem_destroy subs p 0 e).mpr
          ⟨n, i, c, k, q, c', hg, hk, h, hb, by simpa using he⟩
theorem Subs.mem_destroy (s : Subs) (p : Path) (m : Nat) (e : Event) :
    e ∈ s.destroy p m ↔ ∃ n i c k q c', s.get n = some (i, c) ∧ IsElem i.array k ∧ HasSub c q c' ∧
      c'.hasDtorBody ∧ e = .dtor (p ++ (m + n, k) :: q) := by
  match s with
  | .nil => simp [Subs.destroy, Subs.get]
  | .scalar i0 b rest =>
    simp only [Subs.destroy, Subs.mem_destroy rest p (m + 1) e]
    constructor
    · rintro ⟨n, i, c, k, q, c', hg, h⟩
      exact ⟨n + 1, i, c, k, q, c', hg, by simpa [Nat.add_assoc, Nat.add_comm 1] using h⟩
    · rintro ⟨n, i, c, k, q, c', hg, h⟩
      cases n with
      | zero => simp [Subs.get] at hg
      | succ n => exact ⟨n, i, c, k, q, c', hg, by simpa [Nat.add_assoc, Nat.add_comm 1] using h⟩
  | .obj i0 c0 rest =>
    simp only [Subs.destroy, List.mem_append, Subs.mem_destroy rest p (m + 1) e, mem_elemsRev]
    constructor
    · rintro (⟨n, i, c, k, q, c', hg, h⟩ | ⟨k, hk, h⟩)
      · exact ⟨n + 1, i, c, k, q, c', hg, by simpa [Nat.add_assoc, Nat.add_comm 1] using h⟩
      · obtain ⟨q, c', hs, hb, he⟩ := (Cls.mem_destroy c0 _ e).mp h
        exact ⟨0, i0, c0, k, q, c', rfl, hk, hs, hb, by simpa using he⟩
    · rintro ⟨n, i, c, k, q, c', hg, hk, hs, hb, he⟩
      cases n with
      | zero =>
        right
        simp only [Subs.get, Option.some.injEq, Prod.mk.injEq] at hg
        obtain ⟨rfl, rfl⟩ := hg
        exact ⟨k, hk, (Cls.mem_destroy c0 _ e).mpr ⟨q, c', hs, hb, by simpa using he⟩⟩
      | succ n =>
        left
        exact ⟨n, i, c, k, q, c', hg, hk, hs, hb, by simpa [Nat.add_assoc, Nat.add_comm 1] using he⟩
end

theorem nodup_elemsRev (a : Option Nat) (f : Nat → List Event) (h : ∀ k, (f k).Nodup)
    (hd : ∀ k k', k ≠ k' → ∀ e, e ∈ f k → e ∉ f k') : (elemsRev a f).Nodup := by
  cases a with
  | none => exact h 0
  | some n =>
    simp only [elemsRev]
    rw [List.nodup_flatMap]
    refine ⟨fun k _ => h k, ?_⟩
    have : (List.range n).reverse.Nodup := by simpa using List.nodup_range
    refine List.Pairwise.imp ?_ this
    intro k k' hne e he he'
    exact hd k k' hne e he he'

theorem dtor_inj_path {p q q' : Path} {x y : Nat × Nat} {z z' : Path}
    (h : Event.dtor (p ++ x :: z) = Event.dtor (p ++ y :: z')) : x = y ∧ z = z' := by
  simpa using h

mutual
theorem Cls.nodup_destroy (c : Cls) (p : Path) : (c.destroy p).Nodup := by
  match c with
  | .mk d subs =>
    simp only [Cls.destroy]
    rw [List.nodup_append]
    refine ⟨by split <;> simp, ?_, ?_⟩
    · split
      · exact List.nodup_nil
      · exact Subs.nodup_destroy subs p 0
    · intro e he e' he' hee
      subst hee
      have h1 : e = .dtor p := by
        split at he
        · simpa using he
        · simp at he
      by_cases hu : d.isUnion = true
      · simp [hu] at he'
      · simp only [hu] at he'
        obtain ⟨n, i, c, k, q, c', _, _, _, _, h2⟩ :=
          (Subs.mem_destroy subs p 0 e).mp (by simpa using he')
        rw [h1] at h2
        have := congrArg (fun e => match e with | Event.dtor p => p.length | Event.copy p => p.length) h2
        simp at this
theorem Subs.nodup_destroy (s : Subs) (p : Path) (m : Nat) : (s.destroy p m).Nodup := by
  match s with
  | .nil => simp [Subs.destroy]
  | .scalar i b rest => simp only [Subs.destroy]; exact Subs.nodup_destroy rest p (m + 1)
  | .obj i c rest =>
    simp only [Subs.destroy]
    rw [List.nodup_append]
    refine ⟨Subs.nodup_destroy rest p (m + 1), ?_, ?_⟩
    · refine nodup_elemsRev _ _ (fun k => Cls.nodup_destroy c _) ?_
      intro k k' hne e he he'
      obtain ⟨q, c', _, _, h1⟩ := (Cls.mem_destroy c _ e).mp he
      obtain ⟨q', c'', _, _, h2⟩ := (Cls.mem_destroy c _ e).mp he'
      rw [h1] at h2
      simp only [List.append_assoc, List.singleton_append] at h2
      have := (dtor_inj_path (q := []) (q' := []) h2).1
      simp at this
      exact hne this
    · intro e he e' he' hee
      subst hee
      obtain ⟨n, i', c', k, q, _, _, _, _, _, h1⟩ := (Subs.mem_destroy rest p (m + 1) e).mp he
      obtain ⟨k', _, h2⟩ := mem_elemsRev.mp he'
      obtain ⟨q', _, _, _, h3⟩ := (Cls.mem_destroy c _ e).mp h2
      rw [h1] at h3
      simp only [List.append_assoc, List.singleton_append] at h3
      have := (dtor_inj_path (q := []) (q' := []) h3).1
      simp at this
      omega
end

/-- **C132.** When a Rust value of a class that can be destroyed is dropped, the destructor body of
every subobject that has one runs, once, and no other destructor body runs. -/
theorem drop_destroys_each_once (c : Cls) (hd : c.destructible) (ho : c.gen.ok = true) (q : Path) :
    (c.gen.drop []).count (.dtor q) =
      (open Classical in if ∃ c', HasSub c q c' ∧ c'.hasDtorBody then 1 else 0) := by
  rw [drop_is_destroy c [] hd ho]
  have hm := Cls.mem_destroy c [] (.dtor q)
  split
  · next h =>
    obtain ⟨c', h1, h2⟩ := h
    exact List.count_eq_one_of_mem (Cls.nodup_destroy c [])
      (hm.mpr ⟨q, c', h1, h2, by simp⟩)
  · next h =>
    rw [List.count_eq_zero]
    intro h'
    obtain ⟨q', c', h1, h2, h3⟩ := hm.mp h'
    simp at h3
    subst h3
    exact h ⟨c', h1, h2⟩

end Verif.CcValue

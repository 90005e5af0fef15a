/-
Association-list finite maps: the model of the *contents* of Rust's `HashMap` / `BTreeMap`.
Only the finite-map contract of those containers is used by the models; enumeration order is
always a separate parameter of the model that uses it.
-/
namespace Verif.AMap

variable {K V W : Type} [DecidableEq K]

/-- `HashMap::get`. -/
def get? : List (K × V) → K → Option V
  | [], _ => none
  | (k', v) :: m, k => if k' = k then some v else get? m k

/-- `HashMap::insert` (overwrites the value of an existing key). -/
def insert : List (K × V) → K → V → List (K × V)
  | [], k, v => [(k, v)]
  | (k', v') :: m, k, v => if k' = k then (k, v) :: m else (k', v') :: insert m k v

/-- `HashMap::remove`. -/
def erase : List (K × V) → K → List (K × V)
  | [], _ => []
  | (k', v) :: m, k => if k' = k then m else (k', v) :: erase m k

/-- The key set. -/
def keys (m : List (K × V)) : List K := m.map Prod.fst

@[simp] theorem get?_nil (k : K) : get? ([] : List (K × V)) k = none := rfl

theorem get?_insert (m : List (K × V)) (k k' : K) (v : V) :
    get? (insert m k v) k' = if k = k' then some v else get? m k' := by
  induction m with
  | nil => simp [insert, get?]
  | cons p m ih =>
    obtain ⟨a, b⟩ := p
    simp only [insert]
    split
    · subst_vars; simp only [get?]; split <;> rfl
    · simp only [get?, ih]
      by_cases h1 : a = k'
      · subst h1; simp; intro h; exact absurd h.symm ‹_›
      · simp [h1]

theorem get?_insert_self (m : List (K × V)) (k : K) (v : V) : get? (insert m k v) k = some v := by
  simp [get?_insert]

theorem get?_insert_ne (m : List (K × V)) {k k' : K} (v : V) (h : k ≠ k') :
    get? (insert m k v) k' = get? m k' := by
  simp [get?_insert, h]

theorem mem_keys_iff (m : List (K × V)) (k : K) : k ∈ keys m ↔ ∃ v, get? m k = some v := by
  induction m with
  | nil => simp [keys]
  | cons p m ih =>
    obtain ⟨a, b⟩ := p
    simp only [keys, List.map_cons, List.mem_cons, get?] at *
    by_cases h : a = k
    · subst h; simp
    · simp only [h, if_false]; rw [← ih]
      constructor
      · rintro (h' | h')
        · exact absurd h'.symm h
        · exact h'
      · exact Or.inr

theorem get?_eq_none_iff (m : List (K × V)) (k : K) : get? m k = none ↔ k ∉ keys m := by
  rw [mem_keys_iff]; cases get? m k <;> simp

theorem keys_insert_mem (m : List (K × V)) (k : K) (v : V) (x : K) :
    x ∈ keys (insert m k v) ↔ x = k ∨ x ∈ keys m := by
  rw [mem_keys_iff, mem_keys_iff, get?_insert]
  by_cases h : k = x
  · subst h; simp
  · simp only [h, if_false]
    constructor
    · exact Or.inr
    · rintro (h' | h')
      · exact absurd h'.symm h
      · exact h'

theorem keys_insert_of_mem (m : List (K × V)) (k : K) (v : V) (h : k ∈ keys m) :
    keys (insert m k v) = keys m := by
  induction m with
  | nil => simp [keys] at h
  | cons p m ih =>
    obtain ⟨a, b⟩ := p
    simp only [insert]
    split
    · subst_vars; rfl
    · simp only [keys, List.map_cons, List.mem_cons] at *
      rw [ih]
      rcases h with h | h
      · exact absurd h.symm ‹_›
      · exact h

theorem keys_insert_of_not_mem (m : List (K × V)) (k : K) (v : V) (h : k ∉ keys m) :
    keys (insert m k v) = keys m ++ [k] := by
  induction m with
  | nil => simp [keys, insert]
  | cons p m ih =>
    obtain ⟨a, b⟩ := p
    simp only [keys, List.map_cons, List.mem_cons, not_or] at h ih
    simp only [insert]
    rw [if_neg (fun e => h.1 e.symm)]
    simp only [keys, List.map_cons, List.cons_append]
    rw [ih h.2]

theorem nodup_insert (m : List (K × V)) (k : K) (v : V) (h : (keys m).Nodup) :
    (keys (insert m k v)).Nodup := by
  by_cases hk : k ∈ keys m
  · rw [keys_insert_of_mem m k v hk]; exact h
  · rw [keys_insert_of_not_mem m k v hk]
    rw [List.nodup_append]
    refine ⟨h, by simp, ?_⟩
    intro a ha b hb
    simp only [List.mem_singleton] at hb
    subst hb; rintro rfl; exact hk ha

theorem keys_erase (m : List (K × V)) (k : K) : keys (erase m k) = (keys m).erase k := by
  induction m with
  | nil => simp [keys, erase]
  | cons p m ih =>
    obtain ⟨a, b⟩ := p
    simp only [erase, keys, List.map_cons, List.erase_cons] at *
    by_cases h : a = k
    · simp [h]
    · simp [h, ih]

theorem nodup_erase (m : List (K × V)) (k : K) (h : (keys m).Nodup) : (keys (erase m k)).Nodup := by
  rw [keys_erase]; exact h.erase k

theorem get?_erase (m : List (K × V)) (k k' : K) (h : (keys m).Nodup) :
    get? (erase m k) k' = if k = k' then none else get? m k' := by
  induction m with
  | nil => simp [erase]
  | cons p m ih =>
    obtain ⟨a, b⟩ := p
    simp only [keys, List.map_cons, List.nodup_cons] at h
    simp only [erase]
    by_cases hk : a = k
    · subst hk
      simp only [if_true, get?]
      by_cases h2 : a = k'
      · subst h2; simp; exact (get?_eq_none_iff m a).2 h.1
      · simp [h2]
    · simp only [hk, if_false, get?]
      rw [ih h.2]
      by_cases h2 : a = k'
      · subst h2; simp; intro e; exact absurd e.symm hk
      · simp [h2]

theorem get?_erase_ne (m : List (K × V)) {k k' : K} (h : k ≠ k') :
    get? (erase m k) k' = get? m k' := by
  induction m with
  | nil => simp [erase]
  | cons p m ih =>
    obtain ⟨a, b⟩ := p
    simp only [erase]
    by_cases hk : a = k
    · subst hk; simp [get?, h]
    · simp only [hk, if_false, get?, ih]

theorem get?_append (m1 m2 : List (K × V)) (k : K) :
    get? (m1 ++ m2) k = (get? m1 k).or (get? m2 k) := by
  induction m1 with
  | nil => simp
  | cons p m ih =>
    obtain ⟨a, b⟩ := p
    simp only [List.cons_append, get?]
    split <;> simp [ih]

theorem erase_append_of_mem (m1 m2 : List (K × V)) (k : K) (h : k ∈ keys m1) :
    erase (m1 ++ m2) k = erase m1 k ++ m2 := by
  induction m1 with
  | nil => simp [keys] at h
  | cons p m ih =>
    obtain ⟨a, b⟩ := p
    simp only [List.cons_append, erase]
    by_cases hk : a = k
    · simp [hk]
    · simp only [hk, if_false, List.cons_append]
      rw [ih]
      simp only [keys, List.map_cons, List.mem_cons] at h ⊢
      rcases h with h | h
      · exact absurd h.symm hk
      · exact h

theorem erase_append_of_not_mem (m1 m2 : List (K × V)) (k : K) (h : k ∉ keys m1) :
    erase (m1 ++ m2) k = m1 ++ erase m2 k := by
  induction m1 with
  | nil => rfl
  | cons p m ih =>
    obtain ⟨a, b⟩ := p
    simp only [keys, List.map_cons, List.mem_cons, not_or] at h
    simp only [List.cons_append, erase]
    rw [if_neg (fun e => h.1 e.symm), ih h.2]

theorem length_erase_lt (m : List (K × V)) (k : K) {v : V} (h : get? m k = some v) :
    (erase m k).length < m.length := by
  induction m with
  | nil => simp at h
  | cons p m ih =>
    obtain ⟨a, b⟩ := p
    simp only [erase]
    by_cases hk : a = k
    · simp [hk]
    · simp only [get?, hk, if_false] at h
      simp only [hk, if_false, List.length_cons]
      have := ih h
      omega

theorem length_insert_of_mem (m : List (K × V)) (k : K) (v : V) (h : k ∈ keys m) :
    (insert m k v).length = m.length := by
  have := congrArg List.length (keys_insert_of_mem m k v h)
  simpa [keys] using this

theorem get?_of_mem (m : List (K × V)) (h : (keys m).Nodup) {k : K} {v : V} (hm : (k, v) ∈ m) :
    get? m k = some v := by
  induction m with
  | nil => simp at hm
  | cons p m ih =>
    obtain ⟨a, b⟩ := p
    simp only [keys, List.map_cons, List.nodup_cons] at h
    simp only [List.mem_cons, Prod.mk.injEq] at hm
    rcases hm with ⟨rfl, rfl⟩ | hm
    · simp [get?]
    · have : a ≠ k := by
        rintro rfl
        exact h.1 (List.mem_map.2 ⟨(a, v), hm, rfl⟩)
      simp [get?, this, ih h.2 hm]

theorem mem_of_get? (m : List (K × V)) {k : K} {v : V} (h : get? m k = some v) : (k, v) ∈ m := by
  induction m with
  | nil => simp at h
  | cons p m ih =>
    obtain ⟨a, b⟩ := p
    simp only [get?] at h
    split at h
    · simp_all
    · exact List.mem_cons_of_mem _ (ih h)

theorem mem_iff_get? (m : List (K × V)) (h : (keys m).Nodup) (k : K) (v : V) :
    (k, v) ∈ m ↔ get? m k = some v :=
  ⟨get?_of_mem m h, mem_of_get? m⟩

end Verif.AMap

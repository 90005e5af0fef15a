import Verif.Common.AMap
import Mathlib.Logic.Function.Iterate
/-
Model and property (C32) of the `memoized!` macro's side tables: common/memoized.rs:323-364, 456-459.
Each `memoized!` function keeps a thread-local vector of tables indexed by `db.__db_index`.
Simplifications: one memoised function; its (pure, acyclic) body for database number `d` is `f d`;
one thread; the cycle bookkeeping of each table is the one modelled in Memo/Model.lean.
-/
namespace Verif.Memo.DbIndex
open Verif
variable {K V : Type} [DecidableEq K]

/-- Process state: `DB_INDEX` (memoized.rs:457), `TABLES` (memoized.rs:344), and the `__db_index` of every
database created so far (creation order). -/
structure Proc (K V : Type) where
  next : UInt8
  tables : List (List (K × V))
  dbs : List UInt8

/-- memoized.rs:344 `vec![Default::default()]`, 457 `AtomicU8::new(0)`. -/
def Proc.init : Proc K V := ⟨0, [[]], []⟩

/-- memoized.rs:300, 456-459: `fetch_add` returns the old value and wraps around. -/
def Proc.newDb (p : Proc K V) : Proc K V := ⟨p.next + 1, p.tables, p.dbs ++ [p.next]⟩

/-- memoized.rs:350-352: grow the vector to cover the index. -/
def grow (tables : List (List (K × V))) (i : Nat) : List (List (K × V)) :=
  if tables.length ≤ i then tables ++ List.replicate (i + 1 - tables.length) [] else tables

/-- memoized.rs:347-361 on the `d`-th database, for a body that computes `f d k`. `none`: no such database. -/
def Proc.call (f : Nat → K → V) (p : Proc K V) (d : Nat) (k : K) : Option (V × Proc K V) := do
  let i ← p.dbs[d]?
  let tables := grow p.tables i.toNat
  let table ← tables[i.toNat]?
  match AMap.get? table k with
  | some v => return (v, { p with tables := tables })
  | none => return (f d k, { p with tables := tables.set i.toNat (AMap.insert table k (f d k)) })

inductive Op (K : Type) where
  | newDb
  | call (d : Nat) (k : K)

/-- The values returned by the calls of a history (`none` for a call on a database that does not exist). -/
def exec (f : Nat → K → V) : Proc K V → List (Op K) → List (Nat × K × Option V)
  | _, [] => []
  | p, .newDb :: ops => exec f p.newDb ops
  | p, .call d k :: ops =>
    match p.call f d k with
    | some (v, p') => (d, k, some v) :: exec f p' ops
    | none => (d, k, none) :: exec f p ops

def created (ops : List (Op K)) : Nat := ops.countP (fun o => match o with | .newDb => true | _ => false)

/-- Every table entry is the value of the only database that uses the table. -/
def TablesOk (f : Nat → K → V) (p : Proc K V) : Prop :=
  ∀ (d : Nat) (i : UInt8) (t : List (K × V)), p.dbs[d]? = some i → p.tables[i.toNat]? = some t →
    ∀ k v, AMap.get? t k = some v → v = f d k

structure Ok (f : Nat → K → V) (p : Proc K V) : Prop where
  tables : TablesOk f p
  dbs : p.dbs = (List.range p.dbs.length).map (fun n => UInt8.ofNat n)
  next : p.next = UInt8.ofNat p.dbs.length
  fresh : ∀ j t, p.dbs.length ≤ j → p.tables[j]? = some t → t = []

theorem grow_get (tables : List (List (K × V))) (i j : Nat) (t : List (K × V)) (h : (grow tables i)[j]? = some t) :
    tables[j]? = some t ∨ t = [] := by
  simp only [grow] at h
  split at h
  · rw [List.getElem?_append] at h
    split at h
    · exact .inl h
    · right
      rw [List.getElem?_replicate] at h
      split at h <;> simp at h
      exact h
  · exact .inl h

theorem Ok.dbs_get {f : Nat → K → V} {p : Proc K V} (h : Ok f p) {d : Nat} {i : UInt8} (hd : p.dbs[d]? = some i) :
    d < p.dbs.length ∧ i = UInt8.ofNat d := by
  have hlt : d < p.dbs.length := by
    rcases Nat.lt_or_ge d p.dbs.length with h | h
    · exact h
    · rw [List.getElem?_eq_none h] at hd; simp at hd
  refine ⟨hlt, ?_⟩
  rw [h.dbs, List.getElem?_map, List.getElem?_range hlt] at hd
  simpa using hd.symm

theorem Ok.call {f : Nat → K → V} {p : Proc K V} (h : Ok f p) (hlen : p.dbs.length ≤ 256) {d : Nat}
    (hd : d < p.dbs.length) (k : K) : ∃ p', p.call f d k = some (f d k, p') ∧ Ok f p' ∧ p'.dbs = p.dbs := by
  have hgd : p.dbs[d]? = some (UInt8.ofNat d) := by
    rw [h.dbs, List.getElem?_map, List.getElem?_range hd]; rfl
  have hn : (UInt8.ofNat d).toNat = d := by
    rw [UInt8.toNat_ofNat']; exact Nat.mod_eq_of_lt (by omega)
  have hdl : d < (grow p.tables d).length := by
    simp only [grow]; split
    · simp; omega
    · omega
  obtain ⟨t, ht⟩ : ∃ t, (grow p.tables d)[d]? = some t := ⟨_, List.getElem?_eq_getElem hdl⟩
  have hT : ∀ d' (i : UInt8) t, p.dbs[d']? = some i → (grow p.tables d)[i.toNat]? = some t →
      ∀ k v, AMap.get? t k = some v → v = f d' k := by
    intro d' i t hd' ht' k v hv
    rcases grow_get _ _ _ _ ht' with h1 | h1
    · exact h.tables d' i t hd' h1 k v hv
    · subst h1; simp at hv
  simp only [Proc.call, hgd, hn, ht, Option.bind_eq_bind, Option.bind_some]
  cases hk : AMap.get? t k with
  | some v =>
    have := hT d _ t hgd (by rw [hn]; exact ht) k v hk
    subst this
    refine ⟨_, rfl, ⟨hT, h.dbs, h.next, ?_⟩, rfl⟩
    intro j t' hj hjt
    rcases grow_get _ _ _ _ hjt with h1 | h1
    · exact h.fresh j t' hj h1
    · exact h1
  | none =>
    refine ⟨_, rfl, ⟨?_, h.dbs, h.next, ?_⟩, rfl⟩
    · intro d' i t' hd' ht' k' v' hv'
      simp only at hd' ht'
      obtain ⟨hlt, rfl⟩ := h.dbs_get hd'
      have hn' : (UInt8.ofNat d').toNat = d' := by
        rw [UInt8.toNat_ofNat']; exact Nat.mod_eq_of_lt (by omega)
      rw [hn', List.getElem?_set] at ht'
      by_cases hdd : d = d'
      · subst hdd
        simp only [if_true, hdl] at ht'
        simp only [Option.some.injEq] at ht'
        subst ht'
        by_cases hkk : k = k'
        · subst hkk; rw [AMap.get?_insert_self] at hv'; exact (Option.some.inj hv').symm
        · rw [AMap.get?_insert_ne _ _ hkk] at hv'
          exact hT d _ t hgd (by rw [hn]; exact ht) k' v' hv'
      · simp only [hdd, if_false] at ht'
        exact hT d' _ t' hd' (by rw [hn']; exact ht') k' v' hv'
    · intro j t' hj hjt
      simp only at hj hjt
      rw [List.getElem?_set_ne (by omega)] at hjt
      rcases grow_get _ _ _ _ hjt with h1 | h1
      · exact h.fresh j t' hj h1
      · exact h1

theorem Ok.newDb {f : Nat → K → V} {p : Proc K V} (h : Ok f p) (hlen : p.dbs.length < 256) : Ok f p.newDb := by
  have hl : p.newDb.dbs.length = p.dbs.length + 1 := by simp [Proc.newDb]
  refine ⟨?_, ?_, ?_, ?_⟩
  · intro d i t hd ht k v hv
    simp only [Proc.newDb] at hd ht
    rw [List.getElem?_append] at hd
    split at hd
    · exact h.tables d i t hd ht k v hv
    · rename_i hge
      have h0 : d - p.dbs.length = 0 := by
        cases hx : d - p.dbs.length with
        | zero => rfl
        | succ n => rw [hx] at hd; simp at hd
      rw [h0] at hd
      simp only [List.getElem?_cons_zero, Option.some.injEq] at hd
      subst hd
      rw [h.next] at ht
      have := h.fresh _ t (by rw [UInt8.toNat_ofNat', Nat.mod_eq_of_lt (by omega)]; exact Nat.le_refl _) ht
      subst this; simp at hv
  · rw [hl, List.range_succ, List.map_append, ← h.dbs]
    simp [Proc.newDb, h.next]
  · rw [hl]
    simp only [Proc.newDb, h.next]
    rw [UInt8.ofNat_add]; rfl
  · intro j t hj ht
    exact h.fresh j t (by omega) ht

/-- What a user expects: the calls of a history on the `d`-th database created so far return what that
database's own body computes; calls on databases not yet created do not exist. `n` counts the databases. -/
def expected (f : Nat → K → V) : Nat → List (Op K) → List (Nat × K × Option V)
  | _, [] => []
  | n, .newDb :: ops => expected f (n + 1) ops
  | n, .call d k :: ops => (d, k, if d < n then some (f d k) else none) :: expected f n ops

/-- C32: as long as at most 256 databases are created, every call on an existing database succeeds and
returns what its own body computes, whatever calls were made on other databases: databases are isolated. -/
theorem databases_isolated (f : Nat → K → V) (ops : List (Op K)) (h : created ops ≤ 256) :
    exec f .init ops = expected f 0 ops := by
  have hgen : ∀ (ops : List (Op K)) (p : Proc K V), Ok f p → p.dbs.length + created ops ≤ 256 →
      exec f p ops = expected f p.dbs.length ops := by
    intro ops
    induction ops with
    | nil => intro p _ _; simp [exec, expected]
    | cons o ops ih =>
      intro p hp hc
      cases o with
      | newDb =>
        simp only [exec, expected]
        have hcr : created (.newDb :: ops) = created ops + 1 := by simp [created]
        rw [hcr] at hc
        rw [ih p.newDb (hp.newDb (by omega)) (by simp [Proc.newDb]; omega)]
        simp [Proc.newDb]
      | call d k =>
        have hcr : created (.call d k :: ops) = created ops := by simp [created]
        rw [hcr] at hc
        simp only [exec, expected]
        by_cases hd : d < p.dbs.length
        · obtain ⟨p', e1, e2, e3⟩ := hp.call (by omega) hd k
          rw [e1]
          simp only [hd, if_true]
          rw [ih p' e2 (by rw [e3]; exact hc), e3]
        · have hn : p.call f d k = none := by
            simp [Proc.call, List.getElem?_eq_none (Nat.le_of_not_lt hd)]
          rw [hn]
          simp only [hd, if_false]
          rw [ih p hp hc]
  refine hgen ops .init ⟨?_, rfl, rfl, ?_⟩ (by simpa [Proc.init] using h)
  · intro d i t hd; simp [Proc.init] at hd
  · intro j t _ ht
    simp only [Proc.init] at ht
    cases j with
    | zero => simpa using ht.symm
    | succ j => simp at ht

theorem iterate_newDb (n : Nat) (p : Proc K V) :
    (Proc.newDb^[n] p).tables = p.tables ∧ (Proc.newDb^[n] p).next = p.next + UInt8.ofNat n ∧
    (Proc.newDb^[n] p).dbs = p.dbs ++ (List.range n).map (fun i => p.next + UInt8.ofNat i) := by
  induction n with
  | zero => simp
  | succ n ih =>
    rw [Function.iterate_succ_apply']
    obtain ⟨h1, h2, h3⟩ := ih
    refine ⟨h1, ?_, ?_⟩
    · show (Proc.newDb^[n] p).next + 1 = _
      rw [h2, UInt8.ofNat_add, UInt8.add_assoc]; rfl
    · show (Proc.newDb^[n] p).dbs ++ [(Proc.newDb^[n] p).next] = _
      rw [h3, h2, List.range_succ]; simp

/-- C32 needs its bound: `__db_index` is a `u8` that wraps, so the 257th database shares the table of the
first. After calling `f` for `k` on the first database and creating 256 more, the same call on the newest
database returns the first database's value, whatever its own body computes. -/
theorem databases_257_collide (f : Nat → K → V) (k : K) :
    ∃ p, (Proc.init.newDb.call f 0 k) = some (f 0 k, p) ∧
      ∃ p', (Proc.newDb^[256] p).call f 256 k = some (f 0 k, p') := by
  refine ⟨⟨1, [[(k, f 0 k)]], [0]⟩, rfl, ?_⟩
  obtain ⟨h1, h2, h3⟩ := iterate_newDb 256 (⟨1, [[(k, f 0 k)]], [0]⟩ : Proc K V)
  have hd : (Proc.newDb^[256] (⟨1, [[(k, f 0 k)]], [0]⟩ : Proc K V)).dbs[256]? = some 0 := by
    rw [h3]
    show ([(0 : UInt8)] ++ _)[256]? = some 0
    rw [List.getElem?_append_right (by simp)]
    simp
  generalize Proc.newDb^[256] (⟨1, [[(k, f 0 k)]], [0]⟩ : Proc K V) = q at h1 hd
  refine ⟨{ q with tables := [[(k, f 0 k)]] }, ?_⟩
  simp only [Proc.call, hd, h1, Option.bind_eq_bind, Option.bind_some]
  simp [grow, AMap.get?]

/-- Non-vacuity: two databases, interleaved calls, a cache hit. -/
example : exec (fun d (k : Nat) => d * 100 + k) .init
    [.newDb, .newDb, .call 0 7, .call 1 7, .call 1 7, .call 5 1] =
    [(0, 7, some 7), (1, 7, some 107), (1, 7, some 107), (5, 1, none)] := rfl

end Verif.Memo.DbIndex

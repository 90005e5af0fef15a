import Verif.Memo.Lemmas
import Mathlib.Data.Fintype.Pigeonhole
import Mathlib.Data.Fintype.Card
/- Properties C11-C15 of memoised databases. -/
namespace Verif.Memo
open Verif
variable {K V : Type} [DecidableEq K]

/-! ### Reachable states -/

theorem Between.inv {sys : Sys K V} {s : St K V} (h : Between sys s) : Inv s ∧ s.active = [] := by
  induction h with
  | init => exact ⟨Inv.init, rfl⟩
  | call _ hc ih =>
    obtain ⟨i, f, -⟩ := (call_frame sys _ _ _ ih.1).2 _ _ hc
    refine ⟨i, ?_⟩
    have := f.keys
    rw [ih.2] at this
    simpa [AMap.keys] using this

theorem Arrives.inv {sys : Sys K V} {p : Prog K V} {s s' : St K V} {k : K} (h : Arrives sys p s k s')
    (hi : Inv s) : Inv s' ∧ Frame s s' := by
  induction h with
  | here => exact ⟨hi, Frame.refl _⟩
  | later hc _ ih =>
    obtain ⟨i, f, -⟩ := (call_frame sys _ _ _ hi).2 _ _ hc
    obtain ⟨i2, f2⟩ := ih i
    exact ⟨i2, f.trans f2⟩

theorem Inv.enter {s : St K V} (hi : Inv s) {j : K} (ha : AMap.get? s.active j = none) :
    Inv ({ s with active := AMap.insert s.active j false, runs := j :: s.runs } : St K V) :=
  ⟨AMap.nodup_insert _ _ _ hi.nodup, by simp [countYes_insert_absent _ _ ha, hi.count]⟩

theorem Mid.inv {sys : Sys K V} {s : St K V} {k : K} (h : Mid sys s k) : Inv s := by
  induction h with
  | top hb => exact hb.inv.1
  | sub _ _ ha har ih => exact (har.inv (ih.enter ha)).1

/-! ### Plain evaluation -/

theorem Eval.det {body : K → Prog K V} {p : Prog K V} {v w : V} (h1 : Eval body p v) (h2 : Eval body p w) : v = w := by
  induction h1 generalizing w with
  | ret v => cases h2; rfl
  | ask _ _ ih1 ih2 =>
    cases h2 with
    | ask a b => have := ih1 a; subst this; exact ih2 b

/-- Plain recursion on body `p` asks for `k`. -/
inductive Asks (body : K → Prog K V) : Prog K V → K → Prop
  | here {k : K} {c : V → Prog K V} : Asks body (.ask k c) k
  | later {k : K} {c : V → Prog K V} {w : V} {k' : K} :
      Eval body (body k) w → Asks body (c w) k' → Asks body (.ask k c) k'

def Dep (sys : Sys K V) (j k : K) : Prop := Asks sys.body (sys.body j) k

theorem Asks.denotes {sys : Sys K V} {p : Prog K V} {k : K} (h : Asks sys.body p k) {v : V} (hv : Eval sys.body p v) :
    ∃ w, Denotes sys k w := by
  induction h generalizing v with
  | here => cases hv with | ask a _ => exact ⟨_, a⟩
  | later hw _ ih =>
    cases hv with
    | ask a b => have := a.det hw; subst this; exact ih b

theorem denotes_acc {sys : Sys K V} {p : Prog K V} {v : V} (h : Eval sys.body p v) :
    ∀ k, Asks sys.body p k → Acc (fun a b => Dep sys b a) k := by
  induction h with
  | ret v => intro k h; cases h
  | ask hw _ ih1 ih2 =>
    intro k h
    cases h with
    | here => exact ⟨_, fun y hy => ih1 y hy⟩
    | later hw' hk => have := hw.det hw'; subst this; exact ih2 k hk

/-- `Dep⁺`. -/
abbrev DepPlus (sys : Sys K V) := Relation.TransGen (Dep sys)

theorem DepPlus.denotes {sys : Sys K V} {a b : K} (h : DepPlus sys a b) {v : V} (hv : Denotes sys a v) :
    ∃ w, Denotes sys b w := by
  induction h with
  | single h => exact h.denotes hv
  | tail _ h ih => obtain ⟨w, hw⟩ := ih; exact h.denotes hw

theorem not_depPlus_self {sys : Sys K V} {a : K} {v : V} (hv : Denotes sys a v) : ¬ DepPlus sys a a := by
  have hacc : Acc (fun x y => Dep sys y x) a := ⟨_, fun y hy => denotes_acc hv y hy⟩
  have hacc2 := hacc.transGen
  intro h
  have h' : Relation.TransGen (fun x y => Dep sys y x) a a := (Relation.transGen_swap (r := Dep sys)).2 h
  clear h hacc hv
  revert h'
  induction hacc2 with
  | intro x _ ih => intro h; exact ih x h h

/-- The cache agrees with the plain recursive functions. -/
def MemoOk (sys : Sys K V) (s : St K V) : Prop := ∀ j w v, Cached s j w → Denotes sys j v → w = v

/-- Stack condition: a query in progress that denotes is waiting for `k`. -/
def StackOk (sys : Sys K V) (s : St K V) (k : K) : Prop :=
  ∀ a, InProgress s a → (∃ v, Denotes sys a v) → DepPlus sys a k

/-- State of the execution of the body of `j` when the program `p` remains to be run. -/
structure Running (sys : Sys K V) (j : K) (p : Prog K V) (s : St K V) : Prop where
  inv : Inv s
  memo : MemoOk sys s
  stack : ∀ a, InProgress s a → (∃ v, Denotes sys a v) → a = j ∨ DepPlus sys a j
  dep : (∃ v, Denotes sys j v) → (∃ v, Eval sys.body p v) ∧ ∀ k, Asks sys.body p k → Dep sys j k

theorem Running.stackOk {sys : Sys K V} {j k : K} {c : V → Prog K V} {s : St K V}
    (h : Running sys j (.ask k c) s) : StackOk sys s k := by
  intro a ha hda
  rcases h.stack a ha hda with rfl | hp
  · exact .single ((h.dep hda).2 k .here)
  · obtain ⟨va, hva⟩ := hda
    exact .tail hp ((h.dep (hp.denotes hva)).2 k .here)

theorem Running.step {sys : Sys K V} {j k : K} {c : V → Prog K V} {s s1 : St K V} {v1 : V}
    (h : Running sys j (.ask k c) s) (hi : Inv s1) (hf : Frame s s1) (hm : MemoOk sys s1)
    (hv : ∀ w, Denotes sys k w → v1 = w) : Running sys j (c v1) s1 := by
  refine ⟨hi, hm, fun a ha => h.stack a (by simpa [InProgress, hf.keys] using ha), ?_⟩
  intro hj
  obtain ⟨⟨u, hu⟩, hk⟩ := h.dep hj
  cases hu with
  | ask e1 e2 =>
    have := hv _ e1
    subst this
    exact ⟨⟨u, e2⟩, fun k' hk' => hk k' (.later e1 hk')⟩

theorem Running.enter {sys : Sys K V} {k : K} {s : St K V} (hi : Inv s) (hm : MemoOk sys s) (hst : StackOk sys s k)
    (ha : AMap.get? s.active k = none) :
    Running sys k (sys.body k) { s with active := AMap.insert s.active k false, runs := k :: s.runs } := by
  refine ⟨hi.enter ha, hm, ?_, fun hk => ⟨hk, fun k' hk' => hk'⟩⟩
  intro a hia hda
  rcases (AMap.keys_insert_mem _ _ _ _).1 hia with h | h
  · exact .inl h
  · exact .inr (hst a h hda)

theorem finish_ok {k : K} {v v' : V} {s s' : St K V} (h : finish k v s = .ok (v', s')) :
    v' = v ∧ s'.active = AMap.erase s.active k ∧ s'.runs = s.runs ∧ s'.hits = s.hits ∧
      s'.memo = (if s'.unwinding = 0 then AMap.insert s.memo k v else s.memo) := by
  simp only [finish] at h
  split at h
  · simp at h
  · split at h
    · simp at h
    · rename_i found _ _
      simp only [Out.ok.injEq, Prod.mk.injEq] at h
      obtain ⟨rfl, rfl⟩ := h
      cases found
      · by_cases h0 : s.unwinding = 0 <;> simp [h0]
      · by_cases h0 : s.unwinding - 1 = 0 <;> simp [h0]

theorem call_sound (sys : Sys K V) (n : Nat) : ∀ (k : K) (s : St K V), Inv s → MemoOk sys s → StackOk sys s k →
    ∀ v s', call sys n k s = .ok (v, s') → MemoOk sys s' ∧ ∀ w, Denotes sys k w → v = w := by
  induction n with
  | zero => intro k s _ _ _ v s' h; simp [call] at h
  | succ n ih =>
    have hrun : ∀ (j : K) (p : Prog K V) (s : St K V), Running sys j p s →
        ∀ v s', run (call sys n) p s = .ok (v, s') → MemoOk sys s' ∧
          ((∃ v, Denotes sys j v) → Eval sys.body p v) := by
      intro j p
      induction p with
      | ret v =>
        intro s hs w s' h
        simp only [run, Out.ok.injEq, Prod.mk.injEq] at h
        obtain ⟨rfl, rfl⟩ := h
        exact ⟨hs.memo, fun _ => .ret _⟩
      | ask k c ihp =>
        intro s hs w s' h
        simp only [run] at h
        cases hc : call sys n k s with
        | ok r =>
          obtain ⟨v1, s1⟩ := r
          rw [hc] at h
          obtain ⟨hm1, hv1⟩ := ih k s hs.inv hs.memo hs.stackOk v1 s1 hc
          obtain ⟨i1, f1, -⟩ := (call_frame sys _ _ _ hs.inv).2 _ _ hc
          have := ihp v1 s1 (hs.step i1 f1 hm1 hv1) w s' h
          refine ⟨this.1, fun hj => ?_⟩
          have hev := this.2 hj
          obtain ⟨⟨u, hu⟩, -⟩ := hs.dep hj
          cases hu with
          | ask e1 e2 =>
            have := hv1 _ e1
            subst this
            exact .ask e1 hev
        | more => rw [hc] at h; simp at h
        | cyclePanic => rw [hc] at h; simp at h
        | internalPanic => rw [hc] at h; simp at h
        | underflow => rw [hc] at h; simp at h
    intro k s hi hm hst v s' h
    simp only [call] at h
    cases hmk : AMap.get? s.memo k with
    | some v0 =>
      simp only [hmk, Out.ok.injEq, Prod.mk.injEq] at h
      obtain ⟨rfl, rfl⟩ := h
      exact ⟨hm, fun w hw => hm k _ w hmk hw⟩
    | none =>
      simp only [hmk] at h
      cases ha : AMap.get? s.active k with
      | some found =>
        simp only [ha, hitCycle] at h
        have hnd : ∀ w, ¬ Denotes sys k w := fun w hw =>
          not_depPlus_self hw (hst k ((AMap.mem_keys_iff _ _).2 ⟨_, ha⟩) ⟨w, hw⟩)
        cases hd : sys.onCycle k with
        | none => simp [hd] at h
        | some d =>
          simp only [hd, Out.ok.injEq, Prod.mk.injEq] at h
          obtain ⟨rfl, rfl⟩ := h
          refine ⟨?_, fun w hw => absurd hw (hnd w)⟩
          cases found <;> exact hm
      | none =>
        simp only [ha] at h
        cases hr : run (call sys n) (sys.body k) { s with active := AMap.insert s.active k false, runs := k :: s.runs } with
        | ok r =>
          obtain ⟨v1, s1⟩ := r
          simp only [hr] at h
          have := hrun k (sys.body k) _ (Running.enter hi hm hst ha) v1 s1 hr
          obtain ⟨rfl, -, -, -, hb⟩ := finish_ok h
          refine ⟨?_, fun w hw => (this.2 ⟨w, hw⟩).det hw⟩
          intro j w u hc hu
          simp only [Cached, hb] at hc
          split at hc
          · by_cases hjk : k = j
            · subst hjk
              rw [AMap.get?_insert_self] at hc
              simp only [Option.some.injEq] at hc
              subst hc
              exact (this.2 ⟨u, hu⟩).det hu
            · rw [AMap.get?_insert_ne _ _ hjk] at hc; exact this.1 j w u hc hu
          · exact this.1 j w u hc hu
        | more => simp [hr] at h
        | cyclePanic => simp [hr] at h
        | internalPanic => simp [hr] at h
        | underflow => simp [hr] at h

/-! ### Fuel -/

theorem run_mono {c1 c2 : K → St K V → Out (V × St K V)}
    (hc : ∀ k s, c1 k s ≠ .more → c2 k s = c1 k s) (p : Prog K V) :
    ∀ s, run c1 p s ≠ .more → run c2 p s = run c1 p s := by
  induction p with
  | ret v => intro s _; rfl
  | ask k c ih =>
    intro s h
    simp only [run] at h ⊢
    have h1 : c1 k s ≠ .more := by intro e; simp [e] at h
    rw [hc k s h1]
    cases hk : c1 k s with
    | ok r => rw [hk] at h; exact ih _ _ h
    | _ => rfl

theorem call_mono_succ (sys : Sys K V) (n : Nat) : ∀ k s, call sys n k s ≠ .more → call sys (n + 1) k s = call sys n k s := by
  induction n with
  | zero => intro k s h; simp [call] at h
  | succ n ih =>
    intro k s h
    rw [call, call]
    rw [call] at h
    cases hm : AMap.get? s.memo k with
    | some v => rfl
    | none =>
      cases ha : AMap.get? s.active k with
      | some f => rfl
      | none =>
        simp only [hm, ha] at h ⊢
        have h1 : run (call sys n) (sys.body k) { s with active := AMap.insert s.active k false, runs := k :: s.runs } ≠ .more := by
          intro e; simp [e] at h
        rw [run_mono ih _ _ h1]

theorem call_mono (sys : Sys K V) {n m : Nat} (h : n ≤ m) {k : K} {s : St K V} (hk : call sys n k s ≠ .more) :
    call sys m k s = call sys n k s := by
  induction h with
  | refl => rfl
  | step _ ih => rw [call_mono_succ _ _ _ _ (by rw [ih]; exact hk), ih]

theorem call_ok_mono (sys : Sys K V) {n m : Nat} (h : n ≤ m) {k : K} {s : St K V} {r : V × St K V}
    (hk : call sys n k s = .ok r) : call sys m k s = .ok r := by
  rw [call_mono sys h (by rw [hk]; simp), hk]

theorem run_ok_mono (sys : Sys K V) {n m : Nat} (h : n ≤ m) {p : Prog K V} {s : St K V} {r : V × St K V}
    (hk : run (call sys n) p s = .ok r) : run (call sys m) p s = .ok r := by
  rw [run_mono (c1 := call sys n) (c2 := call sys m) (fun k s hne => call_mono sys h hne) _ _ (by rw [hk]; simp), hk]

/-! ### Completeness on acyclic queries -/

theorem run_total {sys : Sys K V} {p : Prog K V} {v : V} (h : Eval sys.body p v) :
    ∀ (j : K) (s : St K V), Running sys j p s → ∃ n s', run (call sys n) p s = .ok (v, s') := by
  induction h with
  | ret v => intro j s _; exact ⟨0, s, rfl⟩
  | @ask k c w v hw hv ih1 ih2 =>
    intro j s hs
    have hcall : ∃ n s1, call sys n k s = .ok (w, s1) := by
      cases hmk : AMap.get? s.memo k with
      | some v0 =>
        have := hs.memo k v0 w hmk hw
        subst this
        exact ⟨1, s, by simp [call, hmk]⟩
      | none =>
        cases ha : AMap.get? s.active k with
        | some found =>
          exact absurd (hs.stackOk k ((AMap.mem_keys_iff _ _).2 ⟨_, ha⟩) ⟨w, hw⟩) (not_depPlus_self hw)
        | none =>
          obtain ⟨n, s1, hr⟩ := ih1 k _ (Running.enter hs.inv hs.memo hs.stackOk ha)
          have hg := (call_frame sys (n + 1) k s hs.inv).1
          simp only [call, hmk, ha, hr] at hg
          cases hf : finish k w s1 with
          | ok r =>
            obtain ⟨v', s2⟩ := r
            obtain ⟨rfl, -⟩ := finish_ok hf
            exact ⟨n + 1, s2, by simp [call, hmk, ha, hr, hf]⟩
          | internalPanic => rw [hf] at hg; exact absurd hg id
          | underflow => rw [hf] at hg; exact absurd hg id
          | more => simp only [finish] at hf; split at hf <;> (try split at hf) <;> simp at hf
          | cyclePanic => simp only [finish] at hf; split at hf <;> (try split at hf) <;> simp at hf
    obtain ⟨n1, s1, h1⟩ := hcall
    obtain ⟨hm1, hv1⟩ := call_sound sys n1 k s hs.inv hs.memo hs.stackOk w s1 h1
    obtain ⟨i1, f1, -⟩ := (call_frame sys _ _ _ hs.inv).2 _ _ h1
    obtain ⟨n2, s2, h2⟩ := ih2 j s1 (hs.step i1 f1 hm1 hv1)
    refine ⟨max n1 n2, s2, ?_⟩
    simp only [run, call_ok_mono sys (Nat.le_max_left n1 n2) h1]
    exact run_ok_mono sys (Nat.le_max_right n1 n2) h2

theorem Between.memoOk {sys : Sys K V} {s : St K V} (h : Between sys s) : MemoOk sys s := by
  induction h with
  | init => intro j w v h; simp [Cached, St.init] at h
  | call hb hc ih =>
    refine (call_sound sys _ _ _ hb.inv.1 ih ?_ _ _ hc).1
    intro a ha; simp [InProgress, hb.inv.2, AMap.keys] at ha

theorem Arrives.running {sys : Sys K V} {p : Prog K V} {s s' : St K V} {k : K} (h : Arrives sys p s k s') :
    ∀ j, Running sys j p s → ∃ c, Running sys j (.ask k c) s' := by
  induction h with
  | here => intro j h; exact ⟨_, h⟩
  | later hc _ ih =>
    intro j hs
    obtain ⟨hm1, hv1⟩ := call_sound sys _ _ _ hs.inv hs.memo hs.stackOk _ _ hc
    obtain ⟨i1, f1, -⟩ := (call_frame sys _ _ _ hs.inv).2 _ _ hc
    exact ih j (hs.step i1 f1 hm1 hv1)

theorem Mid.ok {sys : Sys K V} {s : St K V} {k : K} (h : Mid sys s k) : MemoOk sys s ∧ StackOk sys s k := by
  induction h with
  | top hb =>
    refine ⟨hb.memoOk, ?_⟩
    intro a ha; simp [InProgress, hb.inv.2, AMap.keys] at ha
  | sub hm hmk ha har ih =>
    obtain ⟨c, hc⟩ := har.running _ (Running.enter hm.inv ih.1 ih.2 ha)
    exact ⟨hc.memo, hc.stackOk⟩

/-! ### C11 -/

/-- C11: a query whose plain recursion terminates with `v` returns `v` (and does not panic) through the
database, at any moment of any history: whatever was called before, and whatever (possibly cyclic)
queries are in progress. -/
theorem acyclic_query_correct {sys : Sys K V} {s : St K V} {k : K} (hs : Mid sys s k) {v : V}
    (hv : Denotes sys k v) : ∃ N s', ∀ n, N ≤ n → call sys n k s = .ok (v, s') := by
  obtain ⟨hm, hst⟩ := hs.ok
  have hcall : ∃ n s1, call sys n k s = .ok (v, s1) := by
    cases hmk : AMap.get? s.memo k with
    | some v0 =>
      have := hm k v0 v hmk hv
      subst this
      exact ⟨1, s, by simp [call, hmk]⟩
    | none =>
      cases ha : AMap.get? s.active k with
      | some found =>
        exact absurd (hst k ((AMap.mem_keys_iff _ _).2 ⟨_, ha⟩) ⟨v, hv⟩) (not_depPlus_self hv)
      | none =>
        obtain ⟨n, s1, hr⟩ := run_total hv k _ (Running.enter hs.inv hm hst ha)
        have hg := (call_frame sys (n + 1) k s hs.inv).1
        simp only [call, hmk, ha, hr] at hg
        cases hf : finish k v s1 with
        | ok r =>
          obtain ⟨v', s2⟩ := r
          obtain ⟨rfl, -⟩ := finish_ok hf
          exact ⟨n + 1, s2, by simp [call, hmk, ha, hr, hf]⟩
        | internalPanic => rw [hf] at hg; exact absurd hg id
        | underflow => rw [hf] at hg; exact absurd hg id
        | more => simp only [finish] at hf; split at hf <;> (try split at hf) <;> simp at hf
        | cyclePanic => simp only [finish] at hf; split at hf <;> (try split at hf) <;> simp at hf
  obtain ⟨n, s1, h⟩ := hcall
  exact ⟨n, s1, fun m hm => call_ok_mono sys hm h⟩

/-- C11: cached values of acyclic queries are the plain values. -/
theorem acyclic_cache_correct {sys : Sys K V} {s : St K V} {j : K} (hs : Mid sys s j) {k : K} {v w : V}
    (hv : Denotes sys k v) (hc : Cached s k w) : w = v := hs.ok.1 k w v hc hv

/-! ### C14 -/

/-- C14: the internal assertions of the bookkeeping never fire, in any call of any history. -/
theorem bookkeeping_never_panics {sys : Sys K V} {s : St K V} {k : K} (hs : Mid sys s k) (n : Nat) :
    call sys n k s ≠ .internalPanic ∧ call sys n k s ≠ .underflow := by
  have := (call_frame sys n k s hs.inv).1
  constructor <;> intro h <;> rw [h] at this <;> exact this

/-- C14: whenever a top-level call returns, nothing is in progress, the open-cycle counter is zero, the
cache has only grown, and repeating the call returns the same value without changing anything (so no body
is run). -/
theorem top_level_balanced {sys : Sys K V} {s : St K V} (hs : Between sys s) {n : Nat} {k : K} {v : V} {s' : St K V}
    (h : call sys n k s = .ok (v, s')) :
    (∀ a, ¬ InProgress s' a) ∧ s'.unwinding = 0 ∧ (∀ j w, Cached s j w → Cached s' j w) ∧ Cached s' k v ∧
      ∀ m, call sys (m + 1) k s' = .ok (v, s') := by
  have hb' : Between sys s' := .call hs h
  obtain ⟨i, f, hcache⟩ := (call_frame sys _ _ _ hs.inv.1).2 _ _ h
  have h0 : s'.unwinding = 0 := by rw [i.count, hb'.inv.2]; rfl
  have hc : Cached s' k v := hcache h0 (by simp [InProgress, hs.inv.2, AMap.keys])
  refine ⟨by simp [InProgress, hb'.inv.2, AMap.keys], h0, f.memo, hc, ?_⟩
  intro m
  have : AMap.get? s'.memo k = some v := hc
  simp [call, this]

/-- C14: at every moment of every history the counter is the number of queries in progress that were hit
by a cycle, calls leave the set of queries in progress as they found it, and cached values never change. -/
theorem calls_are_balanced {sys : Sys K V} {s : St K V} {k : K} (hs : Mid sys s k) {n : Nat} {v : V} {s' : St K V}
    (h : call sys n k s = .ok (v, s')) :
    (∀ a, InProgress s' a ↔ InProgress s a) ∧ (∀ j w, Cached s j w → Cached s' j w) ∧
      s'.unwinding = (s'.active.filter (fun p => p.2)).length := by
  obtain ⟨i, f, -⟩ := (call_frame sys _ _ _ hs.inv).2 _ _ h
  exact ⟨fun a => by simp [InProgress, f.keys], f.memo, by rw [i.count, countYes, List.countP_eq_length_filter]⟩

theorem run_frame (sys : Sys K V) (n : Nat) : ∀ (p : Prog K V) (s : St K V), Inv s → ∀ v s',
    run (call sys n) p s = .ok (v, s') → Frame s s' ∧ Inv s' := by
  intro p
  induction p with
  | ret v =>
    intro s hi v s' h
    simp only [run, Out.ok.injEq, Prod.mk.injEq] at h
    obtain ⟨rfl, rfl⟩ := h
    exact ⟨Frame.refl _, hi⟩
  | ask k c ihp =>
    intro s hi v s' h
    simp only [run] at h
    cases hc : call sys n k s with
    | ok r =>
      obtain ⟨v1, s1⟩ := r
      rw [hc] at h
      obtain ⟨i1, f1, -⟩ := (call_frame sys _ _ _ hi).2 _ _ hc
      obtain ⟨f2, i2⟩ := ihp v1 s1 i1 v s' h
      exact ⟨f1.trans f2, i2⟩
    | more => rw [hc] at h; simp at h
    | cyclePanic => rw [hc] at h; simp at h
    | internalPanic => rw [hc] at h; simp at h
    | underflow => rw [hc] at h; simp at h

/-! ### C12 -/

/-- Every body started so far belongs to a query that is cached or in progress; none was started twice. -/
def RunsOk (s : St K V) : Prop :=
  s.runs.Nodup ∧ ∀ j ∈ s.runs, (∃ w, Cached s j w) ∨ InProgress s j

theorem Frame.hits_mono {s s' : St K V} (h : Frame s s') : s.hits.length ≤ s'.hits.length := by
  obtain ⟨g, e, -⟩ := h.hits; rw [e]; simp

theorem Frame.hits_eq {s s' : St K V} (h : Frame s s') (he : s'.hits = s.hits) (hi : Inv s) (hi' : Inv s') :
    s.unwinding = 0 → s'.unwinding = 0 := by
  obtain ⟨g, e, _, h3⟩ := h.hits
  have hg : g = [] := by
    have := congrArg List.length (e.symm.trans he)
    simp at this; exact this
  subst hg
  intro h0
  rw [hi'.zero_iff]
  intro a ha
  rcases h3 a ha with h | h
  · exact (hi.zero_iff.1 h0 a) h
  · simp at h

theorem hits_split {s1 s2 s3 : St K V} (h1 : Frame s1 s2) (h2 : Frame s2 s3) (h : s3.hits = s1.hits) :
    s2.hits = s1.hits ∧ s3.hits = s2.hits := by
  obtain ⟨g1, e1, -⟩ := h1.hits
  obtain ⟨g2, e2, -⟩ := h2.hits
  rw [e2, e1] at h
  have := congrArg List.length h
  simp at this
  have hg1 : g1 = [] := List.eq_nil_of_length_eq_zero (by omega)
  have hg2 : g2 = [] := List.eq_nil_of_length_eq_zero (by omega)
  subst hg1; subst hg2
  exact ⟨by simpa using e1, by simpa using e2⟩

theorem call_runsOk (sys : Sys K V) (n : Nat) : ∀ (k : K) (s : St K V), Inv s → s.unwinding = 0 → RunsOk s →
    ∀ v s', call sys n k s = .ok (v, s') → s'.hits = s.hits → RunsOk s' := by
  induction n with
  | zero => intro k s _ _ _ v s' h; simp [call] at h
  | succ n ih =>
    have hrun : ∀ (p : Prog K V) (s : St K V), Inv s → s.unwinding = 0 → RunsOk s →
        ∀ v s', run (call sys n) p s = .ok (v, s') → Frame s s' ∧ Inv s' ∧ (s'.hits = s.hits → RunsOk s') := by
      intro p
      induction p with
      | ret v =>
        intro s hi _ hr w s' h
        simp only [run, Out.ok.injEq, Prod.mk.injEq] at h
        obtain ⟨rfl, rfl⟩ := h
        exact ⟨Frame.refl _, hi, fun _ => hr⟩
      | ask k c ihp =>
        intro s hi h0 hr w s' h
        simp only [run] at h
        cases hc : call sys n k s with
        | ok r =>
          obtain ⟨v1, s1⟩ := r
          rw [hc] at h
          obtain ⟨i1, f1, -⟩ := (call_frame sys _ _ _ hi).2 _ _ hc
          by_cases he : s1.hits = s.hits
          · obtain ⟨f2, i2, r2⟩ := ihp v1 s1 i1 (f1.hits_eq he hi i1 h0) (ih k s hi h0 hr v1 s1 hc he) w s' h
            refine ⟨f1.trans f2, i2, fun hh => r2 (hits_split f1 f2 hh).2⟩
          · have : Frame s1 s' ∧ Inv s' := by
              exact run_frame sys n _ _ i1 _ _ h
            refine ⟨f1.trans this.1, this.2, fun hh => absurd (hits_split f1 this.1 hh).1 he⟩
        | more => rw [hc] at h; simp at h
        | cyclePanic => rw [hc] at h; simp at h
        | internalPanic => rw [hc] at h; simp at h
        | underflow => rw [hc] at h; simp at h
    intro k s hi h0 hr v s' h hh
    have hframe := (call_frame sys _ _ _ hi).2 _ _ h
    simp only [call] at h
    cases hmk : AMap.get? s.memo k with
    | some v0 =>
      simp only [hmk, Out.ok.injEq, Prod.mk.injEq] at h
      obtain ⟨rfl, rfl⟩ := h
      exact hr
    | none =>
      simp only [hmk] at h
      cases ha : AMap.get? s.active k with
      | some found =>
        simp only [ha, hitCycle] at h
        cases hd : sys.onCycle k with
        | none => simp [hd] at h
        | some d =>
          simp only [hd, Out.ok.injEq, Prod.mk.injEq] at h
          obtain ⟨rfl, rfl⟩ := h
          exfalso
          have := congrArg List.length hh
          cases found <;> simp at this
      | none =>
        simp only [ha] at h
        cases hrr : run (call sys n) (sys.body k) { s with active := AMap.insert s.active k false, runs := k :: s.runs } with
        | ok r =>
          obtain ⟨v1, s1⟩ := r
          simp only [hrr] at h
          have hkk : k ∈ AMap.keys (AMap.insert s.active k false) := (AMap.keys_insert_mem _ _ _ _).2 (.inl rfl)
          obtain ⟨f1, i1, r1⟩ := hrun (sys.body k) _ (hi.enter ha) h0 (by
            refine ⟨List.nodup_cons.2 ⟨?_, hr.1⟩, ?_⟩
            · intro hk
              rcases hr.2 k hk with ⟨w, hw⟩ | hk
              · rw [Cached, hmk] at hw; simp at hw
              · exact (AMap.get?_eq_none_iff _ _).1 ha hk
            · intro j hj
              rcases List.mem_cons.1 hj with rfl | hj
              · exact .inr hkk
              · rcases hr.2 j hj with h | h
                · exact .inl h
                · exact .inr ((AMap.keys_insert_mem _ _ _ _).2 (.inr h))) v1 s1 hrr
          obtain ⟨rfl, e1, e2, e3, e4⟩ := finish_ok h
          have h1 : s1.hits = s.hits := by rw [← e3, hh]
          have r1 := r1 h1
          have h0' : s'.unwinding = 0 := hframe.2.1.hits_eq hh hi hframe.1 h0
          rw [if_pos h0'] at e4
          refine ⟨by rw [e2]; exact r1.1, ?_⟩
          intro j hj
          rw [e2] at hj
          by_cases hjk : k = j
          · exact .inl ⟨v, by rw [Cached, e4, hjk, AMap.get?_insert_self]⟩
          · rcases r1.2 j hj with ⟨w, hw⟩ | hp
            · exact .inl ⟨w, by rw [Cached, e4, AMap.get?_insert_ne _ _ hjk]; exact hw⟩
            · right
              rw [InProgress, hframe.2.1.keys]
              have : j ∈ AMap.keys (AMap.insert s.active k false) := by rw [← f1.keys]; exact hp
              rcases (AMap.keys_insert_mem _ _ _ _).1 this with h | h
              · exact absurd h.symm hjk
              · exact h
        | more => simp [hrr] at h
        | cyclePanic => simp [hrr] at h
        | internalPanic => simp [hrr] at h
        | underflow => simp [hrr] at h

/-- C12: over any history of calls in which no cycle is hit, no body is started twice. -/
theorem bodies_run_at_most_once {sys : Sys K V} {s : St K V} (hs : Between sys s) (hh : s.hits = []) :
    s.runs.Nodup := by
  suffices h : RunsOk s from h.1
  induction hs with
  | init => exact ⟨by simp [St.init], by simp [St.init]⟩
  | @call s n k v s' hb hc ih =>
    obtain ⟨i, f, -⟩ := (call_frame sys _ _ _ hb.inv.1).2 _ _ hc
    have h0 : s.unwinding = 0 := by rw [hb.inv.1.count, hb.inv.2]; rfl
    have hs0 : s.hits = [] := by
      obtain ⟨g, e, -⟩ := f.hits
      rw [e] at hh
      exact (List.append_eq_nil_iff.1 hh).2
    exact call_runsOk sys n k s hb.inv.1 h0 (ih hs0) v s' hc (by rw [hh, hs0])

/-- C12: whatever cycles are hit, the body of a query that is already cached is never started again. -/
theorem cached_bodies_never_rerun {sys : Sys K V} {s : St K V} {k : K} (hs : Mid sys s k) {n : Nat} {v : V}
    {s' : St K V} (h : call sys n k s = .ok (v, s')) :
    ∃ started, s'.runs = started ++ s.runs ∧ ∀ j ∈ started, ∀ w, ¬ Cached s j w := by
  obtain ⟨i, f, -⟩ := (call_frame sys _ _ _ hs.inv).2 _ _ h
  obtain ⟨l, e, hl⟩ := f.runs
  refine ⟨l, e, ?_⟩
  intro j hj w hw
  rw [Cached, (hl j hj).1] at hw; simp at hw

/-! ### C13 -/

/-- Decomposition of a successful call that runs the body. -/
theorem call_body {sys : Sys K V} {n : Nat} {k : K} {s s' : St K V} {v : V} (h : call sys n k s = .ok (v, s'))
    (hm : AMap.get? s.memo k = none) (ha : AMap.get? s.active k = none) :
    ∃ m s1, n = m + 1 ∧ run (call sys m) (sys.body k)
      { s with active := AMap.insert s.active k false, runs := k :: s.runs } = .ok (v, s1) ∧ finish k v s1 = .ok (v, s') := by
  cases n with
  | zero => simp [call] at h
  | succ m =>
    simp only [call, hm, ha] at h
    cases hr : run (call sys m) (sys.body k) { s with active := AMap.insert s.active k false, runs := k :: s.runs } with
    | ok r =>
      obtain ⟨v1, s1⟩ := r
      simp only [hr] at h
      obtain ⟨rfl, -⟩ := finish_ok h
      exact ⟨m, s1, rfl, hr, h⟩
    | more => simp [hr] at h
    | cyclePanic => simp [hr] at h
    | internalPanic => simp [hr] at h
    | underflow => simp [hr] at h

theorem cached_zero {sys : Sys K V} {s : St K V} {k : K} (hs : Inv s) {n : Nat} {v : V}
    {s' : St K V} (h : call sys n k s = .ok (v, s')) (hnew : ∀ w, ¬ Cached s k w) (hc : ∃ w, Cached s' k w)
    (hk : ¬ InProgress s k) : s'.unwinding = 0 := by
  have hm : AMap.get? s.memo k = none := by
    cases hm : AMap.get? s.memo k with
    | none => rfl
    | some w => exact absurd hm (hnew w)
  have ha : AMap.get? s.active k = none := (AMap.get?_eq_none_iff _ _).2 hk
  obtain ⟨m, s1, rfl, hr, hf⟩ := call_body h hm ha
  obtain ⟨f1, -⟩ := run_frame sys m _ _ (hs.enter ha) _ _ hr
  obtain ⟨-, -, -, -, e4⟩ := finish_ok hf
  by_cases h0 : s'.unwinding = 0
  · exact h0
  · rw [if_neg h0] at e4
    obtain ⟨w, hw⟩ := hc
    rw [Cached, e4, f1.frozen k ((AMap.keys_insert_mem _ _ _ _).2 (.inl rfl))] at hw
    simp only at hw
    rw [hm] at hw; simp at hw

/-- C13: if the result of a call is in the cache when the call returns but was not before, then no query
whose cycle default was returned during that call (directly or to any nested call) is still in progress,
and no cycle at all is open. -/
theorem cached_result_is_untainted {sys : Sys K V} {s : St K V} {k : K} (hs : Mid sys s k) {n : Nat} {v : V}
    {s' : St K V} (h : call sys n k s = .ok (v, s')) (hnew : ∀ w, ¬ Cached s k w) (hc : ∃ w, Cached s' k w)
    (hk : ¬ InProgress s k) :
    s'.unwinding = 0 ∧ ∃ defaults, s'.hits = defaults ++ s.hits ∧ ∀ a ∈ defaults, ¬ InProgress s' a := by
  obtain ⟨i, f, -⟩ := (call_frame sys _ _ _ hs.inv).2 _ _ h
  have h0 : s'.unwinding = 0 := cached_zero hs.inv h hnew hc hk
  refine ⟨h0, ?_⟩
  obtain ⟨g, e, h2, -⟩ := f.hits
  refine ⟨g, e, ?_⟩
  intro a ha hp
  exact (i.zero_iff.1 h0 a) (h2 a ha (by rw [← f.keys]; exact hp))

/-- `s2` is `s1` with the queries in `B` (in progress and not hit by a cycle) removed from the stack. -/
structure Sim (B : List K) (s1 s2 : St K V) : Prop where
  memo : s2.memo = s1.memo
  unwinding : s2.unwinding = s1.unwinding
  off : ∀ a, a ∉ B → AMap.get? s2.active a = AMap.get? s1.active a
  on1 : ∀ b ∈ B, AMap.get? s1.active b = some false
  on2 : ∀ b ∈ B, AMap.get? s2.active b = none

theorem call_sim (sys : Sys K V) (B : List K) (n : Nat) : ∀ (k : K) (s1 s2 : St K V), Inv s1 → Inv s2 → Sim B s1 s2 →
    ∀ v s1', call sys n k s1 = .ok (v, s1') → (∀ b ∈ B, AMap.get? s1'.active b ≠ some true) →
    ∃ s2', call sys n k s2 = .ok (v, s2') ∧ Sim B s1' s2' := by
  induction n with
  | zero => intro k s1 s2 _ _ _ v s' h; simp [call] at h
  | succ n ih =>
    have hrun : ∀ (p : Prog K V) (s1 s2 : St K V), Inv s1 → Inv s2 → Sim B s1 s2 →
        ∀ v s1', run (call sys n) p s1 = .ok (v, s1') → (∀ b ∈ B, AMap.get? s1'.active b ≠ some true) →
        ∃ s2', run (call sys n) p s2 = .ok (v, s2') ∧ Sim B s1' s2' := by
      intro p
      induction p with
      | ret v =>
        intro s1 s2 _ _ hsim w s' h _
        simp only [run, Out.ok.injEq, Prod.mk.injEq] at h
        obtain ⟨rfl, rfl⟩ := h
        exact ⟨s2, rfl, hsim⟩
      | ask k c ihp =>
        intro s1 s2 i1 i2 hsim w s' h hB
        simp only [run] at h
        cases hc : call sys n k s1 with
        | ok r =>
          obtain ⟨v1, t1⟩ := r
          rw [hc] at h
          obtain ⟨j1, f1, -⟩ := (call_frame sys _ _ _ i1).2 _ _ hc
          obtain ⟨f2, -⟩ := run_frame sys n _ _ j1 _ _ h
          obtain ⟨t2, e1, e2⟩ := ih k s1 s2 i1 i2 hsim v1 t1 hc (fun b hb ht => hB b hb (f2.mono b ht))
          obtain ⟨j2, -, -⟩ := (call_frame sys _ _ _ i2).2 _ _ e1
          obtain ⟨u2, e3, e4⟩ := ihp v1 t1 t2 j1 j2 e2 w s' h hB
          exact ⟨u2, by simp only [run, e1]; exact e3, e4⟩
        | more => rw [hc] at h; simp at h
        | cyclePanic => rw [hc] at h; simp at h
        | internalPanic => rw [hc] at h; simp at h
        | underflow => rw [hc] at h; simp at h
    intro k s1 s2 i1 i2 hsim v s1' h hB
    cases hm : AMap.get? s1.memo k with
    | some v0 =>
      simp only [call, hm, Out.ok.injEq, Prod.mk.injEq] at h
      obtain ⟨rfl, rfl⟩ := h
      exact ⟨s2, by simp [call, hsim.memo, hm], hsim⟩
    | none =>
      cases ha : AMap.get? s1.active k with
      | some found =>
        simp only [call, hm, ha, hitCycle] at h
        cases hd : sys.onCycle k with
        | none => simp [hd] at h
        | some d =>
          simp only [hd, Out.ok.injEq, Prod.mk.injEq] at h
          obtain ⟨rfl, rfl⟩ := h
          have hkB : k ∉ B := by
            intro hk
            apply hB k hk
            cases found <;> exact AMap.get?_insert_self _ _ _
          have ha2 : AMap.get? s2.active k = some found := by rw [hsim.off k hkB, ha]
          have hm2 : AMap.get? s2.memo k = none := by rw [hsim.memo, hm]
          refine ⟨_, by simp only [call, hm2, ha2, hitCycle, hd]; rfl, ?_⟩
          have hne : ∀ b ∈ B, k ≠ b := fun b hb e => hkB (e ▸ hb)
          cases found <;>
          · refine ⟨hsim.memo, by simp [hsim.unwinding], ?_, ?_, ?_⟩
            · intro a haB
              simp only [if_true, if_false, Bool.false_eq_true, AMap.get?_insert]
              split
              · rfl
              · exact hsim.off a haB
            · intro b hb
              simp only [if_true, if_false, Bool.false_eq_true]
              rw [AMap.get?_insert_ne _ _ (hne b hb)]; exact hsim.on1 b hb
            · intro b hb
              simp only [if_true, if_false, Bool.false_eq_true]
              rw [AMap.get?_insert_ne _ _ (hne b hb)]; exact hsim.on2 b hb
      | none =>
        obtain ⟨m, t1, hm1, hr, hf⟩ := call_body h hm ha
        obtain rfl : m = n := by omega
        have hkB : k ∉ B := by
          intro hk; rw [hsim.on1 k hk] at ha; simp at ha
        have hne : ∀ b ∈ B, k ≠ b := fun b hb e => hkB (e ▸ hb)
        have ha2 : AMap.get? s2.active k = none := by rw [hsim.off k hkB, ha]
        obtain ⟨-, e1, -, -, e4⟩ := finish_ok hf
        obtain ⟨f1, j1⟩ := run_frame sys m _ _ (i1.enter ha) _ _ hr
        obtain ⟨t2, g1, g2⟩ := hrun (sys.body k) _
          { s2 with active := AMap.insert s2.active k false, runs := k :: s2.runs } (i1.enter ha) (i2.enter ha2)
          ⟨hsim.memo, hsim.unwinding, by
            intro a haB
            simp only [AMap.get?_insert]
            split
            · rfl
            · exact hsim.off a haB,
           fun b hb => by simp only; rw [AMap.get?_insert_ne _ _ (hne b hb)]; exact hsim.on1 b hb,
           fun b hb => by simp only; rw [AMap.get?_insert_ne _ _ (hne b hb)]; exact hsim.on2 b hb⟩ v t1 hr
          (by
            intro b hb ht
            apply hB b hb
            rw [e1, AMap.get?_erase_ne _ (hne b hb)]; exact ht)
        obtain ⟨-, j2⟩ := run_frame sys m _ _ (i2.enter ha2) _ _ g1
        have hact : AMap.get? t2.active k = AMap.get? t1.active k := g2.off k hkB
        have hfin2 : ∃ s2', finish k v t2 = .ok (v, s2') ∧ s2'.unwinding = s1'.unwinding := by
          simp only [finish] at hf ⊢
          rw [hact, g2.unwinding]
          cases hfd : AMap.get? t1.active k with
          | none => simp [hfd] at hf
          | some found =>
            simp only [hfd] at hf ⊢
            split at hf
            · simp at hf
            · rename_i hnu
              rw [if_neg hnu]
              simp only [Out.ok.injEq, Prod.mk.injEq, true_and] at hf
              refine ⟨_, rfl, ?_⟩
              rw [← hf]
              cases found
              · by_cases h0 : t1.unwinding = 0 <;> simp [h0, g2.unwinding]
              · by_cases h0 : t1.unwinding - 1 = 0 <;> simp [h0, g2.unwinding]
        obtain ⟨s2', hf2, hu2⟩ := hfin2
        obtain ⟨-, d1, -, -, d4⟩ := finish_ok hf2
        have hm2 : AMap.get? s2.memo k = none := by rw [hsim.memo, hm]
        refine ⟨s2', by simp only [call, hm2, ha2, g1]; exact hf2, ?_, hu2, ?_, ?_, ?_⟩
        · rw [d4, e4, hu2, g2.memo]
        · intro a haB
          rw [d1, e1]
          by_cases hak : k = a
          · subst hak
            rw [AMap.get?_erase _ _ _ j2.nodup, AMap.get?_erase _ _ _ j1.nodup]; simp
          · rw [AMap.get?_erase_ne _ hak, AMap.get?_erase_ne _ hak]; exact g2.off a haB
        · intro b hb
          rw [e1, AMap.get?_erase_ne _ (hne b hb)]; exact g2.on1 b hb
        · intro b hb
          rw [d1, AMap.get?_erase_ne _ (hne b hb)]; exact g2.on2 b hb

/-- C13: a newly cached value does not depend on the call stack it was computed under: calling the same
query with the same cache but nothing in progress returns the same value and leaves the same cache. -/
theorem cached_result_independent_of_stack {sys : Sys K V} {s : St K V} {k : K} (hs : Mid sys s k) {n : Nat} {v : V}
    {s' : St K V} (h : call sys n k s = .ok (v, s')) (hnew : ∀ w, ¬ Cached s k w) (hc : ∃ w, Cached s' k w)
    (hk : ¬ InProgress s k) (r g : List K) :
    ∃ s'', call sys n k ⟨s.memo, [], 0, r, g⟩ = .ok (v, s'') ∧ s''.memo = s'.memo := by
  have h0 := cached_zero hs.inv h hnew hc hk
  obtain ⟨i, f, -⟩ := (call_frame sys _ _ _ hs.inv).2 _ _ h
  have hno : ∀ a, AMap.get? s'.active a ≠ some true := i.zero_iff.1 h0
  have h0s : s.unwinding = 0 := hs.inv.zero_iff.2 (fun a ha => hno a (f.mono a ha))
  obtain ⟨s'', e1, e2⟩ := call_sim sys (AMap.keys s.active) n k s ⟨s.memo, [], 0, r, g⟩ hs.inv
    ⟨by simp [AMap.keys], rfl⟩
    ⟨rfl, by simp [h0s], fun a ha => by rw [(AMap.get?_eq_none_iff _ _).2 ha]; rfl,
     fun b hb => by
       obtain ⟨x, hx⟩ := (AMap.mem_keys_iff _ _).1 hb
       cases x with
       | false => exact hx
       | true => exact absurd (f.mono b hx) (hno b),
     fun b _ => rfl⟩ v s' h (fun b _ => hno b)
  exact ⟨s'', e1, e2.memo⟩

/-! ### C15 -/

theorem call_terminates [Fintype K] (sys : Sys K V) (n : Nat) : ∀ (k : K) (s : St K V), Inv s →
    Fintype.card K < n + s.active.length → call sys n k s ≠ .more := by
  induction n with
  | zero =>
    intro k s hi h
    have := hi.nodup.length_le_card
    simp [AMap.keys] at this
    omega
  | succ n ih =>
    have hrun : ∀ (p : Prog K V) (s : St K V), Inv s → Fintype.card K < n + s.active.length →
        run (call sys n) p s ≠ .more := by
      intro p
      induction p with
      | ret v => intro s _ _; simp [run]
      | ask k c ihp =>
        intro s hi h
        simp only [run]
        have h1 := ih k s hi h
        cases hc : call sys n k s with
        | ok r =>
          obtain ⟨v1, s1⟩ := r
          obtain ⟨i1, f1, -⟩ := (call_frame sys _ _ _ hi).2 _ _ hc
          apply ihp v1 s1 i1
          have := congrArg List.length f1.keys
          simp [AMap.keys] at this
          omega
        | more => exact absurd hc h1
        | cyclePanic => simp
        | internalPanic => simp
        | underflow => simp
    intro k s hi h
    simp only [call]
    cases hm : AMap.get? s.memo k with
    | some v => simp
    | none =>
      cases ha : AMap.get? s.active k with
      | some found => simp only [hitCycle]; cases sys.onCycle k <;> simp
      | none =>
        have hl : (AMap.insert s.active k false).length = s.active.length + 1 := by
          have := congrArg List.length (AMap.keys_insert_of_not_mem s.active k false ((AMap.get?_eq_none_iff _ _).1 ha))
          simpa [AMap.keys] using this
        have := hrun (sys.body k) _ (hi.enter ha) (by simp only [hl]; omega)
        cases hr : run (call sys n) (sys.body k) { s with active := AMap.insert s.active k false, runs := k :: s.runs } with
        | more => exact absurd hr this
        | ok r => simp only [finish]; split <;> (try split) <;> simp
        | cyclePanic => simp
        | internalPanic => simp
        | underflow => simp

theorem run_no_panic {c : K → St K V → Out (V × St K V)} (hc : ∀ k s, c k s ≠ .cyclePanic) (p : Prog K V) :
    ∀ s, run c p s ≠ .cyclePanic := by
  induction p with
  | ret v => intro s; simp [run]
  | ask k cont ih =>
    intro s
    simp only [run]
    cases h : c k s with
    | ok r => exact ih _ _
    | cyclePanic => exact absurd h (hc k s)
    | more => simp
    | internalPanic => simp
    | underflow => simp

theorem call_no_panic (sys : Sys K V) (hbreak : ∀ k, sys.onCycle k ≠ none) (n : Nat) : ∀ k s,
    call sys n k s ≠ .cyclePanic := by
  induction n with
  | zero => intro k s; simp [call]
  | succ n ih =>
    intro k s
    simp only [call]
    cases hm : AMap.get? s.memo k with
    | some v => simp
    | none =>
      cases ha : AMap.get? s.active k with
      | some found =>
        simp only [hitCycle]
        cases hd : sys.onCycle k with
        | none => exact absurd hd (hbreak k)
        | some d => simp
      | none =>
        have := run_no_panic ih (sys.body k) { s with active := AMap.insert s.active k false, runs := k :: s.runs }
        cases hr : run (call sys n) (sys.body k) { s with active := AMap.insert s.active k false, runs := k :: s.runs } with
        | cyclePanic => exact absurd hr this
        | ok r => simp only [finish]; split <;> (try split) <;> simp
        | more => simp
        | internalPanic => simp
        | underflow => simp

/-- C15: over finitely many queries every call returns or panics (never loops), and if all queries are
declared `break_cycles_with` every call returns a value, however cyclic the queries are. -/
theorem finite_queries_terminate [Fintype K] {sys : Sys K V} {s : St K V} {k : K} (hs : Mid sys s k) :
    call sys (Fintype.card K + 1) k s ≠ .more ∧
    ((∀ k, sys.onCycle k ≠ none) → ∃ v s', ∀ n, Fintype.card K + 1 ≤ n → call sys n k s = .ok (v, s')) := by
  have h1 := call_terminates sys (Fintype.card K + 1) k s hs.inv (by omega)
  refine ⟨h1, fun hb => ?_⟩
  have h2 := call_no_panic sys hb (Fintype.card K + 1) k s
  obtain ⟨h3, h4⟩ := bookkeeping_never_panics hs (Fintype.card K + 1)
  cases hc : call sys (Fintype.card K + 1) k s with
  | ok r => exact ⟨r.1, r.2, fun n hn => call_ok_mono sys hn hc⟩
  | more => exact absurd hc h1
  | cyclePanic => exact absurd hc h2
  | internalPanic => exact absurd hc h3
  | underflow => exact absurd hc h4

/-- If the answers to the queries satisfy `P`, the result of the body satisfies `Q`. -/
def Prog.Sat (P : K → V → Prop) (Q : V → Prop) : Prog K V → Prop
  | .ret v => Q v
  | .ask k c => ∀ w, P k w → (c w).Sat P Q

theorem call_sat (sys : Sys K V) (P : K → V → Prop) (hd : ∀ k d, sys.onCycle k = some d → P k d)
    (hb : ∀ k, (sys.body k).Sat P (P k)) (n : Nat) : ∀ k s, (∀ j w, Cached s j w → P j w) →
    ∀ v s', call sys n k s = .ok (v, s') → P k v ∧ ∀ j w, Cached s' j w → P j w := by
  induction n with
  | zero => intro k s _ v s' h; simp [call] at h
  | succ n ih =>
    have hrun : ∀ (Q : V → Prop) (p : Prog K V), p.Sat P Q → ∀ s, (∀ j w, Cached s j w → P j w) →
        ∀ v s', run (call sys n) p s = .ok (v, s') → Q v ∧ ∀ j w, Cached s' j w → P j w := by
      intro Q p
      induction p with
      | ret v =>
        intro hq s hs w s' h
        simp only [run, Out.ok.injEq, Prod.mk.injEq] at h
        obtain ⟨rfl, rfl⟩ := h
        exact ⟨hq, hs⟩
      | ask k c ihp =>
        intro hq s hs w s' h
        simp only [run] at h
        cases hc : call sys n k s with
        | ok r =>
          rw [hc] at h
          obtain ⟨h1, h2⟩ := ih k s hs _ _ hc
          exact ihp r.1 (hq r.1 h1) r.2 h2 w s' h
        | more => rw [hc] at h; simp at h
        | cyclePanic => rw [hc] at h; simp at h
        | internalPanic => rw [hc] at h; simp at h
        | underflow => rw [hc] at h; simp at h
    intro k s hs v s' h
    cases hm : AMap.get? s.memo k with
    | some v0 =>
      simp only [call, hm, Out.ok.injEq, Prod.mk.injEq] at h
      obtain ⟨rfl, rfl⟩ := h
      exact ⟨hs k _ hm, hs⟩
    | none =>
      cases ha : AMap.get? s.active k with
      | some found =>
        simp only [call, hm, ha, hitCycle] at h
        cases hdk : sys.onCycle k with
        | none => simp [hdk] at h
        | some d =>
          simp only [hdk, Out.ok.injEq, Prod.mk.injEq] at h
          obtain ⟨rfl, rfl⟩ := h
          refine ⟨hd k d hdk, ?_⟩
          cases found <;> exact hs
      | none =>
        obtain ⟨m, t1, hm1, hr, hf⟩ := call_body h hm ha
        obtain rfl : m = n := by omega
        obtain ⟨h1, h2⟩ := hrun _ _ (hb k) { s with active := AMap.insert s.active k false, runs := k :: s.runs } hs _ _ hr
        refine ⟨h1, ?_⟩
        obtain ⟨-, -, -, -, e4⟩ := finish_ok hf
        intro j w hc
        rw [Cached, e4] at hc
        split at hc
        · by_cases hjk : k = j
          · subst hjk
            rw [AMap.get?_insert_self] at hc
            simp only [Option.some.injEq] at hc
            subst hc; exact h1
          · rw [AMap.get?_insert_ne _ _ hjk] at hc; exact h2 j w hc
        · exact h2 j w hc

/-- C15: any property that holds of all cycle defaults and is preserved by the bodies holds of every value
any call returns and of every cached value, over any history. -/
theorem returned_values_closed {sys : Sys K V} (P : K → V → Prop) (hd : ∀ k d, sys.onCycle k = some d → P k d)
    (hb : ∀ k, (sys.body k).Sat P (P k)) {s : St K V} (hs : Between sys s) {n : Nat} {k : K} {v : V} {s' : St K V}
    (h : call sys n k s = .ok (v, s')) : P k v := by
  have hall : ∀ j w, Cached s j w → P j w := by
    clear h
    induction hs with
    | init => intro j w h; simp [Cached, St.init] at h
    | call _ hc ih => exact (call_sat sys P hd hb _ _ _ ih _ _ hc).2
  exact (call_sat sys P hd hb n k s hall v s' h).1

/-- C15: a `break_cycles_with = d` query whose body asks only for itself (and returns the answer) returns
exactly `d`, after any history. -/
theorem self_cycle_returns_default {sys : Sys K V} {k : K} {d : V} (hbody : sys.body k = .ask k .ret)
    (hd : sys.onCycle k = some d) {s : St K V} (hs : Between sys s) :
    ∃ s', ∀ n, call sys (n + 2) k s = .ok (d, s') := by
  have hval : ∀ w, AMap.get? s.memo k = some w → w = d := by
    intro w hw
    have hall : ∀ j w, Cached s j w → j = k → w = d := by
      clear hw
      induction hs with
      | init => intro j w h; simp [Cached, St.init] at h
      | call _ hc ih =>
        refine (call_sat sys (fun j w => j = k → w = d) ?_ ?_ _ _ _ ih _ _ hc).2
        · intro j e hj hjk; subst hjk; rw [hd] at hj; exact (Option.some.inj hj).symm
        · intro j
          by_cases hjk : j = k
          · subst hjk
            rw [hbody]
            intro w hw; exact hw
          · have htriv : ∀ (P : K → V → Prop) (Q : V → Prop), (∀ v, Q v) → ∀ p : Prog K V, p.Sat P Q := by
              intro P Q hq p
              induction p with
              | ret v => exact hq v
              | ask k c ih => intro w _; exact ih w
            exact htriv _ _ (fun v h => absurd h hjk) _
    exact hall k w hw rfl
  have hbase : ∃ s', call sys 2 k s = .ok (d, s') := by
    cases hm : AMap.get? s.memo k with
    | some w => rw [← hval w hm]; exact ⟨s, by simp [call, hm]⟩
    | none =>
      have ha : AMap.get? s.active k = none := by rw [hs.inv.2]; rfl
      simp [call, hm, ha, hbody, run, AMap.get?_insert_self, hitCycle, hd, finish, hs.inv.2]
  obtain ⟨s', h⟩ := hbase
  exact ⟨s', fun n => call_ok_mono sys (by omega) h⟩

/-! ### Cyclic values depend on history; non-vacuity -/

/-- Two mutually recursive `break_cycles_with = 0` queries: `false` is `true's + 1`, `true` is `false's + 10`. -/
def pingPong : Sys Bool Nat where
  body
    | false => .ask true (fun v => .ret (v + 1))
    | true => .ask false (fun v => .ret (v + 10))
  onCycle _ := some 0

/-- The value of a query on a cycle does depend on the history of earlier calls (which is why C11 is
restricted to acyclic queries): asked first, `true` returns 11; asked after `false`, it returns 21. -/
theorem cyclic_value_depends_on_history :
    (∃ s, call pingPong 3 true .init = .ok (11, s)) ∧
    ∃ s s', call pingPong 3 false .init = .ok (11, s) ∧ call pingPong 3 true s = .ok (21, s') := by
  refine ⟨⟨_, rfl⟩, _, _, rfl, rfl⟩

/-- A database with an acyclic query (`0`: constant; `1`: uses `0` twice) and a cyclic one (`2`). -/
def exSys : Sys (Fin 3) Nat where
  body
    | 0 => .ret 5
    | 1 => .ask 0 (fun a => .ask 0 (fun b => .ret (a * b)))
    | 2 => .ask 2 (fun c => .ask 1 (fun a => .ret (a + c)))
  onCycle k := if k = 2 then some 100 else none

example : Denotes exSys 1 25 := .ask (.ret 5) (.ask (.ret 5) (.ret 25))

/-- Hypotheses of the theorems are met: after calling the cyclic query 2 (which asks for 1 while a cycle is
open, so 1 is not cached), query 1 is called in a reachable state, returns 25 and is cached. -/
example : ∃ s s', call exSys 4 2 .init = .ok (125, s) ∧ Between exSys s ∧ AMap.get? s.memo 1 = none ∧
    call exSys 4 1 s = .ok (25, s') ∧ AMap.get? s'.memo 1 = some 25 ∧ s.hits = [2] ∧ s'.runs = [0, 1, 0, 0, 1, 2] :=
  ⟨_, _, rfl, .call .init (n := 4) (k := 2) rfl, rfl, rfl, rfl, rfl, rfl⟩

/-- A `Mid` state that is not top level: query 1 asked from inside query 2 with a cycle open. -/
example : ∃ s, Mid exSys s 1 ∧ InProgress s 2 ∧ s.unwinding = 1 :=
  ⟨_, .sub (j := 2) (.top .init) rfl rfl (.later (n := 1) (k := 2) rfl .here), by simp [InProgress]; decide, rfl⟩

end Verif.Memo

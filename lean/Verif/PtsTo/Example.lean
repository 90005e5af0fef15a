import Verif.PtsTo.Final
/-
Concrete functions that meet the hypotheses of C118-C120, one that is rejected, and one for which the conclusion of C118 fails
because its types are not `Regular`.
-/
namespace Verif.PtsTo.Example
open Verif.Lifetimes

/-- A way to check `St.le`. -/
theorem le_of_check {a b : St} (h : ((a.pt.all fun e => e.2.all fun x => decide (x ∈ b.pt.get e.1)) &&
    a.cs.all fun c => decide (c ∈ b.cs)) = true) (h' : (b.sv.all fun o => decide (o ∈ a.sv)) = true) : a.le b := by
  simp only [Bool.and_eq_true, List.all_eq_true, decide_eq_true_eq] at h h'
  refine ⟨fun o x hx => ?_, h.2, h'⟩
  obtain ⟨s, hs, hx⟩ := a.pt.mem_of_get o x hx
  exact h.1 _ hs x hx

abbrev P : Ty := .ptr false .int
abbrev PP : Ty := .ptr false P
abbrev CP : Ty := .ptr true .int

def mkLts (stat : Nat → Bool) : Lts
  | ⟨.ret, k⟩ => ⟨1000 + k⟩
  | ⟨.lit, _⟩ => .static
  | ⟨.var v, k⟩ => if stat v then .static else match k with
    | 0 => ⟨-2 - v⟩
    | k + 1 => ⟨2 + 10 * v + k⟩

/--
```
int* f(int* a, int* b, int** out) {   // 0, 1, 2
  static const char* g;               // 5
  int* p = a;                         // 3
  int** pp = *a ? &p : out;           // 4
  do { *pp = b; } while (*a);
  g = "";
  return p;
}
```
-/
def f : Fn where
  numVars := 6
  vars := fun v => match v with
    | 0 => ⟨P, .param, false, false⟩
    | 1 => ⟨P, .param, false, false⟩
    | 2 => ⟨PP, .param, false, false⟩
    | 3 => ⟨P, .auto, false, false⟩
    | 4 => ⟨PP, .auto, false, false⟩
    | 5 => ⟨CP, .stat, false, false⟩
    | _ => ⟨.int, .auto, false, false⟩
  retTy := P
  retRef := false
  stmt := fun n => match n with
    | 0 => .decl 3 (some (.load P (.var 0)))
    | 1 => .decl 4 (some (.cond (.load .int (.deref (.load P (.var 0)))) (.addr (.var 3)) (.load PP (.var 2))))
    | 2 => .expr (.assign P (.deref (.load PP (.var 4))) (.load P (.var 1)))
    | 3 => .expr (.assign CP (.var 5) .str)
    | 4 => .ret (.load P (.var 3))
    | _ => .skip
  succ := fun n => match n with
    | 0 => [1]
    | 1 => [2]
    | 2 => [2, 3]
    | 3 => [4]
    | 4 => [5]
    | _ => []
  exit := 5

def lt : Lts := mkLts fun v => v == 5

theorem hlt : LtsOk f lt where
  loc v h := by
    have : v ≠ 5 := by rintro rfl; exact h rfl
    simp [lt, mkLts, this, Lifetime.isLocal]
    omega
  var v k h := by
    have : v ≠ 5 := by rintro rfl; exact h rfl
    simp [lt, mkLts, this, Lifetime.isVariable]
    omega
  stat v k h := by
    have : v = 5 := by
      rcases v with _ | _ | _ | _ | _ | _ | v <;> first | rfl | cases h
    subst this
    rfl
  ret k := by simp [lt, mkLts, Lifetime.isVariable]; omega
  lit k := rfl

theorem hf : FnOk f where
  stmts n := by
    rcases n with _ | _ | _ | _ | _ | n
    · exact .declInit rfl rfl rfl (.load (.var rfl rfl))
    · exact .declInit rfl rfl rfl (.cond (.load (.deref (.load (.var rfl rfl)))) (.addr (.var rfl rfl) rfl) (.load (.var rfl rfl)))
    · exact .expr (.assign (.deref (.load (.var rfl rfl))) (.load (.var rfl rfl)))
    · exact .expr (.assign (.var (v := 5) rfl rfl) .str)
    · exact .ret rfl (.load (.var rfl rfl))
    · exact .skip
  regular v := by rcases v with _ | _ | _ | _ | _ | _ | v <;> simp [f, Ty.Regular]
  retRegular := by simp [f, Ty.Regular]
  inRange v h := by
    obtain ⟨v, rfl⟩ : ∃ u, v = u + 6 := ⟨v - 6, by simp only [f] at h; omega⟩
    rfl
  arr v h := by rcases v with _ | _ | _ | _ | _ | _ | v <;> cases h

def tr (n : Nat) (s : St) : St := transferStmt f lt (f.stmt n) s

/-- The states computed by the analysis: the loop is entered twice. -/
def s0 : St := initSt f
def s1 : St := tr 0 s0
def s2 : St := (tr 1 s1).join (tr 2 (tr 1 s1))
def s2' : St := s2.join (tr 2 s2)
def s3 : St := tr 2 s2'
def s4 : St := tr 3 s3
def s5 : St := tr 4 s4

def S : Nat → Option St
  | 0 => some s0
  | 1 => some s1
  | 2 => some s2'
  | 3 => some s3
  | 4 => some s4
  | 5 => some s5
  | _ => none

theorem le_refl (s : St) : s.le s := ⟨fun _ _ h => h, fun _ h => h, fun _ h => h⟩

theorem hS : Stable f lt S where
  built n s h := by
    have b0 : Built f lt s0 := .init
    have b1 : Built f lt s1 := b0.transfer (n := 0)
    have b2a : Built f lt (tr 1 s1) := b1.transfer (n := 1)
    have b2 : Built f lt s2 := b2a.join (b2a.transfer (n := 2))
    have b2' : Built f lt s2' := b2.join (b2.transfer (n := 2))
    have b3 : Built f lt s3 := b2'.transfer (n := 2)
    have b4 : Built f lt s4 := b3.transfer (n := 3)
    have b5 : Built f lt s5 := b4.transfer (n := 4)
    rcases n with _ | _ | _ | _ | _ | _ | n
    · exact Option.some.inj h ▸ b0
    · exact Option.some.inj h ▸ b1
    · exact Option.some.inj h ▸ b2'
    · exact Option.some.inj h ▸ b3
    · exact Option.some.inj h ▸ b4
    · exact Option.some.inj h ▸ b5
    · cases h
  entry := ⟨s0, rfl, le_refl _⟩
  edge n s h n' hn := by
    have step : ∀ {t u : St}, some t = some s → (tr n t).le u → (transferStmt f lt (f.stmt n) s).le u :=
      fun h hle => Option.some.inj h ▸ hle
    rcases n with _ | _ | _ | _ | _ | _ | n
    · obtain rfl : n' = 1 := by simpa [f] using hn
      exact ⟨s1, rfl, step (t := s0) h (le_refl _)⟩
    · obtain rfl : n' = 2 := by simpa [f] using hn
      exact ⟨s2', rfl, step (t := s1) h (le_of_check (by decide +kernel) (by decide +kernel))⟩
    · have : n' = 2 ∨ n' = 3 := by simpa [f] using hn
      rcases this with rfl | rfl
      · exact ⟨s2', rfl, step (t := s2') h (le_of_check (by decide +kernel) (by decide +kernel))⟩
      · exact ⟨s3, rfl, step (t := s2') h (le_refl _)⟩
    · obtain rfl : n' = 4 := by simpa [f] using hn
      exact ⟨s4, rfl, step (t := s3) h (le_refl _)⟩
    · obtain rfl : n' = 5 := by simpa [f] using hn
      exact ⟨s5, rfl, step (t := s4) h (le_refl _)⟩
    · simp [f] at hn
    · cases h

def out : List Lifetime := [⟨23⟩, ⟨23⟩, ⟨23⟩, ⟨22⟩, ⟨23⟩]

/-- `int* f(int* 'a, int* 'a, int* 'a * 'b)` returning `int* 'a`. -/
theorem inferred : infer id f lt s5 = some out := by decide +kernel

def σ (l : Lifetime) : Lifetime := if l.id = 22 then l else ⟨23⟩

/-- Regions: sets of moments after the call, here there are two. -/
abbrev R := Bool → Prop

def early : R := fun b => b = false

def τ (l : Lifetime) : R := if l = .static then ⊤ else early

/-- The caller: integers in cells 0 and 1, a pointer in cell 2; all die after the first moment. -/
def W : World R where
  ext := fun _ => early
  hty := fun n => if n = 2 then .ptr false early .int else .int
  arr := fun _ _ => False
  arrOk := fun _ _ h => h.elim

def m0 : Mem
  | .var 0 0 => some (.cell 0)
  | .var 1 0 => some (.cell 1)
  | .var 2 0 => some (.cell 2)
  | _ => none

theorem hentry : Entry f W (fun p k => τ (σ (lt ⟨.var p, k⟩))) m0 where
  params p h := by
    rcases p with _ | _ | _ | _ | _ | _ | p <;> try cases h
    · intro l hl
      cases hl
      exact ⟨fun _ hx => hx, .int, rfl, rfl⟩
    · intro l hl
      cases hl
      exact ⟨fun _ hx => hx, .int, rfl, rfl⟩
    · intro l hl
      cases hl
      exact ⟨fun _ hx => hx, .ptr false early .int, rfl, rfl⟩
  statics g i h := by
    rcases g with _ | _ | _ | _ | _ | _ | g <;> try cases h
    intro l hl
    cases hl
  autos v i h := by
    rcases v with _ | _ | _ | _ | _ | _ | v <;> try cases h
    all_goals rfl
  cells n := by
    show Fits f.vars W none _
    generalize W.hty n = T
    cases T with
    | int => trivial
    | ptr => intro l hl; cases hl

def m1 : Mem := m0.write (.var 3 0) (some (.cell 0))
def m2 : Mem := m1.write (.var 4 0) (some (.var 3 0))
def m3 : Mem := m2.write (.var 3 0) (some (.cell 1))
def m4 : Mem := m3.write (.var 5 0) (some .lit)

theorem at2 : Exec f W.arr m0 2 m2 none :=
  .step (n := 1) (.step (n := 0) .start (.declInit (.load (.var rfl))) (by simp [f]))
    (.declInit (.condT (.load (.deref (.load (m' := m1) (.var rfl)))) (.addr (.var rfl)))) (by simp [f])

/-- One iteration of the loop, then the exit. -/
theorem hexec : Exec f W.arr m0 5 m4 (some (.cell 1)) := by
  have a3 : Exec f W.arr m0 3 m3 none := by
    refine .step (n := 2) at2 (.expr (.assign (x := some (.cell 1)) (p := .var 3 0) (m' := m2) (m'' := m2) (.load (.var rfl)) ?_)) (by simp [f])
    exact .deref (.load (m' := m2) (l := .var 4 0) (.var rfl))
  have a4 : Exec f W.arr m0 4 m4 none :=
    .step (n := 3) a3 (.expr (.assign (x := some .lit) (m' := m3) .str (.var rfl))) (by simp [f])
  exact .step (n := 4) a4 (.ret (.load (m' := m4) (l := .var 3 0) (.var rfl))) (by simp [f])

theorem perm_id : ∀ l : List Lifetime, (id l).Perm l := fun l => .refl l

theorem top_ne_bot : (⊤ : R) ≠ ⊥ := fun h => by
  have : (⊤ : R) true := trivial
  rw [h] at this
  exact this

theorem early_ne_bot : early ≠ ⊥ := fun h => by
  have : early false := rfl
  rw [h] at this
  exact this

theorem hτv : ∀ l ∈ out, l.isVariable = true → τ l ≠ ⊥ := by
  intro l _ hl
  unfold τ
  rw [if_neg (var_ne_static hl)]
  exact early_ne_bot

/-- The hypotheses of C118 are met; what it says of this run. -/
example : SafeExit f W (fun k => τ (σ (lt ⟨.ret, k⟩))) m4 (some (.cell 1)) :=
  (inferred_signature_sound hf hlt hS id perm_id rfl inferred).2.2 σ (by decide) R τ rfl hτv top_ne_bot W m0 m4 _ hentry hexec

/-- C119: in the loop `pp` holds the address of `p`, and its points-to set says so. -/
example : m2 (.var 4 0) = some (.var 3 0) ∧ ∃ sn, S 2 = some sn ∧ ⟨.var 3, 0⟩ ∈ sn.pt.get ⟨.var 4, 0⟩ := by
  have hr : Relation.ReflTransGen (fun a b => b ∈ f.succ a) 2 f.exit :=
    .head (b := 3) (by simp [f]) (.head (b := 4) (by simp [f]) (.head (b := 5) (by simp [f]) .refl))
  obtain ⟨sn, h1, h2⟩ := points_to_sound hf hlt hS id perm_id rfl inferred σ (by decide) R τ rfl hτv top_ne_bot W m0 m2 none 2 hentry at2 hr
  exact ⟨rfl, sn, h1, h2 4 3 0 (by simp [f]) (by simp [f]) rfl⟩

/-- C120: `g` is a static pointer. -/
example : (⟨.var 5, 0⟩ : Obj) ∈ AMap.keys s5.pt ∧ lt ⟨.var 5, 0⟩ = .static ∧ ⟨.lit, 0⟩ ∈ s5.pt.get ⟨.var 5, 0⟩ ∧
    ∃ fuel, staticCheck lt s5.pt fuel (pointersWith lt s5.pt .static).reverse [] = some true :=
  ⟨by decide +kernel, by decide +kernel, by decide +kernel, ((static_reaches_no_local hf hlt hS id perm_id rfl).2 out inferred).2⟩

/-! ### Rejected -/

/-- `int* f(int** r) { int x; return &x; }` and `int* f(int** r) { int x; *r = &x; }`. -/
def bad (n : Nat) : Fn where
  numVars := 2
  vars := fun v => match v with
    | 0 => ⟨PP, .param, false, false⟩
    | _ => ⟨.int, .auto, false, false⟩
  retTy := P
  retRef := false
  stmt := fun k => match k with
    | 0 => if n = 0 then .ret (.addr (.var 1)) else .expr (.assign P (.deref (.load PP (.var 0))) (.addr (.var 1)))
    | _ => .skip
  succ := fun n => match n with | 0 => [1] | _ => []
  exit := 1

/-- `return &x;` and `*r = &x;` for a local `x`: no signature. -/
theorem locals_rejected : ∀ n, infer id (bad n) (mkLts fun _ => false)
    (transferStmt (bad n) (mkLts fun _ => false) ((bad n).stmt 0) (initSt (bad n))) = none := by
  intro n
  rcases n with _ | n
  · decide +kernel
  · have : bad (n + 1) = bad 1 := rfl
    rw [this]
    decide +kernel

/-! ### Why types have to be regular -/

abbrev Q : Ty := .ptr false (.ptr true P)
abbrev QQ : Ty := .ptr false Q

/--
```
int f(int* const*** ppp, int* const** qq) {
  static int* g;
  *ppp = qq;
  g = **qq;
}
```
-/
def gap : Fn where
  numVars := 3
  vars := fun v => match v with
    | 0 => ⟨QQ, .param, false, false⟩
    | 1 => ⟨Q, .param, false, false⟩
    | 2 => ⟨P, .stat, false, false⟩
    | _ => ⟨.int, .auto, false, false⟩
  retTy := .int
  retRef := false
  stmt := fun n => match n with
    | 0 => .expr (.assign Q (.deref (.load QQ (.var 0))) (.load Q (.var 1)))
    | 1 => .expr (.assign P (.var 2) (.load P (.deref (.load (.ptr true P) (.deref (.load Q (.var 1)))))))
    | _ => .skip
  succ := fun n => match n with | 0 => [1] | 1 => [2] | _ => []
  exit := 2

def gapLt : Lts := mkLts fun v => v == 2

def g1 : St := transferStmt gap gapLt (gap.stmt 0) (initSt gap)
def g2 : St := transferStmt gap gapLt (gap.stmt 1) g1

def gapS : Nat → Option St
  | 0 => some (initSt gap)
  | 1 => some g1
  | 2 => some g2
  | _ => none

/-- The pointers in the types of `ppp` and `qq`; only the last of `qq` has become `'static`. -/
def gapOut : List Lifetime := [⟨2⟩, ⟨3⟩, ⟨4⟩, ⟨5⟩, ⟨3⟩, ⟨4⟩, .static]

def gapσ (l : Lifetime) : Lifetime := if l.id = 12 then ⟨3⟩ else if l.id = 13 then ⟨4⟩ else if l.id = 14 then .static else l

def gapW : World R where
  ext := fun n => if n = 3 then ⊤ else early
  hty := fun n => match n with
    | 0 => .ptr false early (.ptr true early (.ptr false early .int))
    | 1 => .ptr true early (.ptr false ⊤ .int)
    | 2 => .ptr false ⊤ .int
    | _ => .int
  arr := fun _ _ => False
  arrOk := fun _ _ h => h.elim

def gapM : Mem
  | .var 0 0 => some (.cell 0)
  | .var 1 0 => some (.cell 1)
  | .cell 1 => some (.cell 2)
  | .cell 2 => some (.cell 3)
  | _ => none

def gapM1 : Mem := gapM.write (.cell 0) (some (.cell 1))
def gapM2 : Mem := gapM1.write (.var 2 0) (some (.cell 3))

/-- Without `Regular` C118 would be false: `*ppp` and `qq` are the same pointer now, so `**ppp` and `*qq` are the same variable,
of type `int* const*`; but one of its names says that it points to a pointer to a static integer, the other does not. The constraint
for the last level is generated as if it were not below a non-const pointer. -/
theorem variance_gap : (∀ n, StmtOk gap (gap.stmt n)) ∧ Stable gap gapLt gapS ∧ infer id gap gapLt g2 = some gapOut ∧
    gapOut = (sigLts gap gapLt).map gapσ ∧
    Entry gap gapW (fun p k => τ (gapσ (gapLt ⟨.var p, k⟩))) gapM ∧ Exec gap gapW.arr gapM gap.exit gapM2 none ∧
    ¬ SafeExit gap gapW (fun k => τ (gapσ (gapLt ⟨.ret, k⟩))) gapM2 none := by
  refine ⟨fun n => ?_, ⟨fun n s h => ?_, ⟨_, rfl, le_refl _⟩, fun n s h n' hn => ?_⟩, by decide +kernel, by decide +kernel,
    ⟨fun p h => ?_, fun g i h => ?_, fun v i h => ?_, fun n => ?_⟩, ?_, fun h => ?_⟩
  · rcases n with _ | _ | n
    · exact .expr (.assign (.deref (.load (.var rfl rfl))) (.load (.var rfl rfl)))
    · exact .expr (.assign (.var (v := 2) rfl rfl) (.load (.deref (.load (.deref (.load (.var (v := 1) rfl rfl)))))))
    · exact .skip
  · have b0 : Built gap gapLt (initSt gap) := .init
    have b1 : Built gap gapLt g1 := b0.transfer (n := 0)
    have b2 : Built gap gapLt g2 := b1.transfer (n := 1)
    rcases n with _ | _ | _ | n
    · exact Option.some.inj h ▸ b0
    · exact Option.some.inj h ▸ b1
    · exact Option.some.inj h ▸ b2
    · cases h
  · have step : ∀ {t u : St}, some t = some s → (transferStmt gap gapLt (gap.stmt n) t).le u → (transferStmt gap gapLt (gap.stmt n) s).le u :=
      fun h hle => Option.some.inj h ▸ hle
    rcases n with _ | _ | _ | n
    · obtain rfl : n' = 1 := by simpa [gap] using hn
      exact ⟨g1, rfl, step (t := initSt gap) h (le_refl _)⟩
    · obtain rfl : n' = 2 := by simpa [gap] using hn
      exact ⟨g2, rfl, step (t := g1) h (le_refl _)⟩
    · simp [gap] at hn
    · cases h
  · rcases p with _ | _ | _ | p <;> try cases h
    · intro l hl
      cases hl
      exact ⟨fun _ hx => hx, _, rfl, rfl⟩
    · intro l hl
      cases hl
      exact ⟨fun _ hx => hx, _, rfl, rfl⟩
  · rcases g with _ | _ | _ | g <;> try cases h
    intro l hl
    cases hl
  · rcases v with _ | _ | _ | v <;> try cases h
    all_goals rfl
  · rcases n with _ | _ | _ | n
    · intro l hl
      cases hl
    · intro l hl
      cases hl
      exact ⟨fun _ hx => hx, _, rfl, sub_refl _⟩
    · intro l hl
      cases hl
      exact ⟨fun _ hx => hx, _, rfl, rfl⟩
    · trivial
  · refine .step (n := 1) (.step (n := 0) .start (.expr (.assign (x := some (.cell 1)) (p := .cell 0) (m' := gapM) (m'' := gapM) (.load (.var rfl)) ?_)) (by simp [gap]))
      (.expr (.assign (x := some (.cell 3)) (m' := gapM1) ?_ (.var rfl))) (by simp [gap])
    · exact .deref (.load (m' := gapM) (l := .var 0 0) (.var rfl))
    · exact .load (m' := gapM1) (l := .cell 2) (.deref (.load (m' := gapM1) (l := .cell 1) (.deref (.load (m' := gapM1) (l := .var 1 0) (.var rfl)))))
  · obtain ⟨-, T, h1, h2⟩ := h.cells 0 (.cell 1) rfl
    cases h1
    simp only [gapW, subc, Bool.false_eq_true, if_false] at h2
    injection h2 with _ _ h3
    injection h3 with _ h4
    have : (⊤ : R) true := trivial
    rw [h4] at this
    cases this

end Verif.PtsTo.Example

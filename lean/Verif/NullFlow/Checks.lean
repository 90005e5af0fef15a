import Verif.NullFlow.JoinProps
/- C43: pointers get the verdict of their source, and null checks refine it; non-vacuity of the whole area. -/
namespace Verif.NullFlow
local notation "Atom" => Nat

/-- A fresh atom is free. -/
theorem run_fresh {c : Ctx} (w : WF c) {T : Atom} (hT : T ∈ c.tokens) {ρ : Atom → Bool} (r : Run c T ρ) {a : Atom} (ha : c.next ≤ a) (b : Bool) :
    Run c T (upd ρ a b) := by
  have old : ∀ x, x < c.next → upd ρ a b x = ρ x := fun x hx => by
    have : x ≠ a := by omega
    simp [upd, this]
  refine ⟨?_, ?_, ?_, ?_⟩
  · intro g hg; exact (eval_congr (fun x hx => old x (w.inv_plain g hg x hx).1)).trans (r.inv g hg)
  · intro t hr hf
    rw [old t (w.tok_lt t (reach_tokens w hT hr))]; exact r.free t hr hf
  · intro t C hr hf
    rw [old t (w.tok_lt t (reach_tokens w hT hr)), r.defined t C hr hf]
    exact eval_congr (fun x hx => (old x (w.fc_atoms t C hf x hx).1).symm)
  · rw [old T (w.tok_lt T hT)]; exact r.here

theorem reach_congr {c c' : Ctx} (hd : c'.deps = c.deps) {a b : Atom} (h : Reach c a b) : Reach c' a b := by
  induction h with
  | refl => exact .refl _
  | step _ hh ih => exact .step ih (by rw [hd]; exact hh)

theorem run_next (c : Ctx) (n : Nat) (T : Atom) (ρ : Atom → Bool) : Run { c with next := n } T ρ ↔ Run c T ρ :=
  ⟨fun r => ⟨r.inv, fun t hr hf => r.free t (reach_congr (c := c) (c' := { c with next := n }) rfl hr) hf,
      fun t C hr hf => r.defined t C (reach_congr (c := c) (c' := { c with next := n }) rfl hr) hf, r.here⟩,
   fun r => ⟨r.inv, fun t hr hf => r.free t (reach_congr (c := { c with next := n }) (c' := c) rfl hr) hf,
      fun t C hr hf => r.defined t C (reach_congr (c := { c with next := n }) (c' := c) rfl hr) hf, r.here⟩⟩

/-- C43: a pointer without null state gets, at any reachable point, the verdict of its source: NonNull, Nullable or
Unspecified; with no source at all it is treated as possibly nullable. -/
theorem source_verdict (s : Solver) (hs : s.Complete) {c : Ctx} (w : WF c) {T : Atom} (hT : T ∈ c.tokens) (hreach : Reachable c T)
    (loc : Nat) (src : Option Kind) :
    let r := initFromSource c ⟨loc, none⟩ (src.map Source.concrete)
    ∃ st, r.1 = ⟨loc, some st⟩ ∧ getNullability s r.2 T st none = src.getD .Nullable := by
  have ac : ∀ ρ, Ac none ρ := fun ρ a h => by simp at h
  obtain ⟨ρ0, r0⟩ := hreach
  have reach' : ∀ n, Reachable { c with next := n } T := fun n => ⟨ρ0, (run_next c n T ρ0).mpr r0⟩
  -- verdicts from what is known
  have nonnull : ∀ c' st, KnownNonnull c' T st none → getNullability s c' T st none = .NonNull := fun c' st h => (verdict_exact s hs c' T st none).1.mpr h
  have nullable : ∀ c' st, FromNullableAndMaybeNull c' T st none → getNullability s c' T st none = .Nullable := by
    intro c' st h
    refine (verdict_exact s hs c' T st none).2.mpr ⟨?_, Or.inr h⟩
    rintro ⟨nl, hnl, hall⟩
    obtain ⟨ρ, r, a, -, m⟩ := h
    have := m nl hnl
    rw [hall ρ r a] at this
    simp at this
  have unspec : ∀ c' st, ¬ KnownNonnull c' T st none → ¬ KnownNull c' T st none → ¬ FromNullableAndMaybeNull c' T st none →
      getNullability s c' T st none = .Unspecified := by
    intro c' st h1 h2 h3
    obtain ⟨v1, v2⟩ := verdict_exact s hs c' T st none
    cases hg : getNullability s c' T st none with
    | NonNull => exact absurd (v1.mp hg) h1
    | Nullable =>
      rcases (v2.mp hg).2 with ⟨h, -⟩ | h
      · exact absurd h h2
      · exact absurd h h3
    | Unspecified => rfl
  cases src with
  | none =>
    refine ⟨⟨some (.atom c.next), some (.atom (c.next + 1))⟩, rfl, ?_⟩
    refine nullable _ _ ⟨upd (upd ρ0 c.next true) (c.next + 1) true, ?_, ac _, ?_, ?_⟩
    · exact (run_next c (c.next + 1 + 1) T _).mpr (run_fresh w hT (run_fresh w hT r0 (Nat.le_refl _) true) (by omega) true)
    · intro f hf; simp only [Option.some.injEq] at hf; subst hf; simp [Formula.eval, upd]
    · intro f hf; simp only [Option.some.injEq] at hf; subst hf; simp [Formula.eval, upd]
  | some k =>
    cases k with
    | NonNull =>
      refine ⟨⟨some (.lit false), some (.lit false)⟩, rfl, ?_⟩
      exact nonnull _ _ ⟨.lit false, rfl, fun _ _ _ => rfl⟩
    | Nullable =>
      refine ⟨⟨some (.lit true), some (.atom c.next)⟩, rfl, ?_⟩
      refine nullable _ _ ⟨upd ρ0 c.next true, ?_, ac _, ?_, ?_⟩
      · exact (run_next c (c.next + 1) T _).mpr (run_fresh w hT r0 (Nat.le_refl _) true)
      · intro f hf; simp only [Option.some.injEq] at hf; subst hf; rfl
      · intro f hf; simp only [Option.some.injEq] at hf; subst hf; simp [Formula.eval, upd]
    | Unspecified =>
      refine ⟨⟨some (.lit false), some (.atom c.next)⟩, rfl, ?_⟩
      have rt := (run_next c (c.next + 1) T _).mpr (run_fresh w hT r0 (Nat.le_refl _) true)
      have rf := (run_next c (c.next + 1) T _).mpr (run_fresh w hT r0 (Nat.le_refl _) false)
      refine unspec _ _ ?_ ?_ ?_
      · rintro ⟨nl, hnl, hall⟩
        simp only [Option.some.injEq] at hnl; subst hnl
        have := hall _ rt (ac _); simp [Formula.eval, upd] at this
      · rintro ⟨nl, hnl, hall⟩
        simp only [Option.some.injEq] at hnl; subst hnl
        have := hall _ rf (ac _); simp [Formula.eval, upd] at this
      · rintro ⟨ρ, -, -, hm, -⟩
        have := hm (.lit false) rfl; simp [Formula.eval] at this

/-- C43: the first source wins: a pointer that already has a null state keeps it. -/
theorem first_source_wins (c : Ctx) (p : Ptr) (h : p.state.isSome) (src : Option Source) : initFromSource c p src = (p, c) ∧ initNullPointer c p = (p, c) := by
  simp [initFromSource, initNullPointer, tryCreate, h]

/-- C43: a pointer with a symbolic source (being inferred) is non-null wherever the source is assumed to be. -/
theorem symbolic_source (s : Solver) (hs : s.Complete) (c : Ctx) (T : Atom) (loc n u : Nat) :
    let r := initFromSource c ⟨loc, none⟩ (some (.symbolic n u))
    ∃ st, r.1 = ⟨loc, some st⟩ ∧ getNullability s r.2 T st (some (.atom n)) = .NonNull := by
  refine ⟨⟨some (.atom u), some (.atom c.next)⟩, rfl, ?_⟩
  refine (verdict_exact s hs _ T _ _).1.mpr ⟨.atom c.next, rfl, fun ρ r ha => ?_⟩
  have hi := r.inv (.implies (.atom n) (.not (.atom c.next))) (by
    show _ ∈ (addInvariant _ _).inv
    simp [addInvariant, Source.isNonnull])
  have := ha _ rfl
  simp only [Formula.eval] at this hi ⊢
  simpa [this] using hi

/-- The runs of a branch: those of the condition's point in which the condition holds. -/
theorem branch_runs {c : Ctx} (w : WF c) {T : Atom} (hT : T ∈ c.tokens) {f : Formula} (hf : Plain c f) :
    let T' := (forkFC c T).1
    let c' := assume (forkFC c T).2 T' f
    (∀ ρ, Run c' T' ρ → Run c T ρ ∧ f.eval ρ = true) ∧
    (∀ ρ, Run c T ρ → f.eval ρ = true → ∃ ρ', Run c' T' ρ' ∧ ∀ a, a ≠ T' → ρ' a = ρ a) := by
  have hfn : c.fc c.next = none := by
    cases h : c.fc c.next with
    | none => rfl
    | some C => exact absurd (w.tok_lt _ (w.fc_tok _ C h)) (Nat.lt_irrefl _)
  have hdn : c.deps c.next = [] := by
    cases h : c.deps c.next with
    | nil => rfl
    | cons d ds => exact absurd (w.tok_lt _ (w.dep_tok c.next d (by rw [h]; simp)).2.1) (Nat.lt_irrefl _)
  intro T' c'
  have eT : T' = c.next := rfl
  have hfc : ∀ t, c'.fc t = if t = c.next then some (.and (.atom T) f) else c.fc t := by
    intro t
    show (assume (forkFC c T).2 (forkFC c T).1 f).fc t = _
    by_cases e : t = c.next <;> simp [forkFC, makeAtom, assume, hfn, e]
  have hdep : ∀ t, c'.deps t = if t = c.next then [T] else c.deps t := fun t => rfl
  have hinv : c'.inv = c.inv := rfl
  have hne : ∀ t ∈ c.tokens, t ≠ c.next := fun t ht => by have := w.tok_lt t ht; omega
  have hold : ∀ ρ, Run c' T ρ ↔ Run c T ρ := fun ρ => run_old w hinv (fun t ht => ⟨by rw [hfc, if_neg (hne t ht)], by rw [hdep, if_neg (hne t ht)]⟩) hT ρ
  have hr1 : Reach c' c.next T := .step (.refl _) (by rw [hdep]; simp)
  constructor
  · intro ρ r
    have h := r.defined c.next (.and (.atom T) f) (.refl _) (by rw [hfc]; simp)
    have hh := r.here
    rw [eT] at hh r
    rw [hh] at h
    simp only [Formula.eval, Bool.true_eq, Bool.and_eq_true] at h
    exact ⟨(hold ρ).mp (r.sub hr1 h.1), h.2⟩
  · intro ρ r hρ
    have old : ∀ x, x < c.next → upd ρ c.next true x = ρ x := fun x hx => by
      have : x ≠ c.next := by omega
      simp [upd, this]
    have r' : Run c' T (upd ρ c.next true) := (hold _).mpr (run_fresh w hT r (Nat.le_refl _) true)
    have hsplit : ∀ t, Reach c' c.next t → t = c.next ∨ Reach c' T t := by
      intro t h
      induction h with
      | refl => exact Or.inl rfl
      | step _ hd ih =>
        rcases ih with e | e
        · rw [hdep, if_pos e] at hd
          simp only [List.mem_singleton] at hd
          rw [hd]; exact Or.inr (.refl _)
        · exact Or.inr (.step e hd)
    refine ⟨upd ρ c.next true, ⟨r'.inv, ?_, ?_, by simp [upd, eT]⟩, fun a ha => by
      have : a ≠ c.next := ha
      simp [upd, this]⟩
    · intro t ht hft
      rcases hsplit t ht with e | e
      · rw [hfc, if_pos e] at hft; simp at hft
      · exact r'.free t e hft
    · intro t C ht hft
      rcases hsplit t ht with e | e
      · rw [hfc, if_pos e] at hft
        simp only [Option.some.injEq] at hft; subst hft; subst e
        have h1 : f.eval (upd ρ c.next true) = true := (eval_congr (fun x hx => old x (hf x hx).1)).trans hρ
        simp only [Formula.eval, h1, r'.here]
        simp [upd]
      · exact r'.defined t C e hft

/-- C43: null checks. In the branch where the pointer was found non-null it is NonNull, whatever its source; in the branch
where it was found null it is Nullable if the branch is reachable, whatever its source. -/
theorem null_check (s : Solver) (hs : s.Complete) {c : Ctx} (w : WF c) {T : Atom} (hT : T ∈ c.tokens)
    (fn : Option Formula) {nl : Formula} (hnl : Plain c nl) :
    getNullability s (assume (forkFC c T).2 (forkFC c T).1 (.not nl)) (forkFC c T).1 ⟨fn, some nl⟩ none = .NonNull ∧
    ((∃ ρ, Run c T ρ ∧ nl.eval ρ = true) →
      getNullability s (assume (forkFC c T).2 (forkFC c T).1 nl) (forkFC c T).1 ⟨fn, some nl⟩ none = .Nullable) ∧
    ((∀ ρ, Run c T ρ → nl.eval ρ = false) → ¬ Reachable (assume (forkFC c T).2 (forkFC c T).1 nl) (forkFC c T).1) := by
  have hnot : Plain c (.not nl) := hnl
  refine ⟨?_, ?_, ?_⟩
  · refine (verdict_exact s hs _ _ _ _).1.mpr ⟨nl, rfl, fun ρ r _ => ?_⟩
    have := ((branch_runs w hT hnot).1 ρ r).2
    simpa [Formula.eval] using this
  · rintro ⟨ρ, r, hρ⟩
    obtain ⟨ρ', r', -⟩ := (branch_runs w hT hnl).2 ρ r hρ
    have hknown : KnownNull (assume (forkFC c T).2 (forkFC c T).1 nl) (forkFC c T).1 ⟨fn, some nl⟩ none :=
      ⟨nl, rfl, fun ρ r _ => ((branch_runs w hT hnl).1 ρ r).2⟩
    refine (verdict_exact s hs _ _ _ _).2.mpr ⟨?_, Or.inl ⟨hknown, ρ', r'⟩⟩
    rintro ⟨nl', h1, h2⟩
    simp only [Option.some.injEq] at h1; subst h1
    have a := h2 ρ' r' (by intro a h; simp at h)
    rw [((branch_runs w hT hnl).1 ρ' r').2] at a
    simp at a
  · rintro h ⟨ρ, r⟩
    obtain ⟨r0, e⟩ := (branch_runs w hT hnl).1 ρ r
    rw [h ρ r0] at e; simp at e

/-! Non-vacuity: a complete solver exists, the initial context is well formed and reachable, and forks and joins keep it so. -/

open Classical in
/-- A solver that never gives up. -/
noncomputable def idealSolver : Solver where
  solve Q := if ∃ ρ, ∀ f, Q f → f.eval ρ = true then .satisfiable else .unsatisfiable
  sat_sound Q h := by
    split at h
    · assumption
    · simp at h
  unsat_sound Q h := by
    split at h
    · simp at h
    · assumption

theorem idealSolver_complete : idealSolver.Complete := by
  intro Q
  simp only [idealSolver]
  split <;> simp

/-- The context at the entry of a function: one token, nothing known. -/
def entry : Ctx := { next := 1, tokens := [0], inv := [], fc := fun _ => none, deps := fun _ => [] }

theorem entry_wf : WF entry :=
  ⟨by simp [entry], by simp [entry], by simp [entry], by simp [entry], by simp [entry]⟩

theorem entry_reachable : Reachable entry 0 := by
  refine ⟨fun _ => true, ⟨by simp [entry], fun _ _ _ => rfl, ?_, rfl⟩⟩
  intro t C _ h; simp [entry] at h

/-- Two branches after the entry. -/
def twoPaths : Ctx :=
  ⟨4, [0, 2, 3], [], (fun t => if t = 2 then some (.atom 0) else if t = 3 then some (.atom 0) else none),
    (fun t => if t = 2 then [0] else if t = 3 then [0] else [])⟩

theorem twoPaths_wf : WF twoPaths := by
  refine ⟨by simp [twoPaths], ?_, ?_, ?_, by simp [twoPaths]⟩
  · intro t C h
    simp only [twoPaths] at h ⊢
    split at h
    · simp_all
    · split at h <;> simp_all
  · intro t d h
    simp only [twoPaths] at h ⊢
    split at h
    · simp_all
    · split at h <;> simp_all
  · intro t C h a ha
    simp only [twoPaths] at h ⊢
    split at h
    · rename_i e; subst e
      simp only [Option.some.injEq] at h; subst h
      simp only [Formula.atoms, List.mem_singleton] at ha; subst ha; simp
    · split at h
      · rename_i e; subst e
        simp only [Option.some.injEq] at h; subst h
        simp only [Formula.atoms, List.mem_singleton] at ha; subst ha; simp
      · simp at h

/-- Path 1: from a nullable source, known non-null. Path 2: from an unknown source, may be null. -/
def ex1 : NullState := ⟨some (.lit true), some (.lit false)⟩
def ex2 : NullState := ⟨some (.lit false), some (.atom 1)⟩

theorem ex_plain : PlainS twoPaths ex1 ∧ PlainS twoPaths ex2 := by
  refine ⟨⟨?_, ?_⟩, ⟨?_, ?_⟩⟩ <;> intro f hf <;> simp only [ex1, ex2, Option.some.injEq] at hf <;> subst hf <;>
    intro a ha <;> simp [Formula.atoms] at ha
  subst ha; simp [twoPaths]

theorem reach_twoPaths {T t : Nat} (h : Reach twoPaths T t) : t = T ∨ t = 0 := by
  cases h with
  | refl => exact Or.inl rfl
  | step _ hd =>
    right
    simp only [twoPaths] at hd
    split at hd
    · simpa using hd
    · split at hd <;> simp at hd; exact hd

theorem twoPaths_run (T : Nat) (ρ : Nat → Bool) (h0 : ρ 0 = true) (h2 : ρ 2 = true) (h3 : ρ 3 = true) (hT : T = 2 ∨ T = 3) : Run twoPaths T ρ := by
  refine ⟨by simp [twoPaths], ?_, ?_, ?_⟩
  · intro t hr hf
    rcases reach_twoPaths hr with rfl | rfl
    · rcases hT with rfl | rfl <;> simp [twoPaths] at hf
    · exact h0
  · intro t C hr hf
    rcases reach_twoPaths hr with rfl | rfl
    · rcases hT with rfl | rfl <;> simp only [twoPaths] at hf <;> simp at hf <;> subst hf <;> simp [Formula.eval, h0, h2, h3]
    · simp [twoPaths] at hf
  · rcases hT with rfl | rfl <;> assumption

/-- Disagreement (precision): each property is merged by itself, so if both flow conditions can hold together the join
can combine the source of one path with the nullness of the other: NonNull joined with Unspecified gives Nullable. -/
theorem join_mixes_paths : ∃ (c : Ctx) (T1 T2 : Nat) (st1 st2 : NullState) (T : Nat) (st : NullState) (c' : Ctx),
    WF c ∧ PlainS c st1 ∧ PlainS c st2 ∧ joinEnv idealSolver c T1 T2 (some st1) (some st2) = (T, some st, c') ∧
    getNullability idealSolver c T1 st1 none = .NonNull ∧ getNullability idealSolver c T2 st2 none = .Unspecified ∧
    getNullability idealSolver c' T st none = .Nullable := by
  have hs := idealSolver_complete
  have ac : ∀ ρ, Ac none ρ := fun ρ a h => by simp at h
  have hruns : ∀ b : Bool, Run twoPaths 3 (fun a => if a = 1 then b else true) ∧ Run twoPaths 2 (fun a => if a = 1 then b else true) := fun b =>
    ⟨twoPaths_run 3 _ (by simp) (by simp) (by simp) (Or.inr rfl), twoPaths_run 2 _ (by simp) (by simp) (by simp) (Or.inl rfl)⟩
  obtain ⟨T, st, c', hj, w', hT, -, -, -, -, -, -⟩ := joinEnv_spec idealSolver twoPaths_wf (T1 := 2) (T2 := 3) (by simp [twoPaths]) (by simp [twoPaths]) ex_plain.1 ex_plain.2
  refine ⟨twoPaths, 2, 3, ex1, ex2, T, st, c', twoPaths_wf, ex_plain.1, ex_plain.2, hj, ?_, ?_, ?_⟩
  · exact (verdict_exact idealSolver hs _ _ _ _).1.mpr ⟨.lit false, rfl, fun _ _ _ => rfl⟩
  · obtain ⟨v1, v2⟩ := verdict_exact idealSolver hs twoPaths 3 ex2 none
    cases hg : getNullability idealSolver twoPaths 3 ex2 none with
    | Unspecified => rfl
    | NonNull =>
      obtain ⟨nl, hnl, hall⟩ := v1.mp hg
      simp only [ex2, Option.some.injEq] at hnl; subst hnl
      have := hall _ (hruns true).1 (ac _); simp [Formula.eval] at this
    | Nullable =>
      rcases (v2.mp hg).2 with ⟨⟨nl, hnl, hall⟩, -⟩ | ⟨ρ, -, -, hm, -⟩
      · simp only [ex2, Option.some.injEq] at hnl; subst hnl
        have := hall _ (hruns false).1 (ac _); simp [Formula.eval] at this
      · have := hm (.lit false) rfl; simp [Formula.eval] at this
  · -- the merge makes two fresh atoms, 5 and 6
    obtain ⟨-, w0, hC0, d1, d2, htok, hnext, hinv, hold⟩ := joinFC_facts twoPaths_wf (T1 := 2) (T2 := 3) (by simp [twoPaths]) (by simp [twoPaths])
    have hne : ∀ t ∈ twoPaths.tokens, t ≠ 4 := by simp [twoPaths]
    have old : ∀ (ρ : Nat → Bool) (t : Nat), t ∈ twoPaths.tokens → (Run (joinFC twoPaths 2 3).2 t ρ ↔ Run twoPaths t ρ) := fun ρ t ht =>
      run_old twoPaths_wf hinv (fun x hx => hold x (hne x hx)) ht ρ
    have np1 : proves idealSolver (joinFC twoPaths 2 3).2 3 (.lit false) = false := by
      cases h : proves idealSolver (joinFC twoPaths 2 3).2 3 (.lit false) with
      | false => rfl
      | true => have := proves_sound _ h _ ((old _ 3 (by simp [twoPaths])).mpr (hruns true).1); simp [Formula.eval] at this
    have np2 : proves idealSolver (joinFC twoPaths 2 3).2 2 (.not (.lit true)) = false := by
      cases h : proves idealSolver (joinFC twoPaths 2 3).2 2 (.not (.lit true)) with
      | false => rfl
      | true => have := proves_sound _ h _ ((old _ 2 (by simp [twoPaths])).mpr (hruns true).2); simp [Formula.eval] at this
    obtain ⟨D1, hD1⟩ : ∃ D1 : Formula, D1 = .or (.and (.atom 2) (.equals (.atom 5) (.lit true))) (.and (.atom 3) (.equals (.atom 5) (.lit false))) := ⟨_, rfl⟩
    obtain ⟨D2, hD2⟩ : ∃ D2 : Formula, D2 = .or (.and (.atom 2) (.equals (.atom 6) (.lit false))) (.and (.atom 3) (.equals (.atom 6) (.atom 1))) := ⟨_, rfl⟩
    have m1 : mergeFormulas idealSolver (joinFC twoPaths 2 3).2 2 3 4 (some (.lit true)) (some (.lit false)) =
        (some (.atom 5), assume { (joinFC twoPaths 2 3).2 with next := 6 } 4 D1) := by
      rcases mergeFormulas_cases idealSolver (joinFC twoPaths 2 3).2 2 3 4 (some (.lit true)) (some (.lit false)) with ⟨h, -⟩ | ⟨-, h, -⟩ | ⟨f1, f2, e1, e2, v, -, h1, h2⟩ | ⟨f1, f2, e1, e2, h⟩
      · simp at h
      · simp at h
      · simp only [Option.some.injEq] at e1 e2; subst e1; subst e2
        have a := h1 _ ((old _ 2 (by simp [twoPaths])).mpr (hruns true).2)
        have b := h2 _ ((old _ 3 (by simp [twoPaths])).mpr (hruns true).1)
        simp only [Formula.eval] at a b
        cases v <;> simp_all [Formula.eval]
      · simp only [Option.some.injEq] at e1 e2; subst e1; subst e2
        rw [h, hD1]; rfl
    have w1 : Step (joinFC twoPaths 2 3).2 (assume { (joinFC twoPaths 2 3).2 with next := 6 } 4 D1) 4 := by
      have := (merge_step idealSolver w0 hC0 d1 d2 (some (.lit true)) (some (.lit false))
        (by intro f hf; simp only [Option.some.injEq] at hf; subst hf; intro a ha; simp [Formula.atoms] at ha)
        (by intro f hf; simp only [Option.some.injEq] at hf; subst hf; intro a ha; simp [Formula.atoms] at ha)).1
      rw [show mergeFormulas idealSolver (joinFC twoPaths 2 3).2 2 3 (joinFC twoPaths 2 3).1 (some (.lit true)) (some (.lit false)) = _ from m1] at this
      exact this
    obtain ⟨c1, hc1⟩ : ∃ c1, c1 = assume { (joinFC twoPaths 2 3).2 with next := 6 } 4 D1 := ⟨_, rfl⟩
    rw [← hc1] at m1 w1
    have old1 : ∀ (ρ : Nat → Bool) (t : Nat), t ∈ twoPaths.tokens → (Run c1 t ρ ↔ Run twoPaths t ρ) := fun ρ t ht =>
      run_old twoPaths_wf (by rw [w1.inv]; exact hinv) (fun x hx => by
        rw [w1.other x (hne x hx), w1.deps]; exact hold x (hne x hx)) ht ρ
    have m2 : mergeFormulas idealSolver c1 2 3 4 (some (.lit false)) (some (.atom 1)) =
        (some (.atom 6), assume { c1 with next := 7 } 4 D2) := by
      rcases mergeFormulas_cases idealSolver c1 2 3 4 (some (.lit false)) (some (.atom 1)) with ⟨h, -⟩ | ⟨-, h, -⟩ | ⟨f1, f2, e1, e2, v, -, h1, h2⟩ | ⟨f1, f2, e1, e2, h⟩
      · simp at h
      · simp at h
      · simp only [Option.some.injEq] at e1 e2; subst e1; subst e2
        have a := h1 _ ((old1 _ 2 (by simp [twoPaths])).mpr (hruns true).2)
        have b := h2 _ ((old1 _ 3 (by simp [twoPaths])).mpr (hruns true).1)
        simp [Formula.eval] at a b
        cases v <;> simp_all [Formula.eval]
      · simp only [Option.some.injEq] at e1 e2; subst e1; subst e2
        rw [h, hD2, hc1]; rfl
    have hj' : joinEnv idealSolver twoPaths 2 3 (some ex1) (some ex2) = (4, some ⟨some (.atom 5), some (.atom 6)⟩, assume { c1 with next := 7 } 4 D2) := by
      simp only [joinEnv, joinState, ex1, ex2]
      rw [show (joinFC twoPaths 2 3).1 = 4 from rfl, m1]
      simp only
      rw [m2]
    rw [hj'] at hj
    simp only [Prod.mk.injEq, Option.some.injEq] at hj
    obtain ⟨rfl, rfl, rfl⟩ := hj
    have hfc : ∀ t, (assume { c1 with next := 7 } 4 D2).fc t = if t = 4 then some (.and (.and (.or (.atom 2) (.atom 3)) D1) D2) else twoPaths.fc t := by
      intro t
      rw [hc1]
      by_cases e : t = 4
      · subst e; simp [assume, joinFC, makeAtom, twoPaths]
      · simp [assume, joinFC, makeAtom, twoPaths, e]
    have hrun : Run (assume { c1 with next := 7 } 4 D2) 4 (fun _ => true) := by
      refine ⟨?_, fun _ _ _ => rfl, ?_, rfl⟩
      · intro g hg
        have : (assume { c1 with next := 7 } 4 D2).inv = [] := by rw [hc1]; rfl
        rw [this] at hg; simp at hg
      · intro t C _ hf
        rw [hfc] at hf
        split at hf
        · simp only [Option.some.injEq] at hf; subst hf
          rw [hD1, hD2]; simp [Formula.eval]
        · simp only [twoPaths] at hf
          split at hf
          · simp only [Option.some.injEq] at hf; subst hf; rfl
          · split at hf
            · simp only [Option.some.injEq] at hf; subst hf; rfl
            · simp at hf
    have hF : FromNullableAndMaybeNull (assume { c1 with next := 7 } 4 D2) 4 ⟨some (.atom 5), some (.atom 6)⟩ none :=
      ⟨fun _ => true, hrun, ac _, fun f hf => by simp only [Option.some.injEq] at hf; subst hf; rfl, fun f hf => by simp only [Option.some.injEq] at hf; subst hf; rfl⟩
    refine (verdict_exact idealSolver hs _ _ _ _).2.mpr ⟨?_, Or.inr hF⟩
    rintro ⟨nl, hnl, hall⟩
    simp only [Option.some.injEq] at hnl; subst hnl
    have := hall _ hrun (ac _)
    simp [Formula.eval] at this

end Verif.NullFlow

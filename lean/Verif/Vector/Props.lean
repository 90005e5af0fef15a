import Verif.Vector.Own
import Verif.Vector.Methods
/-
C64-C67: theorems about all programs.
-/
namespace Verif.Vector
open Verif

/-- C64. Every program that uses values as Rust allows runs without undefined behaviour and ASan reports, and every vector has the length,
capacity and elements of the list in the specification. -/
theorem vector_is_list (ops : List Op) (a : AState) (h : specRun .init ops = some a) :
    ∃ s, run .init ops = some s ∧ s.mem.w = a.w ∧
      (∀ x es cap, a.vec x = some (es, cap) → ∃ v, s.vec x = some v ∧ v.len = some es.length ∧ v.cap = some cap ∧
        asSlice s.mem v = some es ∧ deref s.mem v = some es) ∧
      (∀ x es, a.rvec x = some es → s.rvec x = some es) ∧
      (∀ x es, a.iter x = some es → ∃ it, s.iter x = some it ∧ it.j - it.i = es.length ∧ s.mem.read it.ptr it.i es.length = some es) := by
  obtain ⟨s, hs, hr⟩ := run_refines ops init_rel h
  refine ⟨s, hs, hr.w, fun x es cap hx => ?_, fun x es hx => (hr.rvec hx).1, fun x es hx => ?_⟩
  · obtain ⟨v, c, h1, -, -, h2⟩ := hr.vec hx
    exact ⟨v, h1, h2.len, h2.cap, asSlice_refines h2⟩
  · obtain ⟨it, h1, -, -, hj, hi⟩ := hr.iter hx
    refine ⟨it, h1, by omega, ?_⟩
    rcases hi with ⟨-, rfl, -⟩ | ⟨b, hb, hi⟩
    · rfl
    · rw [hb]
      refine read_region hi ?_
      obtain ⟨k, -, -, -, hl, -⟩ := hi; exact hl

/-- The program panics in no method. -/
def NoPanics (ops : List Op) : Prop := ∀ x ps, Op.mutate x ps true ∉ ops

theorem leaked_nil {a a' : AState} {op : Op} (hop : ∀ x ps, op ≠ .mutate x ps true) (h : op.spec a = some a') (hl : a.leaked = []) : a'.leaked = [] := by
  cases op with
  | mutate x ps panics =>
    cases panics with
    | true => exact absurd rfl (hop x ps)
    | false =>
      simp only [Op.spec, Option.bind_eq_bind, Option.bind_eq_some_iff] at h
      obtain ⟨⟨es, cap⟩, -, ⟨w, fs, c⟩, -, h⟩ := h
      simp only [Bool.false_eq_true, if_false, Option.pure_def, Option.some.injEq] at h
      subst h; exact hl
  | next x =>
    simp only [Op.spec, Option.bind_eq_bind, Option.bind_eq_some_iff] at h
    obtain ⟨es, -, h⟩ := h
    cases es <;> simp only [Option.pure_def, Option.some.injEq] at h <;> subst h <;> exact hl
  | nextBack x =>
    simp only [Op.spec, Option.bind_eq_bind, Option.bind_eq_some_iff] at h
    obtain ⟨es, -, h⟩ := h
    cases hg : es.getLast? <;> rw [hg] at h <;> simp only [Option.pure_def, Option.some.injEq] at h <;> subst h <;> exact hl
  | make | new => simp only [Op.spec, Option.some.injEq] at h; subst h; exact hl
  | dropElem | clone | mkVec | dropVec | intoVec | intoIter | dropIter | prepare | drop =>
    simp only [Op.spec, Option.bind_eq_bind, Option.bind_eq_some_iff, Option.pure_def, Option.some.injEq] at h
    obtain ⟨_, -, h⟩ := h
    subst h; exact hl
  | append | splitOff | cpp =>
    simp only [Op.spec, Option.bind_eq_bind, Option.bind_eq_some_iff, Option.pure_def] at h
    obtain ⟨_, -, h⟩ := h
    first
    | (split at h
       · simp only [Option.some.injEq] at h; subst h; exact hl
       · simp at h)
    | (obtain ⟨_, -, h⟩ := h
       split at h
       · simp only [Option.some.injEq] at h; subst h; exact hl
       · simp at h)
  | fromVec =>
    simp only [Op.spec, Option.bind_eq_bind, Option.bind_eq_some_iff, Option.pure_def] at h
    obtain ⟨_, -, h⟩ := h
    split at h
    · simp only [Option.some.injEq] at h; subst h; exact hl
    · split at h
      · simp only [Option.some.injEq] at h; subst h; exact hl
      · simp at h
  | writeTail =>
    simp only [Op.spec, Option.bind_eq_bind, Option.bind_eq_some_iff, Option.pure_def] at h
    obtain ⟨_, -, _, -, h⟩ := h
    split at h
    · simp only [Option.some.injEq] at h; subst h; exact hl
    · simp at h

theorem run_leaked (ops : List Op) (hn : NoPanics ops) : ∀ {a a' : AState}, specRun a ops = some a' → a.leaked = [] → a'.leaked = [] := by
  induction ops with
  | nil => intro a a' h hl; simp only [specRun, Option.some.injEq] at h; subst h; exact hl
  | cons op ops ih =>
    intro a a' h hl
    simp only [specRun, Option.bind_eq_bind, Option.bind_eq_some_iff] at h
    obtain ⟨a1, h1, h2⟩ := h
    refine ih (fun x ps hm => hn x ps (List.mem_cons_of_mem _ hm)) h2 (leaked_nil (fun x ps e => ?_) h1 hl)
    subst e
    exact hn x ps (List.mem_cons_self ..)

theorem owns_pos {objs : List (Nat × AObj)} {e : Nat} (h : 0 < owns objs e) : ∃ p ∈ objs, e ∈ p.2.elems := by
  induction objs with
  | nil => simp [owns] at h
  | cons p objs ih =>
    obtain ⟨x, o⟩ := p
    rw [owns_cons] at h
    by_cases hc : e ∈ o.elems
    · exact ⟨(x, o), List.mem_cons_self .., hc⟩
    · rw [List.count_eq_zero_of_not_mem hc] at h
      obtain ⟨q, hq, he⟩ := ih (by omega)
      exact ⟨q, List.mem_cons_of_mem _ hq, he⟩

theorem owns_of_mem {objs : List (Nat × AObj)} {e : Nat} {p : Nat × AObj} (hp : p ∈ objs) (he : e ∈ p.2.elems) : 0 < owns objs e := by
  induction objs with
  | nil => simp at hp
  | cons q objs ih =>
    obtain ⟨x, o⟩ := q
    rw [owns_cons]
    rcases List.mem_cons.1 hp with rfl | hp
    · have := List.count_pos_iff.2 he
      simp only at this; omega
    · have := ih hp; omega

/-- C65. Each element is dropped at most once, never while a value owns it, and an element that exists and is not dropped has an owner, unless
a panic leaked it; without panics nothing is leaked; when the program owns nothing any more, all elements have been dropped exactly once. -/
theorem elements_dropped_once (ops : List Op) (a : AState) (h : specRun .init ops = some a) :
    ∃ s, run .init ops = some s ∧
      (∀ e, s.mem.w.log.count (.made e) ≤ 1 ∧ s.mem.w.log.count (.dropped e) ≤ s.mem.w.log.count (.made e)) ∧
      (∀ e, (e ∈ s.mem.w.hand ∨ ∃ x o, AMap.get? a.objs x = some o ∧ e ∈ o.elems) → Ev.made e ∈ s.mem.w.log ∧ Ev.dropped e ∉ s.mem.w.log) ∧
      (∀ x y o p e, x ≠ y → AMap.get? a.objs x = some o → AMap.get? a.objs y = some p → e ∈ o.elems → e ∉ p.elems) ∧
      (∀ x o, AMap.get? a.objs x = some o → o.elems.Nodup) ∧
      (∀ e, Ev.made e ∈ s.mem.w.log → Ev.dropped e ∈ s.mem.w.log ∨ e ∈ s.mem.w.hand ∨ (∃ x o, AMap.get? a.objs x = some o ∧ e ∈ o.elems) ∨ e ∈ a.leaked) ∧
      (NoPanics ops → a.leaked = []) ∧
      (NoPanics ops → a.objs = [] → s.mem.w.hand = [] → ∀ e, s.mem.w.log.count (.dropped e) = s.mem.w.log.count (.made e)) := by
  obtain ⟨s, hs, hr⟩ := run_refines ops init_rel h
  have hb := run_balanced ops init_balanced h
  have hlk : NoPanics ops → a.leaked = [] := fun hn => run_leaked ops hn h rfl
  refine ⟨s, hs, ?_, ?_, ?_, ?_, ?_, hlk, ?_⟩
  all_goals try rw [hr.w]
  · intro e
    have ⟨h1, h2⟩ := hb e; dsimp only at h1 h2
    split at h1 <;> split at h2 <;> omega
  · intro e he
    have ⟨h1, h2⟩ := hb e; dsimp only at h1 h2
    have hpos : 0 < a.w.hand.count e + owns a.objs e := by
      rcases he with he | ⟨x, o, ho, he⟩
      · have := List.count_pos_iff.2 he; omega
      · have := owns_of_mem (AMap.mem_of_get? _ ho) he; omega
    have hlt : e < a.w.next := by
      apply Classical.byContradiction
      intro hn
      rw [if_neg hn] at h1; omega
    rw [if_pos hlt] at h1 h2
    refine ⟨List.count_pos_iff.1 (by omega), fun hm => ?_⟩
    have := List.count_pos_iff.2 hm
    omega
  · intro x y o p e hxy ho hp heo hep
    have ⟨h1, h2⟩ := hb e; dsimp only at h1 h2
    have g1 := owns_erase ho e
    have hp' : AMap.get? (AMap.erase a.objs x) y = some p := by rw [AMap.get?_erase_ne _ hxy]; exact hp
    have g2 := owns_erase hp' e
    have := List.count_pos_iff.2 heo
    have := List.count_pos_iff.2 hep
    split at h1 <;> omega
  · intro x o ho
    rw [List.nodup_iff_count]
    intro e
    have ⟨h1, h2⟩ := hb e; dsimp only at h1 h2
    have g1 := owns_erase ho e
    split at h1 <;> omega
  · intro e he
    have ⟨h1, h2⟩ := hb e; dsimp only at h1 h2
    have := List.count_pos_iff.2 he
    split at h1
    · next hlt =>
      by_cases c1 : e ∈ a.w.hand
      · exact Or.inr (Or.inl c1)
      · by_cases c2 : Ev.dropped e ∈ a.w.log
        · exact Or.inl c2
        · by_cases c3 : e ∈ a.leaked
          · exact Or.inr (Or.inr (Or.inr c3))
          · rw [List.count_eq_zero_of_not_mem c1, List.count_eq_zero_of_not_mem c2, List.count_eq_zero_of_not_mem c3] at h1
            obtain ⟨⟨x, o⟩, hm, heo⟩ := owns_pos (objs := a.objs) (e := e) (by omega)
            exact Or.inr (Or.inr (Or.inl ⟨x, o, AMap.get?_of_mem _ hr.anames.1 hm, heo⟩))
    · next hlt => rw [if_neg hlt] at h2; omega
  · intro hn ho hh e
    have ⟨h1, h2⟩ := hb e; dsimp only at h1 h2
    rw [hlk hn, ho, hh] at h1
    simp only [List.count_nil, owns, List.map_nil, List.sum_nil] at h1
    split at h1 <;> split at h2 <;> omega

theorem IsObj.alloc {m : Mem} {o : Obj} {p : AObj} (h : IsObj m o p) : ∀ b ∈ o.buf, m.heap b ≠ none := by
  intro b hb
  cases o with
  | vec v =>
    cases p with
    | vec es cap c =>
      rcases h with ⟨-, -, rfl⟩ | ⟨b', rfl, k, hk, -⟩
      · simp [Obj.buf, Ptr.buf] at hb
      · simp only [Obj.buf, Ptr.buf, List.mem_singleton] at hb; subst hb; rw [hk]; simp
    | iter => exact h.elim
    | rvec => exact h.elim
  | iter it =>
    cases p with
    | iter es =>
      obtain ⟨-, ⟨-, -, hp⟩ | ⟨b', hp, k, hk, -⟩⟩ := h
      · simp [Obj.buf, hp, Ptr.buf] at hb
      · simp only [Obj.buf, hp, Ptr.buf, List.mem_singleton] at hb; subst hb; rw [hk]; simp
    | vec => exact h.elim
    | rvec => exact h.elim
  | rvec => simp [Obj.buf] at hb

/-- C65. Every allocation that is not freed belongs to exactly one vector or iterator; with no value left, all memory is freed. (Freeing twice,
with a wrong capacity or while poisoned is undefined behaviour in the model, so that `vector_is_list` excludes it.) -/
theorem memory_freed (ops : List Op) (a : AState) (h : specRun .init ops = some a) :
    ∃ s, run .init ops = some s ∧
      (∀ b, s.mem.heap b ≠ none ↔ ∃ x o, AMap.get? s.objs x = some o ∧ b ∈ o.buf) ∧
      (∀ x y o p b, AMap.get? s.objs x = some o → AMap.get? s.objs y = some p → b ∈ o.buf → b ∈ p.buf → x = y) ∧
      (∀ x, (∃ o, AMap.get? s.objs x = some o) ↔ ∃ o, AMap.get? a.objs x = some o) ∧
      (a.objs = [] → ∀ b, s.mem.heap b = none) := by
  obtain ⟨s, hs, hr⟩ := run_refines ops init_rel h
  have hsame : ∀ x, (∃ o, AMap.get? s.objs x = some o) ↔ ∃ o, AMap.get? a.objs x = some o := by
    intro x
    have := hr.obj x
    cases h1 : AMap.get? s.objs x <;> cases h2 : AMap.get? a.objs x <;> rw [h1, h2] at this <;> simp [SameObj] at this ⊢
  have hown : ∀ b, s.mem.heap b ≠ none ↔ ∃ x o, AMap.get? s.objs x = some o ∧ b ∈ o.buf := by
    intro b
    refine ⟨hr.owned b, ?_⟩
    rintro ⟨x, o, ho, hb⟩
    have := hr.obj x
    rw [ho] at this
    cases h2 : AMap.get? a.objs x with
    | none => rw [h2] at this; exact this.elim
    | some p => rw [h2] at this; exact IsObj.alloc this b hb
  refine ⟨s, hs, hown, ?_, hsame, ?_⟩
  · intro x y o p b ho hp hbo hbp
    apply Classical.byContradiction
    intro hne
    exact hr.unique x y o p hne ho hp b hbo hbp
  · intro ha b
    apply Classical.byContradiction
    intro hn
    obtain ⟨x, o, ho, -⟩ := (hown b).1 hn
    obtain ⟨p, hp⟩ := (hsame x).1 ⟨o, ho⟩
    rw [ha] at hp; simp at hp

/-- The program neither panics nor leaves a tail open. -/
def Tidy (ops : List Op) : Prop := NoPanics ops ∧ ∀ x, Op.prepare x ∉ ops

def AllClosed (a : AState) : Prop := ∀ p ∈ a.objs, ∀ es cap c, p.2 = AObj.vec es cap c → c = true

theorem AllClosed.insert {objs : List (Nat × AObj)} (h : ∀ p ∈ objs, ∀ es cap c, p.2 = AObj.vec es cap c → c = true) (x : Nat) (o : AObj)
    (ho : ∀ es cap c, o = AObj.vec es cap c → c = true) : ∀ p ∈ AMap.insert objs x o, ∀ es cap c, p.2 = AObj.vec es cap c → c = true := by
  induction objs with
  | nil => simpa [AMap.insert] using ho
  | cons q objs ih =>
    intro p hp
    simp only [AMap.insert] at hp
    split at hp
    · rcases List.mem_cons.1 hp with rfl | hp
      · exact ho
      · exact h p (List.mem_cons_of_mem _ hp)
    · rcases List.mem_cons.1 hp with rfl | hp
      · exact h _ (List.mem_cons_self ..)
      · exact ih (fun p hp => h p (List.mem_cons_of_mem _ hp)) p hp

theorem AllClosed.erase {objs : List (Nat × AObj)} (h : ∀ p ∈ objs, ∀ es cap c, p.2 = AObj.vec es cap c → c = true) (x : Nat) :
    ∀ p ∈ AMap.erase objs x, ∀ es cap c, p.2 = AObj.vec es cap c → c = true := by
  induction objs with
  | nil => simp [AMap.erase]
  | cons q objs ih =>
    intro p hp
    simp only [AMap.erase] at hp
    split at hp
    · exact h p (List.mem_cons_of_mem _ hp)
    · rcases List.mem_cons.1 hp with rfl | hp
      · exact h _ (List.mem_cons_self ..)
      · exact ih (fun p hp => h p (List.mem_cons_of_mem _ hp)) p hp

theorem AllClosed.add {objs : List (Nat × AObj)} (h : ∀ p ∈ objs, ∀ es cap c, p.2 = AObj.vec es cap c → c = true) (x : Nat) (o : AObj)
    (ho : ∀ es cap c, o = AObj.vec es cap c → c = true) : ∀ p ∈ (x, o) :: objs, ∀ es cap c, p.2 = AObj.vec es cap c → c = true := by
  intro p hp
  rcases List.mem_cons.1 hp with rfl | hp
  · exact ho
  · exact h p hp

theorem closed_step {a a' : AState} {op : Op} (hop : ∀ x ps, op ≠ .mutate x ps true) (hop2 : ∀ x, op ≠ .prepare x) (h : op.spec a = some a')
    (hc : AllClosed a) : AllClosed a' := by
  have hv : ∀ es0 cap0 es cap c, AObj.vec es0 cap0 true = AObj.vec es cap c → c = true := by
    intro _ _ _ _ _ h; simp only [AObj.vec.injEq] at h; exact h.2.2.symm
  have hi : ∀ es0 es cap c, AObj.iter es0 = AObj.vec es cap c → c = true := by intro _ _ _ _ h; cases h
  have hr : ∀ es0 es cap c, AObj.rvec es0 = AObj.vec es cap c → c = true := by intro _ _ _ _ h; cases h
  cases op with
  | prepare x => exact absurd rfl (hop2 x)
  | mutate x ps panics =>
    cases panics with
    | true => exact absurd rfl (hop x ps)
    | false =>
      simp only [Op.spec, Option.bind_eq_bind, Option.bind_eq_some_iff] at h
      obtain ⟨⟨es, cap⟩, -, ⟨w, fs, c⟩, -, h⟩ := h
      simp only [Bool.false_eq_true, if_false, Option.pure_def, Option.some.injEq] at h
      subst h; exact AllClosed.insert hc _ _ (hv _ _)
  | next x =>
    simp only [Op.spec, Option.bind_eq_bind, Option.bind_eq_some_iff] at h
    obtain ⟨es, -, h⟩ := h
    cases es <;> simp only [Option.pure_def, Option.some.injEq] at h <;> subst h
    · exact hc
    · exact AllClosed.insert hc _ _ (hi _)
  | nextBack x =>
    simp only [Op.spec, Option.bind_eq_bind, Option.bind_eq_some_iff] at h
    obtain ⟨es, -, h⟩ := h
    cases hg : es.getLast? <;> rw [hg] at h <;> simp only [Option.pure_def, Option.some.injEq] at h <;> subst h
    · exact hc
    · exact AllClosed.insert hc _ _ (hi _)
  | make => simp only [Op.spec, Option.some.injEq] at h; subst h; exact hc
  | new => simp only [Op.spec, Option.some.injEq] at h; subst h; exact AllClosed.add hc _ _ (hv _ _)
  | dropElem =>
    simp only [Op.spec, Option.bind_eq_bind, Option.bind_eq_some_iff, Option.pure_def, Option.some.injEq] at h
    obtain ⟨_, -, h⟩ := h
    subst h; exact hc
  | clone =>
    simp only [Op.spec, Option.bind_eq_bind, Option.bind_eq_some_iff, Option.pure_def, Option.some.injEq] at h
    obtain ⟨_, -, h⟩ := h
    subst h; exact AllClosed.add hc _ _ (hv _ _)
  | mkVec =>
    simp only [Op.spec, Option.bind_eq_bind, Option.bind_eq_some_iff, Option.pure_def, Option.some.injEq] at h
    obtain ⟨_, -, h⟩ := h
    subst h; exact AllClosed.add hc _ _ (hr _)
  | intoVec =>
    simp only [Op.spec, Option.bind_eq_bind, Option.bind_eq_some_iff, Option.pure_def, Option.some.injEq] at h
    obtain ⟨_, -, h⟩ := h
    subst h; exact AllClosed.insert hc _ _ (hr _)
  | intoIter =>
    simp only [Op.spec, Option.bind_eq_bind, Option.bind_eq_some_iff, Option.pure_def, Option.some.injEq] at h
    obtain ⟨_, -, h⟩ := h
    subst h; exact AllClosed.insert hc _ _ (hi _)
  | dropVec | dropIter | drop =>
    simp only [Op.spec, Option.bind_eq_bind, Option.bind_eq_some_iff, Option.pure_def, Option.some.injEq] at h
    obtain ⟨_, -, h⟩ := h
    subst h; exact AllClosed.erase hc _
  | append =>
    simp only [Op.spec, Option.bind_eq_bind, Option.bind_eq_some_iff, Option.pure_def] at h
    obtain ⟨_, -, _, -, h⟩ := h
    split at h
    · simp only [Option.some.injEq] at h; subst h
      exact AllClosed.insert (AllClosed.insert hc _ _ (hv _ _)) _ _ (hv _ _)
    · simp at h
  | splitOff =>
    simp only [Op.spec, Option.bind_eq_bind, Option.bind_eq_some_iff, Option.pure_def] at h
    obtain ⟨_, -, h⟩ := h
    split at h
    · simp only [Option.some.injEq] at h; subst h
      exact AllClosed.add (AllClosed.insert hc _ _ (hv _ _)) _ _ (hv _ _)
    · simp at h
  | cpp =>
    simp only [Op.spec, Option.bind_eq_bind, Option.bind_eq_some_iff, Option.pure_def] at h
    obtain ⟨_, -, h⟩ := h
    split at h
    · simp only [Option.some.injEq] at h; subst h
      exact AllClosed.add hc _ _ (hv _ _)
    · simp at h
  | fromVec =>
    simp only [Op.spec, Option.bind_eq_bind, Option.bind_eq_some_iff, Option.pure_def] at h
    obtain ⟨_, -, h⟩ := h
    split at h
    · simp only [Option.some.injEq] at h; subst h; exact AllClosed.insert hc _ _ (hv _ _)
    · split at h
      · simp only [Option.some.injEq] at h; subst h; exact AllClosed.insert hc _ _ (hv _ _)
      · simp at h
  | writeTail =>
    simp only [Op.spec, Option.bind_eq_bind, Option.bind_eq_some_iff, Option.pure_def] at h
    obtain ⟨_, -, _, -, h⟩ := h
    split at h
    · simp only [Option.some.injEq] at h; subst h; exact AllClosed.insert hc _ _ (hv _ _)
    · simp at h

theorem run_closed (ops : List Op) (hn : Tidy ops) : ∀ {a a' : AState}, specRun a ops = some a' → AllClosed a → AllClosed a' := by
  induction ops with
  | nil => intro a a' h hl; simp only [specRun, Option.some.injEq] at h; subst h; exact hl
  | cons op ops ih =>
    intro a a' h hl
    simp only [specRun, Option.bind_eq_bind, Option.bind_eq_some_iff] at h
    obtain ⟨a1, h1, h2⟩ := h
    refine ih ⟨fun x ps hm => hn.1 x ps (List.mem_cons_of_mem _ hm), fun x hm => hn.2 x (List.mem_cons_of_mem _ hm)⟩ h2
      (closed_step (fun x ps e => ?_) (fun x e => ?_) h1 hl)
    · subst e; exact hn.1 x ps (List.mem_cons_self ..)
    · subst e; exact hn.2 x (List.mem_cons_self ..)

/-- C66. Between any two operations a vector is a valid `std::vector` of libc++ with the same elements: null exactly without capacity, end
pointers into one allocation of the right size, and ASan knows the tail is not to be used (after a panic, or between
`prepare_to_write_into_tail` and `set_len`, the tail is accessible). -/
theorem cpp_sees_vector (ops : List Op) (a : AState) (h : specRun .init ops = some a) :
    ∃ s, run .init ops = some s ∧
      ∀ x es cap, a.vec x = some (es, cap) → ∃ v c, s.vec x = some v ∧ IsVector s.mem v es cap c ∧ (v.begin_ = .null ↔ cap = 0) ∧ (Tidy ops → c = true) := by
  obtain ⟨s, hs, hr⟩ := run_refines ops init_rel h
  refine ⟨s, hs, fun x es cap hx => ?_⟩
  obtain ⟨v, c, h1, -, h3, h2⟩ := hr.vec hx
  refine ⟨v, c, h1, h2, ?_, fun ht => ?_⟩
  · rcases h2 with ⟨h0, -, rfl⟩ | ⟨b, rfl, k, -, -, h0, -⟩
    · simp [h0]
    · simp; omega
  · exact run_closed ops ht h (by simp [AllClosed, AState.init]) _ (AMap.mem_of_get? _ h3) _ _ _ rfl

/-- C67. A panic in a method that has not yet moved the elements to other memory nor removed any (index out of range, capacity overflow,
user code that panics early) leaves a vector with the same length, and all else as before. -/
theorem panic_harmless (ops : List Op) (a : AState) (h : specRun .init ops = some a) (x : Nat) (es : List Nat) (cap : Nat)
    (hx : a.vec x = some (es, cap)) (ps : List Prim) (hp : ps.all Prim.harmless = true) (w : World) (fs : List Nat) (c : Nat)
    (hs : specPrims a.w es cap ps = some (w, fs, c)) :
    ∃ s, run .init (ops ++ [.mutate x ps true]) = some s ∧ s.mem.w = w ∧ c = cap ∧
      ∃ v, s.vec x = some v ∧ asSlice s.mem v = some (fs.take es.length) ∧ (fs.take es.length).length = es.length ∧ v.cap = some cap := by
  obtain ⟨s, h1, hr⟩ := run_refines ops init_rel h
  have hstep : Op.spec a (.mutate x ps true) =
      some ({ a with w := w, leaked := fs.drop es.length ++ a.leaked }.put x (.vec (fs.take es.length) cap false)) := by
    simp [Op.spec, hx, hs, hp]
  obtain ⟨s', h2, hr'⟩ := exec_refines hr _ hstep
  have happ : ∀ (l : List Op) (s0 : State) op, run s0 (l ++ [op]) = (run s0 l).bind fun s => exec s op := by
    intro l
    induction l with
    | nil => intro s0 op; simp [run]
    | cons o l ih =>
      intro s0 op
      simp only [List.cons_append, run, Option.bind_eq_bind]
      cases exec s0 o with
      | none => rfl
      | some s1 => simp [ih]
  obtain ⟨v0, c0, -, -, -, hi⟩ := hr.vec hx
  have hlen : c = cap ∧ es.length ≤ fs.length := by
    obtain ⟨m1, a1, a2, a3, a4, a5, a6⟩ := open_vector hi
    rw [← hr.w, ← a2] at hs
    obtain ⟨m2, r2, b1, b2, b3, b4, b5⟩ := prims_refine ps a5 (a4.2 hr.wf) hs
    exact (b5 hp).2
  refine ⟨s', by rw [happ, h1]; exact h2, hr'.w, hlen.1, ?_⟩
  obtain ⟨v, c', g1, -, -, g2⟩ := hr'.vec (x := x) (es := fs.take es.length) (cap := cap) (by simp [AState.vec, AState.put, AMap.get?_insert_self])
  exact ⟨v, g1, (asSlice_refines g2).1, by simp; omega, g2.cap⟩

end Verif.Vector

import Verif.PtsTo.Model
/- Facts about the sets, maps, types and the constraints of an assignment. -/
namespace Verif.PtsTo
open Verif.Lifetimes

theorem mem_addAll {α : Type} [DecidableEq α] (a b : List α) (x : α) : x ∈ addAll a b ↔ x ∈ a ∨ x ∈ b := mem_setInsertAll b a x

theorem Pts.mem_getAll (p : Pts) (x : Obj) : ∀ os : List Obj, x ∈ p.getAll os ↔ ∃ o ∈ os, x ∈ p.get o
  | [] => by simp [Pts.getAll]
  | o :: os => by
    rw [Pts.getAll, mem_addAll, Pts.mem_getAll p x os]
    simp

theorem Pts.get_set (p : Pts) (o o' : Obj) (s : List Obj) : (p.set o s).get o' = if o = o' then s else p.get o' := by
  unfold Pts.set Pts.get
  by_cases h : o = o'
  · subst h; rw [AMap.get?_insert_self, if_pos rfl]; rfl
  · rw [AMap.get?_insert_ne _ _ h, if_neg h]

theorem Pts.get_extend (p : Pts) (o o' : Obj) (s : List Obj) :
    (p.extend o s).get o' = if o = o' then addAll (p.get o) s else p.get o' := Pts.get_set p o o' _

theorem Pts.mem_extend (p : Pts) (o o' x : Obj) (s : List Obj) :
    x ∈ (p.extend o s).get o' ↔ x ∈ p.get o' ∨ (o = o' ∧ x ∈ s) := by
  rw [Pts.get_extend]
  by_cases h : o = o'
  · subst h; rw [if_pos rfl, mem_addAll]; simp
  · rw [if_neg h]; simp [h]

theorem Pts.mem_extendAll (s : List Obj) (o' x : Obj) : ∀ (os : List Obj) (p : Pts),
    x ∈ (os.foldl (fun p o => p.extend o s) p).get o' ↔ x ∈ p.get o' ∨ (o' ∈ os ∧ x ∈ s)
  | [], p => by simp
  | o :: os, p => by
    rw [List.foldl_cons, Pts.mem_extendAll s o' x os, Pts.mem_extend, List.mem_cons]
    constructor
    · rintro ((h | ⟨h, h'⟩) | h)
      · exact Or.inl h
      · exact Or.inr ⟨Or.inl h.symm, h'⟩
      · exact Or.inr ⟨Or.inr h.1, h.2⟩
    · rintro (h | ⟨h | h, h'⟩)
      · exact Or.inl (Or.inl h)
      · exact Or.inl (Or.inr ⟨h.symm, h'⟩)
      · exact Or.inr ⟨h, h'⟩

theorem Pts.mem_union (o x : Obj) : ∀ (q p : Pts), x ∈ (p.union q).get o ↔ x ∈ p.get o ∨ ∃ e ∈ q, e.1 = o ∧ x ∈ e.2
  | [], p => by simp [Pts.union]
  | e :: q, p => by
    show x ∈ (Pts.union (p.extend e.1 e.2) q).get o ↔ _
    rw [Pts.mem_union o x q, Pts.mem_extend]
    constructor
    · rintro ((h | ⟨h, h'⟩) | ⟨e', h, h'⟩)
      · exact Or.inl h
      · exact Or.inr ⟨e, by simp, h, h'⟩
      · exact Or.inr ⟨e', by simp [h], h'⟩
    · rintro (h | ⟨e', h, h'⟩)
      · exact Or.inl (Or.inl h)
      · rcases List.mem_cons.mp h with rfl | h
        · exact Or.inl (Or.inr h')
        · exact Or.inr ⟨e', h, h'⟩

theorem Pts.mem_of_get (p : Pts) (o x : Obj) (h : x ∈ p.get o) : ∃ s, (o, s) ∈ p ∧ x ∈ s := by
  unfold Pts.get at h
  cases hg : AMap.get? p o with
  | none => rw [hg] at h; simp at h
  | some s => rw [hg] at h; exact ⟨s, AMap.mem_of_get? p hg, h⟩

theorem Pts.mem_union_right (p q : Pts) (o x : Obj) (h : x ∈ q.get o) : x ∈ (p.union q).get o := by
  obtain ⟨s, hs, hx⟩ := q.mem_of_get o x h
  exact (Pts.mem_union o x q p).mpr (Or.inr ⟨(o, s), hs, rfl, hx⟩)

/-! ### Types -/

theorem conv_refl : ∀ t, conv t t
  | .int => trivial
  | .ptr c t => ⟨id, by cases c <;> simp [conv_refl t]⟩

theorem convc_refl (c : Bool) (t : Ty) : convc c t t := by
  unfold convc; split <;> [exact conv_refl t; rfl]

theorem conv_trans : ∀ {a b c : Ty}, conv a b → conv b c → conv a c
  | .int, .int, .int, _, _ => trivial
  | .int, .int, .ptr .., _, h => h.elim
  | .int, .ptr .., _, h, _ => h.elim
  | .ptr .., .int, _, h, _ => h.elim
  | .ptr .., .ptr .., .int, _, h => h.elim
  | .ptr x a, .ptr y b, .ptr z c, ⟨h1, h2⟩, ⟨h3, h4⟩ => by
    refine ⟨fun h => h3 (h1 h), ?_⟩
    cases z with
    | true =>
      simp only [if_true] at h4 ⊢
      cases y with
      | true => simp only [if_true] at h2; exact conv_trans h2 h4
      | false => simp only [Bool.false_eq_true, if_false] at h2; rw [h2]; exact h4
    | false =>
      cases y with
      | true => simp at h3
      | false =>
        simp only [Bool.false_eq_true, if_false] at h2 h4 ⊢
        rw [h2, h4]

theorem conv_depth : ∀ {a b : Ty}, conv a b → a.depth = b.depth
  | .int, .int, _ => rfl
  | .int, .ptr .., h => h.elim
  | .ptr .., .int, h => h.elim
  | .ptr x a, .ptr y b, ⟨_, h⟩ => by
    cases y with
    | true => simp only [if_true] at h; simp [Ty.depth, conv_depth h]
    | false => simp only [Bool.false_eq_true, if_false] at h; simp [Ty.depth, h]

theorem convc_depth {c : Bool} {a b : Ty} (h : convc c a b) : a.depth = b.depth := by
  unfold convc at h
  split at h
  · exact conv_depth h
  · rw [h]

theorem conv_ptr {c c' : Bool} {t t' : Ty} : conv (.ptr c t) (.ptr c' t') ↔ (c = true → c' = true) ∧ convc c' t t' := Iff.rfl

/-- Dereferencing something that is accessed with other qualifiers. -/
theorem convc_ptr {k c c' : Bool} {t t' : Ty} (h : convc k (.ptr c t) (.ptr c' t')) : (c = true → c' = true) ∧ convc c' t t' := by
  unfold convc at h
  split at h
  · exact h
  · cases h; exact ⟨id, convc_refl _ _⟩

theorem convc_trans {c c' : Bool} {a b d : Ty} (h : convc c a b) (hc : c = true → c' = true) (h' : convc c' b d) : convc c' a d := by
  unfold convc at *
  cases c' with
  | true =>
    simp only [if_true] at h' ⊢
    split at h
    · exact conv_trans h h'
    · rw [h]; exact h'
  | false =>
    cases c with
    | true => simp at hc
    | false => simp only [Bool.false_eq_true, if_false] at h h' ⊢; rw [h, h']

theorem peel_succ : ∀ (t : Ty) (k : Nat), peel t (k + 1) = (match peel t k with | .int => .int | .ptr _ t => t)
  | .int, 0 => rfl
  | .ptr c t, 0 => by cases t <;> rfl
  | .int, k + 1 => rfl
  | .ptr c t, k + 1 => peel_succ t k

theorem oty_next (f : Fn) (o : Obj) {c : Bool} {t : Ty} (h : oty f o = .ptr c t) : oty f o.next = t := by
  unfold oty Obj.next at *
  show peel (rootTy f o.root) (o.k + 1) = t
  rw [peel_succ, h]

theorem peel_regular : ∀ (t : Ty) (k : Nat), t.Regular → (peel t k).Regular
  | .int, 0, h => h
  | .ptr .., 0, h => h
  | .int, _ + 1, _ => trivial
  | .ptr _ t, k + 1, h => peel_regular t k h.1

/-! ### Region types -/

section
variable {Reg : Type} [PartialOrder Reg]

theorem sub_refl : ∀ t : RTy Reg, sub t t
  | .int => trivial
  | .ptr c r t => ⟨le_refl r, id, by cases c <;> simp [sub_refl t]⟩

theorem subc_refl (c : Bool) (t : RTy Reg) : subc c t t := by
  unfold subc; split
  · exact sub_refl t
  · rfl

theorem sub_trans : ∀ {a b c : RTy Reg}, sub a b → sub b c → sub a c
  | .int, .int, .int, _, _ => trivial
  | .int, .int, .ptr .., _, h => h.elim
  | .int, .ptr .., _, h, _ => h.elim
  | .ptr .., .int, _, h, _ => h.elim
  | .ptr .., .ptr .., .int, _, h => h.elim
  | .ptr x r a, .ptr y s b, .ptr z u c, ⟨h0, h1, h2⟩, ⟨h0', h3, h4⟩ => by
    refine ⟨h0'.trans h0, fun h => h3 (h1 h), ?_⟩
    cases z with
    | true =>
      simp only [if_true] at h4 ⊢
      cases y with
      | true => simp only [if_true] at h2; exact sub_trans h2 h4
      | false => simp only [Bool.false_eq_true, if_false] at h2; rw [h2]; exact h4
    | false =>
      cases y with
      | true => simp at h3
      | false =>
        simp only [Bool.false_eq_true, if_false] at h2 h4 ⊢
        rw [h2, h4]

theorem subc_trans {c c' : Bool} {a b d : RTy Reg} (h : subc c a b) (hc : c = true → c' = true) (h' : subc c' b d) : subc c' a d := by
  unfold subc at *
  cases c' with
  | true =>
    simp only [if_true] at h' ⊢
    split at h
    · exact sub_trans h h'
    · rw [h]; exact h'
  | false =>
    cases c with
    | true => simp at hc
    | false => simp only [Bool.false_eq_true, if_false] at h h' ⊢; rw [h, h']

/-- Dereferencing something that is accessed with another type. -/
theorem subc_ptr {k c c' : Bool} {r r' : Reg} {t t' : RTy Reg} (h : subc k (.ptr c r t) (.ptr c' r' t')) :
    r' ≤ r ∧ (c = true → c' = true) ∧ subc c' t t' := by
  unfold subc at h
  split at h
  · exact h
  · cases h; exact ⟨le_refl _, id, subc_refl _ _⟩

theorem subc_weaken {c c' : Bool} {a b : RTy Reg} (h : subc c a b) (hc : c = true → c' = true) : subc c' a b :=
  subc_trans h hc (subc_refl _ _)
end

/-! ### Loops over pairs -/

theorem forPairs_inv {σ : Type} (P : σ → Prop) (body : Obj → Obj → σ → σ) (hb : ∀ a b s, P s → P (body a b s)) :
    ∀ (as bs : List Obj) (s : σ), P s → P (forPairs body as bs s) := by
  intro as bs
  have inner : ∀ (a : Obj) (bs : List Obj) (s : σ), P s → P (bs.foldl (fun s b => body a b s) s) := by
    intro a bs
    induction bs with
    | nil => intro s h; exact h
    | cons b bs ih => intro s h; exact ih _ (hb _ _ _ h)
  induction as with
  | nil => intro s h; exact h
  | cons a as ih => intro s h; exact ih _ (inner _ _ _ h)

theorem mem_forPairs {α : Type} [DecidableEq α] (g : Obj → Obj → α) (as bs : List Obj) (s : List α) (x : α) :
    x ∈ forPairs (fun a b s => (setInsert s (g a b)).1) as bs s ↔ x ∈ s ∨ ∃ a ∈ as, ∃ b ∈ bs, x = g a b := by
  have inner : ∀ (a : Obj) (bs : List Obj) (s : List α),
      x ∈ bs.foldl (fun s b => (setInsert s (g a b)).1) s ↔ x ∈ s ∨ ∃ b ∈ bs, x = g a b := by
    intro a bs
    induction bs with
    | nil => simp
    | cons b bs ih =>
      intro s
      rw [List.foldl_cons, ih, mem_setInsert]
      simp [or_assoc]
  induction as generalizing s with
  | nil => simp [forPairs]
  | cons a as ih =>
    refine (ih (bs.foldl (fun s b => (setInsert s (g a b)).1) s)).trans ?_
    rw [inner]
    simp [or_assoc]

theorem setInsert_length {α : Type} [DecidableEq α] (s : List α) (x : α) : s.length ≤ (setInsert s x).1.length ∧
    (x ∉ s → s.length < (setInsert s x).1.length) := by
  unfold setInsert
  by_cases h : x ∈ s
  · simp [h]
  · simp [h]

theorem forPairs_length (as bs : List Obj) (s : List (Obj × Obj)) :
    s.length ≤ (forPairs (fun a b s => (setInsert s (a, b)).1) as bs s).length :=
  forPairs_inv (fun s' => s.length ≤ s'.length) _ (fun _ _ _ h => h.trans (setInsert_length _ _).1) as bs s (le_refl _)

/-- A new pair makes the set of pairs longer. -/
theorem forPairs_new {a b : Obj} {as bs : List Obj} {s : List (Obj × Obj)} (ha : a ∈ as) (hb : b ∈ bs) (hn : (a, b) ∉ s) :
    s.length ≠ (forPairs (fun a b s => (setInsert s (a, b)).1) as bs s).length := by
  intro h
  obtain ⟨l, hl⟩ : ∃ l, l = forPairs (fun a b s => (setInsert s (a, b)).1) as bs s := ⟨_, rfl⟩
  rw [← hl] at h
  -- lists only grow at the end
  have hp : s <+: l := by
    rw [hl]
    refine forPairs_inv (fun s' => s <+: s') _ (fun a b s' h => h.trans ?_) as bs s (List.prefix_refl _)
    unfold setInsert
    by_cases hx : (a, b) ∈ s' <;> simp [hx]
  have he := hp.eq_of_length h
  have : (a, b) ∈ l := by rw [hl, mem_forPairs]; exact Or.inr ⟨a, ha, b, hb, rfl⟩
  exact hn (he ▸ this)

/-! ### The constraints of an assignment -/

theorem mem_genFlat (lt : Lts) (olds news : List Obj) (inv : Bool) (cs : Constraints) (x : Lifetime × Lifetime) :
    x ∈ genFlat lt olds news inv cs ↔ x ∈ cs ∨ (∃ o ∈ olds, ∃ n ∈ news, x = (lt o, lt n)) ∨
      (inv = true ∧ ∃ o ∈ olds, ∃ n ∈ news, x = (lt n, lt o)) := by
  unfold genFlat genOne Constraints.addOutlives
  cases inv with
  | false =>
    simp only [Bool.false_eq_true, if_false, false_and, or_false]
    exact mem_forPairs (fun o n => (lt o, lt n)) olds news cs x
  | true =>
    simp only [if_true, true_and]
    rw [mem_forPairs (fun o n => (lt n, lt o)), mem_forPairs (fun o n => (lt o, lt n)), or_assoc]

/-- The constraints that an assignment needs, level by level. -/
def GenOk (lt : Lts) (pt : Pts) (cs : Constraints) : Ty → List Obj → List Obj → Bool → Prop
  | .int, _, _, _ => True
  | .ptr c t, pointers, news, inv =>
    (∀ o ∈ pt.getAll pointers, ∀ n ∈ news, (lt o, lt n) ∈ cs ∧ (inv = true → (lt n, lt o) ∈ cs)) ∧
      GenOk lt pt cs t (pt.getAll pointers) (pt.getAll news) (!c)

theorem GenOk.nil_left (lt : Lts) (pt : Pts) (cs : Constraints) : ∀ (t : Ty) (news : List Obj) (inv : Bool), GenOk lt pt cs t [] news inv
  | .int, _, _ => trivial
  | .ptr c t, news, inv => ⟨by simp [Pts.getAll], GenOk.nil_left lt pt cs t _ _⟩

theorem GenOk.nil_right (lt : Lts) (pt : Pts) (cs : Constraints) : ∀ (t : Ty) (ps : List Obj) (inv : Bool), GenOk lt pt cs t ps [] inv
  | .int, _, _ => trivial
  | .ptr c t, ps, inv => ⟨by simp, GenOk.nil_right lt pt cs t _ _⟩

theorem GenOk.mono {lt : Lts} {pt : Pts} {cs cs' : Constraints} (h : ∀ x ∈ cs, x ∈ cs') : ∀ {t : Ty} {ps ns : List Obj} {inv : Bool},
    GenOk lt pt cs t ps ns inv → GenOk lt pt cs' t ps ns inv
  | .int, _, _, _, _ => trivial
  | .ptr c t, ps, ns, inv, ⟨h1, h2⟩ => ⟨fun o ho n hn => ⟨h _ (h1 o ho n hn).1, fun hi => h _ ((h1 o ho n hn).2 hi)⟩, GenOk.mono h h2⟩

/-- The points-to sets respect the types: every pointee has one level less. -/
def Deep (f : Fn) (pt : Pts) : Prop := ∀ o, ∀ x ∈ pt.get o, (oty f x).depth + 1 = (oty f o).depth

theorem genRec_spec {f : Fn} (lt : Lts) (pt : Pts) (hd : Deep f pt) : ∀ (t : Ty) (ps ns : List Obj) (inv : Bool) (cs : Constraints)
    (seen : List (Obj × Obj)), (∀ p ∈ ps, (oty f p).depth = t.depth) → (∀ p ∈ seen, t.depth < (oty f p.1).depth) →
    (∀ x ∈ cs, x ∈ (genRec lt pt t ps ns inv cs seen).1) ∧ GenOk lt pt (genRec lt pt t ps ns inv cs seen).1 t ps ns inv
  | .int, ps, ns, inv, cs, seen, _, _ => by
    unfold genRec
    by_cases h : seen.length = (forPairs (fun p n s => (setInsert s (p, n)).1) ps ns seen).length
    · simp only [if_pos h]; exact ⟨fun x hx => hx, trivial⟩
    · simp only [if_neg h]; exact ⟨fun x hx => hx, trivial⟩
  | .ptr c t, ps, ns, inv, cs, seen, hp, hs => by
    unfold genRec
    by_cases h : seen.length = (forPairs (fun p n s => (setInsert s (p, n)).1) ps ns seen).length
    · simp only [if_pos h]
      refine ⟨fun x hx => hx, ?_⟩
      cases ps with
      | nil => exact GenOk.nil_left ..
      | cons p ps =>
        cases ns with
        | nil => exact GenOk.nil_right ..
        | cons n ns =>
          refine absurd h (forPairs_new (a := p) (b := n) (by simp) (by simp) fun hm => ?_)
          have h1 := hs _ hm
          have h2 := hp p (by simp)
          simp only at h1
          omega
    · simp only [if_neg h]
      obtain ⟨h1, h2⟩ := genRec_spec lt pt hd t (pt.getAll ps) (pt.getAll ns) (!c) (genFlat lt (pt.getAll ps) ns inv cs)
        (forPairs (fun p n s => (setInsert s (p, n)).1) ps ns seen)
        (by
          intro x hx
          obtain ⟨o, ho, hx⟩ := (pt.mem_getAll x ps).mp hx
          have h1 := hd o x hx
          have h2 := hp o ho
          simp only [Ty.depth] at h2
          omega)
        (by
          intro p hpm
          rcases (mem_forPairs (fun a b => (a, b)) ps ns seen p).mp hpm with h | ⟨a, ha, b, _, rfl⟩
          · have := hs p h
            simp only [Ty.depth] at this
            omega
          · have := hp a ha
            simp only [Ty.depth] at this
            simp only
            omega)
      refine ⟨fun x hx => h1 x ((mem_genFlat ..).mpr (Or.inl hx)), fun o ho n hn => ⟨h1 _ ?_, fun hi => h1 _ ?_⟩, h2⟩
      · exact (mem_genFlat ..).mpr (Or.inr (Or.inl ⟨o, ho, n, hn, rfl⟩))
      · exact (mem_genFlat ..).mpr (Or.inr (Or.inr ⟨hi, o, ho, n, hn, rfl⟩))

theorem genAssign_spec {f : Fn} (lt : Lts) {pt : Pts} (hd : Deep f pt) {t : Ty} {ps : List Obj} (ns : List Obj) (cs : Constraints)
    (hp : ∀ p ∈ ps, (oty f p).depth = t.depth) :
    (∀ x ∈ cs, x ∈ genAssign lt pt t ps ns cs) ∧ GenOk lt pt (genAssign lt pt t ps ns cs) t ps ns false :=
  genRec_spec lt pt hd t ps ns false cs [] hp (by simp)

/-- Every constraint is between lifetimes of objects. -/
theorem genRec_range (lt : Lts) (pt : Pts) (P : Lifetime → Prop) (hP : ∀ o, P (lt o)) : ∀ (t : Ty) (ps ns : List Obj) (inv : Bool)
    (cs : Constraints) (seen : List (Obj × Obj)), (∀ x ∈ cs, P x.1 ∧ P x.2) →
    ∀ x ∈ (genRec lt pt t ps ns inv cs seen).1, P x.1 ∧ P x.2
  | .int, ps, ns, inv, cs, seen, h => by
    unfold genRec; simp only; split <;> exact h
  | .ptr c t, ps, ns, inv, cs, seen, h => by
    unfold genRec; simp only; split
    · exact h
    · refine genRec_range lt pt P hP t _ _ _ _ _ ?_
      intro x hx
      rcases (mem_genFlat ..).mp hx with h' | ⟨o, _, n, _, rfl⟩ | ⟨_, o, _, n, _, rfl⟩
      · exact h x h'
      · exact ⟨hP _, hP _⟩
      · exact ⟨hP _, hP _⟩

end Verif.PtsTo

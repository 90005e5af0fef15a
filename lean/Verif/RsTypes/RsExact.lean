import Verif.RsTypes.RsModel

/-
C165: the Rust spelling of a type denotes that type.
-/

namespace Verif.RsTypes

def NoArrow (r : List RTok) : Prop := ∀ r', r ≠ .arrow :: r'

/-- `l` is read as `t`, whatever follows (except `->`). -/
def ReadsR (l : List RTok) (t : RTy) : Prop :=
  ∀ f rest, 2 * l.length ≤ f → NoArrow rest → readR f (l ++ rest) = some (t, rest)

def StartsR (l : List RTok) : Prop := ∃ h r, l = h :: r ∧ h ≠ .rpar ∧ h ≠ .gt ∧ h ≠ .kMut

theorem StartsR.append {l : List RTok} (h : StartsR l) (m : List RTok) : StartsR (l ++ m) := by
  obtain ⟨a, r, rfl, h⟩ := h
  exact ⟨a, r ++ m, rfl, h⟩

theorem noArrow_cons {t : RTok} (h : t ≠ .arrow) (r : List RTok) : NoArrow (t :: r) := by
  intro r' he
  cases he
  exact h rfl

def isClose (c : RTok) : Prop := c = .rpar ∨ c = .gt

theorem isClose.ne_comma {c : RTok} (h : isClose c) : c ≠ .comma := by
  rcases h with rfl | rfl <;> nofun

theorem isClose.ne_arrow {c : RTok} (h : isClose c) : c ≠ .arrow := by
  rcases h with rfl | rfl <;> nofun

theorem readElems_close (c : RTok) (f : Nat) (rest : List RTok) :
    readElems c (f + 1) (c :: rest) = some ((.nil, true), rest) := by
  rw [readElems]
  simp

theorem readElems_cons {c : RTok} {x y : List RTok} {t : RTy} {q : RTys × Bool} {r : List RTok} {f : Nat}
    (hc : isClose c) (hs : StartsR x) (hx : ReadsR x t) (hf : 2 * x.length ≤ f)
    (hy : readElems c f y = some (q, r)) :
    readElems c (f + 1) (x ++ .comma :: y) = some ((.cons t q.1, q.2), r) := by
  have h1 := hx f (.comma :: y) hf (noArrow_cons (by decide) _)
  obtain ⟨h, x', rfl, h2, h3, -⟩ := hs
  rw [List.cons_append] at h1
  rw [List.cons_append, readElems]
  have : h ≠ c := by rcases hc with rfl | rfl <;> assumption
  simp only [this, if_false, h1, hy]
  rfl

theorem readElems_last {c : RTok} {x : List RTok} {t : RTy} {r : List RTok} {f : Nat}
    (hc : isClose c) (hs : StartsR x) (hx : ReadsR x t) (hf : 2 * x.length ≤ f) :
    readElems c (f + 1) (x ++ c :: r) = some ((.cons t .nil, false), r) := by
  have h1 := hx f (c :: r) hf (noArrow_cons hc.ne_arrow _)
  obtain ⟨h, x', rfl, h2, h3, -⟩ := hs
  rw [List.cons_append] at h1
  rw [List.cons_append, readElems]
  have : h ≠ c := by rcases hc with rfl | rfl <;> assumption
  simp only [this, if_false, h1]
  rcases hc with rfl | rfl <;> simp

/-- A list of types that is read as `ts`, whichever way it is closed. -/
def ReadsElems (l : List RTok) (ts : RTys) : Prop :=
  ∀ c f rest, isClose c → 2 * l.length + 1 ≤ f → ∃ b, readElems c f (l ++ c :: rest) = some ((ts, b), rest)

/-- Each with a comma. -/
def ReadsEach (l : List RTok) (ts : RTys) : Prop :=
  ∀ c f rest, isClose c → 2 * l.length + 1 ≤ f → readElems c f (l ++ c :: rest) = some ((ts, true), rest)

theorem readsEach_nil : ReadsEach [] .nil := by
  intro c f rest _ hf
  obtain ⟨f, rfl⟩ : ∃ g, f = g + 1 := ⟨f - 1, by simp at hf; omega⟩
  exact readElems_close c f rest

theorem ReadsEach.cons {x y : List RTok} {t : RTy} {ts : RTys} (hs : StartsR x) (hx : ReadsR x t)
    (hy : ReadsEach y ts) : ReadsEach (x ++ .comma :: y) (.cons t ts) := by
  intro c f rest hc hf
  simp only [List.length_append, List.length_cons] at hf
  obtain ⟨f, rfl⟩ : ∃ g, f = g + 1 := ⟨f - 1, by omega⟩
  have := readElems_cons hc hs hx (f := f) (by omega) (hy c f rest hc (by omega))
  rwa [List.append_assoc, List.cons_append]

theorem readsElems_nil : ReadsElems [] .nil := by
  intro c f rest _ hf
  obtain ⟨f, rfl⟩ : ∃ g, f = g + 1 := ⟨f - 1, by simp at hf; omega⟩
  exact ⟨_, readElems_close c f rest⟩

theorem readsElems_one {x : List RTok} {t : RTy} (hs : StartsR x) (hx : ReadsR x t) :
    ReadsElems x (.cons t .nil) := by
  intro c f rest hc hf
  obtain ⟨f, rfl⟩ : ∃ g, f = g + 1 := ⟨f - 1, by omega⟩
  exact ⟨_, readElems_last hc hs hx (by omega)⟩

theorem ReadsElems.cons {x y : List RTok} {t : RTy} {ts : RTys} (hs : StartsR x) (hx : ReadsR x t)
    (hy : ReadsElems y ts) : ReadsElems (x ++ .comma :: y) (.cons t ts) := by
  intro c f rest hc hf
  simp only [List.length_append, List.length_cons] at hf
  obtain ⟨f, rfl⟩ : ∃ g, f = g + 1 := ⟨f - 1, by omega⟩
  obtain ⟨b, hb⟩ := hy c f rest hc (by omega)
  have := readElems_cons hc hs hx (f := f) (by omega) hb
  exact ⟨b, by rwa [List.append_assoc, List.cons_append]⟩

theorem readsR_of {l : List RTok} {t : RTy} (hl : l ≠ [])
    (h : ∀ f rest, 2 * l.length ≤ f + 1 → NoArrow rest → readR (f + 1) (l ++ rest) = some (t, rest)) :
    ReadsR l t := by
  intro f rest hf hr
  obtain ⟨f, rfl⟩ : ∃ g, f = g + 1 := ⟨f - 1, by
    have := List.length_pos_iff.mpr hl
    omega⟩
  exact h f rest hf hr

theorem ReadsR.array {x : List RTok} {t : RTy} (n : Nat) (h : ReadsR x t) :
    ReadsR (.lbr :: x ++ [.semi, .nat n, .rbr]) (.array t n) := by
  refine readsR_of nofun fun f rest hf hr => ?_
  simp only [List.cons_append, List.length_append, List.length_cons, List.length_nil] at hf
  have := h f (.semi :: .nat n :: .rbr :: rest) (by omega) (noArrow_cons (by decide) _)
  simp only [List.cons_append, List.append_assoc, List.nil_append]
  rw [readR]
  simp [this]

theorem ReadsR.slice {x : List RTok} {t : RTy} (h : ReadsR x t) :
    ReadsR (.lbr :: x ++ [.rbr]) (.slice t) := by
  refine readsR_of nofun fun f rest hf hr => ?_
  simp only [List.cons_append, List.length_append, List.length_cons, List.length_nil] at hf
  have := h f (.rbr :: rest) (by omega) (noArrow_cons (by decide) _)
  simp only [List.cons_append, List.append_assoc, List.nil_append]
  rw [readR]
  simp [this]

theorem ReadsR.uninit {x : List RTok} {t : RTy} (h : ReadsR x t) :
    ReadsR (.item .uninit :: .lt :: x ++ [.gt]) (.maybeUninit t) := by
  refine readsR_of nofun fun f rest hf hr => ?_
  simp only [List.cons_append, List.length_append, List.length_cons, List.length_nil] at hf
  have := h f (.gt :: rest) (by omega) (noArrow_cons (by decide) _)
  simp only [List.cons_append, List.append_assoc, List.nil_append]
  rw [readR]
  simp [this]

theorem ReadsR.rvref {x : List RTok} {t : RTy} (b : Bool) (s : String) (h : ReadsR x t) :
    ReadsR (.item (.rvref b) :: .lt :: .life s :: .comma :: x ++ [.gt]) (.rvref b (.named s) t) := by
  refine readsR_of nofun fun f rest hf hr => ?_
  simp only [List.cons_append, List.length_append, List.length_cons, List.length_nil] at hf
  have := h f (.gt :: rest) (by omega) (noArrow_cons (by decide) _)
  simp only [List.cons_append, List.append_assoc, List.nil_append]
  rw [readR]
  simp [this]

theorem ReadsR.raw {x : List RTok} {t : RTy} (m : Bool) (h : ReadsR x t) :
    ReadsR (.star :: (if m then .kMut else .kConst) :: x) (.raw m t) := by
  refine readsR_of nofun fun f rest hf hr => ?_
  simp only [List.length_cons] at hf
  have := h f rest (by omega) hr
  cases m <;> simp only [List.cons_append, Bool.false_eq_true, if_false, if_true] <;> rw [readR] <;> simp [this]

theorem ReadsR.ref {x : List RTok} {t : RTy} (m : Bool) (s : String) (hs : StartsR x) (h : ReadsR x t) :
    ReadsR (.amp :: .life s :: (if m then [.kMut] else []) ++ x) (.ref (.named s) m t) := by
  refine readsR_of nofun fun f rest hf hr => ?_
  simp only [List.cons_append, List.length_append, List.length_cons] at hf
  have := h f rest (by omega) hr
  cases m with
  | true =>
    simp only [List.cons_append, if_true, List.nil_append]
    rw [readR]
    simp [this]
  | false =>
    obtain ⟨a, x', rfl, -, -, ha⟩ := hs
    simp only [List.cons_append, Bool.false_eq_true, if_false, List.nil_append] at *
    rw [readR]
    · simp [this]
    · intro r he; cases he; exact ha rfl

theorem ReadsEach.tuple {x : List RTok} {ts : RTys} (h : ReadsEach x ts) :
    ReadsR (.lpar :: x ++ [.rpar]) (.tuple ts) := by
  refine readsR_of nofun fun f rest hf hr => ?_
  simp only [List.cons_append, List.length_append, List.length_cons, List.length_nil] at hf
  have := h .rpar f rest (.inl rfl) (by omega)
  simp only [List.cons_append, List.append_assoc, List.nil_append]
  rw [readR]
  simp only [this]
  rcases ts with _ | ⟨t, _ | _⟩ <;> rfl

theorem ReadsElems.gen {x : List RTok} {ts : RTys} (g : Gen) (h : ReadsElems x ts) :
    ReadsR (.item (.gen g) :: .lt :: x ++ [.gt]) (.gen g ts) := by
  refine readsR_of nofun fun f rest hf hr => ?_
  simp only [List.cons_append, List.length_append, List.length_cons, List.length_nil] at hf
  obtain ⟨b, hb⟩ := h .gt f rest (.inr rfl) (by omega)
  simp only [List.cons_append, List.append_assoc, List.nil_append]
  rw [readR]
  simp only [hb]

theorem readR_fnHead (f : Nat) (u : Bool) (abi : String) (r : List RTok) :
    readR (f + 1) (rsFnHead u abi ++ r) = readFn f u abi r := by
  unfold rsFnHead
  cases u <;> by_cases ha : abi = "Rust" <;> simp only [ha, Bool.false_eq_true, if_false, if_true] <;>
    simp only [List.cons_append, List.nil_append, List.append_assoc] <;> rw [readR]

theorem rsFnHead_len (u : Bool) (abi : String) : 2 ≤ (rsFnHead u abi).length := by
  unfold rsFnHead
  simp only [List.length_append, List.length_cons, List.length_nil]
  omega

theorem readsR_fnUnit {ps : List RTok} {ts : RTys} (u : Bool) (abi : String) (h : ReadsElems ps ts) :
    ReadsR (rsFnHead u abi ++ ps ++ [.rpar]) (.fn false u abi false (.tuple .nil) ts) := by
  have h2 := rsFnHead_len u abi
  refine readsR_of (by simp) fun f rest hf hr => ?_
  simp only [List.length_append, List.length_cons, List.length_nil] at hf
  obtain ⟨f, rfl⟩ : ∃ g, f = g + 1 := ⟨f - 1, by omega⟩
  obtain ⟨b, hb⟩ := h .rpar f rest (.inl rfl) (by omega)
  simp only [List.append_assoc, List.cons_append, List.nil_append]
  rw [readR_fnHead, readFn, hb]
  cases rest with
  | nil => rfl
  | cons a r =>
    cases a
    case arrow => exact absurd rfl (hr r)
    all_goals rfl

theorem readsR_fn {ps r : List RTok} {ts : RTys} {t : RTy} (u : Bool) (abi : String) (h : ReadsElems ps ts)
    (hr' : ReadsR r t) :
    ReadsR (rsFnHead u abi ++ ps ++ .rpar :: .arrow :: r) (.fn false u abi false t ts) := by
  have h2 := rsFnHead_len u abi
  refine readsR_of (by simp) fun f rest hf hr => ?_
  simp only [List.length_append, List.length_cons] at hf
  obtain ⟨f, rfl⟩ : ∃ g, f = g + 1 := ⟨f - 1, by omega⟩
  obtain ⟨b, hb⟩ := h .rpar f (.arrow :: r ++ rest) (.inl rfl) (by omega)
  have h3 := hr' f rest (by omega) hr
  simp only [List.append_assoc, List.cons_append] at *
  rw [readR_fnHead, readFn, hb]
  simp [h3]

theorem startsR_fnHead (u : Bool) (abi : String) (l : List RTok) : StartsR (rsFnHead u abi ++ l) := by
  unfold rsFnHead
  cases u <;> by_cases ha : abi = "Rust" <;> simp only [ha, Bool.false_eq_true, if_false, if_true] <;>
    exact ⟨_, _, rfl, nofun, nofun, nofun⟩

variable {named : String → Bool}

/-- What is proved of every type. -/
def OkR (l : List RTok) (t : RTy) : Prop := StartsR l ∧ ReadsR l t

theorem okR_one {k : RTok} {t : RTy} (hk : k ≠ .rpar ∧ k ≠ .gt ∧ k ≠ .kMut)
    (h : ∀ f rest, readR (f + 1) (k :: rest) = some (t, rest)) : OkR [k] t :=
  ⟨⟨k, [], rfl, hk⟩, readsR_of nofun fun f rest _ _ => h f rest⟩

theorem isUnit_iff {t : RTy} (h : isUnit t = true) : t = .tuple .nil := by
  unfold isUnit at h
  split at h
  · rfl
  · cases h

theorem map_some {α β : Type} {f : α → β} {o : Option α} {y : β} (h : o.map f = some y) :
    ∃ x, o = some x ∧ f x = y := by
  cases o with
  | none => cases h
  | some x => exact ⟨x, rfl, by simpa using h⟩

/-- Everything but `MaybeUninit` and `str` behind a pointer. -/
theorem fmtRsPointee_other {t : RTy} {m : List RTok} (h : fmtRsPointee named t = some m) :
    (∃ e x, t = .maybeUninit e ∧ fmtRs named e = some x ∧ m = .item .uninit :: .lt :: x ++ [.gt]) ∨
      fmtRs named t = some m := by
  cases t
  case maybeUninit e =>
    rw [fmtRsPointee] at h
    obtain ⟨x, h1, rfl⟩ := map_some h
    exact .inl ⟨e, x, rfl, h1, rfl⟩
  all_goals (rw [fmtRsPointee] at h; exact .inr h; nofun)

theorem fmtRsReferent_other {t : RTy} {mu : Bool} {m : List RTok} (h : fmtRsReferent named mu t = some m) :
    (t = .str ∧ m = [.str]) ∨
    (∃ e x, t = .maybeUninit e ∧ fmtRs named e = some x ∧ m = .item .uninit :: .lt :: x ++ [.gt]) ∨
      fmtRs named t = some m := by
  cases t
  case maybeUninit e =>
    rw [fmtRsReferent] at h
    obtain ⟨x, h1, rfl⟩ := map_some h
    exact .inr (.inl ⟨e, x, rfl, h1, rfl⟩)
  case str =>
    rw [fmtRsReferent] at h
    cases mu <;> cases h
    exact .inl ⟨rfl, rfl⟩
  all_goals (rw [fmtRsReferent] at h; exact .inr (.inr h); all_goals nofun)

mutual
theorem goodR : ∀ (t : RTy) (l : List RTok), All writtenNode t → All monoNode t → All kindNode t →
    fmtRs named t = some l → OkR l t
  | .prim p, l, _, _, _, h => by rw [fmtRs] at h; cases h; exact okR_one ⟨nofun, nofun, nofun⟩ fun _ _ => by rw [readR]
  | .int s w, l, _, _, _, h => by rw [fmtRs] at h; cases h; exact okR_one ⟨nofun, nofun, nofun⟩ fun _ _ => by rw [readR]
  | .never, l, _, _, _, h => by rw [fmtRs] at h; cases h; exact okR_one ⟨nofun, nofun, nofun⟩ fun _ _ => by rw [readR]
  | .cvoid, l, _, _, _, h => by rw [fmtRs] at h; cases h; exact okR_one ⟨nofun, nofun, nofun⟩ fun _ _ => by rw [readR]
  | .str, l, _, _, _, h => by rw [fmtRs] at h; cases h
  | .adt n, l, _, _, _, h => by
      rw [fmtRs] at h
      split at h
      · cases h; exact okR_one ⟨nofun, nofun, nofun⟩ fun _ _ => by rw [readR]
      · cases h
  | .tuple ts, l, hw, hm, hk, h => by
      rw [All] at hw hm hk
      rw [fmtRs] at h
      obtain ⟨x, h1, rfl⟩ := map_some h
      exact ⟨⟨_, _, rfl, nofun, nofun, nofun⟩, (goodREach ts x hw.2 hm.2 hk.2 h1).tuple⟩
  | .array t n, l, hw, hm, hk, h => by
      rw [All] at hw hm hk
      rw [fmtRs] at h
      obtain ⟨x, h1, rfl⟩ := map_some h
      exact ⟨⟨_, _, rfl, nofun, nofun, nofun⟩, (goodR t x hw.2 hm.2 hk.2 h1).2.array n⟩
  | .gen .vec .nil, l, hw, hm, hk, h => by
      rw [fmtRs, fmtRsFirst] at h; cases h
  | .gen .vec (.cons t ts), l, hw, hm, hk, h => by
      rw [fmtRs, fmtRsFirst] at h
      obtain ⟨x, h1, rfl⟩ := map_some h
      rw [All] at hw hm hk
      obtain ⟨a, ha⟩ := hk.1
      cases ha
      have h3 := hw.2
      have h4 := hm.2
      have h5 := hk.2
      rw [Alls] at h3 h4 h5
      have := goodR t x h3.1 h4.1 h5.1 h1
      exact ⟨⟨_, _, rfl, nofun, nofun, nofun⟩, (readsElems_one this.1 this.2).gen .vec⟩
  | .gen .option ts, l, hw, hm, hk, h => by
      rw [All] at hw hm hk
      rw [fmtRs] at h
      · obtain ⟨x, h1, rfl⟩ := map_some h
        exact ⟨⟨_, _, rfl, nofun, nofun, nofun⟩, (goodRSep ts x hw.2 hm.2 hk.2 h1).gen .option⟩
      · nofun
  | .gen .result ts, l, hw, hm, hk, h => by
      rw [All] at hw hm hk
      rw [fmtRs] at h
      · obtain ⟨x, h1, rfl⟩ := map_some h
        exact ⟨⟨_, _, rfl, nofun, nofun, nofun⟩, (goodRSep ts x hw.2 hm.2 hk.2 h1).gen .result⟩
      · nofun
  | .rvref b lf t, l, hw, hm, hk, h => by
      rw [All] at hw hm hk
      rw [fmtRs] at h
      split at h
      · rename_i hl
        subst hl
        obtain ⟨x, h1, rfl⟩ := map_some h
        exact ⟨⟨_, _, rfl, nofun, nofun, nofun⟩, (goodR t x hw.2 hm.2 hk.2 h1).2.rvref b _⟩
      · cases h
  | .maybeUninit t, l, hw, hm, hk, h => by rw [fmtRs] at h; cases h
  | .slice t, l, hw, hm, hk, h => by
      rw [All] at hw hm hk
      rw [fmtRs] at h
      obtain ⟨x, h1, rfl⟩ := map_some h
      exact ⟨⟨_, _, rfl, nofun, nofun, nofun⟩, (goodR t x hw.2 hm.2 hk.2 h1).2.slice⟩
  | .raw m t, l, hw, hm, hk, h => by
      rw [All] at hw hm hk
      rw [fmtRs] at h
      obtain ⟨x, h1, rfl⟩ := map_some h
      refine ⟨⟨_, _, rfl, nofun, nofun, nofun⟩, ReadsR.raw m ?_⟩
      rcases fmtRsPointee_other h1 with ⟨e, y, rfl, h2, rfl⟩ | h2
      · have h3 := hw.2
        have h4 := hm.2
        have h5 := hk.2
        rw [All] at h3 h4 h5
        exact (goodR e y h3.2 h4.2 h5.2 h2).2.uninit
      · exact (goodR t x hw.2 hm.2 hk.2 h2).2
  | .ref lf m t, l, hw, hm, hk, h => by
      rw [All] at hw hm hk
      obtain ⟨s, rfl⟩ := hw.1
      rw [fmtRs, rsLife] at h
      obtain ⟨x, h1, rfl⟩ := map_some h
      have : OkR x t := by
        rcases fmtRsReferent_other h1 with ⟨rfl, rfl⟩ | ⟨e, y, rfl, h2, rfl⟩ | h2
        · exact okR_one ⟨nofun, nofun, nofun⟩ fun _ _ => by rw [readR]
        · have h3 := hw.2
          have h4 := hm.2
          have h5 := hk.2
          rw [All] at h3 h4 h5
          exact ⟨⟨_, _, rfl, nofun, nofun, nofun⟩, (goodR e y h3.2 h4.2 h5.2 h2).2.uninit⟩
        · exact goodR t x hw.2 hm.2 hk.2 h2
      exact ⟨⟨_, _, rfl, nofun, nofun, nofun⟩, this.2.ref m s this.1⟩
  | .fn g u abi v r ps, l, hw, hm, hk, h => by
      rw [All] at hw hm hk
      have hg : g = false := hm.1
      subst hg
      rw [fmtRs] at h
      cases v with
      | true => cases h
      | false =>
        simp only [Bool.false_eq_true, if_false] at h
        unfold rsFn at h
        cases hp : fmtRsSep named ps with
        | none => rw [hp] at h; cases h
        | some x =>
          have h1 := goodRSep ps x hw.2.2 hm.2.2 hk.2.2 hp
          rw [hp] at h
          simp only at h
          split at h
          · rename_i hu
            cases h
            rw [isUnit_iff hu]
            refine ⟨?_, readsR_fnUnit u abi h1⟩
            rw [List.append_assoc]
            exact startsR_fnHead ..
          · obtain ⟨y, h2, rfl⟩ := map_some h
            refine ⟨?_, readsR_fn u abi h1 (goodR r y hw.2.1 hm.2.1 hk.2.1 h2).2⟩
            rw [List.append_assoc]
            exact startsR_fnHead ..
theorem goodREach : ∀ (ts : RTys) (l : List RTok), Alls writtenNode ts → Alls monoNode ts → Alls kindNode ts →
    fmtRsEach named ts = some l → ReadsEach l ts
  | .nil, l, _, _, _, h => by rw [fmtRsEach] at h; cases h; exact readsEach_nil
  | .cons t ts, l, hw, hm, hk, h => by
      rw [Alls] at hw hm hk
      rw [fmtRsEach] at h
      cases h1 : fmtRs named t with
      | none => rw [h1] at h; cases h
      | some x =>
        cases h2 : fmtRsEach named ts with
        | none => rw [h1, h2] at h; cases h
        | some y =>
          rw [h1, h2] at h
          cases h
          have := goodR t x hw.1 hm.1 hk.1 h1
          exact (goodREach ts y hw.2 hm.2 hk.2 h2).cons this.1 this.2
theorem goodRSep : ∀ (ts : RTys) (l : List RTok), Alls writtenNode ts → Alls monoNode ts → Alls kindNode ts →
    fmtRsSep named ts = some l → ReadsElems l ts
  | .nil, l, _, _, _, h => by rw [fmtRsSep] at h; cases h; exact readsElems_nil
  | .cons t ts, l, hw, hm, hk, h => by
      rw [Alls] at hw hm hk
      rw [fmtRsSep] at h
      cases h1 : fmtRs named t with
      | none => rw [h1] at h; cases h
      | some x =>
        cases h2 : fmtRsSep named ts with
        | none => rw [h1, h2] at h; cases h
        | some y =>
          rw [h1, h2] at h
          have := goodR t x hw.1 hm.1 hk.1 h1
          cases ts with
          | nil => cases h; exact readsElems_one this.1 this.2
          | cons t' ts' => cases h; exact (goodRSep (.cons t' ts') y hw.2 hm.2 hk.2 h2).cons this.1 this.2
end

end Verif.RsTypes

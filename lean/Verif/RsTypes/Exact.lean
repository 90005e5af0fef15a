import Verif.RsTypes.Model

/-
C163: what the C++ compiler reads from the spelling of a Rust type corresponds to that type.
-/

namespace Verif.RsTypes

theorem mkConst_false (q : Bool × CTy) : mkConst false q = q := by simp [mkConst]

theorem intName_ne_void {E : Env} {s : Bool} {w : IntW} {n : String} (h : IntCorr E s w n) : n ≠ "void" := by
  cases w <;> cases s <;> simp only [IntCorr] at h
  all_goals first | (subst h; decide) | exact h.elim | (rcases h with h | ⟨-, h⟩ | ⟨-, h⟩ <;> subst h <;> decide)

theorem isVoid_prim {n : String} (h : n ≠ "void") : (CTy.prim n).isVoid = false := by
  unfold CTy.isVoid
  split
  · rename_i h'; cases h'; exact absurd rfl h
  · rfl

/-- A type that may stand anywhere is no reference, function or `void`. -/
theorem Corr.plain {E : Env} {t : RTy} {c : CTy} (h : Corr E t c) :
    c.isRef = false ∧ c.isFn = false ∧ c.isVoid = false := by
  cases h with
  | prim p => cases p <;> exact ⟨rfl, rfl, rfl⟩
  | int s w n h => exact ⟨rfl, rfl, isVoid_prim (intName_ne_void h)⟩
  | _ => exact ⟨rfl, rfl, rfl⟩

def Reads (l : List Tok) (q : Bool × CTy) : Prop :=
  ∀ f rest, 3 * l.length ≤ f → readTy f (l ++ rest) = suffix q rest

def ReadsB (l : List Tok) (q : Bool × CTy) : Prop :=
  ∀ f rest, 3 * l.length ≤ f + 1 → readBase f (l ++ rest) = some (q, rest)

/-- Tokens a type can begin with. -/
def startTok : Tok → Bool
  | .prim _ | .name _ | .tname _ | .tyId | .kConst => true
  | _ => false

def Starts (l : List Tok) : Prop := ∃ a r, l = a :: r ∧ startTok a = true

theorem Starts.append {l : List Tok} (h : Starts l) (r : List Tok) : Starts (l ++ r) := by
  obtain ⟨a, s, rfl, ha⟩ := h
  exact ⟨a, s ++ r, rfl, ha⟩

theorem readTy_base {f : Nat} {a : Tok} {l : List Tok} {q : Bool × CTy} {r : List Tok} (ha : a ≠ .kConst)
    (h : readBase f (a :: l) = some (q, r)) : readTy (f + 1) (a :: l) = suffix q r := by
  cases a <;> first | exact absurd rfl ha | skip
  all_goals
    rw [readTy]
    · rw [h]
    · intro ts h; cases h

theorem ReadsB.reads {l : List Tok} {q : Bool × CTy} (hl : ∃ a r, l = a :: r ∧ a ≠ .kConst)
    (h : ReadsB l q) : Reads l q := by
  obtain ⟨a, r, rfl, ha⟩ := hl
  intro f rest hf
  cases f with
  | zero => simp at hf
  | succ f => exact readTy_base ha (h f rest hf)

theorem ReadsB.readsConst {l : List Tok} {q : Bool × CTy} (h : ReadsB l q) :
    Reads (.kConst :: l) (mkConst true q) := by
  intro f rest hf
  cases f with
  | zero => simp at hf
  | succ f =>
    simp only [List.length_cons] at hf
    rw [List.cons_append, readTy, h f rest (by omega)]

theorem suffix_const (c : Bool) (q : Bool × CTy) (rest : List Tok) :
    suffix q (constTok c ++ rest) = suffix (mkConst c q) rest := by
  cases c
  · simp [constTok, mkConst_false]
  · simp [constTok, suffix]

theorem suffix_life (l : Life) (q : Bool × CTy) (rest : List Tok) : suffix q (lifeTok l ++ rest) = suffix q rest := by
  cases l <;> simp [lifeTok, suffix]

theorem Reads.snoc {l s : List Tok} {q q' : Bool × CTy} (h : Reads l q)
    (hs : ∀ rest, suffix q (s ++ rest) = suffix q' rest) : Reads (l ++ s) q' := by
  intro f rest hf
  rw [List.append_assoc, h f _ (by simp at hf; omega), hs]

/-- A sigil makes a pointer or reference. -/
def Sig (s : List Tok) (k : Ref) : Prop :=
  ∀ q rest, q.2.isRef = false → q.2.isVoid = false → suffix q (s ++ rest) = suffix (false, .ptr k q.1 q.2) rest

theorem sig_star : Sig [.star] .ptr := by
  intro q rest h1 _
  simp [suffix, h1]

theorem sig_ampAmp : Sig [.ampAmp] .rref := by
  intro q rest h1 h2
  simp [suffix, h1, h2]

theorem sig_amp : Sig [.amp] .lref := by
  intro q rest h1 h2
  simp [suffix, h1, h2]

theorem sig_ampLife (l : Life) : Sig (.amp :: lifeTok l) .lref := by
  intro q rest h1 h2
  simp [suffix, h1, h2, suffix_life]

theorem sig_nonOwning (l : Life) (t : RTy) : Sig (nonOwning l t) .ptr := by
  intro q rest h1 _
  unfold nonOwning
  rw [List.cons_append, List.cons_append, List.append_assoc]
  simp only [suffix, h1, Bool.false_eq_true, if_false]
  rw [suffix_life]
  split <;> simp [suffix]

theorem sig_ref (loc : Loc) (l : Life) (t : RTy) :
    Sig (refSigil loc l t) (if refAsPtr l loc then .ptr else .lref) := by
  unfold refSigil
  split
  · exact sig_nonOwning l t
  · split
    · exact sig_amp
    · exact sig_ampLife l

/-- Types whose spelling may end in `*` or `&`. -/
def isPtrKind : RTy → Bool
  | .raw .. | .ref .. | .fn .. | .rvref .. => true
  | _ => false

/-- What has to be shown of a spelling. -/
def Good (E : Env) (loc : Loc) (t : RTy) (l : List Tok) : Prop :=
  ∃ c, CorrAt E loc t c ∧ Reads l (false, c) ∧ Starts l ∧ (isPtrKind t = false → ReadsB l (false, c))

theorem goodB {E : Env} {loc : Loc} {t : RTy} {a : Tok} {r : List Tok} {c : CTy} (hc : CorrAt E loc t c)
    (ha : startTok a = true) (hk : a ≠ .kConst) (h : ReadsB (a :: r) (false, c)) : Good E loc t (a :: r) :=
  ⟨c, hc, h.reads ⟨a, r, rfl, hk⟩, ⟨a, r, rfl, ha⟩, fun _ => h⟩

theorem readsB_prim (p : String) : ReadsB [.prim p] (false, .prim p) := by
  intro f rest hf
  cases f with
  | zero => simp at hf
  | succ f => simp [readBase]

theorem readsB_name (p : String) : ReadsB [.name p] (false, .cls p) := by
  intro f rest hf
  cases f with
  | zero => simp at hf
  | succ f => simp [readBase]

theorem corrAt_of_corr {E : Env} {loc : Loc} {t : RTy} {c : CTy} (h : Corr E t c) : CorrAt E loc t c := by
  cases loc with
  | ret b => exact .same _ _ (.same _ _ h)
  | param a b => exact .same _ _ h
  | const => exact .same _ _ h
  | nested => exact h
  | templ => exact h
  | other => exact h
  | field => exact h

/-- Arguments that can be read up to a closing token. -/
def ReadsArgs (l : List Tok) (as : CArgs) : Prop :=
  ∀ close, (close = .gt ∨ close = .rpar) → ∀ f rest, 3 * l.length + 2 ≤ f →
    readArgs close f (l ++ close :: rest) = some (as, rest)

/-- Arguments, at least one. -/
def ReadsArgs1 (l : List Tok) (as : CArgs) : Prop :=
  ∀ close, (close = .gt ∨ close = .rpar) → ∀ f rest, 3 * l.length + 1 ≤ f →
    readArgs1 close f (l ++ close :: rest) = some (as, rest)

theorem readArgs_nil : ReadsArgs [] .nil := by
  intro close _ f rest hf
  cases f with
  | zero => simp at hf
  | succ f => simp [readArgs]

theorem ReadsArgs1.args {l : List Tok} {as : CArgs} (hl : Starts l) (h : ReadsArgs1 l as) : ReadsArgs l as := by
  obtain ⟨a, r, rfl, ha⟩ := hl
  intro close hc f rest hf
  cases f with
  | zero => simp at hf
  | succ f =>
    have hne : a ≠ close := by
      rintro rfl
      rcases hc with rfl | rfl <;> cases ha
    have := h close hc f rest (by omega)
    rw [List.cons_append] at this ⊢
    simp only [readArgs, if_neg hne, this]

theorem readArgs1_eq {close : Tok} {f : Nat} {a : Tok} {l : List Tok} {q : Bool × CTy} {t : Tok} {r : List Tok}
    (ha : startTok a = true) (ht : t ≠ .comma) (hc : t = close) (h : readTy f (a :: l) = some (q, t :: r)) :
    readArgs1 close (f + 1) (a :: l) = some (.ty q.1 q.2 .nil, r) := by
  subst hc
  cases a <;> first | (exfalso; revert ha; exact Bool.false_ne_true) | skip
  all_goals
    rw [readArgs1]
    · rw [h]
      cases t <;> first | exact absurd rfl ht | simp
    · intro n ts h; cases h

theorem readArgs1_comma {close : Tok} {f : Nat} {a : Tok} {l : List Tok} {q : Bool × CTy} {r r' : List Tok} {as : CArgs}
    (ha : startTok a = true) (h : readTy f (a :: l) = some (q, .comma :: r))
    (h' : readArgs1 close f r = some (as, r')) :
    readArgs1 close (f + 1) (a :: l) = some (.ty q.1 q.2 as, r') := by
  cases a <;> first | (exfalso; revert ha; exact Bool.false_ne_true) | skip
  all_goals
    rw [readArgs1]
    · rw [h]
      simp only [h']
    · intro n ts h; cases h

theorem suffix_close {close : Tok} (hc : close = .gt ∨ close = .rpar) (q : Bool × CTy) (r : List Tok) :
    suffix q (close :: r) = some (q, close :: r) := by
  rcases hc with rfl | rfl <;> rfl

theorem readArgs1_one {l : List Tok} {q : Bool × CTy} (hl : Starts l) (h : Reads l q) :
    ReadsArgs1 l (.ty q.1 q.2 .nil) := by
  obtain ⟨a, r, rfl, ha⟩ := hl
  intro close hc f rest hf
  cases f with
  | zero => simp at hf
  | succ f =>
    have := h f (close :: rest) (by omega)
    rw [suffix_close hc, List.cons_append] at this
    rw [List.cons_append]
    exact readArgs1_eq ha (by rcases hc with rfl | rfl <;> decide) rfl this

theorem readArgs1_cons {l m : List Tok} {q : Bool × CTy} {as : CArgs} (hl : Starts l) (h : Reads l q)
    (hm : ReadsArgs1 m as) : ReadsArgs1 (l ++ .comma :: m) (.ty q.1 q.2 as) := by
  obtain ⟨a, r, rfl, ha⟩ := hl
  intro close hc f rest hf
  simp only [List.length_append, List.length_cons] at hf
  cases f with
  | zero => simp at hf
  | succ f =>
    have h1 := h f (.comma :: (m ++ close :: rest)) (by simp only [List.length_cons]; omega)
    have h2 := hm close hc f rest (by omega)
    rw [List.cons_append] at h1
    rw [List.append_assoc, List.cons_append, List.cons_append]
    exact readArgs1_comma ha h1 h2

theorem readArgs1_nat (n : Nat) : ReadsArgs1 [.nat n] (.nat n .nil) := by
  intro close hc f rest hf
  cases f with
  | zero => simp at hf
  | succ f =>
    rcases hc with rfl | rfl <;> simp [readArgs1]

theorem readsB_tmpl {n : String} {x : List Tok} {as : CArgs} (h : ReadsArgs x as) :
    ReadsB (tmplToks n x) (false, .tmpl n as) := by
  intro f rest hf
  unfold tmplToks at hf ⊢
  cases f with
  | zero => simp at hf; omega
  | succ f =>
    have := h .gt (.inl rfl) f rest (by simp at hf; omega)
    simp only [List.cons_append, List.append_assoc, List.nil_append]
    rw [readBase, this]

theorem good_tmpl {E : Env} {loc : Loc} {t : RTy} {n : String} {x : List Tok} {as : CArgs}
    (hc : CorrAt E loc t (.tmpl n as)) (h : ReadsArgs x as) : Good E loc t (tmplToks n x) :=
  goodB hc rfl nofun (readsB_tmpl h)

/-- Slices. -/
theorem slice_reads {E : Env} {t : RTy} {x : List Tok} (c : Bool) (h : Good E .other t x)
    (ht : exactNode (.slice t)) : ∃ c', Corr E t c' ∧
      ReadsB (sliceToks c t x) (false, .tmpl "rs_std::SliceRef" (.ty c c' .nil)) := by
  obtain ⟨c', hc', hr, hs, hb⟩ := h
  have hc' : Corr E t c' := hc'
  refine ⟨c', hc', ?_⟩
  have hp := hc'.plain
  have hk : mkConst true (false, c') = (true, c') := by simp [mkConst, hp.1, hp.2.1]
  have key : ∀ y : List Tok, Starts y → Reads y (c, c') →
      ReadsB (.tname "rs_std::SliceRef" :: .lt :: y ++ [.gt]) (false, .tmpl "rs_std::SliceRef" (.ty c c' .nil)) :=
    fun y h1 h2 => readsB_tmpl (n := "rs_std::SliceRef") ((readArgs1_one h1 h2).args h1)
  unfold sliceToks
  cases c with
  | false => exact key x hs hr
  | true =>
    have west : isPtrKind t = false → Reads (.kConst :: x) (true, c') := fun h => hk ▸ (hb h).readsConst
    have east : Reads (x ++ [.kConst]) (true, c') := hr.snoc fun rest => by
      rw [List.singleton_append, suffix, hk]
    have w : isPtrKind t = false → ReadsB _ _ := fun h => key (.kConst :: x) ⟨_, _, rfl, rfl⟩ (west h)
    have e : ReadsB _ _ := key (x ++ [.kConst]) (hs.append _) east
    cases t with
    | raw m t => exact e
    | ref l m t => exact e
    | fn => exact e
    | rvref => exact ht.elim
    | _ => exact w rfl

/-- What has to be shown of the type in a slice or `MaybeUninit`. -/
def GoodInner (E : Env) : RTy → List Tok → Prop
  | .slice e, l => Good E .other e l
  | .maybeUninit e, l => Good E .other e l
  | _, _ => True

/-- Thin pointers. -/
theorem ptrToks_reads {E : Env} {c : Bool} {s : List Tok} {k : Ref} {t : RTy} {a : Option (List Tok)} {l : List Tok}
    (hs : Sig s k) (ha : ∀ x, a = some x → Good E .other t x) (h : ptrToks c s t a = some l) :
    Starts l ∧ ∃ c', ((t = .cvoid ∧ c' = .prim "void") ∨ Corr E t c') ∧
      ∃ k', (k' = k ∨ (k' = .ptr ∧ t = .cvoid)) ∧ Reads l (false, .ptr k' c c') := by
  have key : ∀ x, a = some x → Starts (x ++ constTok c ++ s) ∧ ∃ c', ((t = .cvoid ∧ c' = .prim "void") ∨ Corr E t c') ∧
      ∃ k', (k' = k ∨ (k' = .ptr ∧ t = .cvoid)) ∧ Reads (x ++ constTok c ++ s) (false, .ptr k' c c') := by
    intro x hx
    obtain ⟨c', hc', hr, hst, -⟩ := ha x hx
    have hc' : Corr E t c' := hc'
    have hp := hc'.plain
    refine ⟨(hst.append _).append _, c', .inr hc', k, .inl rfl, ?_⟩
    rw [List.append_assoc]
    refine hr.snoc fun rest => ?_
    rw [List.append_assoc, suffix_const, hs _ rest hp.1 hp.2.2]
    simp [mkConst, hp.1, hp.2.1]
  by_cases ht : t = .cvoid
  · subst ht
    cases h
    refine ⟨?_, .prim "void", .inl ⟨rfl, rfl⟩, .ptr, .inr ⟨rfl, rfl⟩, ?_⟩
    · cases c <;> exact ⟨_, _, rfl, rfl⟩
    · cases c with
      | false =>
        refine Reads.snoc (l := [.prim "void"]) (s := [.star]) ((readsB_prim "void").reads ⟨_, _, rfl, nofun⟩) ?_
        intro rest; rfl
      | true =>
        refine Reads.snoc (l := [.kConst, .prim "void"]) (s := [.star]) (readsB_prim "void").readsConst ?_
        intro rest; rfl
  · have h' : a.map (fun x => x ++ constTok c ++ s) = some l := by
      cases t <;> first | exact h | exact absurd rfl ht
    obtain ⟨x, hx, rfl⟩ := Option.map_eq_some_iff.1 h'
    exact key x hx

/-- Pointers. -/
theorem pointerToks_reads {E : Env} {c : Bool} {s : List Tok} {k : Ref} {t : RTy} {a b : Option (List Tok)} {l : List Tok}
    (hs : Sig s k) (hx : exactNode t) (ha : ∀ x, a = some x → Good E .other t x)
    (hb : ∀ x, b = some x → GoodInner E t x)
    (h : pointerToks c s t a b = some l) :
    Starts l ∧ ((∃ e c', t = .slice e ∧ Corr E e c' ∧
        Reads l (false, .tmpl "rs_std::SliceRef" (.ty c c' .nil))) ∨
      ∃ c' k', Pointee E t c' ∧ (k' = k ∨ k' = .ptr) ∧ Reads l (false, .ptr k' c c')) := by
  have gen : (∀ e, t ≠ .slice e) → (∀ e, t ≠ .maybeUninit e) → ptrToks c s t a = some l → Starts l ∧
      ((∃ e c', t = .slice e ∧ Corr E e c' ∧ Reads l (false, .tmpl "rs_std::SliceRef" (.ty c c' .nil))) ∨
      ∃ c' k', Pointee E t c' ∧ (k' = k ∨ k' = .ptr) ∧ Reads l (false, .ptr k' c c')) := by
    intro _ _ h
    obtain ⟨h1, c', h2, k', h3, h4⟩ := ptrToks_reads hs ha h
    refine ⟨h1, .inr ⟨c', k', ?_, ?_, h4⟩⟩
    · rcases h2 with ⟨rfl, rfl⟩ | h2
      · exact .void
      · exact .same _ _ h2
    · rcases h3 with h3 | ⟨h3, -⟩
      · exact .inl h3
      · exact .inr h3
  cases t with
  | slice e =>
    obtain ⟨x, hx', rfl⟩ := Option.map_eq_some_iff.1 (show b.map (sliceToks c e) = some l from h)
    obtain ⟨c', h1, h2⟩ := slice_reads c (hb x hx') hx
    refine ⟨⟨_, _, rfl, rfl⟩, .inl ⟨e, c', rfl, h1, h2.reads ⟨_, _, rfl, nofun⟩⟩⟩
  | maybeUninit e =>
    obtain ⟨h1, c', h2, k', h3, h4⟩ := ptrToks_reads (t := e) hs hb (show ptrToks c s e b = some l from h)
    refine ⟨h1, .inr ⟨c', k', ?_, ?_, h4⟩⟩
    · rcases h2 with ⟨rfl, rfl⟩ | h2
      · exact .uninitVoid
      · exact .uninit _ _ h2
    · rcases h3 with h3 | ⟨h3, -⟩
      · exact .inl h3
      · exact .inr h3
  | _ => exact gen nofun nofun h

/-- The correspondence of argument lists. -/
def CorrsAt (E : Env) : Loc → RTys → CArgs → Prop
  | .param _ _, ts, as => CorrPs E ts as
  | _, ts, as => CorrL E ts as

theorem corrsAt_nil {E : Env} (loc : Loc) : CorrsAt E loc .nil .nil := by
  cases loc <;> first | exact CorrPs.nil | exact CorrL.nil

theorem corrsAt_cons {E : Env} {loc : Loc} {t : RTy} {ts : RTys} {c : CTy} {as : CArgs}
    (hl : ¬ (∃ b, loc = .ret b) ∧ loc ≠ .const) (h : CorrAt E loc t c) (hs : CorrsAt E loc ts as) :
    CorrsAt E loc (.cons t ts) (.ty false c as) := by
  cases loc with
  | ret b => exact absurd ⟨b, rfl⟩ hl.1
  | const => exact absurd rfl hl.2
  | param a b => exact CorrPs.cons _ _ _ _ h hs
  | nested => exact CorrL.cons _ _ _ _ h hs
  | templ => exact CorrL.cons _ _ _ _ h hs
  | other => exact CorrL.cons _ _ _ _ h hs
  | field => exact CorrL.cons _ _ _ _ h hs

/-- `type_identity_t<…>`. -/
theorem fn_reads {x y : List Tok} {cr : Bool} {r : CTy} {as : CArgs} (hx : Reads x (cr, r)) (hy : ReadsArgs y as) :
    ReadsB (.tyId :: .lt :: x ++ .lpar :: y ++ [.rpar, .gt]) (false, .fn r as) := by
  intro f rest hf
  simp only [List.cons_append, List.append_assoc, List.length_cons, List.length_append, List.length_nil,
    List.nil_append] at hf ⊢
  cases f with
  | zero => omega
  | succ f =>
    have h1 := hx f (.lpar :: (y ++ .rpar :: .gt :: rest)) (by omega)
    have h2 := hy .rpar (.inr rfl) f (.gt :: rest) (by omega)
    have h3 : ∀ q : Bool × CTy, ∀ z, suffix q (.lpar :: z) = some (q, .lpar :: z) := fun _ _ => rfl
    rw [h3] at h1
    rw [readBase, h1]
    simp only [h2]

variable {D : Db}

theorem all_node {P : RTy → Prop} {t : RTy} (h : All P t) : P t := by
  cases t <;> first | exact h | exact h.1

theorem intTok_corr {loc : Loc} {s : Bool} {w : IntW} {l : List Tok} (h : intTok D loc s w = some l) :
    ∃ n, IntCorr D.toEnv s w n ∧ l = [.prim n] := by
  cases w with
  | size =>
    simp only [intTok] at h
    split at h
    · split at h
      · cases h; rename_i hp; exact ⟨_, .inr (.inl ⟨hp, rfl⟩), rfl⟩
      · cases h; rename_i hp; exact ⟨_, .inr (.inr ⟨by simpa using hp, rfl⟩), rfl⟩
    · cases h; exact ⟨_, .inl rfl, rfl⟩
  | w128 => cases h
  | _ => cases h; exact ⟨_, rfl, rfl⟩

theorem readsArgs_of {ts : RTys} {l : List Tok} {as : CArgs} (h1 : ts = .nil → l = [] ∧ as = .nil)
    (h2 : ts ≠ .nil → Starts l ∧ ReadsArgs1 l as) : ReadsArgs l as := by
  by_cases h : ts = .nil
  · obtain ⟨rfl, rfl⟩ := h1 h
    exact readArgs_nil
  · exact (h2 h).2.args (h2 h).1

theorem ref_good {loc : Loc} {lf : Life} {m : Bool} {t : RTy} {a b : Option (List Tok)} {l : List Tok}
    (hx : exactNode t) (ha : ∀ x, a = some x → Good D.toEnv .other t x)
    (hb : ∀ x, b = some x → GoodInner D.toEnv t x)
    (h : refToks D loc lf m t a b = some l) : Good D.toEnv loc (.ref lf m t) l := by
  have gen : (∀ e, t ≠ .slice e) →
      pointerToks (!(m || (loc.isFn && D.threadSafe t))) (refSigil loc lf t) t a b = some l →
      Good D.toEnv loc (.ref lf m t) l := by
    intro hns h
    obtain ⟨h1, h2⟩ := pointerToks_reads (sig_ref loc lf t) hx ha hb h
    rcases h2 with ⟨e, c', rfl, -, -⟩ | ⟨c', k', h3, h4, h5⟩
    · exact absurd rfl (hns e)
    · refine ⟨_, ?_, h5, h1, nofun⟩
      have hk : k' ≠ .rref := by
        rintro rfl
        rcases h4 with h4 | h4
        · split at h4 <;> cases h4
        · cases h4
      have top : ∀ s : Bool, CorrTop D.toEnv (.ref lf m t) (.ptr k' (!(m || (s && D.threadSafe t))) c') := by
        intro s
        cases hst : (s && D.threadSafe t) with
        | false =>
          rw [Bool.or_false]
          cases k' with
          | ptr => exact .same _ _ (.ref _ _ _ _ h3)
          | lref => exact .lref _ _ _ _ h3
          | rref => exact absurd rfl hk
        | true =>
          simp only [Bool.and_eq_true] at hst
          cases m with
          | false => exact .shared _ _ _ _ hst.2 hk h3
          | true =>
            cases k' with
            | ptr => exact .same _ _ (.ref _ _ _ _ h3)
            | lref => exact .lref _ _ _ _ h3
            | rref => exact absurd rfl hk
      have mem : refAsPtr lf loc = true → loc.isFn = false →
          Corr D.toEnv (.ref lf m t) (.ptr k' (!(m || (loc.isFn && D.threadSafe t))) c') := by
        intro hr hf
        have : k' = .ptr := by
          rw [if_pos hr] at h4
          rcases h4 with rfl | rfl <;> rfl
        subst this
        rw [hf, Bool.false_and, Bool.or_false]
        exact .ref _ _ _ _ h3
      cases loc with
      | ret b => exact .same _ _ (top true)
      | param a b => exact top true
      | const => exact top false
      | nested => exact mem rfl rfl
      | templ => exact mem rfl rfl
      | other => exact mem rfl rfl
      | field => exact mem rfl rfl
  cases t with
  | slice e =>
    obtain ⟨h1, h2⟩ := pointerToks_reads (c := !m) sig_star hx ha hb (show pointerToks (!m) [.star] (.slice e) a b = some l from h)
    rcases h2 with ⟨e', c', he, h3, h4⟩ | ⟨c', k', h3, -, -⟩
    · cases he
      exact ⟨_, corrAt_of_corr (.refSlice _ _ _ _ h3), h4, h1, nofun⟩
    · cases h3 with
      | same _ _ h => cases h
  | str =>
    cases m with
    | true => cases h
    | false =>
      cases h
      exact goodB (corrAt_of_corr (.str lf)) rfl nofun (readsB_name _)
  | _ => exact gen nofun h

theorem fn_good {loc : Loc} {u : Bool} {abi : String} {r : RTy} {ps : RTys} {x y : List Tok} {cr : CTy} {as : CArgs}
    (habi : abi = "C" ∨ abi = "C-unwind") (hr : CorrRet D.toEnv r cr) (hp : CorrPs D.toEnv ps as)
    (hx : Reads x (false, cr)) (hy : ReadsArgs y as) :
    Good D.toEnv loc (.fn false u abi false r ps) (.tyId :: .lt :: x ++ .lpar :: y ++ [.rpar, .gt, fnSigil loc]) := by
  have hb := fn_reads hx hy
  have habi' : abi ∈ ["C", "C-unwind"] := by simpa using habi
  have e : Tok.tyId :: .lt :: x ++ .lpar :: y ++ [.rpar, .gt, fnSigil loc] =
      (Tok.tyId :: .lt :: x ++ .lpar :: y ++ [.rpar, .gt]) ++ [fnSigil loc] := by simp
  rw [e]
  have star : Reads ((Tok.tyId :: .lt :: x ++ .lpar :: y ++ [.rpar, .gt]) ++ [.star]) (false, .ptr .ptr false (.fn cr as)) :=
    (hb.reads ⟨.tyId, _, rfl, nofun⟩).snoc fun rest => by simp [suffix, CTy.isRef]
  have amp : Reads ((Tok.tyId :: .lt :: x ++ .lpar :: y ++ [.rpar, .gt]) ++ [.amp]) (false, .ptr .lref false (.fn cr as)) :=
    (hb.reads ⟨.tyId, _, rfl, nofun⟩).snoc fun rest => by simp [suffix, CTy.isRef, CTy.isVoid]
  have hst : ∀ s, Starts ((Tok.tyId :: .lt :: x ++ .lpar :: y ++ [.rpar, .gt]) ++ [s]) := fun s => ⟨_, _, rfl, rfl⟩
  cases loc with
  | ret b => exact ⟨_, .same _ _ (.fnref _ _ _ _ _ _ habi' hr hp), amp, hst _, nofun⟩
  | param a b => exact ⟨_, .fnref _ _ _ _ _ _ habi' hr hp, amp, hst _, nofun⟩
  | const => exact ⟨_, .fnref _ _ _ _ _ _ habi' hr hp, amp, hst _, nofun⟩
  | nested => exact ⟨_, .fn _ _ _ _ _ _ habi' hr hp, star, hst _, nofun⟩
  | templ => exact ⟨_, .fn _ _ _ _ _ _ habi' hr hp, star, hst _, nofun⟩
  | other => exact ⟨_, .fn _ _ _ _ _ _ habi' hr hp, star, hst _, nofun⟩
  | field => exact ⟨_, .fn _ _ _ _ _ _ habi' hr hp, star, hst _, nofun⟩

mutual
theorem good : ∀ (t : RTy) (loc : Loc) (l : List Tok), All exactNode t → fmt D loc t = some l →
    Good D.toEnv loc t l
  | .prim p, loc, l, hx, h => by
      rw [fmt] at h; cases h
      cases p with
      | char => exact goodB (corrAt_of_corr (.prim _)) rfl nofun (readsB_name _)
      | bool => exact goodB (corrAt_of_corr (.prim _)) rfl nofun (readsB_prim _)
      | f32 => exact goodB (corrAt_of_corr (.prim _)) rfl nofun (readsB_prim _)
      | f64 => exact goodB (corrAt_of_corr (.prim _)) rfl nofun (readsB_prim _)
  | .int s w, loc, l, hx, h => by
      rw [fmt] at h
      obtain ⟨n, hn, rfl⟩ := intTok_corr h
      exact goodB (corrAt_of_corr (.int _ _ _ hn)) rfl nofun (readsB_prim _)
  | .never, loc, l, hx, h => by
      rw [fmt] at h
      cases loc with
      | ret b => cases h; exact goodB .never rfl nofun (readsB_prim _)
      | _ => cases h
  | .cvoid, loc, l, hx, h => by rw [fmt] at h; cases h
  | .str, loc, l, hx, h => by rw [fmt] at h; cases h
  | .tuple ts, loc, l, hx, h => by
      rw [fmt] at h
      split at h
      · rename_i hc
        cases h
        have hn : ts = .nil := by
          cases ts
          · rfl
          · simp [isNil] at hc
        subst hn
        cases loc with
        | ret b => exact goodB .unit rfl nofun (readsB_prim _)
        | _ => simp [Loc.isRet] at hc
      · split at h
        · split at h
          · cases h
          · obtain ⟨x, hx', rfl⟩ := Option.map_eq_some_iff.1 h
            obtain ⟨as, h1, h2a, h2b⟩ := goods ts .templ false x hx.2 ⟨nofun, nofun⟩ nofun hx'
            exact good_tmpl (corrAt_of_corr (.tuple _ _ _ (by simp) h1)) (readsArgs_of h2a h2b)
        · split at h
          · cases h
          · obtain ⟨x, hx', rfl⟩ := Option.map_eq_some_iff.1 h
            obtain ⟨as, h1, h2a, h2b⟩ := goods ts .nested false x hx.2 ⟨nofun, nofun⟩ nofun hx'
            exact good_tmpl (corrAt_of_corr (.tuple _ _ _ (by simp) h1)) (readsArgs_of h2a h2b)
  | .array t n, loc, l, hx, h => by
      rw [fmt] at h
      split at h
      · cases h
      · obtain ⟨x, hx', rfl⟩ := Option.map_eq_some_iff.1 h
        obtain ⟨c, hc, hr, hs, -⟩ := good t .other x hx.2 hx'
        have := readArgs1_cons hs hr (readArgs1_nat n)
        have e : Tok.tname "std::array" :: Tok.lt :: x ++ [.comma, .nat n, .gt] =
            tmplToks "std::array" (x ++ .comma :: [.nat n]) := by simp [tmplToks]
        rw [e]
        exact good_tmpl (corrAt_of_corr (.array _ _ _ hc)) (this.args (hs.append _))
  | .adt n, loc, l, hx, h => by
      rw [fmt] at h
      split at h
      · cases h
      · split at h
        · cases h
          exact goodB (corrAt_of_corr (.adt n)) rfl nofun (readsB_name _)
        · cases h
  | .gen g ts, loc, l, hx, h => by
      rw [fmt] at h
      split at h
      · obtain ⟨x, hx', rfl⟩ := Option.map_eq_some_iff.1 h
        obtain ⟨as, h1, h2a, h2b⟩ := goods ts .templ _ x hx.2 ⟨nofun, nofun⟩ (fun _ => rfl) hx'
        exact good_tmpl (corrAt_of_corr (.gen g _ _ _ (by cases g <;> simp [genNames, genName]) h1)) (readsArgs_of h2a h2b)
      · split at h
        · rename_i hg
          obtain ⟨x, hx', rfl⟩ := Option.map_eq_some_iff.1 h
          obtain ⟨as, h1, h2a, h2b⟩ := goods ts .nested false x hx.2 ⟨nofun, nofun⟩ nofun hx'
          have : g = .option := by
            simp only [Bool.and_eq_true, decide_eq_true_eq] at hg
            exact hg.1.1
          subst this
          exact good_tmpl (corrAt_of_corr (.gen _ _ _ _ (by simp [genNames]) h1)) (readsArgs_of h2a h2b)
        · cases h
  | .rvref b l' t, loc, l, hx, h => by
      rw [fmt] at h
      have hp : ∀ c', ((t = .cvoid ∧ c' = .prim "void") ∨ Corr D.toEnv t c') → Pointee D.toEnv t c' := by
        rintro c' (⟨rfl, rfl⟩ | h)
        · exact .void
        · exact .same _ _ h
      cases hl : loc.isFn with
      | true =>
        rw [hl, if_pos rfl] at h
        obtain ⟨h1, c', h2, k', h3, h4⟩ := ptrToks_reads sig_ampAmp (fun x hx' => good t .other x hx.2 hx') h
        refine ⟨_, ?_, h4, h1, nofun⟩
        rcases h3 with rfl | ⟨rfl, -⟩
        · cases loc with
          | ret b => exact .same _ _ (.rref _ _ _ _ (hp _ h2))
          | param a b => exact .rref _ _ _ _ (hp _ h2)
          | _ => cases hl
        · exact corrAt_of_corr (.rvref _ _ _ _ (hp _ h2))
      | false =>
        rw [hl, if_neg Bool.false_ne_true] at h
        obtain ⟨h1, c', h2, k', h3, h4⟩ := ptrToks_reads (sig_nonOwning l' t) (fun x hx' => good t .other x hx.2 hx') h
        refine ⟨_, ?_, h4, h1, nofun⟩
        have : k' = .ptr := by rcases h3 with rfl | ⟨rfl, -⟩ <;> rfl
        subst this
        exact corrAt_of_corr (.rvref _ _ _ _ (hp _ h2))
  | .maybeUninit _, loc, l, hx, h => by rw [fmt] at h; cases h
  | .slice _, loc, l, hx, h => by rw [fmt] at h; cases h
  | .raw m t, loc, l, hx, h => by
      rw [fmt] at h
      obtain ⟨h1, h2⟩ := pointerToks_reads sig_star (all_node hx.2) (fun x hx' => good t .other x hx.2 hx')
        (fun x hx' => goodInner t x hx.2 hx') h
      rcases h2 with ⟨e, c', rfl, h3, h4⟩ | ⟨c', k', h3, h4, h5⟩
      · exact ⟨_, corrAt_of_corr (.rawSlice _ _ _ h3), h4, h1, nofun⟩
      · have : k' = .ptr := by rcases h4 with rfl | rfl <;> rfl
        subst this
        exact ⟨_, corrAt_of_corr (.raw _ _ _ h3), h5, h1, nofun⟩
  | .ref lf m t, loc, l, hx, h => by
      rw [fmt] at h
      exact ref_good (all_node hx.2) (fun x hx' => good t .other x hx.2 hx')
        (fun x hx' => goodInner t x hx.2 hx') h
  | .fn g u abi v r ps, loc, l, hx, h => by
      rw [fmt] at h
      split at h
      · cases h
      · rename_i hc
        simp only [Bool.or_eq_true, Bool.not_eq_true', not_or, Bool.not_eq_true, Bool.not_eq_false] at hc
        obtain ⟨⟨⟨⟨hg, hv⟩, habi⟩, -⟩, -⟩ := hc
        subst hg hv
        cases hr : fmt D (.ret false) r with
        | none => rw [hr] at h; cases h
        | some x =>
          cases hps : fmts D (.param false (hasElided r)) false ps with
          | none => rw [hr, hps] at h; cases h
          | some y =>
            rw [hr, hps] at h
            cases h
            obtain ⟨cr, hcr, hrr, -, -⟩ := good r (.ret false) x hx.2.1 hr
            obtain ⟨as, has, hn, hc⟩ := goods ps (.param false (hasElided r)) false y hx.2.2 ⟨nofun, nofun⟩ nofun hps
            have hargs : ReadsArgs y as := readsArgs_of hn hc
            exact fn_good (by simpa using habi) hcr has hrr hargs
theorem goodInner : ∀ (t : RTy) (l : List Tok), All exactNode t → fmtInner D t = some l → GoodInner D.toEnv t l
  | .slice e, l, hx, h => good e .other l hx.2 (by rw [fmtInner] at h; exact h)
  | .maybeUninit e, l, hx, h => good e .other l hx.2 (by rw [fmtInner] at h; exact h)
  | .prim _, _, _, _ => trivial
  | .int _ _, _, _, _ => trivial
  | .never, _, _, _ => trivial
  | .cvoid, _, _, _ => trivial
  | .str, _, _, _ => trivial
  | .tuple _, _, _, _ => trivial
  | .array _ _, _, _, _ => trivial
  | .adt _, _, _, _ => trivial
  | .gen _ _, _, _, _ => trivial
  | .rvref _ _ _, _, _, _ => trivial
  | .raw _ _, _, _, _ => trivial
  | .ref _ _ _, _, _, _ => trivial
  | .fn .., _, _, _ => trivial
theorem goods : ∀ (ts : RTys) (loc : Loc) (u : Bool) (l : List Tok), Alls exactNode ts →
    (¬ (∃ b, loc = .ret b) ∧ loc ≠ .const) → (u = true → loc = .templ) → fmts D loc u ts = some l →
    ∃ as, CorrsAt D.toEnv loc ts as ∧ (ts = .nil → l = [] ∧ as = .nil) ∧
      (ts ≠ .nil → Starts l ∧ ReadsArgs1 l as)
  | .nil, loc, u, l, hx, hl, hu, h => by
      rw [fmts] at h; cases h
      exact ⟨.nil, corrsAt_nil loc, fun _ => ⟨rfl, rfl⟩, fun h => absurd rfl h⟩
  | .cons t ts, loc, u, l, hx, hl, hu, h => by
      rw [fmts] at h
      have ih := fun y => goods ts loc u y hx.2 hl hu
      have ht : ∀ x, argToks u t (fmt D loc t) = some x → Starts x ∧ ∃ c, Reads x (false, c) ∧
          ∀ as, CorrsAt D.toEnv loc ts as → CorrsAt D.toEnv loc (.cons t ts) (.ty false c as) := by
        intro x hx'
        unfold argToks at hx'
        split at hx'
        · rename_i hc
          simp only [Bool.and_eq_true] at hc
          cases hx'
          have hloc := hu hc.1
          subst hloc
          refine ⟨⟨_, _, rfl, rfl⟩, _, (readsB_name _).reads ⟨_, _, rfl, nofun⟩, fun as has => ?_⟩
          have htu : t = .tuple .nil := by
            revert hc
            unfold isUnit
            split
            · intro _; rfl
            · rintro ⟨-, h⟩; cases h
          subst htu
          exact CorrL.unit _ _ has
        · obtain ⟨c, h1, h2, h3, -⟩ := good t loc x hx.1 hx'
          exact ⟨h3, c, h2, fun as has => corrsAt_cons hl h1 has⟩
      cases hx' : argToks u t (fmt D loc t) with
      | none => rw [hx'] at h; cases h
      | some x =>
        obtain ⟨h1, c, h2, h3⟩ := ht x hx'
        cases hy : fmts D loc u ts with
        | none => rw [hx', hy] at h; cases h
        | some y =>
          obtain ⟨as, h4, h5, h6⟩ := ih y hy
          rw [hx', hy] at h
          cases ts with
          | nil =>
            cases h
            obtain ⟨-, rfl⟩ := h5 rfl
            exact ⟨_, h3 _ h4, nofun, fun _ => ⟨h1, readArgs1_one h1 h2⟩⟩
          | cons t' ts' =>
            cases h
            obtain ⟨-, h7⟩ := h6 nofun
            exact ⟨_, h3 _ h4, nofun, fun _ => ⟨h1.append _, readArgs1_cons h1 h2 h7⟩⟩
end

/-- C163: the C++ type that is read from the spelling of a Rust type corresponds to it. -/
theorem cc_type_corresponds (t : RTy) (loc : Loc) (l : List Tok) (hx : All exactNode t)
    (h : fmt D loc t = some l) : ∃ c, typeOf l = some (false, c) ∧ CorrAt D.toEnv loc t c := by
  obtain ⟨c, h1, h2, -, -⟩ := good t loc l hx h
  refine ⟨c, ?_, h1⟩
  unfold typeOf
  have := h2 (3 * l.length + 3) [] (by omega)
  rw [List.append_nil] at this
  rw [this]
  rfl

end Verif.RsTypes

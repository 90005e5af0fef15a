import Verif.CppTypes.Model

/-
C160, C161: what the C++ compiler reads from the spelling of a type is that type.
-/

namespace Verif.CppTypes

/-- The names of the declarations mean the declarations, and enums have not been renamed for Rust. -/
def nameNode (D : Decls) (scope : String → Option (Bool × CTy)) : STy → Prop
  | .cls n => scope (D.ccName n) = some (false, .cls n) ∧ (D.isEnum n = true → D.rsName n = D.ccName n)
  | .alias n c t => scope (D.ccName n) = some (desugar (.alias n c t)) ∧ D.isEnum n = false ∧ D.tag n = none
  | _ => True

theorem All.node {P : STy → Prop} {t : STy} (h : All P t) : P t := by
  cases t with
  | prim p => exact h
  | cls n => exact h
  | alias n c t => exact h.1
  | ptr k l c t => exact h.1
  | slice c t => exact h.1
  | fn cc va ne c r ps => exact h.1

theorem mkConst_snd (c : Bool) (q : Bool × CTy) : (mkConst c q).2 = q.2 := rfl

theorem mkConst_false (q : Bool × CTy) : mkConst false q = q := by simp [mkConst]

theorem mkConst_mkConst (a b : Bool) (q : Bool × CTy) : mkConst a (mkConst b q) = mkConst (a || b) q := by
  unfold mkConst
  cases q.1 <;> cases a <;> cases b <;> cases q.2.isRef <;> cases q.2.isFn <;> rfl

/-- References and functions are never `const`. -/
theorem desugar_refFn : ∀ t : STy, (desugar t).2.isRef = true ∨ (desugar t).2.isFn = true → (desugar t).1 = false
  | .prim _, _ => rfl
  | .cls _, _ => rfl
  | .ptr .., _ => by rw [desugar]
  | .slice .., _ => by rw [desugar]
  | .fn .., _ => by rw [desugar]
  | .alias n c t, h => by
      rw [desugar] at h ⊢
      rw [mkConst_snd] at h
      unfold mkConst
      rw [desugar_refFn t h]
      rcases h with h | h <;> simp [h]

/-- The `const` flag of an imported type is that of the written type. -/
theorem isConst_convert (imp : Imported) : ∀ (q : Bool) (t : STy) (c : CcTy), convert imp q t = some c →
    c.isConst = (mkConst q (desugar t)).1
  | q, .prim p, c, h => by
      rw [convert] at h; cases h; simp [CcTy.isConst, desugar, mkConst, CTy.isRef, CTy.isFn]
  | q, .cls n, c, h => by
      rw [convert] at h
      split at h
      · cases h; simp [CcTy.isConst, desugar, mkConst, CTy.isRef, CTy.isFn]
      · cases h
  | q, .alias n c' t, c, h => by
      rw [convert] at h
      rw [desugar, mkConst_mkConst]
      split at h
      · exact isConst_convert imp _ t c h
      · split at h
        · cases h; rfl
        · exact isConst_convert imp _ t c h
  | q, .ptr k life c' t, c, h => by
      rw [convert] at h
      have hq : (mkConst q (desugar (.ptr k life c' t))).1 = (q && decide (k.ref = .ptr)) := by
        rw [desugar]
        cases k <;> simp [mkConst, PKind.ref, CTy.isRef, CTy.isFn]
      rw [hq]
      split at h
      · exact isConst_convertFn imp q k t c h
      · obtain ⟨x, -, rfl⟩ := Option.map_eq_some_iff.1 h
        rfl
  | q, .slice c' t, c, h => by
      rw [convert] at h
      obtain ⟨x, -, rfl⟩ := Option.map_eq_some_iff.1 h
      simp [CcTy.isConst, desugar, mkConst, CTy.isRef, CTy.isFn]
  | q, .fn .., c, h => by rw [convert] at h; cases h
where
  isConst_convertFn (imp : Imported) (q : Bool) (k : PKind) : ∀ (t : STy) (c : CcTy),
      convertFn imp q k t = some c → c.isConst = (q && decide (k.ref = .ptr))
    | .prim _, c, h => by rw [convertFn] at h; cases h; all_goals simp
    | .cls _, c, h => by rw [convertFn] at h; cases h; all_goals simp
    | .ptr .., c, h => by rw [convertFn] at h; cases h; all_goals simp
    | .slice .., c, h => by rw [convertFn] at h; cases h; all_goals simp
    | .alias n c' t, c, h => by
        rw [convertFn] at h
        exact isConst_convertFn imp q k t c h
    | .fn cc va ne cr r ps, c, h => by
        rw [convertFn] at h
        split at h
        · cases h
        · obtain ⟨x, -, rfl⟩ := Option.map_eq_some_iff.1 h
          rfl

/-- Not `const`, `)` or `...`. -/
def startTok : Tok → Bool
  | .kConst | .rpar | .ellipsis => false
  | _ => true

/-- No spelling begins with `const`. -/
theorem format_head (D : Decls) (refs : Bool) : ∀ r : RsTy, ∃ a l, format D refs r = a :: l ∧ startTok a = true
  | .prim p => by rw [format]; exact ⟨_, _, rfl, rfl⟩
  | .decl n => by
      rw [format, nameToks]
      split
      · exact ⟨_, _, rfl, rfl⟩
      · split
        · exact ⟨_, _, rfl, rfl⟩
        · exact ⟨_, _, rfl, rfl⟩
  | .ptr k c t => by
      obtain ⟨a, l, h, ha⟩ := format_head D refs t
      rw [format, h]
      exact ⟨_, _, rfl, ha⟩
  | .slice c t => by rw [format]; exact ⟨_, _, rfl, rfl⟩
  | .ref c _ t => by
      obtain ⟨a, l, h, ha⟩ := format_head D refs t
      rw [format, h]
      exact ⟨_, _, rfl, ha⟩
  | .rvref c t => by
      obtain ⟨a, l, h, ha⟩ := format_head D refs t
      rw [format, h]
      exact ⟨_, _, rfl, ha⟩
  | .fnptr option cc r ps => by rw [format]; exact ⟨_, _, rfl, rfl⟩

def Reads (scope : String → Option (Bool × CTy)) (l : List Tok) (q : Bool × CTy) : Prop :=
  ∀ f rest, 3 * l.length ≤ f → readTy scope f (l ++ rest) = suffix q rest

def ReadsB (scope : String → Option (Bool × CTy)) (l : List Tok) (q : Bool × CTy) : Prop :=
  ∀ f rest, 3 * l.length ≤ f + 1 → readBase scope f (l ++ rest) = some (q, rest)

theorem readTy_succ (scope : String → Option (Bool × CTy)) (f : Nat) (a : Tok) (l : List Tok) (ha : startTok a = true) :
    readTy scope (f + 1) (a :: l) =
      match readBase scope f (a :: l) with
      | some (q, r) => suffix q r
      | none => none := by
  cases a <;> first | (exfalso; revert ha; exact Bool.false_ne_true) | skip
  all_goals
    rw [readTy]
    · split <;> rename_i h <;> rw [h]
    · intro ts h; cases h

theorem ReadsB.reads {scope : String → Option (Bool × CTy)} {D : Decls} {refs : Bool} {r : RsTy} {q : Bool × CTy}
    (h : ReadsB scope (format D refs r) q) : Reads scope (format D refs r) q := by
  intro f rest hf
  obtain ⟨a, l, e, ha⟩ := format_head D refs r
  cases f with
  | zero => rw [e] at hf; simp at hf
  | succ f =>
    have := h f rest hf
    rw [e] at this ⊢
    rw [List.cons_append, readTy_succ _ _ _ _ ha]
    rw [List.cons_append] at this
    rw [this]

/-- What is read back: the type itself, or with the reference as a pointer. -/
def adj (refs : Bool) (t : CTy) : CTy := if refs then t else asPointer t

theorem adj_notPtr {refs : Bool} {t : CTy} (h : t.isPtr = false) : adj refs t = t := by
  unfold adj
  split
  · rfl
  · cases t <;> first | rfl | cases h

theorem adj_notRef {refs : Bool} {t : CTy} (h : t.isRef = false) : adj refs t = t := by
  unfold adj
  split
  · rfl
  · cases t with
    | ptr k c t => cases k <;> first | rfl | cases h
    | _ => rfl

theorem suffix_const (c : Bool) (q : Bool × CTy) (rest : List Tok) :
    suffix q (constTok c ++ rest) = suffix (mkConst c q) rest := by
  cases c
  · simp [constTok, mkConst_false]
  · simp [constTok, suffix]

/-- `const`, then `*`, `&` or `&&`. -/
theorem suffix_ptr {q : Bool × CTy} (hq : q.2.isRef = false) (refs c : Bool) (k : PKind) (rest : List Tok) :
    suffix q (constTok c ++ ptrTok refs k :: rest) =
      suffix (false, adj refs (.ptr k.ref (mkConst c q).1 q.2)) rest := by
  rw [suffix_const]
  have hq' : (mkConst c q).2.isRef = false := hq
  have hL : ∀ q : Bool × CTy, q.2.isRef = false → addL q = (false, .ptr .lref q.1 q.2) := by
    rintro ⟨a, t⟩ h
    cases t with
    | ptr k c t => cases k <;> first | rfl | cases h
    | _ => rfl
  have hR : ∀ q : Bool × CTy, q.2.isRef = false → addR q = (false, .ptr .rref q.1 q.2) := by
    rintro ⟨a, t⟩ h
    cases t with
    | ptr k c t => cases k <;> first | rfl | cases h
    | _ => rfl
  cases k <;> cases refs <;>
    simp [ptrTok, suffix, hq, hq', adj, asPointer, PKind.ref, hL _ hq', hR _ hq', mkConst_snd]

theorem mkConst_fst {c k : Bool} {q : Bool × CTy} (hk : k = true → q.1 = true)
    (hr : q.2.isRef = false) (hf : q.2.isFn = false) :
    (mkConst (mkConst c q).1 (k, q.2)).1 = (mkConst c q).1 := by
  unfold mkConst
  rw [hr, hf]
  cases hq : q.1
  · have : k = false := by
      cases k
      · rfl
      · rw [hk rfl] at hq; cases hq
    subst this
    simp
  · simp

theorem pointerKind_format (D : Decls) (o : LOpts) (k : PKind) (life c : Bool) (t : RsTy) (refs : Bool) :
    format D refs (pointerKind D o k life c t) = format D refs t ++ constTok c ++ [ptrTok refs k] := by
  unfold pointerKind
  split
  · rw [format]
  · cases k <;> simp [format, ptrTok]

theorem readBase_name {D : Decls} {scope : String → Option (Bool × CTy)} {n : String}
    {q : Bool × CTy} (hs : scope (D.ccName n) = some q) (he : D.isEnum n = true → D.rsName n = D.ccName n)
    (ht : D.tag n = none ∨ ∃ m, q = (false, .cls m)) (refs : Bool) :
    ReadsB scope (format D refs (.decl n)) q := by
  intro f rest hf
  rw [format, nameToks] at hf ⊢
  cases f with
  | zero => 
    split at hf
    · simp at hf
    · split at hf <;> simp at hf
  | succ f =>
    split
    · rename_i h
      simp [readBase, he h, hs]
    · split
      · rename_i s hts
        rcases ht with ht | ⟨m, rfl⟩
        · rw [ht] at hts; cases hts
        · simp [readBase, hs]
      · simp [readBase, hs]


theorem kindOf_ptr_some {D : Decls} {o : LOpts} {c : Bool} {k : PKind} {life : Bool} {t : CcTy} {r : RsTy}
    (h : kindOf D o (.ptr c k life t) = some r) :
    ∃ r', kindOf D (pointeeOpts D o t) t = some r' ∧ r = pointerKind D o k life t.isConst r' := by
  rw [kindOf] at h
  obtain ⟨x, hx, rfl⟩ := Option.map_eq_some_iff.1 h
  exact ⟨x, hx, rfl⟩

theorem readAttr_attrTok (cc : CConv) (r : List Tok) : readAttr (attrTok cc ++ .gt :: r) = (cc, .gt :: r) := by
  cases cc <;> rfl

theorem formats_cons (D : Decls) (t : RsTy) (ts : RsTys) (h : ts ≠ .nil) :
    formats D (.cons t ts) = format D true t ++ .comma :: formats D ts := by
  cases ts with
  | nil => exact absurd rfl h
  | cons a b => rw [formats]; nofun

theorem formats_ne (D : Decls) : ∀ ts : RsTys, ts ≠ .nil → ∃ a l, formats D ts = a :: l ∧ startTok a = true
  | .nil, h => absurd rfl h
  | .cons t .nil, _ => by
      have h : formats D (.cons t .nil) = format D true t := by rw [formats]
      rw [h]
      exact format_head D true t
  | .cons t (.cons a b), _ => by
      obtain ⟨x, l, e, hx⟩ := format_head D true t
      rw [formats_cons D t (.cons a b) (fun h => by cases h), e]
      exact ⟨_, _, rfl, hx⟩

theorem both_some {a : Option α} {b : Option β} {x : α × β} (h : both a b = some x) : a = some x.1 ∧ b = some x.2 := by
  cases a <;> cases b <;> cases h
  exact ⟨rfl, rfl⟩

theorem suffix_rpar (q : Bool × CTy) (r : List Tok) : suffix q (.rpar :: r) = some (q, .rpar :: r) := rfl
theorem suffix_lpar (q : Bool × CTy) (r : List Tok) : suffix q (.lpar :: r) = some (q, .lpar :: r) := rfl
theorem suffix_comma (q : Bool × CTy) (r : List Tok) : suffix q (.comma :: r) = some (q, .comma :: r) := rfl

theorem readParams1_last {scope : String → Option (Bool × CTy)} {f : Nat} {a : Tok} {l r : List Tok} {q : Bool × CTy}
    (ha : startTok a = true) (h : readTy scope f (a :: l) = some (q, .rpar :: r)) :
    readParams1 scope (f + 1) (a :: l) = some (.cons q.2 .nil, false, r) := by
  cases a <;> first | (exfalso; revert ha; exact Bool.false_ne_true) | skip
  all_goals
    rw [readParams1]
    · rw [h]
    · intro ts h; cases h

theorem readParams1_more {scope : String → Option (Bool × CTy)} {f : Nat} {a : Tok} {l r r' : List Tok} {q : Bool × CTy}
    {ps : CTys} {va : Bool} (ha : startTok a = true) (h : readTy scope f (a :: l) = some (q, .comma :: r))
    (h' : readParams1 scope f r = some (ps, va, r')) :
    readParams1 scope (f + 1) (a :: l) = some (.cons q.2 ps, va, r') := by
  cases a <;> first | (exfalso; revert ha; exact Bool.false_ne_true) | skip
  all_goals
    rw [readParams1]
    · rw [h]
      simp only [h']
    · intro ts h; cases h

theorem readParams_succ (scope : String → Option (Bool × CTy)) (f : Nat) (a : Tok) (l : List Tok) (ha : startTok a = true) :
    readParams scope (f + 1) (a :: l) = readParams1 scope f (a :: l) := by
  cases a <;> first | (exfalso; revert ha; exact Bool.false_ne_true) | skip
  all_goals
    rw [readParams]
    intro ts h; cases h

variable {D : Decls} {scope : String → Option (Bool × CTy)} {imp : Imported}

/-- What has to be shown of a type. -/
def Good (D : Decls) (scope : String → Option (Bool × CTy)) (t : STy) (r : RsTy) : Prop :=
  ∃ k, (k = true → (desugar t).1 = true) ∧
    ((desugar t).2.isPtr = true → ∀ refs, Reads scope (format D refs r) (k, adj refs (desugar t).2)) ∧
    ((desugar t).2.isPtr = false → ∀ refs, ReadsB scope (format D refs r) (k, (desugar t).2))

theorem Good.reads {t : STy} {r : RsTy} : Good D scope t r → ∃ k, (k = true → (desugar t).1 = true) ∧
    ∀ refs, Reads scope (format D refs r) (k, adj refs (desugar t).2) := by
  rintro ⟨k, hk, h1, h2⟩
  refine ⟨k, hk, fun refs => ?_⟩
  cases hp : (desugar t).2.isPtr with
  | true => exact h1 hp refs
  | false =>
    rw [adj_notPtr hp]
    exact (h2 hp refs).reads

mutual
theorem good : ∀ (t : STy) (q : Bool) (o : LOpts) (c : CcTy) (r : RsTy), All wfNode t → All exactNode t →
    All (nameNode D scope) t → convert imp q t = some c → kindOf D o c = some r → Good D scope t r
  | .prim p, q, o, c, r, hw, he, hn, hc, hk => by
      rw [convert] at hc; cases hc
      rw [kindOf] at hk; cases hk
      refine ⟨false, nofun, nofun, fun _ refs f rest hf => ?_⟩
      rw [format] at hf ⊢
      cases f with
      | zero => simp at hf
      | succ f => simp [readBase, desugar]
  | .cls n, q, o, c, r, hw, he, hn, hc, hk => by
      rw [convert] at hc
      split at hc
      · cases hc
        rw [kindOf] at hk; cases hk
        exact ⟨false, nofun, nofun, fun _ refs => readBase_name hn.1 hn.2 (.inr ⟨n, rfl⟩) refs⟩
      · cases hc
  | .alias n ca t, q, o, c, r, hw, he, hn, hc, hk => by
      have key : Good D scope t r → Good D scope (.alias n ca t) r := by
        rintro ⟨k, h1, h2, h3⟩
        refine ⟨k, fun h => ?_, ?_, ?_⟩
        · rw [desugar]; simp [mkConst, h1 h]
        · rw [desugar, mkConst_snd]; exact h2
        · rw [desugar, mkConst_snd]; exact h3
      rw [convert] at hc
      split at hc
      · exact key (good t _ o c r hw.2 he.2 hn.2 hc hk)
      · rename_i hp
        split at hc
        · cases hc
          rw [kindOf] at hk; cases hk
          refine ⟨(desugar (.alias n ca t)).1, id, fun h => ?_, fun _ refs =>
            readBase_name hn.1.1 (fun h => by rw [hn.1.2.1] at h; cases h) (.inl hn.1.2.2) refs⟩
          rw [desugar, mkConst_snd] at h
          exact absurd h hp
        · exact key (good t _ o c r hw.2 he.2 hn.2 hc hk)
  | .ptr k life ct t, q, o, c, r, hw, he, hn, hc, hk => by
      rw [convert] at hc
      split at hc
      · rename_i hfn
        refine ⟨false, nofun, fun _ refs => ?_, fun h => by rw [desugar] at h; cases h⟩
        have := goodFn t q k o c r hw.2 he.2 hn.2 hc hk refs
        rw [desugar]
        have h1 : (mkConst ct (desugar t)).1 = false := by
          simp [mkConst, hfn, desugar_refFn t (.inr hfn)]
        rw [h1]
        exact this
      · rename_i hfn
        obtain ⟨c', hc', rfl⟩ := Option.map_eq_some_iff.1 hc
        obtain ⟨r', hr', rfl⟩ := kindOf_ptr_some hk
        obtain ⟨k', hk', hg⟩ := (good t ct _ c' r' hw.2 he.2 hn.2 hc' hr').reads
        refine ⟨false, nofun, fun _ refs f rest hf => ?_, fun h => by rw [desugar] at h; cases h⟩
        have hnr : (desugar t).2.isRef = false := hw.1
        have hadj : adj refs (desugar t).2 = (desugar t).2 := by
          unfold adj
          split
          · rfl
          · generalize (desugar t).2 = T at hnr
            cases T with
            | ptr k c t => cases k <;> first | rfl | cases hnr
            | _ => rfl
        rw [pointerKind_format] at hf ⊢
        rw [List.append_assoc, List.append_assoc, hg refs f _ (by simp at hf; omega), hadj,
          List.singleton_append, suffix_ptr (q := (k', (desugar t).2)) hnr]
        rw [isConst_convert imp ct t c' hc', mkConst_fst hk' hnr (by simpa using hfn), desugar]
  | .slice ce t, q, o, c, r, hw, he, hn, hc, hk => by
      rw [convert] at hc
      obtain ⟨c', hc', rfl⟩ := Option.map_eq_some_iff.1 hc
      rw [kindOf] at hk
      obtain ⟨r', hr', rfl⟩ := Option.map_eq_some_iff.1 hk
      have hg := good t ce _ c' r' hw.2 he.2 hn.2 hc' hr'
      obtain ⟨hnr, hnf⟩ := hw.1
      have hex : (mkConst ce (desugar t)).1 = true → (desugar t).2.isPtr = false := he.1
      refine ⟨false, nofun, nofun, fun _ refs f rest hf => ?_⟩
      have hconst := isConst_convert imp ce t c' hc'
      rw [format] at hf ⊢
      cases f with
      | zero => simp at hf; omega
      | succ f =>
        have hrd : readTy scope f (constTok c'.isConst ++ format D refs r' ++ .gt :: rest) =
            some (((mkConst ce (desugar t)).1, (desugar t).2), .gt :: rest) := by
          cases hcc : c'.isConst with
          | false =>
            obtain ⟨k, hk, hg⟩ := hg.reads
            have hrd := hg refs f (.gt :: rest) (by simp at hf; omega)
            rw [hcc] at hconst
            have hd : (desugar t).1 = false := by
              cases hd : (desugar t).1
              · rfl
              · simp [mkConst, hd] at hconst
            have hk0 : k = false := by
              cases k
              · rfl
              · rw [hk rfl] at hd; cases hd
            simp only [constTok, Bool.false_eq_true, if_false, List.nil_append]
            rw [hrd, adj_notRef hnr, ← hconst, hk0]
            rfl
          | true =>
            rw [hcc] at hconst
            obtain ⟨k, -, -, hg⟩ := hg
            cases f with
            | zero => simp at hf; omega
            | succ g =>
              have hrd := hg (hex hconst.symm) refs g (.gt :: rest) (by
                simp at hf; omega)
              simp only [constTok, if_true, List.cons_append, List.nil_append]
              rw [readTy, hrd, ← hconst]
              simp [suffix, mkConst, hnr, hnf]
        simp only [List.cons_append, List.append_assoc, List.nil_append] at hrd ⊢
        rw [readBase, hrd, desugar]
        simp [hnr, hnf]
  | .fn .., q, o, c, r, hw, he, hn, hc, hk => by rw [convert] at hc; cases hc
theorem goodFn : ∀ (t : STy) (q : Bool) (k : PKind) (o : LOpts) (c : CcTy) (r : RsTy), All wfNode t →
    All exactNode t → All (nameNode D scope) t → convertFn imp q k t = some c → kindOf D o c = some r →
    ∀ refs, Reads scope (format D refs r) (false, adj refs (.ptr k.ref false (desugar t).2))
  | .prim _, q, k, o, c, r, hw, he, hn, hc, hk => by rw [convertFn] at hc; cases hc; all_goals nofun
  | .cls _, q, k, o, c, r, hw, he, hn, hc, hk => by rw [convertFn] at hc; cases hc; all_goals nofun
  | .ptr .., q, k, o, c, r, hw, he, hn, hc, hk => by rw [convertFn] at hc; cases hc; all_goals nofun
  | .slice .., q, k, o, c, r, hw, he, hn, hc, hk => by rw [convertFn] at hc; cases hc; all_goals nofun
  | .alias n ca t, q, k, o, c, r, hw, he, hn, hc, hk => by
      rw [convertFn] at hc
      rw [desugar, mkConst_snd]
      exact goodFn t q k o c r hw.2 he.2 hn.2 hc hk
  | .fn cc va ne cr rt ps, q, k, o, c, r, hw, he, hn, hc, hk => by
      rw [convertFn] at hc
      split at hc
      · cases hc
      · rename_i hkr
        obtain ⟨⟨cps, crt⟩, hb, rfl⟩ := Option.map_eq_some_iff.1 hc
        obtain ⟨h1, h2⟩ := both_some hb
        rw [kindOf] at hk
        split at hk
        · rename_i rr rps hrr hrps
          split at hk
          · cases hk
            obtain ⟨⟨hva, hne, hcr⟩, hew, hes⟩ := he
            subst hva hne
            obtain ⟨k', hk', hg⟩ := (good rt cr _ crt rr hw.2.1 hew hn.2.1 h2 hrr).reads
            obtain ⟨hnil, hgs⟩ := goods ps _ cps rps hw.2.2 hes hn.2.2 h1 hrps
            have hd : (desugar rt).1 = false := by
              cases hd : (desugar rt).1
              · rfl
              · simp [mkConst, hd] at hcr
            have hk0 : k' = false := by
              cases k'
              · rfl
              · rw [hk' rfl] at hd; cases hd
            subst hk0
            intro refs f rest hf
            rw [format] at hf ⊢
            simp only [List.length_append, List.length_cons, List.length_nil] at hf
            obtain ⟨f, rfl⟩ : ∃ g, f = g + 3 := ⟨f - 3, by omega⟩
            have h := hg true (f + 1) (.lpar :: (formats D rps ++ .rpar :: (attrTok cc ++ .gt ::
              (if (!!decide (k = .lref)) && refs then Tok.amp else .star) :: rest))) (by omega)
            rw [suffix_lpar] at h
            have hp : readParams scope (f + 1) (formats D rps ++ .rpar :: (attrTok cc ++ .gt ::
              (if (!!decide (k = .lref)) && refs then Tok.amp else .star) :: rest)) =
              some (desugars ps, false, attrTok cc ++ .gt ::
              (if (!!decide (k = .lref)) && refs then Tok.amp else .star) :: rest) := by
              by_cases hn : rps = .nil
              · subst hn
                rw [formats, hnil.1 rfl]
                rfl
              · have h := hgs hn f (attrTok cc ++ .gt ::
                  (if (!!decide (k = .lref)) && refs then Tok.amp else .star) :: rest) (by omega)
                obtain ⟨a, l, e, ha⟩ := formats_ne D rps hn
                rw [e] at h ⊢
                rw [List.cons_append] at h ⊢
                rw [readParams_succ _ _ _ _ ha, h]
            simp only [List.cons_append, List.append_assoc, List.nil_append]
            rw [readTy_succ _ _ _ _ rfl, readBase, h]
            simp only [hp, readAttr_attrTok]
            rw [desugar, hcr]
            cases k <;> cases refs <;> first | exact absurd rfl hkr | rfl
          · cases hk
        · cases hk
theorem goods : ∀ (ts : STys) (o : LOpts) (cs : CcTys) (rs : RsTys), Alls wfNode ts → Alls exactNode ts →
    Alls (nameNode D scope) ts → converts imp ts = some cs → kindsOf D o cs = some rs →
    (rs = .nil ↔ desugars ts = .nil) ∧ (rs ≠ .nil → ∀ f rest, 3 * (formats D rs).length + 1 ≤ f →
      readParams1 scope f (formats D rs ++ .rpar :: rest) = some (desugars ts, false, rest))
  | .nil, o, cs, rs, hw, he, hn, hc, hk => by
      rw [converts] at hc; cases hc
      rw [kindsOf] at hk; cases hk
      exact ⟨⟨fun _ => by rw [desugars], fun _ => rfl⟩, fun h => absurd rfl h⟩
  | .cons t ts, o, cs, rs, hw, he, hn, hc, hk => by
      rw [converts] at hc
      obtain ⟨⟨c', cs'⟩, hb, rfl⟩ := Option.map_eq_some_iff.1 hc
      obtain ⟨h1, h2⟩ := both_some hb
      rw [kindsOf] at hk
      split at hk
      · rename_i t' ts' ht' hts'
        cases hk
        obtain ⟨k, -, hg⟩ := (good t _ o c' t' hw.1 he.1 hn.1 h1 ht').reads
        obtain ⟨hnil, hgs⟩ := goods ts o cs' ts' hw.2 he.2 hn.2 h2 hts'
        refine ⟨⟨nofun, fun h => by rw [desugars] at h; cases h⟩, fun _ f rest hf => ?_⟩
        by_cases hts : ts' = .nil
        · subst hts
          rw [formats] at hf ⊢
          cases f with
          | zero => simp at hf
          | succ f =>
            have h := hg true f (.rpar :: rest) (by omega)
            obtain ⟨a, l, e, ha⟩ := format_head D true t'
            rw [e] at h ⊢
            rw [suffix_rpar, List.cons_append] at h
            rw [List.cons_append, readParams1_last ha h, desugars, hnil.1 rfl]
            rfl
        · rw [formats_cons D _ _ hts] at hf ⊢
          cases f with
          | zero => simp at hf
          | succ f =>
            simp only [List.length_append, List.length_cons] at hf
            have h := hg true f (.comma :: (formats D ts' ++ .rpar :: rest)) (by omega)
            have h' := hgs hts f rest (by omega)
            obtain ⟨a, l, e, ha⟩ := format_head D true t'
            rw [e] at h ⊢
            rw [suffix_comma] at h
            rw [List.append_assoc, List.cons_append, List.cons_append]
            rw [List.cons_append] at h
            rw [readParams1_more ha h h', desugars]
            rfl
      · cases hk
end

theorem mkConst_again {q k : Bool} {d : Bool × CTy} (hk : k = true → d.1 = true)
    (h : d.2.isRef = true ∨ d.2.isFn = true → d.1 = false) : mkConst (mkConst q d).1 (k, d.2) = mkConst q d := by
  obtain ⟨d1, d2⟩ := d
  unfold mkConst
  dsimp only at hk h ⊢
  generalize d2.isRef = a at h
  generalize d2.isFn = b at h
  revert hk h
  cases d1 <;> cases k <;> cases q <;> cases a <;> cases b <;> simp

/-- C160: the type in the assertion is the type of the declaration, including its `const`. -/
theorem assert_exact (t : STy) (q : Bool) (o : LOpts) (c : CcTy) (r : RsTy) (hw : All wfNode t)
    (he : All exactNode t) (hn : All (nameNode D scope) t) (hc : convert imp q t = some c)
    (hr : kindOf D o c = some r) :
    typeOf scope (assertTy D c r) = some (mkConst q (desugar t)) := by
  obtain ⟨k, hk, hg⟩ := (good t q o c r hw he hn hc hr).reads
  unfold typeOf assertTy
  have h := hg true (3 * (format D true r ++ constTok c.isConst).length + 3) (constTok c.isConst)
    (by simp; omega)
  rw [h]
  have h2 := suffix_const c.isConst (k, adj true (desugar t).2) []
  rw [List.append_nil] at h2
  rw [h2, isConst_convert imp q t c hc]
  have h3 : mkConst (mkConst q (desugar t)).1 (k, adj true (desugar t).2) = mkConst q (desugar t) := by
    exact mkConst_again hk (desugar_refFn t)
  rw [h3]
  rfl

/-- C161: the type in a thunk is the type of the declaration, with a reference as a pointer, and nothing
is added to its `const`. -/
theorem thunk_exact (t : STy) (q : Bool) (o : LOpts) (c : CcTy) (r : RsTy) (hw : All wfNode t)
    (he : All exactNode t) (hn : All (nameNode D scope) t) (hc : convert imp q t = some c)
    (hr : kindOf D o c = some r) :
    ∃ k, (k = true → (desugar t).1 = true) ∧
      typeOf scope (format D false r) = some (k, asPointer (desugar t).2) := by
  obtain ⟨k, hk, hg⟩ := (good t q o c r hw he hn hc hr).reads
  refine ⟨k, hk, ?_⟩
  unfold typeOf
  have h := hg false (3 * (format D false r).length + 3) [] (by omega)
  rw [List.append_nil] at h
  rw [h]
  rfl

end Verif.CppTypes

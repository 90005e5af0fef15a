import Verif.AbiTy.Model

/-
Types and expressions of ABIs (C179).
-/

namespace Verif.AbiTy

variable {L : Toks → Toks → Prop} {U : Path → Path → Prop} {M : Path → Path → Path → Prop} {F : Toks → Toks → Prop}
  {GR : Toks → RTy → Prop} {GC : Toks → CTy → Prop}

mutual
/-- What is assumed about the parts of an ABI: given types have the same bytes, given expressions have the given types; and
there are no references and no const pointers to pointers (see `ref_mismatch`, `const_misread`). -/
inductive Good (L : Toks → Toks → Prop) (U : Path → Path → Prop) (M : Path → Path → Path → Prop) (F : Toks → Toks → Prop)
    (GR : Toks → RTy → Prop) (GC : Toks → CTy → Prop) : Abi → Prop where
  | ptr {k s r ref : Bool} {rust cpp : Toks} : (k = true → CTy.Simple (.given cpp)) → (ref = true → s = true) →
      Good L U M F GR GC (.ptr k s r ref rust cpp)
  | pair {a b : Abi} : Good L U M F GR GC a → Good L U M F GR GC b → Good L U M F GR GC (.pair a b)
  | stdString (c : Bool) : Good L U M F GR GC (.stdString c)
  | transmute {rust cpp : Toks} : L rust cpp → Good L U M F GR GC (.transmute rust cpp)
  | protoMessage {b r c : Path} : M b r c → Good L U M F GR GC (.protoMessage b r c)
  | tokens {rt re ct ce : Toks} : F rt ct → GR re (.given rt) → GC ce (.given ct) → Good L U M F GR GC (.tokens rt re ct ce)
  | type {r c : Path} {args : List Abi} : r ≠ transmuteR → c ≠ transmuteC → c ≠ boxedC → U r c → GoodL L U M F GR GC args → Good L U M F GR GC (.type r c args)
inductive GoodL (L : Toks → Toks → Prop) (U : Path → Path → Prop) (M : Path → Path → Path → Prop) (F : Toks → Toks → Prop)
    (GR : Toks → RTy → Prop) (GC : Toks → CTy → Prop) : List Abi → Prop where
  | nil : GoodL L U M F GR GC []
  | cons {a : Abi} {as : List Abi} : Good L U M F GR GC a → GoodL L U M F GR GC as → GoodL L U M F GR GC (a :: as)
end

/-- What is to be shown: the generated tokens are these types and expressions. -/
structure Sound (L : Toks → Toks → Prop) (U : Path → Path → Prop) (M : Path → Path → Path → Prop) (F : Toks → Toks → Prop)
    (GR : Toks → RTy → Prop) (GC : Toks → CTy → Prop) (a : Abi) (rt : RTy) (re : RExpr) (ct : CTy) (ce : CExpr) : Prop where
  rustType : a.rustType = rt.toks
  rustExpr : a.rustExpr = re.toks
  cppType : a.cppType = ct.toks
  cppExpr : a.cppExpr = ce.toks
  rust : RHas GR re rt
  cpp : CHas GC ce ct
  same : SameAbi L U M F rt ct

theorem ptr_sound {k s r ref : Bool} {rust cpp : Toks} (h1 : k = true → CTy.Simple (.given cpp)) (h2 : ref = true → s = true) :
    ∃ rt re ct ce, Sound L U M F GR GC (.ptr k s r ref rust cpp) rt re ct ce := by
  let base : RTy := if s then .slice (.given rust) else .given rust
  let rt : RTy := match k, r with
    | true, true => .cref base
    | false, true => .cmut base
    | true, false => .constPtr base
    | false, false => .mutPtr base
  let cb : CTy := if k then .const (.given cpp) else .given cpp
  let ct : CTy := if s then .path ⟨true, ["rs_std", "SliceRef"]⟩ [cb] else .ptr cb
  refine ⟨.path transmuteR [rt], .transmute rt, .path transmuteC [ct], .make (.path transmuteC [ct]) [], ?_, ?_, ?_, ?_,
    .transmute _, .transmute _, .transmute ?_⟩
  · cases k <;> cases s <;> cases r <;> rfl
  · cases k <;> cases s <;> cases r <;> rfl
  · cases k <;> cases s <;> cases ref <;> first | rfl | (exact absurd (h2 rfl) (by decide)) | simp [Abi.cppType, ct, cb, CTy.toks, CTy.toksL, Path.toks, sepBy, transmuteC]
  · cases k <;> cases s <;> cases ref <;> simp [Abi.cppExpr, ct, cb, CTy.toks, CTy.toksL, CExpr.toks, CExpr.toksL, Path.toks, sepBy, transmuteC]
  · cases k <;> cases s <;> cases r
    · exact .mutPtr _ _
    · exact .cmut _ _
    · exact .mutSlice _ _
    · exact .cmutSlice _ _
    · exact .constPtr _ (h1 rfl)
    · exact .cref _ (h1 rfl)
    · exact .constSlice _ (h1 rfl)
    · exact .crefSlice _ (h1 rfl)

/-- Lists -/
structure SoundL (L : Toks → Toks → Prop) (U : Path → Path → Prop) (M : Path → Path → Path → Prop) (F : Toks → Toks → Prop)
    (GR : Toks → RTy → Prop) (GC : Toks → CTy → Prop) (as : List Abi) (rt : List RTy) (re : List RExpr) (ct : List CTy)
    (ce : List CExpr) : Prop where
  rustType : Abi.rustTypes as = RTy.toksL rt
  rustExpr : Abi.rustExprs as = RExpr.toksL re
  cppType : Abi.cppTypes as = CTy.toksL ct
  cppExpr : Abi.cppExprs as = CExpr.toksL ce
  rust : RHasL GR re rt
  cpp : CHasL GC ce ct
  same : SameAbiL L U M F rt ct

mutual
/-- C179: The four texts that are generated for an ABI are a Rust type, an expression of that type, a C++ type and an expression
of that type, and both types encode values in the same way. -/
theorem abi_sound : ∀ {a : Abi}, Good L U M F GR GC a → ∃ rt re ct ce, Sound L U M F GR GC a rt re ct ce
  | _, .ptr h1 h2 => ptr_sound h1 h2
  | _, .pair ha hb => by
      obtain ⟨rt, re, ct, ce, s⟩ := abi_sound ha
      obtain ⟨rt', re', ct', ce', s'⟩ := abi_sound hb
      refine ⟨.pair rt rt', .pair re re', .path ⟨true, ["crubit", "PairAbi"]⟩ [ct, ct'],
        .make (.path ⟨true, ["crubit", "PairAbi"]⟩ [ct, ct']) [ce, ce'], ?_, ?_, ?_, ?_, .pair s.rust s'.rust,
        .make (by decide) (by decide) (.cons s.cpp (.cons s'.cpp .nil)), .pair s.same s'.same⟩
      · rw [Abi.rustType, RTy.toks, s.rustType, s'.rustType]
      · rw [Abi.rustExpr, RExpr.toks, s.rustExpr, s'.rustExpr]
      · simp [Abi.cppType, CTy.toks, CTy.toksL, s.cppType, s'.cppType, sepBy, Path.toks]
      · simp [Abi.cppExpr, CExpr.toks, CExpr.toksL, CTy.toks, CTy.toksL, s.cppType, s'.cppType, s.cppExpr, s'.cppExpr, sepBy,
          Path.toks]
  | _, .stdString c => by
      refine ⟨.path (if c then ⟨false, ["crate", "std", "BoxedCppStringAbi"]⟩ else ⟨true, ["cc_std", "std", "BoxedCppStringAbi"]⟩) [],
        .path (if c then ⟨false, ["crate", "std", "BoxedCppStringAbi"]⟩ else ⟨true, ["cc_std", "std", "BoxedCppStringAbi"]⟩) [],
        .path boxedC [.path ⟨false, ["std", "string"]⟩ []], .make (.path boxedC [.path ⟨false, ["std", "string"]⟩ []]) [],
        ?_, ?_, rfl, rfl, .path (by cases c <;> decide) .nil, .boxed _, .string ?_⟩
      · cases c <;> rfl
      · cases c <;> rfl
      · cases c
        · exact .inr rfl
        · exact .inl rfl
  | _, .transmute (rust := rust) (cpp := cpp) h =>
      ⟨.path transmuteR [.given rust], .transmute (.given rust), .path transmuteC [.given cpp],
        .make (.path transmuteC [.given cpp]) [], rfl, rfl, rfl,
        by simp [Abi.cppExpr, CExpr.toks, CExpr.toksL, CTy.toks, CTy.toksL, sepBy, Path.toks, transmuteC],
        .transmute _, .transmute _, .transmute (.given h)⟩
  | _, .protoMessage (b := b) (r := r) (c := c) h =>
      ⟨.path b [.path r []], .phantom b, .path boxedC [.path c []], .make (.path boxedC [.path c []]) [],
        by simp [Abi.rustType, RTy.toks, RTy.toksL, sepBy], rfl,
        by simp [Abi.cppType, CTy.toks, CTy.toksL, sepBy, Path.toks, boxedC],
        by simp [Abi.cppExpr, CExpr.toks, CExpr.toksL, CTy.toks, CTy.toksL, sepBy, Path.toks, boxedC],
        .phantom _ _, .boxed _, .message h⟩
  | _, .tokens (rt := rt) (re := re) (ct := ct) (ce := ce) hf hr hc =>
      ⟨.given rt, .given re, .given ct, .given ce, rfl, rfl, rfl, rfl, .given hr, .given hc, .given hf⟩
  | _, .type (r := r) (c := c) (args := args) n1 n2 n3 hu h => by
      obtain ⟨rt, re, ct, ce, s⟩ := abiL_sound h
      refine ⟨.path r rt, .path r re, .path c ct, .make (.path c ct) ce, ?_, ?_, ?_, ?_, .path n1 s.rust, .make n2 n3 s.cpp,
        .user hu s.same⟩
      · have e := s.rustType
        cases args <;> cases rt <;> simp_all [Abi.rustType, Abi.rustTypes, RTy.toks, RTy.toksL]
      · have e := s.rustExpr
        cases args <;> cases re <;> simp_all [Abi.rustExpr, Abi.rustExprs, RExpr.toks, RExpr.toksL]
      · have e := s.cppType
        cases args <;> cases ct <;> simp_all [Abi.cppType, Abi.cppTypes, CTy.toks, CTy.toksL]
      · have e := s.cppType
        have e' := s.cppExpr
        cases args <;> cases ct <;> cases ce <;>
          simp_all [Abi.cppExpr, Abi.cppExprs, Abi.cppTypes, CTy.toks, CTy.toksL, CExpr.toks, CExpr.toksL, sepBy]
theorem abiL_sound : ∀ {as : List Abi}, GoodL L U M F GR GC as → ∃ rt re ct ce, SoundL L U M F GR GC as rt re ct ce
  | _, .nil => ⟨[], [], [], [], rfl, rfl, rfl, rfl, .nil, .nil, .nil⟩
  | _, .cons ha has => by
      obtain ⟨rt, re, ct, ce, s⟩ := abi_sound ha
      obtain ⟨rt', re', ct', ce', s'⟩ := abiL_sound has
      refine ⟨rt :: rt', re :: re', ct :: ct', ce :: ce', ?_, ?_, ?_, ?_, .cons s.rust s'.rust, .cons s.cpp s'.cpp,
        .cons s.same s'.same⟩
      · rw [Abi.rustTypes, RTy.toksL, s.rustType, s'.rustType]
      · rw [Abi.rustExprs, RExpr.toksL, s.rustExpr, s'.rustExpr]
      · rw [Abi.cppTypes, CTy.toksL, s.cppType, s'.cppType]
      · rw [Abi.cppExprs, CExpr.toksL, s.cppExpr, s'.cppExpr]
end

theorem has_make {t t' : CTy} {es : List CExpr} (h : CHas GC (.make t es) t') : t' = t := by
  cases h <;> rfl

/-- Disagreement: the expression that is generated for a C++ reference does not have the type that is generated. -/
theorem ref_mismatch (rust cpp : Toks) : let a : Abi := .ptr false false false true rust cpp
    a.cppType = (CTy.path transmuteC [.ref (.given cpp)]).toks ∧
    a.cppExpr = (CExpr.make (.path transmuteC [.ptr (.given cpp)]) []).toks ∧
    ¬ CHas GC (.make (.path transmuteC [.ptr (.given cpp)]) []) (.path transmuteC [.ref (.given cpp)]) := by
  refine ⟨?_, ?_, fun h => ?_⟩
  rotate_left 2
  · have := has_make h
    injection this with _ e
    injection e with e _
    cases e
  · simp [Abi.cppType, CTy.toks, CTy.toksL, sepBy, Path.toks, transmuteC]
  · simp [Abi.cppExpr, CTy.toks, CTy.toksL, CExpr.toks, CExpr.toksL, sepBy, Path.toks, transmuteC]

/-- Disagreement: a const pointer to a pointer is written like a pointer to a const pointer. -/
theorem const_misread : let a : Abi := .ptr true false false false ["*", "mut", "i32"] ["int", "*"]
    let b : Abi := .ptr false false false false ["*", "const", "i32"] ["const", "int", "*"]
    a.cppType = b.cppType ∧ a.rustType ≠ b.rustType := by decide

/-! ### Paths -/

theorem split_part {a : List Char} (h : ':' ∉ a) (cur : List Char) (s : List Char) :
    split cur (a ++ ':' :: ':' :: s) = (cur ++ a) :: split [] s := by
  induction a generalizing cur with
  | nil => simp [split]
  | cons c a ih =>
    rw [List.mem_cons, not_or] at h
    rw [List.cons_append, split.eq_2, ih h.2]
    · simp
    · intro s' h1 _; exact h.1 h1.symm

theorem split_last {a : List Char} (h : ':' ∉ a) (cur : List Char) : split cur a = [cur ++ a] := by
  induction a generalizing cur with
  | nil => simp [split]
  | cons c a ih =>
    rw [List.mem_cons, not_or] at h
    rw [split.eq_2, ih h.2]
    · simp
    · intro s' h1 _; exact h.1 h1.symm

theorem split_colons : ∀ {parts : List (List Char)}, parts ≠ [] → (∀ a ∈ parts, ':' ∉ a) → split [] (colons parts) = parts
  | [], h, _ => absurd rfl h
  | [a], _, h => by rw [colons, split_last (h a (by simp))]; rfl
  | a :: b :: l, _, h => by
      rw [colons, split_part (h a (by simp)), split_colons (by simp) fun x hx => h x (List.mem_cons_of_mem _ hx)]; rfl

theorem colons_split : ∀ (s cur : List Char), colons (split cur s) = cur ++ s
  | [], cur => by simp [split, colons]
  | [c], cur => by
      have : split cur [c] = [cur ++ [c]] := by rw [split.eq_2]; rfl; simp
      rw [this]; rfl
  | c :: d :: s, cur => by
      have ne : ∀ cur s, split cur s ≠ [] := by
        intro cur s
        induction s using List.rec generalizing cur with
        | nil => simp [split]
        | cons c s ih =>
          unfold split
          split
          · exact List.cons_ne_nil _ _
          · rename_i e; cases e; exact ih _
          · rename_i e; cases e
      by_cases hc : c = ':' ∧ d = ':'
      · obtain ⟨rfl, rfl⟩ := hc
        rw [split]
        have := colons_split s []
        cases hs : split [] s with
        | nil => exact absurd hs (ne _ _)
        | cons a l => rw [hs] at this; rw [colons, this]; rfl
      · rw [split.eq_2, colons_split (d :: s)]
        · simp
        · intro s' h1 h2; exact hc ⟨h1, by cases h2; rfl⟩

/-- C179: The path of an ABI is written in generated code as users write it. -/
theorem path_text {ident : List Char → Bool} {s : List Char} {lead : Bool} {parts : List (List Char)}
    (hi : ident [] = false) (h : pathNew ident s = some (lead, parts)) : s = pathText lead parts ∧ ∀ a ∈ parts, ident a = true := by
  unfold pathNew at h
  by_cases hall : (if [':', ':'].isPrefixOf s = true then (split [] s).drop 1 else split [] s).all ident = true
  · rw [if_pos hall] at h
    simp only [Option.some.injEq, Prod.mk.injEq] at h
    obtain ⟨rfl, rfl⟩ := h
    refine ⟨?_, List.all_eq_true.mp hall⟩
    unfold pathText
    cases hl : [':', ':'].isPrefixOf s with
    | true =>
      rw [List.isPrefixOf_iff_prefix] at hl
      obtain ⟨t, rfl⟩ := hl
      have e : (split [] ([':', ':'] ++ t)).drop 1 = split [] t := rfl
      simp only [if_true]
      rw [e, colons_split, List.nil_append]
    | false =>
      simp only [Bool.false_eq_true, if_false]
      rw [colons_split]; rfl
  · rw [if_neg hall] at h; cases h

/-- C179: Every path of identifiers is accepted. -/
theorem path_accepted {ident : List Char → Bool} {lead : Bool} {parts : List (List Char)} (hp : parts ≠ [])
    (hi : ident [] = false) (hc : ∀ a, ident a = true → ':' ∉ a) (ha : ∀ a ∈ parts, ident a = true) :
    pathNew ident (pathText lead parts) = some (lead, parts) := by
  have hs := split_colons hp fun a h => hc a (ha a h)
  have hall : parts.all ident = true := List.all_eq_true.mpr ha
  unfold pathNew
  cases lead with
  | true =>
    have e1 : [':', ':'].isPrefixOf (pathText true parts) = true := List.isPrefixOf_iff_prefix.mpr ⟨colons parts, rfl⟩
    have e2 : (split [] (pathText true parts)).drop 1 = parts := hs
    dsimp only
    rw [e1, if_pos rfl, e2, if_pos hall]
  | false =>
    have e0 : pathText false parts = colons parts := rfl
    have e1 : [':', ':'].isPrefixOf (colons parts) = false := by
      cases h : [':', ':'].isPrefixOf (colons parts) with
      | false => rfl
      | true =>
        rw [List.isPrefixOf_iff_prefix] at h
        obtain ⟨t, ht⟩ := h
        have : split [] (colons parts) = [] :: split [] t := by rw [← ht]; rfl
        rw [hs] at this
        rw [this] at ha
        rw [ha [] (by simp)] at hi
        cases hi
    dsimp only
    rw [e0, e1]
    simp only [Bool.false_eq_true, if_false]
    rw [hs, if_pos hall]

/-! ### Example -/

def exAbi : Abi := .pair (.option (.ptr true true false true ["i32"] ["int"])) (.type ⟨false, ["crate", "StatusAbi"]⟩
  ⟨true, ["absl", "StatusAbi"]⟩ [])

example : Good (fun _ _ => True) (fun _ _ => True) (fun _ _ _ => True) (fun _ _ => True) GR GC exAbi :=
  .pair (.type (by decide) (by decide) (by decide) trivial (.cons (.ptr (fun _ => by simp [CTy.Simple]) (fun _ => rfl)) .nil))
    (.type (by decide) (by decide) (by decide) trivial .nil)

example : exAbi.cppExpr = ["::", "crubit", "::", "PairAbi", "<", "::", "crubit", "::", "OptionAbi", "<", "::", "crubit", "::",
    "TransmuteAbi", "<", "::", "rs_std", "::", "SliceRef", "<", "const", "int", ">", ">", ">", ",", "::", "absl", "::",
    "StatusAbi", ">", "(", "::", "crubit", "::", "OptionAbi", "<", "::", "crubit", "::", "TransmuteAbi", "<", "::", "rs_std",
    "::", "SliceRef", "<", "const", "int", ">", ">", ">", "(", "::", "crubit", "::", "TransmuteAbi", "<", "::", "rs_std",
    "::", "SliceRef", "<", "const", "int", ">", ">", "(", ")", ")", ",", "::", "absl", "::", "StatusAbi", "(", ")", ")"] := by
  decide +kernel

end Verif.AbiTy

import Verif.CppTypes.Exact

/-
C162: the Rust type of the bindings agrees with the C++ type.
-/

namespace Verif.CppTypes

/-- Names mean the same in Rust, and functions are not variadic (see the counterexample). -/
def rustNode (names : String → Option CTy) : STy → Prop
  | .cls n => names n = some (.cls n)
  | .alias n _ t => names n = some (desugar t).2
  | .fn _ va _ _ _ _ => va = false
  | _ => True

variable {D : Decls} {imp : Imported} {names : String → Option CTy}

theorem pointerKind_agrees {o : LOpts} {k : PKind} {life c : Bool} {t : CTy} {r : RsTy}
    (h : Agrees names t (rust D r)) : Agrees names (.ptr k.ref c t) (rust D (pointerKind D o k life c r)) := by
  unfold pointerKind
  split
  · rw [rust]; exact .raw _ _ _ _ h
  · cases k with
    | lref =>
      simp only [rust, PKind.ref]
      split
      · exact .cref _ _ _ h
      · exact .ref _ _ _ _ h
    | rref => simp only [rust, PKind.ref]; exact .rvalue _ _ _ h
    | nullable => simp only [rust, PKind.ref]; exact .raw _ _ _ _ h
    | nonNull => simp only [rust, PKind.ref]; exact .raw _ _ _ _ h
    | owned => simp only [rust, PKind.ref]; exact .raw _ _ _ _ h

mutual
/-- C162: the Rust type of an imported C++ type agrees with it. -/
theorem rust_agrees : ∀ (t : STy) (q : Bool) (o : LOpts) (c : CcTy) (r : RsTy), All (rustNode names) t →
    convert imp q t = some c → kindOf D o c = some r → Agrees names (desugar t).2 (rust D r)
  | .prim p, q, o, c, r, hn, hc, hk => by
      rw [convert] at hc; cases hc
      rw [kindOf] at hk; cases hk
      rw [rust]
      exact .prim p
  | .cls n, q, o, c, r, hn, hc, hk => by
      rw [convert] at hc
      split at hc
      · cases hc
        rw [kindOf] at hk; cases hk
        rw [rust]
        exact .named n _ hn
      · cases hc
  | .alias n ca t, q, o, c, r, hn, hc, hk => by
      rw [desugar, mkConst_snd]
      rw [convert] at hc
      split at hc
      · exact rust_agrees t _ o c r hn.2 hc hk
      · split at hc
        · cases hc
          rw [kindOf] at hk; cases hk
          rw [rust]
          exact .named n _ hn.1
        · exact rust_agrees t _ o c r hn.2 hc hk
  | .ptr k life ct t, q, o, c, r, hn, hc, hk => by
      rw [convert] at hc
      split at hc
      · rename_i hfn
        have h1 : (mkConst ct (desugar t)).1 = false := by
          simp [mkConst, hfn, desugar_refFn t (.inr hfn)]
        rw [desugar, h1]
        exact rust_agreesFn t q k o c r hn.2 hc hk
      · obtain ⟨c', hc', rfl⟩ := Option.map_eq_some_iff.1 hc
        obtain ⟨r', hr', rfl⟩ := kindOf_ptr_some hk
        rw [desugar, isConst_convert imp ct t c' hc']
        exact pointerKind_agrees (rust_agrees t ct _ c' r' hn.2 hc' hr')
  | .slice ce t, q, o, c, r, hn, hc, hk => by
      rw [convert] at hc
      obtain ⟨c', hc', rfl⟩ := Option.map_eq_some_iff.1 hc
      rw [kindOf] at hk
      obtain ⟨r', hr', rfl⟩ := Option.map_eq_some_iff.1 hk
      rw [desugar, rust, isConst_convert imp ce t c' hc']
      exact .slice _ _ _ (rust_agrees t ce _ c' r' hn.2 hc' hr')
  | .fn .., q, o, c, r, hn, hc, hk => by rw [convert] at hc; cases hc
theorem rust_agreesFn : ∀ (t : STy) (q : Bool) (k : PKind) (o : LOpts) (c : CcTy) (r : RsTy),
    All (rustNode names) t → convertFn imp q k t = some c → kindOf D o c = some r →
    Agrees names (.ptr k.ref false (desugar t).2) (rust D r)
  | .prim _, q, k, o, c, r, hn, hc, hk => by rw [convertFn] at hc; cases hc; all_goals nofun
  | .cls _, q, k, o, c, r, hn, hc, hk => by rw [convertFn] at hc; cases hc; all_goals nofun
  | .ptr .., q, k, o, c, r, hn, hc, hk => by rw [convertFn] at hc; cases hc; all_goals nofun
  | .slice .., q, k, o, c, r, hn, hc, hk => by rw [convertFn] at hc; cases hc; all_goals nofun
  | .alias n ca t, q, k, o, c, r, hn, hc, hk => by
      rw [convertFn] at hc
      rw [desugar, mkConst_snd]
      exact rust_agreesFn t q k o c r hn.2 hc hk
  | .fn cc va ne cr rt ps, q, k, o, c, r, hn, hc, hk => by
      rw [convertFn] at hc
      split at hc
      · cases hc
      · rename_i hkr
        obtain ⟨⟨cps, crt⟩, hb, rfl⟩ := Option.map_eq_some_iff.1 hc
        obtain ⟨h1, h2⟩ := both_some hb
        rw [kindOf] at hk
        split at hk
        · rename_i rr rps hrr hrps
          split at hk
          · cases hk
            have hva : va = false := hn.1
            subst hva
            rw [desugar, rust]
            refine .fn cc ne _ _ _ _ _ _ _ ?_ (rust_agrees rt cr _ crt rr hn.2.1 h2 hrr)
              (rusts_agree ps _ cps rps hn.2.2 h1 hrps)
            cases k <;> first | exact absurd rfl hkr | simp [PKind.ref]
          · cases hk
        · cases hk
theorem rusts_agree : ∀ (ts : STys) (o : LOpts) (cs : CcTys) (rs : RsTys), Alls (rustNode names) ts →
    converts imp ts = some cs → kindsOf D o cs = some rs → AgreesL names (desugars ts) (rusts D rs)
  | .nil, o, cs, rs, hn, hc, hk => by
      rw [converts] at hc; cases hc
      rw [kindsOf] at hk; cases hk
      rw [desugars, rusts]
      exact .nil
  | .cons t ts, o, cs, rs, hn, hc, hk => by
      rw [converts] at hc
      obtain ⟨⟨c', cs'⟩, hb, rfl⟩ := Option.map_eq_some_iff.1 hc
      obtain ⟨h1, h2⟩ := both_some hb
      rw [kindsOf] at hk
      split at hk
      · rename_i t' ts' ht' hts'
        cases hk
        rw [desugars, rusts]
        exact .cons _ _ _ _ (rust_agrees t _ o c' t' hn.1 h1 ht') (rusts_agree ts o cs' ts' hn.2 h2 hts')
      · cases hk
end

end Verif.CppTypes

import Verif.Defaults.Props
/-
C53-C54: default lifetimes of functions.
-/
namespace Verif.Defaults

theorem sim_lookup {c : Ctx} {s : Scopes} {used : List Name} (h : Sim c s used) (id : Name) : c.lookup id = AMap.get? s id := by
  unfold Ctx.lookup
  rw [h.get]
  by_cases e : openFor s id = []
  · rw [if_pos e, ← openFor_last, e]; rfl
  · rw [if_neg e, ← openFor_last]
    simp [List.getLast?_eq_some_getLast e]

theorem pushAll_spec : ∀ (ids : List Name) {c : Ctx} {s : Scopes} {used : List Name}, Sim c s used → CtxOk c →
    ∃ s', Runs s used (ids.map .bind) ((c.pushAll ids).1.map some) s' ((c.pushAll ids).1.reverse ++ used) ∧
      Sim (c.pushAll ids).2 s' ((c.pushAll ids).1.reverse ++ used) ∧ CtxOk (c.pushAll ids).2 ∧ (c.pushAll ids).1.length = ids.length := by
  intro ids
  induction ids with
  | nil => intro c s used h ok; exact ⟨s, .nil, h, ok, rfl⟩
  | cons id ids ih =>
    intro c s used h ok
    obtain ⟨s', h1, h2, h3, h4⟩ := ih (push_sim h id) (push_ok ok id)
    refine ⟨s', ?_, ?_, h3, by simp [Ctx.pushAll, h4]⟩
    · simp only [Ctx.pushAll, List.map_cons, List.reverse_cons, List.append_assoc, List.singleton_append]
      exact .cons ⟨_, rfl, h.names ▸ fresh_spec c id, rfl, rfl⟩ h1
    · simp only [Ctx.pushAll, List.reverse_cons, List.append_assoc, List.singleton_append]
      exact h2

theorem pushAll_append (c : Ctx) (a b : List Name) : c.pushAll (a ++ b) =
    ((c.pushAll a).1 ++ ((c.pushAll a).2.pushAll b).1, ((c.pushAll a).2.pushAll b).2) := by
  induction a generalizing c with
  | nil => rfl
  | cons x a ih => simp only [List.cons_append, Ctx.pushAll, ih]

theorem bindItem_ctx (c : Ctx) (e : Encl) : (bindItem c e).2 = (c.pushAll e.binders).2 := by
  cases e <;> rfl

theorem bindEnclosing_ctx : ∀ (es : List Encl) (c : Ctx) (names : List Name), (bindEnclosing c names es).2 = (c.pushAll (es.flatMap Encl.binders)).2 := by
  intro es
  induction es with
  | nil => intro c names; rfl
  | cons e es ih =>
    intro c names
    simp only [bindEnclosing, ih, List.flatMap_cons, pushAll_append, bindItem_ctx]

/-- What is known after the binders. -/
theorem binders_spec (ids own : List Name) : ∃ scopes scopes',
    let c := (Ctx.new.pushAll ids).2
    let used := (Ctx.new.pushAll ids).1.reverse ++ [sUnknown, sStatic]
    Binds ids (Ctx.new.pushAll ids).1 scopes used ∧
    Binds (ids ++ own) ((Ctx.new.pushAll ids).1 ++ (c.pushAll own).1) scopes' ((c.pushAll own).1.reverse ++ used) ∧
    (∀ id, (c.pushAll own).2.lookup id = AMap.get? scopes' id) ∧
    c.names = used ∧ CtxOk c ∧ Inv used ⟨(c.pushAll own).2, (c.pushAll own).1⟩ := by
  obtain ⟨s, h1, h2, h3, -⟩ := pushAll_spec ids new_sim new_ok
  obtain ⟨s', g1, g2, g3, -⟩ := pushAll_spec own h2 h3
  refine ⟨s, s', h1, ?_, fun id => sim_lookup g2 id, h2.names, h3, g3, g2.names, by simp⟩
  have : ∀ {s u o r s' u' o' r' s'' u''}, Runs s u o r s' u' → Runs s' u' o' r' s'' u'' → Runs s u (o ++ o') (r ++ r') s'' u'' := by
    intro s u o r s' u' o' r' s'' u'' h h'
    induction h with
    | nil => exact h'
    | cons hs _ ih => exact .cons hs (ih h')
  unfold Binds
  rw [List.map_append, List.map_append]
  exact this h1 g1

theorem lower_isCtor {ar c f names f'} (h : lower ar c f names = some f') : f'.isCtor = f.isCtor ∧ f'.inputs = f.inputs ∧
    (f'.ret = f.ret ∨ ((∃ p ∈ f.params, p.bound = true) ∧ ∃ l, f'.ret = f.ret.setLts l)) := by
  unfold lower at h
  simp only [Option.bind_eq_bind, Option.bind_eq_some_iff, Prod.exists] at h
  obtain ⟨rl, has, h1, h⟩ := h
  by_cases e : has = false
  · rw [if_pos e] at h
    simp only [Option.pure_def, Option.some.injEq] at h
    subst h; exact ⟨rfl, rfl, Or.inl rfl⟩
  · rw [if_neg e, Option.bind_eq_some_iff] at h
    obtain ⟨rl', -, h⟩ := h
    rw [Option.bind_eq_some_iff] at h
    obtain ⟨ps, -, h⟩ := h
    have hb : ∃ p ∈ f.params, p.bound = true := by
      have gen : ∀ (ps : List Param) (first : Bool) (rl rl' : List Name) (h0 h1 : Bool), scanBound f.isCtor first (rl, h0) ps = some (rl', h1) →
          h1 = true → h0 = true ∨ ∃ p ∈ ps, p.bound = true := by
        intro ps
        induction ps with
        | nil =>
          intro first rl rl' h0 h1 h ht
          simp only [scanBound, Option.some.injEq, Prod.mk.injEq] at h
          exact Or.inl (h.2.trans ht)
        | cons p ps ih =>
          intro first rl rl' h0 h1 h ht
          have step : ∀ rl, scanBound f.isCtor false (rl, h0 || p.bound) ps = some (rl', h1) → h0 = true ∨ ∃ q ∈ p :: ps, q.bound = true := by
            intro rl hh
            rcases ih _ _ _ _ _ hh ht with h | ⟨q, hq, h⟩
            · cases hp : p.bound with
              | true => exact Or.inr ⟨p, by simp, hp⟩
              | false => rw [hp, Bool.or_false] at h; exact Or.inl h
            · exact Or.inr ⟨q, by simp [hq], h⟩
          unfold scanBound at h
          split at h
          · simp only at h
            split at h
            · exact step _ h
            · split at h
              · cases h
              · exact step _ h
          · rcases ih _ _ _ _ _ h ht with h | ⟨q, hq, h⟩
            · exact Or.inl h
            · exact Or.inr ⟨q, by simp [hq], h⟩
      have := gen _ _ _ _ _ _ h1 (by simpa using e)
      simpa using this
    by_cases ec : f.isCtor = true
    · rw [if_pos ec] at h
      simp only [Option.pure_def, Option.some.injEq] at h
      subst h; exact ⟨rfl, rfl, Or.inl rfl⟩
    · rw [if_neg ec, Option.bind_eq_some_iff] at h
      obtain ⟨n, -, h⟩ := h
      simp only [Option.pure_def, Option.some.injEq] at h
      subst h; exact ⟨rfl, rfl, Or.inr ⟨hb, _, rfl⟩⟩

theorem plain_setLts {ar : Arity} {t : Ty} (l : List Name) (h : PlainRefs ar (t.setLts [sStatic])) : PlainRefs ar (t.setLts l) := by
  cases t with
  | ptr k l' p =>
    cases k <;> try trivial
    exact ⟨fun _ => h.1 (by simp), h.2⟩
  | _ => first | trivial | exact h

theorem promote_spec (ar : Arity) (isCtor : Bool) (ps : List Param) :
    paramSlots ar isCtor true (promoteThis isCtor ps) = paramSlots ar isCtor true ps ∧
    thisSlot isCtor (promoteThis isCtor ps) = thisSlot isCtor ps ∧
    otherSlots ar isCtor true (promoteThis isCtor ps) = otherSlots ar isCtor true ps ∧
    paramShapes isCtor true (promoteThis isCtor ps) = paramShapes isCtor true ps ∧
    (∀ l, thisSlot isCtor ps = some l → l ≠ [] → ∃ p rest pointee, promoteThis isCtor ps = p :: rest ∧ p.ty = .ptr .lvalueRef l pointee) := by
  cases ps with
  | nil => exact ⟨rfl, rfl, rfl, rfl, fun l h => by simp [thisSlot] at h⟩
  | cons p ps =>
    obtain ⟨name, bound, ty⟩ := p
    by_cases h : name = sThis ∧ isCtor = false ∧ ty.lts ≠ []
    · cases ty with
      | ptr k l pointee =>
        have ht : ∀ t, isThisParam isCtor true ⟨name, bound, t⟩ = true := fun t => by simp [isThisParam, h.1, h.2.1]
        simp only [promoteThis, if_pos h]
        refine ⟨by simp [paramSlots, ht, inputSlots], by simp [thisSlot, ht], by simp [otherSlots, ht, Ty.isPtr], by simp [paramShapes, ht, Ty.erase, Ty.asRef], ?_⟩
        intro l' hl' hne
        simp only [thisSlot, ht, if_true, Option.some.injEq] at hl'
        subst hl'
        exact ⟨_, _, _, rfl, rfl⟩
      | _ =>
        simp only [promoteThis, if_pos h]
        refine ⟨trivial, trivial, trivial, trivial, ?_⟩
        intro l' hl' hne
        simp [thisSlot] at hl'
    · simp only [promoteThis, if_neg h]
      refine ⟨trivial, trivial, trivial, trivial, ?_⟩
      intro l' hl' hne
      exfalso
      simp only [thisSlot] at hl'
      split at hl'
      · rename_i ht
        simp [isThisParam] at ht
        cases ty <;> simp at hl'
        exact h ⟨ht.1, ht.2, by simp [Ty.lts, hl', hne]⟩
      · cases hl'

theorem addFunc_eq (ar : Arity) (encl : List Encl) (f : Func) :
    addFunc ar encl f =
      let c0 := (Ctx.new.pushAll (encl.flatMap Encl.binders)).2
      let own := c0.pushAll f.inputs
      (lower ar own.2 { f with inputs := own.1 } (bindEnclosing .new [] encl).1).map fun f' =>
        let r := addParams ar f.isCtor true (.unseen, .unseen) ⟨own.2, own.1⟩ f'.params
        let o := addOutput ar (hintOf r.2.1) r.2.2 f'.ret
        { f with inputs := o.2.nb, params := promoteThis f.isCtor r.1, ret := o.1 } := by
  unfold addFunc
  have := bindEnclosing_ctx encl .new []
  generalize bindEnclosing .new [] encl = b at *
  obtain ⟨names, c⟩ := b
  simp only at this
  subst this
  simp only
  generalize lower ar _ _ names = x
  cases x <;> rfl

theorem thisSlot_mem (ar : Arity) (isCtor : Bool) (ps : List Param) (l : List Name) (h : thisSlot isCtor ps = some l) : l ∈ paramSlots ar isCtor true ps := by
  cases ps with
  | nil => simp [thisSlot] at h
  | cons p ps =>
    simp only [thisSlot] at h
    split at h
    · rename_i ht
      obtain ⟨name, bound, ty⟩ := p
      cases ty <;> simp at h
      subst h
      simp [paramSlots, ht, inputSlots]
    · cases h

theorem otherSlots_mem (ar : Arity) (isCtor : Bool) : ∀ (ps : List Param) (first : Bool) (l : List Name), l ∈ otherSlots ar isCtor first ps → l ∈ paramSlots ar isCtor first ps := by
  intro ps
  induction ps with
  | nil => intro first l h; simp [otherSlots] at h
  | cons p ps ih =>
    intro first l h
    simp only [otherSlots, List.mem_append] at h
    simp only [paramSlots, List.mem_append]
    rcases h with h | h
    · left
      split at h
      · simp at h
      · rename_i hn
        simp only [Option.mem_toList] at h
        have hm : l ∈ inputSlots ar false p.ty := List.mem_of_mem_getLast? h
        obtain ⟨name, bound, ty⟩ := p
        cases ty with
        | ptr k l' pt =>
          simp [Ty.isPtr] at hn
          rw [hn]; exact hm
        | _ => exact hm
    · exact Or.inr (ih _ _ h)

/-- What `addFunc` does after `lower`. -/
theorem after_lower (ar : Arity) (ids own : List Name) (isCtor : Bool) (params : List Param) (ret : Ty) :
    let c := (Ctx.new.pushAll ids).2
    let used := (Ctx.new.pushAll ids).1.reverse ++ [sUnknown, sStatic]
    let r := addParams ar isCtor true (.unseen, .unseen) ⟨(c.pushAll own).2, (c.pushAll own).1⟩ params
    let o := addOutput ar (hintOf r.2.1) r.2.2 ret
    ∃ (ρ : Name → Name) (extra fs : List Name),
      o.2.nb = (c.pushAll own).1 ++ extra ∧ (o.2.nb.reverse ++ used).Nodup ∧
      (∀ id n, (c.pushAll own).2.lookup id = some n → ρ id = n) ∧
      (∀ l ∈ paramSlots ar isCtor true r.1, SlotOk (o.2.nb.reverse ++ used) l) ∧
      Filled ρ (paramSlots ar isCtor true params) (paramSlots ar isCtor true r.1) fs ∧ fs.Sublist extra ∧
      paramShapes isCtor true r.1 = paramShapes isCtor true params ∧
      Elided (thisSlot isCtor r.1) (otherSlots ar isCtor true r.1) (hintOf r.2.1) ∧
      Out ar ρ (hintOf r.2.1) ret o.1 ∧
      (PlainRefs ar ret → ∀ l ∈ outputSlots ar o.1, ∀ n ∈ l, n ∈ o.2.nb.reverse ++ used) ∧
      (∀ l ∈ paramSlots ar isCtor true params, ∀ id, l = [id] → ρ id ∈ o.2.nb.reverse ++ used) := by
  intro c used
  obtain ⟨scopes, scopes', -, -, -, -, -, hinv⟩ := binders_spec ids own
  obtain ⟨h1, h2, h3, h4, h5, e, fs, h6, h7, h8⟩ := params_spec ar isCtor params true (.unseen, .unseen) _ hinv
  intro r o
  have hel : Elided (thisSlot isCtor r.1) (otherSlots ar isCtor true r.1) (hintOf r.2.1) := by
    have := elided_spec (thisSlot isCtor r.1) (otherSlots ar isCtor true r.1)
      (fun l hl => by
        rcases h5 l (thisSlot_mem ar _ _ _ hl) with h | ⟨n, h, -, -⟩
        · exact Or.inl h
        · exact Or.inr ⟨n, h⟩)
      (fun l hl => by
        rcases h5 l (otherSlots_mem ar _ _ _ _ hl) with h | ⟨n, h, -, -⟩
        · exact Or.inl h
        · exact Or.inr ⟨n, h⟩)
    have e1 : r.2.1.1 = (otherSlots ar isCtor true r.1).foldl (fun st l => st.update (stOf (some l))) .unseen := h3
    have e2 : r.2.1.2 = stOf (thisSlot isCtor r.1) := h4
    unfold hintOf
    rw [e1, e2]
    exact this
  have hhint : ∀ n ∈ hintOf r.2.1, n ∈ r.2.2.ctx.names := by
    intro n hn
    have hslot : ∀ l ∈ paramSlots ar isCtor true r.1, n ∈ l → n ∈ r.2.2.ctx.names := by
      intro l hl hnl
      rcases h5 l hl with h | ⟨m, h, hm, -⟩
      · rw [h] at hnl; simp at hnl
      · rw [h, List.mem_singleton] at hnl; rw [hnl]; exact hm
    unfold Elided at hel
    split at hel
    · rename_i l hl
      exact hslot l (thisSlot_mem ar _ _ _ hl) (hel ▸ hn)
    · rcases hel with ⟨m, hm, hne, hall⟩ | ⟨h0, -⟩
      · obtain ⟨l, hl⟩ := List.exists_mem_of_ne_nil _ hne
        exact hslot l (otherSlots_mem ar _ _ _ _ hl) (by rw [hall l hl]; rw [hm] at hn; exact hn)
      · rw [h0] at hn; simp at hn
  obtain ⟨g1, ⟨ge, g2⟩, g3, g4⟩ := output_spec ar (hintOf r.2.1) ret r.2.2 h1 hhint
  have hnames : o.2.ctx.names = o.2.nb.reverse ++ used := g1.names
  have hF : FilledL o.2.ctx.lookup (paramSlots ar isCtor true params) (paramSlots ar isCtor true r.1) fs := h8.mono g2.le
  refine ⟨o.2.ctx.mean, e ++ ge, fs, (h6.trans g2).nb, hnames ▸ g1.ok.nodup, ?_, ?_, hF.toFilled,
    h7.trans (List.sublist_append_left _ _), h2, hel, g4 _ fun _ _ h => h, fun hp => hnames ▸ g3 hp, ?_⟩
  · intro id n hn
    unfold Ctx.mean
    rw [(h6.trans g2).le _ _ hn]; rfl
  · intro l hl
    rw [← hnames]
    exact (h5 l hl).mono (h1.names_le g1 g2)
  · intro l hl id hid
    rw [← hnames]
    subst hid
    have gen : ∀ {os ns fs}, FilledL o.2.ctx.lookup os ns fs → [id] ∈ os → o.2.ctx.mean id ∈ o.2.ctx.names := by
      intro os ns fs hF
      induction hF with
      | nil => simp
      | fresh _ ih => intro hm; exact ih ((List.mem_cons.mp hm).resolve_left (by simp))
      | named h1 h2 _ ih =>
        intro hm
        rcases List.mem_cons.mp hm with hm | hm
        · cases hm; unfold Ctx.mean; rw [h1]; exact (g1.ok.keys _ _ h1).2
        · exact ih hm
      | unknown h1 _ ih =>
        intro hm
        rcases List.mem_cons.mp hm with hm | hm
        · cases hm; unfold Ctx.mean; rw [h1]; exact (g1.ok.keys _ _ h1).2
        · exact ih hm
      | several _ ih => intro hm; exact ih ((List.mem_cons.mp hm).resolve_left (by simp))
    exact gen hF hl

/-- C53: whatever the function, its annotations and the enclosing items, the transformed function declares each of its own
lifetimes once, under names that no enclosing item uses; every place of a parameter that takes a lifetime has none or one that
is declared by the function or an enclosing item or is `'static`; the same for the result, if no annotated reference in it
refers to something with annotated lifetimes. -/
theorem lifetimes_declared (ar : Arity) (encl : List Encl) (f f' : Func) (h : addFunc ar encl f = some f') :
    ∃ rs scopes, Binds (encl.flatMap Encl.binders) rs scopes (rs.reverse ++ [sUnknown, sStatic]) ∧
      f'.inputs.Nodup ∧ (∀ n ∈ f'.inputs, n ∉ rs ∧ n ≠ sUnknown ∧ n ≠ sStatic) ∧
      (∀ l ∈ paramSlots ar f.isCtor true f'.params, l = [] ∨ ∃ n, l = [n] ∧ (n ∈ f'.inputs ∨ n ∈ rs ∨ n = sStatic)) ∧
      (PlainRefs ar f.ret → ((∃ p ∈ f.params, p.bound = true) → PlainRefs ar (f.ret.setLts [sStatic])) →
        ∀ l ∈ outputSlots ar f'.ret, ∀ n ∈ l, n ∈ f'.inputs ∨ n ∈ rs ∨ n = sStatic ∨ n = sUnknown) := by
  rw [addFunc_eq] at h
  simp only [Option.map_eq_some_iff] at h
  obtain ⟨g, hg, rfl⟩ := h
  obtain ⟨-, -, hret⟩ := lower_isCtor hg
  obtain ⟨scopes, scopes', hb, -, -, -, -, -⟩ := binders_spec (encl.flatMap Encl.binders) f.inputs
  obtain ⟨ρ, extra, fs, h1, h2, h3, h4, h5, h6, h7, h8, h9, h10, -⟩ := after_lower ar (encl.flatMap Encl.binders) f.inputs f.isCtor g.params g.ret
  refine ⟨_, scopes, hb, ?_, ?_, ?_, ?_⟩
  · have := (List.nodup_append.mp h2).1
    exact (List.reverse_perm _).nodup_iff.mp this
  · intro n hn
    have hd := (List.nodup_append.mp h2).2.2 n (by simpa using hn)
    refine ⟨fun hm => hd n (by simp [hm]) rfl, fun e => hd sUnknown (by simp) e, fun e => hd sStatic (by simp) e⟩
  · intro l hl
    simp only [(promote_spec ar f.isCtor _).1] at hl
    rcases h4 l hl with e | ⟨n, e, hm, hu⟩
    · exact Or.inl e
    · refine Or.inr ⟨n, e, ?_⟩
      simp only [List.mem_append, List.mem_reverse, List.mem_cons, List.not_mem_nil, or_false] at hm
      rcases hm with hm | hm | hm | hm
      · exact Or.inl hm
      · exact Or.inr (Or.inl hm)
      · exact absurd hm hu
      · exact Or.inr (Or.inr hm)
  · intro hp hq l hl n hn
    have hpl : PlainRefs ar g.ret := by
      rcases hret with e | ⟨hex, l, e⟩
      · rw [e]; exact hp
      · rw [e]; exact plain_setLts l (hq hex)
    have hm := h10 hpl l hl n hn
    simp only [List.mem_append, List.mem_reverse, List.mem_cons, List.not_mem_nil, or_false] at hm
    rcases hm with hm | hm | hm | hm
    · exact Or.inl hm
    · exact Or.inr (Or.inl hm)
    · exact Or.inr (Or.inr (Or.inr hm))
    · exact Or.inr (Or.inr (Or.inl hm))

theorem lower_id {ar : Arity} {c : Ctx} {f : Func} {names : List Name} (hb : ∀ p ∈ f.params, p.bound = false) (hc : f.isCtor = true → f.ret.lts = []) :
    lower ar c f names = some f := by
  have gen : ∀ (ps : List Param) (rl : List Name), (∀ p ∈ ps, p.bound = false) → scanBound f.isCtor false (rl, false) ps = some (rl, false) := by
    intro ps
    induction ps with
    | nil => intros; rfl
    | cons p ps ih =>
      intro rl h
      unfold scanBound
      rw [if_neg (by simp [h p (by simp)])]
      exact ih rl fun q hq => h q (by simp [hq])
  have : ∃ rl, scanBound f.isCtor true (f.ret.lts, false) f.params = some (rl, false) := by
    cases hps : f.params with
    | nil => exact ⟨_, rfl⟩
    | cons p ps =>
      rw [hps] at hb
      unfold scanBound
      have hp := hb p (by simp)
      by_cases e : f.isCtor = true
      · rw [if_pos (by simp [e]), if_pos (hc e)]
        exact ⟨_, by rw [hp]; exact gen ps _ fun q hq => hb q (by simp [hq])⟩
      · rw [if_neg (by simp [hp, e])]
        exact ⟨_, gen ps _ fun q hq => hb q (by simp [hq])⟩
  obtain ⟨rl, h⟩ := this
  unfold lower
  rw [h]; rfl

/-- C54: a function without `[[clang::lifetimebound]]`. The transformation succeeds and changes nothing but lifetimes (and
makes `this` a reference if it has a lifetime). Names are given a meaning `ρ` which is the innermost binder for names bound by
the function or an enclosing item. Every unannotated place of a parameter gets a lifetime of its own, distinct from all others
and from everything bound; annotated places get the meaning of their annotation. The result gets the lifetime of `this`, or
without `this` the only lifetime in outermost position. -/
theorem defaults_function (ar : Arity) (encl : List Encl) (f : Func) (hb : ∀ p ∈ f.params, p.bound = false) (hc : f.isCtor = true → f.ret.lts = []) :
    ∃ f' rs own scopes ρ h fs extra, addFunc ar encl f = some f' ∧
      Binds (encl.flatMap Encl.binders ++ f.inputs) (rs ++ own) scopes (own.reverse ++ (rs.reverse ++ [sUnknown, sStatic])) ∧ own.length = f.inputs.length ∧
      (∀ id n, AMap.get? scopes id = some n → ρ id = n) ∧
      f'.inputs = own ++ extra ∧ fs.Sublist extra ∧
      paramShapes f.isCtor true f'.params = paramShapes f.isCtor true f.params ∧
      Filled ρ (paramSlots ar f.isCtor true f.params) (paramSlots ar f.isCtor true f'.params) fs ∧
      (∀ l, thisSlot f.isCtor f'.params = some l → l ≠ [] → ∃ p rest pointee, f'.params = p :: rest ∧ p.ty = .ptr .lvalueRef l pointee) ∧
      Elided (thisSlot f.isCtor f'.params) (otherSlots ar f.isCtor true f'.params) h ∧ Out ar ρ h f.ret f'.ret := by
  rw [addFunc_eq]
  simp only
  rw [lower_id (f := { f with inputs := ((Ctx.new.pushAll (encl.flatMap Encl.binders)).2.pushAll f.inputs).1 }) hb hc]
  obtain ⟨scopes, scopes', -, hb', hl, -, -, -⟩ := binders_spec (encl.flatMap Encl.binders) f.inputs
  obtain ⟨ρ, extra, fs, h1, h2, h3, h4, h5, h6, h7, h8, h9, h10, -⟩ := after_lower ar (encl.flatMap Encl.binders) f.inputs f.isCtor f.params f.ret
  obtain ⟨p1, p2, p3, p4, p5⟩ := promote_spec ar f.isCtor (addParams ar f.isCtor true (.unseen, .unseen)
    ⟨((Ctx.new.pushAll (encl.flatMap Encl.binders)).2.pushAll f.inputs).2, ((Ctx.new.pushAll (encl.flatMap Encl.binders)).2.pushAll f.inputs).1⟩ f.params).1
  refine ⟨_, _, _, scopes', ρ, _, fs, extra, rfl, hb', ?_, ?_, h1, h6, ?_, ?_, ?_, ?_, h9⟩
  · obtain ⟨-, -, -, -, h⟩ := pushAll_spec f.inputs (pushAll_spec (encl.flatMap Encl.binders) new_sim new_ok).choose_spec.2.1
      (pushAll_spec (encl.flatMap Encl.binders) new_sim new_ok).choose_spec.2.2.1
    exact h
  · intro id n hn
    exact h3 id n (by rw [hl, hn])
  · simp only [p4]; exact h7
  · simp only [p1]; exact h5
  · intro l hl' hne
    simp only [p2] at hl'
    exact p5 l hl' hne
  · simp only [p2, p3]; exact h8

end Verif.Defaults

import Verif.ExprNull.Model
import Verif.NullTy.All
/-
Walking through declared types gives the vector of the type with the arguments put in.
-/
namespace Verif.ExprNull
open Verif.NullTy (NK PN Ty Tys Arg Args Par Quals Ix Given Rep walk walkTys walkPar walkArg walkArgs bindFrom findRec givenReps useGiven)

/-! ### Canonical types -/

mutual
theorem canon_erase : (A : ATy) → A.erase.canon = A.erase
  | .leaf _ => rfl
  | .ptr _ t => by simp only [ATy.erase, Ty.canon, canon_erase t]
  | .ref t => by simp only [ATy.erase, Ty.canon, canon_erase t]
  | .arr t => by simp only [ATy.erase, Ty.canon, canon_erase t]
  | .fn r ps => by simp only [ATy.erase, Ty.canon, canon_erase r, canon_eraseTys ps]
  | .cls d nk p as => by simp only [ATy.erase, Ty.canon, canon_erasePar p, canon_eraseArgs as]
theorem canon_eraseTys : (A : ATys) → A.eraseTys.canon = A.eraseTys
  | .nil => rfl
  | .cons t l => by simp only [ATys.eraseTys, Tys.canon, canon_erase t, canon_eraseTys l]
theorem canon_eraseArgs : (A : ATys) → A.eraseArgs.canon = A.eraseArgs
  | .nil => rfl
  | .cons t l => by simp only [ATys.eraseArgs, Args.canon, Arg.canon, canon_erase t, canon_eraseArgs l]
theorem canon_erasePar : (A : APar) → A.erase.canon = A.erase
  | .none => rfl
  | .some t => by simp only [APar.erase, Par.canon, canon_erase t]
end

mutual
theorem slots_erase : (A : ATy) → A.erase.slots.length = A.vec.length
  | .leaf _ => rfl
  | .ptr _ t => by simp [ATy.erase, Ty.slots, ATy.vec, slots_erase t]
  | .ref t => by simp [ATy.erase, Ty.slots, ATy.vec, slots_erase t]
  | .arr t => by simp [ATy.erase, Ty.slots, ATy.vec, slots_erase t]
  | .fn r ps => by simp [ATy.erase, Ty.slots, ATy.vec, slots_erase r, slots_eraseTys ps]
  | .cls d nk p as => by
    cases nk <;> simp [ATy.erase, Ty.slots, ATy.vec, slots_erasePar p, slots_eraseArgs as] <;> omega
theorem slots_eraseTys : (A : ATys) → A.eraseTys.slots.length = A.vec.length
  | .nil => rfl
  | .cons t l => by simp [ATys.eraseTys, Tys.slots, ATys.vec, slots_erase t, slots_eraseTys l]
theorem slots_eraseArgs : (A : ATys) → A.eraseArgs.slots.length = A.vec.length
  | .nil => rfl
  | .cons t l => by simp [ATys.eraseArgs, Args.slots, Arg.slots, ATys.vec, slots_erase t, slots_eraseArgs l]
theorem slots_erasePar : (A : APar) → A.erase.slots.length = A.vec.length
  | .none => rfl
  | .some t => by simp [APar.erase, Par.slots, APar.vec, slots_erase t]
end

theorem count_erase (A : ATy) : count A.erase = A.vec.length := by
  unfold count
  rw [canon_erase, slots_erase]

mutual
theorem erase_fill (x : PN) : (A : ATy) → (A.fill x).erase = A.erase
  | .leaf _ => rfl
  | .ptr _ t => by simp only [ATy.erase, ATy.fill, erase_fill x t]
  | .ref t => by simp only [ATy.erase, ATy.fill, erase_fill x t]
  | .arr t => by simp only [ATy.erase, ATy.fill, erase_fill x t]
  | .fn r ps => by simp only [ATy.erase, ATy.fill, erase_fill x r, eraseTys_fill x ps]
  | .cls d nk p as => by simp only [ATy.erase, ATy.fill, erasePar_fill x p, eraseArgs_fill x as, Option.isSome_map]
theorem eraseTys_fill (x : PN) : (A : ATys) → (A.fill x).eraseTys = A.eraseTys
  | .nil => rfl
  | .cons t l => by simp only [ATys.eraseTys, ATys.fill, erase_fill x t, eraseTys_fill x l]
theorem eraseArgs_fill (x : PN) : (A : ATys) → (A.fill x).eraseArgs = A.eraseArgs
  | .nil => rfl
  | .cons t l => by simp only [ATys.eraseArgs, ATys.fill, erase_fill x t, eraseArgs_fill x l]
theorem erasePar_fill (x : PN) : (A : APar) → (A.fill x).erase = A.erase
  | .none => rfl
  | .some t => by simp only [APar.erase, APar.fill, erase_fill x t]
end

mutual
theorem vec_fill (x : PN) : (A : ATy) → (A.fill x).vec = List.replicate A.vec.length x
  | .leaf _ => rfl
  | .ptr _ t => by simp only [ATy.fill, ATy.vec, vec_fill x t, List.length_cons, List.replicate_succ]
  | .ref t => by simp only [ATy.fill, ATy.vec, vec_fill x t]
  | .arr t => by simp only [ATy.fill, ATy.vec, vec_fill x t]
  | .fn r ps => by simp only [ATy.fill, ATy.vec, vec_fill x r, vecs_fill x ps, List.length_append, List.replicate_append_replicate]
  | .cls d nk p as => by
    cases nk <;> simp [ATy.fill, ATy.vec, vecPar_fill x p, vecs_fill x as, List.replicate_succ]
theorem vecs_fill (x : PN) : (A : ATys) → (A.fill x).vec = List.replicate A.vec.length x
  | .nil => rfl
  | .cons t l => by simp only [ATys.fill, ATys.vec, vec_fill x t, vecs_fill x l, List.length_append, List.replicate_append_replicate]
theorem vecPar_fill (x : PN) : (A : APar) → (A.fill x).vec = List.replicate A.vec.length x
  | .none => rfl
  | .some t => by simp only [APar.fill, APar.vec, vec_fill x t]
end

theorem SameShape.erase {a b : ATy} (h : SameShape a b) : a.erase = b.erase := by
  have := congrArg ATy.erase h
  unfold ATy.unspec at this
  rwa [erase_fill, erase_fill] at this

theorem erase_outer (x : PN) (A : ATy) : (A.outer x).erase = A.erase := by
  unfold ATy.outer
  split <;> simp [ATy.erase]

theorem erase_refine (nk : NK) (A : ATy) : (A.refine nk).erase = A.erase := by
  unfold ATy.refine
  split
  · split <;> simp [ATy.erase]
  · split <;> simp [ATy.erase]
  · rfl

theorem erase_noref (A : ATy) : A.noref.erase = noref A.erase := by
  cases A <;> simp [ATy.noref, ATy.erase, noref]

theorem vec_noref (A : ATy) : A.noref.vec = A.vec := by
  cases A <;> simp [ATy.noref, ATy.vec]

theorem erase_isPtr (A : ATy) : A.erase.isPtr = A.isPtr := by
  cases A <;> simp [ATy.erase, Ty.isPtr, ATy.isPtr]

/-! ### Walking through canonical types -/

/-- The vector of a list of reports. -/
def repVec (df : NullTy.Defaults) (l : List Rep) : List PN := l.map fun r => r.nk.getD (.concrete (df.get r.file))

/-- An annotation that waits for a pointer. -/
def pendOuter (pend : Option NK) (A : ATy) : ATy :=
  match pend with
  | some nk => A.outer (.concrete nk)
  | none => A

mutual
theorem walk_erase (given : Given) (df : NullTy.Defaults) (file : Nat) : (A : ATy) → ∀ n, A.need ≤ n → ∀ pend,
    ∃ l, walk given n .nil file pend A.erase = some l ∧ repVec df l = (pendOuter pend (A.fill (.concrete (df.get file)))).vec
  | .leaf k, n, hn, pend => by
    obtain ⟨n, rfl⟩ : ∃ m, n = m + 1 := ⟨n - 1, by simp only [ATy.need] at hn; omega⟩
    refine ⟨[], by simp [ATy.erase, walk], ?_⟩
    cases pend <;> rfl
  | .ptr x t, n, hn, pend => by
    simp only [ATy.need] at hn
    obtain ⟨n, rfl⟩ : ∃ m, n = m + 1 := ⟨n - 1, by omega⟩
    obtain ⟨l, h1, h2⟩ := walk_erase given df file t n (by omega) none
    refine ⟨_, by simp only [ATy.erase, walk, h1]; rfl, ?_⟩
    simp only [repVec, List.map_cons]
    simp only [repVec, pendOuter] at h2
    rw [h2]
    cases pend <;> rfl
  | .ref t, n, hn, pend => by
    simp only [ATy.need] at hn
    obtain ⟨n, rfl⟩ : ∃ m, n = m + 1 := ⟨n - 1, by omega⟩
    obtain ⟨l, h1, h2⟩ := walk_erase given df file t n (by omega) none
    refine ⟨l, by simp only [ATy.erase, walk, h1], ?_⟩
    rw [h2]
    cases pend <;> rfl
  | .arr t, n, hn, pend => by
    simp only [ATy.need] at hn
    obtain ⟨n, rfl⟩ : ∃ m, n = m + 1 := ⟨n - 1, by omega⟩
    obtain ⟨l, h1, h2⟩ := walk_erase given df file t n (by omega) none
    refine ⟨l, by simp only [ATy.erase, walk, h1], ?_⟩
    rw [h2]
    cases pend <;> rfl
  | .fn r ps, n, hn, pend => by
    simp only [ATy.need] at hn
    obtain ⟨n, rfl⟩ : ∃ m, n = m + 1 := ⟨n - 1, by omega⟩
    obtain ⟨l, h1, h2⟩ := walk_erase given df file r n (by omega) none
    obtain ⟨l', h1', h2'⟩ := walk_eraseTys given df file ps n (by omega)
    refine ⟨l ++ l', by simp only [ATy.erase, walk, h1, h1']; rfl, ?_⟩
    simp only [repVec, pendOuter] at h2 h2' ⊢
    rw [List.map_append, h2, h2']
    cases pend <;> rfl
  | .cls d nk p as, n, hn, pend => by
    simp only [ATy.need] at hn
    obtain ⟨n, rfl⟩ : ∃ m, n = m + 1 := ⟨n - 1, by omega⟩
    obtain ⟨l, h1, h2⟩ := walk_erasePar given df file p n (by omega)
    obtain ⟨l', h1', h2'⟩ := walk_eraseArgs given df file as n (by omega)
    refine ⟨_, by simp only [ATy.erase, walk, bindFrom, findRec, h1, h1']; rfl, ?_⟩
    simp only [repVec] at h2 h2' ⊢
    cases nk with
    | none => cases pend <;> simp [h2, h2', pendOuter, ATy.fill, ATy.outer, ATy.vec]
    | some x => cases pend <;> simp [h2, h2', pendOuter, ATy.fill, ATy.outer, ATy.vec]
theorem walk_eraseTys (given : Given) (df : NullTy.Defaults) (file : Nat) : (A : ATys) → ∀ n, A.need ≤ n →
    ∃ l, walkTys given n .nil file A.eraseTys = some l ∧ repVec df l = (A.fill (.concrete (df.get file))).vec
  | .nil, n, hn => by
    simp only [ATys.need] at hn
    obtain ⟨n, rfl⟩ : ∃ m, n = m + 1 := ⟨n - 1, by omega⟩
    exact ⟨[], by simp [ATys.eraseTys, walkTys], rfl⟩
  | .cons t l, n, hn => by
    simp only [ATys.need] at hn
    obtain ⟨n, rfl⟩ : ∃ m, n = m + 1 := ⟨n - 1, by omega⟩
    obtain ⟨r, h1, h2⟩ := walk_erase given df file t n (by omega) none
    obtain ⟨r', h1', h2'⟩ := walk_eraseTys given df file l n (by omega)
    refine ⟨r ++ r', by simp only [ATys.eraseTys, walkTys, h1, h1']; rfl, ?_⟩
    simp only [repVec, pendOuter] at h2 h2' ⊢
    rw [List.map_append, h2, h2']
    rfl
theorem walk_eraseArgs (given : Given) (df : NullTy.Defaults) (file : Nat) : (A : ATys) → ∀ n, A.need ≤ n →
    ∃ l, walkArgs given n .nil file A.eraseArgs = some l ∧ repVec df l = (A.fill (.concrete (df.get file))).vec
  | .nil, n, hn => by
    simp only [ATys.need] at hn
    obtain ⟨n, rfl⟩ : ∃ m, n = m + 1 := ⟨n - 1, by omega⟩
    exact ⟨[], by simp [ATys.eraseArgs, walkArgs], rfl⟩
  | .cons t l, n, hn => by
    simp only [ATys.need] at hn
    obtain ⟨n, rfl⟩ : ∃ m, n = m + 2 := ⟨n - 2, by omega⟩
    obtain ⟨r, h1, h2⟩ := walk_erase given df file t n (by omega) none
    obtain ⟨r', h1', h2'⟩ := walk_eraseArgs given df file l (n + 1) (by omega)
    refine ⟨r ++ r', by simp only [ATys.eraseArgs, walkArgs, walkArg, h1, h1']; rfl, ?_⟩
    simp only [repVec, pendOuter] at h2 h2' ⊢
    rw [List.map_append, h2, h2']
    rfl
theorem walk_erasePar (given : Given) (df : NullTy.Defaults) (file : Nat) : (A : APar) → ∀ n, A.need ≤ n →
    ∃ l, walkPar given n .nil file A.erase = some l ∧ repVec df l = (A.fill (.concrete (df.get file))).vec
  | .none, n, hn => by
    simp only [APar.need] at hn
    obtain ⟨n, rfl⟩ : ∃ m, n = m + 1 := ⟨n - 1, by omega⟩
    exact ⟨[], by simp [APar.erase, walkPar], rfl⟩
  | .some t, n, hn => by
    simp only [APar.need] at hn
    obtain ⟨n, rfl⟩ : ∃ m, n = m + 1 := ⟨n - 1, by omega⟩
    obtain ⟨r, h1, h2⟩ := walk_erase given df file t n (by omega) none
    exact ⟨r, by simp only [APar.erase, walkPar, h1], by rw [h2]; rfl⟩
end

/-! ### Declared types -/

theorem canon_attrOf (ann : Option NK) (t : Ty) : (attrOf ann t).canon = t.canon := by
  cases ann <;> simp [attrOf, Ty.canon]

/-- What is known about arguments fits the types they are replaced with. -/
def Fits (P : Prog) (σ : Binding) : Prop := ∀ o i A, σ o i = some A → A.erase = (P.repl o i).erase

theorem erase_param (P : Prog) (file : Nat) (σ : Binding) (hf : Fits P σ) (ann : Option NK) (o i : Nat) :
    (inst P file σ (.param ann o i)).erase = (P.repl o i).erase := by
  unfold inst
  cases h : σ o i with
  | none => cases ann <;> simp [erase_outer, erase_fill]
  | some A => cases ann <;> simp [erase_refine, hf o i A h]

mutual
theorem canon_clangTy (P : Prog) (file : Nat) (σ : Binding) (hf : Fits P σ) : (p : PTy) → (clangTy P p).canon = (inst P file σ p).erase
  | .leaf _ => rfl
  | .ptr ann t => by simp only [clangTy, canon_attrOf, Ty.canon, inst, ATy.erase, canon_clangTy P file σ hf t]
  | .ref t => by simp only [clangTy, Ty.canon, inst, ATy.erase, canon_clangTy P file σ hf t]
  | .arr t => by simp only [clangTy, Ty.canon, inst, ATy.erase, canon_clangTy P file σ hf t]
  | .fn r ps => by simp only [clangTy, Ty.canon, inst, ATy.erase, canon_clangTy P file σ hf r, canon_clangTys P file σ hf ps]
  | .cls d sm p as => by
    have h2 := canon_eraseArgs (insts P file σ as)
    simp only [clangTy, canon_attrOf, Ty.canon, inst, ATy.erase, canon_erasePar, canon_clangArgs P file σ hf as, h2, Option.isSome_map,
      erasePar_fill]
  | .param ann o i => by
    rw [erase_param P file σ hf]
    simp only [clangTy, canon_attrOf, Ty.canon, canon_erase]
theorem canon_clangTys (P : Prog) (file : Nat) (σ : Binding) (hf : Fits P σ) : (p : PTys) → (clangTys P p).canon = (insts P file σ p).eraseTys
  | .nil => rfl
  | .cons t l => by simp only [clangTys, Tys.canon, insts, ATys.eraseTys, canon_clangTy P file σ hf t, canon_clangTys P file σ hf l]
theorem canon_clangArgs (P : Prog) (file : Nat) (σ : Binding) (hf : Fits P σ) : (p : PTys) → (clangArgs P p).canon = (insts P file σ p).eraseArgs
  | .nil => rfl
  | .cons t l => by simp only [clangArgs, Args.canon, Arg.canon, insts, ATys.eraseArgs, canon_clangTy P file σ hf t, canon_clangArgs P file σ hf l]
end

theorem length_clangArgs (P : Prog) : (p : PTys) → (clangArgs P p).canon.length = (clangArgs P p).length
  | .nil => rfl
  | .cons t l => by simp only [clangArgs, Args.canon, Args.length, length_clangArgs P l]

theorem drop_length : (a : Args) → ∀ n, a.length ≤ n → a.drop n = .nil
  | .nil, 0, _ => rfl
  | .nil, n + 1, _ => rfl
  | .cons a l, 0, h => by simp [Args.length] at h
  | .cons a l, n + 1, h => by
    simp only [Args.length] at h
    exact drop_length l n (by omega)

theorem repVec_given (df : NullTy.Defaults) (file : Nat) (A : ATy) (v : List PN) (hv : v.length = A.vec.length) :
    repVec df (givenReps file A.erase v) = v := by
  unfold repVec givenReps
  rw [canon_erase, List.map_map]
  have hl : v.length = A.erase.slots.length := by rw [slots_erase]; exact hv
  clear hv
  generalize A.erase.slots = s at hl
  induction v generalizing s with
  | nil => simp
  | cons x v ih =>
    cases s with
    | nil => simp at hl
    | cons a s =>
      simp only [List.zip_cons_cons, List.map_cons]
      rw [ih s (by simpa using hl)]
      rfl

/-- What the caller gives for template parameters is what is known about them. -/
def Matches (given : Given) (σ : Binding) : Prop := ∀ o i, given o (.at_ i) = (σ o i).map ATy.vec

theorem attrNK_ptr (nk : NK) (t : Ty) (h1 : t.canon.isPtr = true) (h2 : NullTy.strip t = t) (h3 : NullTy.lexical t = true) :
    NullTy.attrNK (some nk) t = some nk := by
  unfold NullTy.attrNK
  have : NullTy.isUnknownValidOn t = true := by
    simp [NullTy.isUnknownValidOn, NullTy.isSupportedPointerType, h2, h1, h3]
  simp [this]

theorem lexical_erase (A : ATy) : NullTy.lexical A.erase = true := by
  cases A <;> simp [ATy.erase, NullTy.lexical]

theorem refine_vec (nk : NK) (A : ATy) (h : A.isPtr = true) : (A.refine nk).vec = useGiven (some nk) A.vec := by
  cases A with
  | ptr x t =>
    cases x with
    | concrete k => cases k <;> simp [ATy.refine, ATy.vec, useGiven, PN.conc]
    | symbolic a => simp [ATy.refine, ATy.vec, useGiven, PN.conc]
  | cls d k p as =>
    cases k with
    | none => simp [ATy.isPtr] at h
    | some x =>
      cases x with
      | concrete k => cases k <;> simp [ATy.refine, ATy.vec, useGiven, PN.conc]
      | symbolic a => simp [ATy.refine, ATy.vec, useGiven, PN.conc]
  | _ => simp [ATy.isPtr] at h

theorem refine_nonptr (nk : NK) (A : ATy) (h : A.isPtr = false) : A.refine nk = A := by
  cases A with
  | ptr x t => simp [ATy.isPtr] at h
  | cls d k p as => cases k <;> simp_all [ATy.isPtr, ATy.refine]
  | _ => rfl

theorem outer_nonptr (x : PN) (A : ATy) (h : A.isPtr = false) : A.outer x = A := by
  cases A with
  | ptr x t => simp [ATy.isPtr] at h
  | cls d k p as => cases k <;> simp_all [ATy.isPtr, ATy.outer]
  | _ => rfl

theorem isPtr_fill (x : PN) (A : ATy) : (A.fill x).isPtr = A.isPtr := by
  cases A <;> simp [ATy.fill, ATy.isPtr]

theorem useGiven_length (pend : Option NK) (v : List PN) : (useGiven pend v).length = v.length := by
  cases v with
  | nil => rfl
  | cons x l => cases x with
    | concrete k => cases k <;> simp [useGiven]
    | symbolic a => simp [useGiven]

theorem useGiven_none (v : List PN) : useGiven none v = v := by
  cases v with
  | nil => rfl
  | cons x l => cases x with
    | concrete k => cases k <;> simp [useGiven]
    | symbolic a => simp [useGiven]

theorem walk_subst (P : Prog) (given : Given) (σ : Binding) (hf : Fits P σ) (hm : Matches given σ) (df : NullTy.Defaults) (file : Nat)
    (o i n : Nat) (hn : (P.repl o i).need + 1 ≤ n) (pend : Option NK) (hp : pend ≠ none → (P.repl o i).isPtr = true) :
    ∃ l, walk given n .nil file pend (.subst o (.at_ i) (P.repl o i).erase) = some l ∧
      repVec df l = (match σ o i, pend with
        | some A, none => A
        | some A, some nk => A.refine nk
        | none, none => (P.repl o i).fill (.concrete (df.get file))
        | none, some nk => ((P.repl o i).fill (.concrete (df.get file))).outer (.concrete nk)).vec := by
  obtain ⟨n, rfl⟩ : ∃ m, n = m + 1 := ⟨n - 1, by omega⟩
  have hg := hm o i
  cases hs : σ o i with
  | none =>
    rw [hs] at hg
    obtain ⟨l, h1, h2⟩ := walk_erase given df file (P.repl o i) n (by omega) pend
    refine ⟨l, ?_, ?_⟩
    · simp only [walk, hg, Option.map_none, NullTy.findArg, h1]
    · rw [h2]
      cases pend <;> rfl
  | some A =>
    rw [hs] at hg
    have he := hf o i A hs
    refine ⟨givenReps file (P.repl o i).erase (useGiven pend A.vec), ?_, ?_⟩
    · simp only [walk, hg, Option.map_some]
    · rw [repVec_given]
      · cases pend with
        | none => simp [useGiven_none]
        | some nk =>
          have hA : A.isPtr = true := by rw [← erase_isPtr, he, erase_isPtr]; exact hp (by simp)
          simp only [refine_vec nk A hA]
      · rw [useGiven_length, ← slots_erase, he, slots_erase]

mutual
theorem walk_clangTy (P : Prog) (given : Given) (σ : Binding) (hf : Fits P σ) (hm : Matches given σ) (file : Nat) : (p : PTy) → ∀ n,
    need P p ≤ n → ∃ l, walk given n .nil file none (clangTy P p) = some l ∧ repVec P.defaults l = (inst P file σ p).vec
  | .leaf k, n, hn => by
    simp only [need] at hn
    obtain ⟨n, rfl⟩ : ∃ m, n = m + 1 := ⟨n - 1, by omega⟩
    exact ⟨[], by simp [clangTy, walk], rfl⟩
  | .ptr ann t, n, hn => by
    simp only [need] at hn
    obtain ⟨n, rfl⟩ : ∃ m, n = m + 2 := ⟨n - 2, by omega⟩
    cases ann with
    | none =>
      obtain ⟨l, h1, h2⟩ := walk_clangTy P given σ hf hm file t (n + 1) (by omega)
      refine ⟨_, by simp only [clangTy, attrOf, walk, h1]; rfl, ?_⟩
      simp only [repVec, List.map_cons] at h2 ⊢
      rw [h2]
      rfl
    | some nk =>
      obtain ⟨l, h1, h2⟩ := walk_clangTy P given σ hf hm file t n (by omega)
      have ha : NullTy.attrNK (some nk) (.ptr (clangTy P t)) = some nk := attrNK_ptr _ _ rfl rfl rfl
      refine ⟨_, by simp only [clangTy, attrOf, walk, h1, ha, NullTy.saw]; rfl, ?_⟩
      simp only [repVec, List.map_cons] at h2 ⊢
      rw [h2]
      rfl
  | .ref t, n, hn => by
    simp only [need] at hn
    obtain ⟨n, rfl⟩ : ∃ m, n = m + 1 := ⟨n - 1, by omega⟩
    obtain ⟨l, h1, h2⟩ := walk_clangTy P given σ hf hm file t n (by omega)
    exact ⟨l, by simp only [clangTy, walk, h1], by rw [h2]; rfl⟩
  | .arr t, n, hn => by
    simp only [need] at hn
    obtain ⟨n, rfl⟩ : ∃ m, n = m + 1 := ⟨n - 1, by omega⟩
    obtain ⟨l, h1, h2⟩ := walk_clangTy P given σ hf hm file t n (by omega)
    exact ⟨l, by simp only [clangTy, walk, h1], by rw [h2]; rfl⟩
  | .fn r ps, n, hn => by
    simp only [need] at hn
    obtain ⟨n, rfl⟩ : ∃ m, n = m + 1 := ⟨n - 1, by omega⟩
    obtain ⟨l, h1, h2⟩ := walk_clangTy P given σ hf hm file r n (by omega)
    obtain ⟨l', h1', h2'⟩ := walk_clangTys P given σ hf hm file ps n (by omega)
    refine ⟨l ++ l', by simp only [clangTy, walk, h1, h1']; rfl, ?_⟩
    simp only [repVec] at h2 h2' ⊢
    rw [List.map_append, h2, h2']
    rfl
  | .cls d sm p as, n, hn => by
    simp only [need] at hn
    obtain ⟨n, rfl⟩ : ∃ m, n = m + 3 := ⟨n - 3, by omega⟩
    -- the class itself, with an annotation waiting
    have body : ∀ pend k, p.need + needs P as + 1 ≤ k → ∃ l, walk given k .nil file pend
        (.tst .nil (clangArgs P as) d sm.isSome p.erase (clangArgs P as).canon) = some l ∧
        repVec P.defaults l = (if sm.isSome then [(pend.map PN.concrete).getD (.concrete (P.defaults.get file))] else []) ++
          ((p.fill (.concrete (P.defaults.get file))).vec ++ (insts P file σ as).vec) := by
      intro pend k hk
      obtain ⟨k, rfl⟩ : ∃ m, k = m + 1 := ⟨k - 1, by omega⟩
      obtain ⟨l, h1, h2⟩ := walk_erasePar given P.defaults file p k (by omega)
      obtain ⟨l', h1', h2'⟩ := walk_clangArgs P given σ hf hm file as k (by omega)
      have hd : (clangArgs P as).canon.drop (clangArgs P as).length = .nil :=
        drop_length _ _ (by rw [length_clangArgs]; exact Nat.le_refl _)
      have hz : walkArgs given k .nil file .nil = some [] := by
        have : 1 ≤ needs P as := by cases as <;> simp [needs] <;> omega
        obtain ⟨k, rfl⟩ : ∃ m, k = m + 1 := ⟨k - 1, by omega⟩
        simp [walkArgs]
      refine ⟨_, by simp only [walk, bindFrom, h1, h1', hd, hz]; rfl, ?_⟩
      simp only [repVec] at h2 h2' ⊢
      cases sm <;> simp [h2, h2']
    cases sm with
    | none =>
      obtain ⟨l, h1, h2⟩ := body none (n + 3) (by omega)
      refine ⟨l, by simpa only [clangTy, attrOf, Option.getD_none] using h1, ?_⟩
      rw [h2]
      simp [inst, ATy.vec]
    | some ann =>
      cases ann with
      | none =>
        obtain ⟨l, h1, h2⟩ := body none (n + 3) (by omega)
        refine ⟨l, by simpa only [clangTy, attrOf, Option.getD_some] using h1, ?_⟩
        rw [h2]
        simp [inst, ATy.vec]
      | some nk =>
        obtain ⟨l, h1, h2⟩ := body (some nk) (n + 2) (by omega)
        have ha : NullTy.attrNK (some nk) (.tst .nil (clangArgs P as) d true p.erase (clangArgs P as).canon) = some nk :=
          attrNK_ptr _ _ rfl rfl rfl
        refine ⟨l, ?_, ?_⟩
        · simp only [clangTy, attrOf, Option.getD_some, Option.isSome_some] at h1 ⊢
          rw [walk]
          simp only [ha, NullTy.saw]
          exact h1
        · rw [h2]
          simp [inst, ATy.vec]
  | .param ann o i, n, hn => by
    simp only [need] at hn
    obtain ⟨n, rfl⟩ : ∃ m, n = m + 1 := ⟨n - 1, by omega⟩
    have plain : ∀ k, (P.repl o i).need + 1 ≤ k → ∃ l, walk given k .nil file none (.subst o (.at_ i) (P.repl o i).erase) = some l ∧
        repVec P.defaults l = (inst P file σ (.param none o i)).vec := by
      intro k hk
      obtain ⟨l, h1, h2⟩ := walk_subst P given σ hf hm P.defaults file o i k hk none (by simp)
      refine ⟨l, h1, ?_⟩
      rw [h2]
      unfold inst
      cases σ o i <;> rfl
    cases ann with
    | none =>
      obtain ⟨l, h1, h2⟩ := plain (n + 1) (by omega)
      exact ⟨l, by simpa [clangTy, attrOf] using h1, h2⟩
    | some nk =>
      cases hp : (P.repl o i).isPtr with
      | false =>
        obtain ⟨l, h1, h2⟩ := plain (n + 1) (by omega)
        refine ⟨l, by simpa [clangTy, attrOf, hp] using h1, ?_⟩
        rw [h2]
        unfold inst
        cases hs : σ o i with
        | none => simp only [outer_nonptr (.concrete nk) ((P.repl o i).fill (.concrete (P.defaults.get file))) (by rw [isPtr_fill]; exact hp)]
        | some A =>
          have hA : A.isPtr = false := by rw [← erase_isPtr, hf o i A hs, erase_isPtr]; exact hp
          simp only [refine_nonptr _ _ hA]
      | true =>
        obtain ⟨l, h1, h2⟩ := walk_subst P given σ hf hm P.defaults file o i n (by omega) (some nk) (fun _ => hp)
        have ha : NullTy.attrNK (some nk) (.subst o (.at_ i) (P.repl o i).erase) = some nk := by
          refine attrNK_ptr _ _ ?_ rfl ?_
          · simp only [Ty.canon, canon_erase, erase_isPtr]; exact hp
          · simp only [NullTy.lexical, lexical_erase]
        refine ⟨l, ?_, ?_⟩
        · simp only [clangTy, attrOf, hp, if_true, walk, ha, NullTy.saw]
          exact h1
        · rw [h2]
          unfold inst
          cases σ o i <;> rfl
theorem walk_clangTys (P : Prog) (given : Given) (σ : Binding) (hf : Fits P σ) (hm : Matches given σ) (file : Nat) : (p : PTys) → ∀ n,
    needs P p ≤ n → ∃ l, walkTys given n .nil file (clangTys P p) = some l ∧ repVec P.defaults l = (insts P file σ p).vec
  | .nil, n, hn => by
    simp only [needs] at hn
    obtain ⟨n, rfl⟩ : ∃ m, n = m + 1 := ⟨n - 1, by omega⟩
    exact ⟨[], by simp [clangTys, walkTys], rfl⟩
  | .cons t l, n, hn => by
    simp only [needs] at hn
    obtain ⟨n, rfl⟩ : ∃ m, n = m + 1 := ⟨n - 1, by omega⟩
    obtain ⟨r, h1, h2⟩ := walk_clangTy P given σ hf hm file t n (by omega)
    obtain ⟨r', h1', h2'⟩ := walk_clangTys P given σ hf hm file l n (by omega)
    refine ⟨r ++ r', by simp only [clangTys, walkTys, h1, h1']; rfl, ?_⟩
    simp only [repVec] at h2 h2' ⊢
    rw [List.map_append, h2, h2']
    rfl
theorem walk_clangArgs (P : Prog) (given : Given) (σ : Binding) (hf : Fits P σ) (hm : Matches given σ) (file : Nat) : (p : PTys) → ∀ n,
    needs P p ≤ n → ∃ l, walkArgs given n .nil file (clangArgs P p) = some l ∧ repVec P.defaults l = (insts P file σ p).vec
  | .nil, n, hn => by
    simp only [needs] at hn
    obtain ⟨n, rfl⟩ : ∃ m, n = m + 1 := ⟨n - 1, by omega⟩
    exact ⟨[], by simp [clangArgs, walkArgs], rfl⟩
  | .cons t l, n, hn => by
    simp only [needs] at hn
    obtain ⟨n, rfl⟩ : ∃ m, n = m + 2 := ⟨n - 2, by omega⟩
    obtain ⟨r, h1, h2⟩ := walk_clangTy P given σ hf hm file t n (by omega)
    obtain ⟨r', h1', h2'⟩ := walk_clangArgs P given σ hf hm file l (n + 1) (by omega)
    refine ⟨r ++ r', by simp only [clangArgs, walkArgs, walkArg, h1, h1']; rfl, ?_⟩
    simp only [repVec] at h2 h2' ⊢
    rw [List.map_append, h2, h2']
    rfl
end

/-- The vector of a declared type. -/
theorem typeNullability_eq (P : Prog) (given : Given) (σ : Binding) (hf : Fits P σ) (hm : Matches given σ) (file : Nat) (p : PTy) :
    typeNullability P given file p = (inst P file σ p).vec := by
  obtain ⟨l, h1, h2⟩ := walk_clangTy P given σ hf hm file p _ (Nat.le_refl _)
  unfold typeNullability NullTy.getTypeNullability
  rw [h1]
  exact h2

end Verif.ExprNull

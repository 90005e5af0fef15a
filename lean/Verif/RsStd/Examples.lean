import Verif.RsStd.OptionProps
import Verif.RsStd.ResultProps
/-! Concrete layouts and runs that meet the hypotheses, and the cases where the code differs. -/
namespace Verif.RsStd

/-- A payload type with every operation, of `n` bytes. -/
def exTy (n : Nat) (valid : Val → Bool) (dtor reloc : Bool) : Ty where
  size := n
  valid x := x.length == n && valid x
  hasDtor := dtor
  relocatable := reloc
  moveConstructible := true
  moveAssignable := !reloc
  unpin := true
  copyable := true
  mv x := (x, x)
  clone x := x

def exUnit : Ty := exTy 0 (fun _ => true) false false

/-- `Option<u16>`: a two-byte tag, then the payload. -/
def exDirect : Layout where
  size := 4
  tagOff := 0
  tagSize := 2
  enc := .direct
  off _ := 2
  ty v := if v = 0 then exUnit else exTy 2 (fun _ => true) true true

/-- `Option<Box<_>>` with two-byte pointers: the null pointer is the niche. -/
def exNiche : Layout where
  size := 2
  tagOff := 0
  tagSize := 2
  enc := .niche 0 0 0 1
  off _ := 0
  ty v := if v = 0 then exUnit else exTy 2 (fun x => leVal x != 0) true false

/-- A `Result<T, E>` whose `Ok` has a byte (offset 2) that is 0 or 1, so 2 is the niche for `Err`,
whose payload is in bytes 0 and 1. -/
def exResult : Layout where
  size := 3
  tagOff := 2
  tagSize := 1
  enc := .niche 2 1 1 0
  off _ := 0
  ty v := if v = 0 then exTy 3 (fun x => ((x[2]?).getD 0).val < 2) true false
    else exTy 2 (fun _ => true) true true

theorem exTy_len {n : Nat} {p : Val → Bool} {a b : Bool} {x : Val}
    (h : (exTy n p a b).valid x = true) : x.length = n := by
  simp [exTy] at h
  exact h.1

theorem exDirect_wf : OptionWF .little exDirect where
  tagPos := by decide
  tagIn := by decide
  payIn := by decide
  len v hv x hx := by
    rcases (show v = 0 ∨ v = 1 by omega) with rfl | rfl <;> exact exTy_len hx
  mvOk v hv x hx := by
    rcases (show v = 0 ∨ v = 1 by omega) with rfl | rfl <;> exact ⟨hx, hx⟩
  cloneOk v hv x hx := by
    rcases (show v = 0 ∨ v = 1 by omega) with rfl | rfl <;> exact hx
  direct _ v hv := .inl (Nat.le_refl 2)
  niche s f l u h := by cases h
  noneSize := rfl

theorem exNiche_wf : OptionWF .little exNiche where
  tagPos := by decide
  tagIn := by decide
  payIn := by decide
  len v hv x hx := by
    rcases (show v = 0 ∨ v = 1 by omega) with rfl | rfl <;> exact exTy_len hx
  mvOk v hv x hx := by
    rcases (show v = 0 ∨ v = 1 by omega) with rfl | rfl <;> exact ⟨hx, hx⟩
  cloneOk v hv x hx := by
    rcases (show v = 0 ∨ v = 1 by omega) with rfl | rfl <;> exact hx
  direct h := by cases h
  niche s f l u h := by
    cases h
    refine ⟨rfl, by decide, by decide, by decide, rfl, by decide, by right; right; right; rfl, ?_⟩
    intro x hx
    have hl := exTy_len hx
    simp [exNiche, exTy] at hx
    simp [exNiche, native, List.take_of_length_le (show x.length ≤ 2 by omega), hx]
  noneSize := rfl

theorem exResult_wf : exResult.WF .little where
  tagPos := by decide
  tagIn := by decide
  payIn := by decide
  len v hv x hx := by
    rcases (show v = 0 ∨ v = 1 by omega) with rfl | rfl <;> exact exTy_len hx
  mvOk v hv x hx := by
    rcases (show v = 0 ∨ v = 1 by omega) with rfl | rfl <;> exact ⟨hx, hx⟩
  cloneOk v hv x hx := by
    rcases (show v = 0 ∨ v = 1 by omega) with rfl | rfl <;> exact hx
  direct h := by cases h
  niche s f l u h := by
    cases h
    refine ⟨rfl, by decide, by decide, by decide, rfl, by decide, by right; left; decide, ?_⟩
    intro x hx
    have hl := exTy_len hx
    simp [exResult, exTy] at hx
    match x, hl with
    | [a, b, c], _ =>
      simp at hx
      simp [exResult, native, leVal]
      omega

/-- What a run leaves in the options `0, 1, 2`, and in the `std::optional` 0. -/
def showSt (s : Except Fault St) : Option (List (Option (Option (Nat × Val)))) :=
  match s with
  | .ok s => some (([0, 1, 2].map fun k => (s.opts k).map Obj.live) ++
      [(s.stds 0).map fun o => o.live.map fun x => (100, x)])
  | .error _ => none

/-- A run that uses most operations succeeds. -/
example : showSt (run .little exDirect St.init
    [.ctorValue 0 (fun _ => 7) [1, 2], .assignValue 0 [3, 4] [9, 9], .ctorNone 1 (fun _ => 7),
     .moveAssign 1 0, .toStd 1 0 [5, 5], .assignFromStd 0 0 [6, 6], .moveCtor 2 0 (fun _ => 1),
     .assignNullopt 1 [0, 0]])
    = some [some none, some none, some (some (1, [3, 4])), some none] := by decide +kernel

example : showSt (run .little exNiche St.init
    [.ctorValue 0 (fun _ => 7) [1, 2], .assignValue 0 [3, 4] [0, 0], .ctorNone 1 (fun _ => 7),
     .moveAssign 1 0, .toStd 1 0 [5, 5], .assignFromStd 0 0 [0, 0], .moveCtor 2 0 (fun _ => 1),
     .rustSet 1 (some [8, 8]) (fun _ => 8), .dtor 1 [0, 0], .stdDtor 0])
    = some [some none, none, some (some (1, [3, 4])), none] := by decide +kernel

def showR (s : Except Fault RSt) : Option (List (Option (Option (Nat × Val)))) :=
  match s with
  | .ok s => some ([0, 1].map fun k => (s k).map Obj.live)
  | .error _ => none

example : showR (rrun .little exResult (fun _ => none)
    [.ctorOk 0 (fun _ => 7) [1, 2, 0], .assignErr 0 [3, 4] [9, 9, 9], .assignErr 0 [5, 6] [8, 8],
     .assignOk 0 [0, 0, 1] [2, 2], .ctorErr 1 (fun _ => 0) [2, 2], .assignOk 0 [1, 1, 1] [2, 2, 2]])
    = some ([some (some (0, [1, 1, 1])), some (some (1, [2, 2]))]) := by decide +kernel

/-! ## Where the code differs from what a user expects -/

/-- On a big-endian target with a tag of more than one byte, the generated code stores the tag
least significant byte first, and Rust does not read the option that C++ constructed. -/
theorem big_endian_option_disagrees :
    ∃ o, ctorValue .big exDirect (fun _ => 0) [1, 2] = .ok o ∧ hasValue .big exDirect o = true ∧
      rustVariant .big exDirect o.mem ≠ some someIdx := by
  refine ⟨_, rfl, ?_, ?_⟩ <;> decide +kernel

/-- `r = r.error()`: the error is destroyed before it is used, for every layout and every value. -/
theorem assign_own_error_uses_destroyed_value {e : Endian} {L : Layout} (w : L.WF e)
    (hle : e = .little ∨ L.tagSize = 1) (o : Obj) (x : Val) (h : RGood e L o (.inr x))
    (conv : Val → Val) (junk : Val) (hj : junk.length = (L.ty errIdx).size) :
    resAssignOkFromOwnErr e L conv junk o = .error .useDead := by
  have hhv := hasValue_of w hle (encRes_lt (.inr x)) (rholds h.2).1
  unfold resAssignOkFromOwnErr
  rw [hhv, errPtr_eq w, okPtr_eq w]
  have hd := destroyAt_ok w errIdx (by decide) o x h.1 junk hj
  have hlive : (setOkTag e L { mem := wr o.mem (L.off errIdx) junk, live := none }).live = none := by
    unfold setOkTag
    split <;> rfl
  simp only [bind, Except.bind, encRes, errIdx] at hd hlive ⊢
  simp [hd, readAt, hlive]

end Verif.RsStd

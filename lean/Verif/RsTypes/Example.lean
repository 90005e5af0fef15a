import Verif.RsTypes.Wf
import Verif.RsTypes.RsThunk
import Verif.RsTypes.Collide

/-
Concrete cases for C163-C166.
-/

namespace Verif.RsTypes

/-- One supported type `S`. -/
def exDb : Db where
  ccName n := "crate::" ++ n
  threadSafe _ := false
  ptr64 := true
  supported n := n == "S"
  movable _ := true
  adtByValue _ := true
  composable _ := false
  specializable _ := true
  layoutTuple := true
  alwaysSpecialize := true
  portable := false

/-- `&'a [*const c_void]` -/
def exSlice : RTy := .ref (.named "a") false (.slice (.raw false .cvoid))

/-- `extern "C" fn(&'a mut S, *const i32) -> &'a S` -/
def exFn : RTy := .fn false false "C" false (.ref (.named "a") false (.adt "S"))
  (.cons (.ref (.named "a") true (.adt "S")) (.cons (.raw false (.int true .w32)) .nil))

/-- `Option<(usize, [u8; 3])>` -/
def exGen : RTy := .gen .option (.cons (.tuple (.cons (.int false .size) (.cons (.array (.int false .w8) 3) .nil))) .nil)

example : All exactNode exSlice ∧ All exactNode exFn ∧ All exactNode exGen := by
  simp [exSlice, exFn, exGen, All, Alls, exactNode]

example : All kindNode exSlice ∧ All kindNode exFn ∧ All kindNode exGen := by
  simp [exSlice, exFn, exGen, All, Alls, kindNode]

example : fmt exDb (.param false false) exSlice =
    some [.tname "rs_std::SliceRef", .lt, .kConst, .prim "void", .star, .kConst, .gt] := by decide +kernel

example : fmt exDb .field exFn = some [.tyId, .lt, .name "crate::S", .kConst, .amp, .life "a", .lpar,
    .name "crate::S", .star, .life "a", .nonnull, .comma, .prim "int32_t", .kConst, .star, .rpar, .gt, .star] := by
  decide +kernel

example : fmt exDb (.ret false) exGen = some [.tname "rs_std::Option", .lt, .tname "rs_std::Tuple", .lt,
    .prim "uint64_t", .comma, .tname "std::array", .lt, .prim "uint8_t", .comma, .nat 3, .gt, .gt, .gt] := by
  decide +kernel

example : fmtRs (fun n => n == "S") (toStatic exFn) = some [.kExtern "C", .kFn, .lpar, .amp, .life "static", .kMut,
    .item (.adt "S"), .comma, .star, .kConst, .int true .w32, .rpar, .arrow, .amp, .life "static",
    .item (.adt "S")] := by
  simp [exFn, toStatic, toStatics, fmtRs, fmtRsSep, fmtRsPointee, fmtRsReferent, rsFn, rsFnHead, rsConsSep, rsLife,
    isUnit, isNil]

/-- The hypothesis on names. -/
example : ∀ n, exDb.supported n = true → (fun n => n == "S") n = true := fun _ h => h

/-- Disagreement with the source: a slice of `RvalueReference`s is spelled with `const` on what the references point to,
and the elements can be changed. -/
theorem slice_of_rvref_const :
    fmt exDb (.param false false) (.ref (.named "a") false (.slice (.rvref false (.named "b") (.adt "S")))) =
      some [.tname "rs_std::SliceRef", .lt, .kConst, .name "crate::S", .star, .life "b", .nonnull, .gt] ∧
    typeOf [.tname "rs_std::SliceRef", .lt, .kConst, .name "crate::S", .star, .life "b", .nonnull, .gt] =
      some (false, .tmpl "rs_std::SliceRef" (.ty false (.ptr .ptr true (.cls "crate::S")) .nil)) := by
  constructor
  · decide +kernel
  · rfl

/-- Disagreement with the source: a polymorphic function pointer gets the Rust spelling of another type. -/
theorem hrtb_spelled_static : fmtRs (fun _ => true)
    (toStatic (.fn true false "C" false (.tuple .nil) (.cons (.ref .none false (.int true .w32)) .nil))) =
      some [.kExtern "C", .kFn, .lpar, .amp, .life "static", .int true .w32, .rpar] ∧
    rsTypeOf [.kExtern "C", .kFn, .lpar, .amp, .life "static", .int true .w32, .rpar] =
      some (.fn false false "C" false (.tuple .nil) (.cons (.ref (.named "static") false (.int true .w32)) .nil)) := by
  constructor
  · simp [toStatic, toStatics, fmtRs, fmtRsSep, fmtRsReferent, rsFn, rsFnHead, rsConsSep, rsLife, isUnit, isNil]
  · decide +kernel

/-! ### Colliding types -/

/-- `Index<u32>`, `Index<u64>`: both kept; with `Index<usize>` only that one. -/
example : avoid id [.int false .w32, .int false .w64] = [(.int false .w32, true), (.int false .w64, true)] ∧
    avoid id [.ref .none false (.int false .w32), .ref .none false (.int false .size), .int false .w64] =
      [(.ref .none false (.int false .w32), false), (.ref .none false (.int false .size), true),
        (.int false .w64, true)] := by decide +kernel

example : chain (.int false .w32) = true ∧ pref (.int false .w32) = pref (.int false .w64) ∧
    RTy.int false .w32 ≠ .int false .w64 ∧ CorrTop exDb.toEnv (.int false .w32) (.prim "uint32_t") ∧
    CorrTop exDb.toEnv (.int false .w64) (.prim "uint64_t") :=
  ⟨rfl, by decide +kernel, by decide +kernel, .same _ _ (.int _ _ _ rfl), .same _ _ (.int _ _ _ rfl)⟩

def exT1 : RTy := .tuple (.cons (.int false .size) (.cons (.int false .w64) .nil))
def exT2 : RTy := .tuple (.cons (.int false .w64) (.cons (.int false .size) .nil))

/-- Disagreement with the source: `(usize, u64)` and `(u64, usize)` are both kept, and are the same type in C++ where
pointers have 64 bits. -/
theorem tuples_collide : avoid id [exT1, exT2] = [(exT1, true), (exT2, true)] ∧
    fmt exDb (.param false false) exT1 = fmt exDb (.param false false) exT2 := by decide +kernel

def exV1 : RTy := .gen .vec (.cons (.int false .size) .nil)
def exV2 : RTy := .gen .vec (.cons (.int false .w64) .nil)

/-- Disagreement with the source: so are `Vec<usize>` and `Vec<u64>`. -/
theorem vecs_collide : avoid id [exV1, exV2] = [(exV1, true), (exV2, true)] ∧
    fmt exDb (.param false false) exV1 = fmt exDb (.param false false) exV2 ∧
    fmt exDb (.param false false) exV1 ≠ none := by decide +kernel

end Verif.RsTypes

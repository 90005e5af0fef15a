import Verif.CppTypes.Agree

/-
Concrete types for C160-C162, and types for which the generated spelling is a different type.
-/

namespace Verif.CppTypes.Ex

/-- A class `Widget`, an enum `Color`, called `Colour` in Rust, and an alias `CInt` of `const int`. -/
def D : Decls :=
  { stringView := fun _ => false, complete := fun _ => true, byValue := fun _ => true, unpin := fun n => n != "Widget",
    tag := fun n => if n = "Widget" then some "struct" else none, isEnum := fun n => n = "Color",
    ccName := fun n => n, rsName := fun n => if n = "Color" then "Colour" else n }

def scope : String → Option (Bool × CTy)
  | "Widget" => some (false, .cls "Widget")
  | "Color" => some (false, .cls "Color")
  | "CInt" => some (true, .prim "int")
  | _ => none

def names : String → Option CTy
  | "Widget" => some (.cls "Widget")
  | "Color" => some (.cls "Color")
  | "CInt" => some (.prim "int")
  | _ => none

def imp : Imported := fun _ => true

def opts : LOpts := ⟨true, true, false, false⟩

def cint : STy := .alias "CInt" true (.prim "int")

/-- `int (*)(CInt &, SliceRef<const Widget>) __attribute__((vectorcall))`, all `const`, behind `&`. -/
def sample : STy :=
  .ptr .lref true true (.ptr .nullable false false
    (.fn .vectorcall false false false (.prim "int")
      (.cons (.ptr .lref false false cint) (.cons (.slice true (.cls "Widget")) .nil))))

theorem sample_wf : All wfNode sample := by
  simp [sample, cint, All, Alls, wfNode, desugar, mkConst, CTy.isRef, CTy.isFn, PKind.ref]

theorem sample_exact : All exactNode sample := by
  simp [sample, cint, All, Alls, exactNode, desugar, mkConst, CTy.isPtr]

theorem sample_names : All (nameNode D scope) sample := by
  simp [sample, cint, All, Alls, nameNode, D, scope, desugar, mkConst, CTy.isRef, CTy.isFn]

theorem sample_rust : All (rustNode names) sample := by
  simp [sample, cint, All, Alls, rustNode, names, desugar, mkConst]

/-- The imported type and its kind. -/
def sampleCc : CcTy :=
  .ptr false .lref true (.fnptr true false .vectorcall
    (.cons (.ptr false .lref false (.decl true "CInt")) (.cons (.slice false (.decl true "Widget")) .nil))
    (.prim false "int"))

def sampleRs : RsTy :=
  .ref true false (.fnptr true .vectorcall (.prim "int")
    (.cons (.ref true false (.decl "CInt")) (.cons (.slice true (.decl "Widget")) .nil)))

theorem sample_convert : convert imp false sample = some sampleCc := by
  simp [sample, sampleCc, cint, convert, convertFn, converts, both, imp, desugar, mkConst, CTy.isFn, CTy.isRef,
    CTy.isPtr, PKind.ref]

theorem sample_kind : kindOf D opts sampleCc = some sampleRs := by
  simp [sampleCc, sampleRs, kindOf, kindsOf, pointerKind, pointeeOpts, opts, D, pointeeIsStringView, CcTy.isConst,
    byValue, byValues, isComplete]

theorem sample_tokens : assertTy D sampleCc sampleRs =
    [.tyId, .lt, .prim "int", .lpar, .name "CInt", .kConst, .amp, .comma, .sliceRef, .lt, .kConst, .tag "struct",
      .name "Widget", .gt, .rpar, .attr .vectorcall, .gt, .star, .kConst, .amp] := by
  simp [assertTy, sampleCc, sampleRs, format, formats, constTok, attrTok, nameToks, D, CcTy.isConst]

/-- C160 for this type. -/
theorem sample_assert : typeOf scope (assertTy D sampleCc sampleRs) = some (mkConst false (desugar sample)) :=
  assert_exact sample false opts sampleCc sampleRs sample_wf sample_exact sample_names sample_convert sample_kind

/-- C161 for this type. -/
theorem sample_thunk : ∃ k, (k = true → (desugar sample).1 = true) ∧
    typeOf scope (format D false sampleRs) = some (k, asPointer (desugar sample).2) :=
  thunk_exact sample false opts sampleCc sampleRs sample_wf sample_exact sample_names sample_convert sample_kind

/-- C162 for this type. -/
theorem sample_agrees : Agrees names (desugar sample).2 (rust D sampleRs) :=
  rust_agrees sample false opts sampleCc sampleRs sample_rust sample_convert sample_kind

/-- A mutable reference does not agree with a `const` reference, nor a Rust reference with a pointer. -/
example : ¬ Agrees names (.ptr .lref true (.prim "int")) (.ref true false (.prim "int")) := nofun
example : ¬ Agrees names (.ptr .ptr false (.prim "int")) (.ref true false (.prim "int")) := nofun
example : ¬ Agrees names (.ptr .ptr false (.fn .c false false false (.prim "int") .nil))
    (.fn false .c (.prim "int") .nil) := by
  intro h
  cases h with
  | fn _ _ _ _ _ _ _ _ _ h => exact absurd (h.2 rfl) (by decide)

/-- `SliceRef<int* const>` is spelled `SliceRef<const int*>`: a slice of pointers to `const int`. -/
theorem slice_of_const_pointers :
    let t : STy := .slice true (.ptr .nullable false false (.prim "int"))
    ∃ c r, convert imp false t = some c ∧ kindOf D opts c = some r ∧
      assertTy D c r = [.sliceRef, .lt, .kConst, .prim "int", .star, .gt] ∧
      typeOf scope (assertTy D c r) = some (false, .slice false (.ptr .ptr true (.prim "int"))) ∧
      desugar t = (false, .slice true (.ptr .ptr false (.prim "int"))) := by
  refine ⟨.slice false (.ptr true .nullable false (.prim false "int")),
    .slice true (.ptr .nullable false (.prim "int")), ?_, ?_, ?_, ?_, ?_⟩
  · simp [convert, desugar, CTy.isFn, PKind.ref]
  · simp [kindOf, pointerKind, pointeeOpts, CcTy.isConst]
  · simp [assertTy, format, constTok, ptrTok, CcTy.isConst]
  · rfl
  · rfl

/-- A renamed enum is spelled with its Rust name, which C++ does not know. -/
theorem renamed_enum :
    ∃ c r, convert imp false (.cls "Color") = some c ∧ kindOf D opts c = some r ∧
      assertTy D c r = [.name "Colour"] ∧ typeOf scope (assertTy D c r) = none := by
  refine ⟨.decl false "Color", .decl "Color", ?_, ?_, ?_, ?_⟩
  · simp [convert, imp]
  · rw [kindOf]
  · simp [assertTy, format, nameToks, D, constTok, CcTy.isConst]
  · rfl

/-- `int (*)(int, ...) noexcept` is spelled, and declared in Rust, as `int (*)(int)`. -/
theorem variadic_noexcept_dropped :
    let t : STy := .ptr .nullable false false (.fn .c true true false (.prim "int") (.cons (.prim "int") .nil))
    ∃ c r, convert imp false t = some c ∧ kindOf D opts c = some r ∧
      typeOf scope (assertTy D c r) =
        some (false, .ptr .ptr false (.fn .c false false false (.prim "int") (.cons (.prim "int") .nil))) ∧
      rust D r = .fn true .c (.prim "int") (.cons (.prim "int") .nil) ∧
      ¬ Agrees names (desugar t).2 (rust D r) := by
  have hr : rust D (.fnptr true .c (.prim "int") (.cons (.prim "int") .nil)) =
      .fn true .c (.prim "int") (.cons (.prim "int") .nil) := by simp [rust, rusts]
  refine ⟨.fnptr false false .c (.cons (.prim false "int") .nil) (.prim false "int"),
    .fnptr true .c (.prim "int") (.cons (.prim "int") .nil), ?_, ?_, ?_, hr, ?_⟩
  · simp [convert, convertFn, converts, both, desugar, CTy.isFn, PKind.ref]
  · simp [kindOf, kindsOf, byValue, byValues]
  · rfl
  · rw [hr]
    intro h
    simp only [desugar, mkConst, PKind.ref] at h
    cases h

/-- `const int (*)()` is spelled `int (*)()`, another type. -/
theorem const_result_dropped :
    let t : STy := .ptr .nullable false false (.fn .c false false true (.prim "int") .nil)
    ∃ c r, convert imp false t = some c ∧ kindOf D opts c = some r ∧
      typeOf scope (assertTy D c r) =
        some (false, .ptr .ptr false (.fn .c false false false (.prim "int") .nil)) ∧
      desugar t = (false, .ptr .ptr false (.fn .c false false true (.prim "int") .nil)) := by
  refine ⟨.fnptr false false .c .nil (.prim true "int"), .fnptr true .c (.prim "int") .nil, ?_, ?_, ?_, ?_⟩
  · simp [convert, convertFn, converts, both, desugar, CTy.isFn, PKind.ref]
  · simp [kindOf, kindsOf, byValue, byValues]
  · rfl
  · rfl

end Verif.CppTypes.Ex

import Verif.Tmpl.Main

/-
Examples for C174.
-/

namespace Verif.Tmpl.Example

/-- A printer that puts a space after each token, and one that puts none -/
def spacedPr (ts : List TT) : Str := (textsL ts).flatMap fun x => x ++ [' ']
def tightPr (ts : List TT) : Str := (textsL ts).flatten

theorem spacedPr_ok (ts : List TT) : Spaced (textsL ts) (spacedPr ts) := by
  unfold spacedPr
  induction textsL ts with
  | nil => exact .nil
  | cons x l ih =>
    rw [List.flatMap_cons, List.append_assoc]
    exact .text (.space ih)

theorem tightPr_ok (ts : List TT) : Spaced (textsL ts) (tightPr ts) := by
  unfold tightPr
  induction textsL ts with
  | nil => exact .nil
  | cons x l ih => exact .text ih

def id' (s : String) : TT := .ident s.toList

/-- `vec<bool>` -/
def vecBool : List TT := [id' "vec", .punct '<', id' "bool", .punct '>']

/-- `fn f(x: cc_template!(vec<bool>)) { x::cc_template![vec<bool>] }` -/
def file : List TT := [id' "fn", id' "f",
  .group .paren [id' "x", .punct ':', id' "cc_template", .punct '!', .group .paren vecBool],
  .group .brace [id' "x", .punct ':', .punct ':', id' "cc_template", .punct '!', .group .bracket vecBool]]

theorem invoked : Invokes file vecBool :=
  .inside (d := .paren) (us := [id' "x", .punct ':', id' "cc_template", .punct '!', .group .paren vecBool])
    (by simp [file]) (Invokes.here (pre := [id' "x", .punct ':']) (by decide))

theorem found_names : file.length = 4 ∧ find spacedPr [] file = ["vec<bool>".toList] := by
  refine ⟨rfl, ?_⟩
  simp [file, find, findT, note, add, asMacro, id', vecBool, name, spacedPr, textsL, TT.texts]

def le (a b : Str) : Bool := decide (a.length ≤ b.length)

def rec1 : Rec := ⟨7, "vec<bool>".toList, "__CcTemplateInst3vecIbE".toList⟩

def resolve (n : Str) : Option Rec := if n = "vec<bool>".toList then some rec1 else none

theorem run : pipeline spacedPr id le resolve [rec1] [file] = some [("vec<bool>".toList, "__CcTemplateInst3vecIbE".toList)] := by
  have h : [file].foldl (find spacedPr) [] = ["vec<bool>".toList] := found_names.2
  unfold pipeline collect
  rw [h]
  simp [aliases, resolve, found, instantiations, rec1]

/-- The theorem applies: the macro, with a different printer, finds the class. -/
theorem expanded : ∃ m, pipeline spacedPr id le resolve [rec1] [file] = some m ∧
    ∃ r, resolve (name tightPr vecBool) = some r ∧ expand tightPr m vecBool = some r.rsName := by
  refine ⟨_, run, expands spacedPr_ok tightPr_ok (fun l => .refl l) ?_ ?_ run (List.mem_singleton.mpr rfl) invoked⟩
  · intro n r h
    unfold resolve at h
    split at h
    · cases h
      exact ⟨List.mem_singleton.mpr rfl, by simp_all [rec1]⟩
    · cases h
  · intro r hr r' hr' _
    rw [List.mem_singleton.mp hr, List.mem_singleton.mp hr']

/-- Disagreement: spaces that matter are lost: `vec<unsigned short>` is requested as `vec<unsignedshort>`, which is not
valid C++. -/
theorem words_joined : name spacedPr [id' "vec", .punct '<', id' "unsigned", id' "short", .punct '>'] =
    "vec<unsignedshort>".toList := by
  simp [name, spacedPr, textsL, TT.texts, id']

end Verif.Tmpl.Example

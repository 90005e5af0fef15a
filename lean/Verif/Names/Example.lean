import Verif.Names.Reserved
import Verif.Names.RsIdent
import Verif.Names.Thunk
import Verif.Names.Pointer

/-
Examples, and where the code does not do what one might expect (C168-C172).
-/

namespace Verif.Names

/-- The ASCII part of the classes -/
def ascii : Xid where
  start c := c.isAlpha
  cont c := c.isAlpha || c.isDigit || c == '_'
  sub c h := by simp [h]
  alpha c h := h
  digit c h := by simp [h]
  under := by decide
  nodigit c h := by
    simp only [Char.isAlpha, Char.isDigit, Char.isUpper, Char.isLower, Bool.and_eq_true, decide_eq_true_eq,
      Bool.or_eq_false_iff, Bool.and_eq_false_iff, decide_eq_false_iff_not, ge_iff_le] at *
    obtain ⟨h1, h2⟩ := h
    rw [UInt32.le_iff_toNat_le] at h1 h2
    simp only [UInt32.le_iff_toNat_le] at *
    simp at *
    omega
  nohash := by decide
  nohyphen := by decide
  nocontrol := by decide

/-! ### Symbols (C168) -/

example : escape ascii "_ZN3a$b.c".toList = "_uZN3a_db_pc".toList := by decide +kernel

example : escape ascii "0é".toList = "_x00000030_x000000e9".toList := by decide +kernel

/-- A symbol that looks escaped is escaped again. -/
example : escape ascii "_u".toList = "_uu".toList ∧ escape ascii "_".toList = "_u".toList := by decide +kernel

example : thunkName ascii 31 "f".toList = "__crubit_thunk_1f_f".toList := by
  have h : hex 31 = "1f".toList := by
    rw [hex, if_neg (by decide), hex, if_pos (by decide)]
    decide +kernel
  unfold thunkName
  rw [h]
  decide +kernel

/-! ### Reserved words (C169) -/

example : formatCcDb ascii false true "int".toList = some "int_".toList := by decide +kernel
example : formatCcDb ascii false false "int".toList = none := by decide +kernel
example : formatCcDb ascii true true "EOF".toList = some "EOF_".toList := by decide +kernel
example : formatCcDb ascii false true "EOF".toList = some "EOF".toList := by decide +kernel
example : formatCcDb ascii false true "reinterpret_cast".toList = some "reinterpret_cast_".toList := by decide +kernel

/-- Disagreement: `struct S { int: u8, int_: u8 }` (both are identifiers of Rust) has two fields with the same name in
C++. -/
theorem fields_collide (i j : Nat) : fieldName ascii false true [] i "int".toList = "int_".toList ∧
    fieldName ascii false true [] j "int_".toList = "int_".toList ∧
    (RsId.plain "int".toList).Valid ascii ∧ (RsId.plain "int_".toList).Valid ascii := by
  refine ⟨?_, ?_, by unfold RsId.Valid; decide +kernel, by unfold RsId.Valid; decide +kernel⟩
  · unfold fieldName
    have : formatCcDb ascii false true (if ([] : List Str).contains (unkeyword false "int".toList) then
        unkeyword false "int".toList ++ "_".toList else unkeyword false "int".toList) = some "int_".toList := by
      decide +kernel
    simp only [this]
    rfl
  · unfold fieldName
    have : formatCcDb ascii false true (if ([] : List Str).contains (unkeyword false "int_".toList) then
        unkeyword false "int_".toList ++ "_".toList else unkeyword false "int_".toList) = some "int_".toList := by
      decide +kernel
    simp only [this]
    rfl

/-- Disagreement: with methods `x` and `x_`, the field `x` gets the name of the second. -/
theorem field_named_like_method (i : Nat) :
    fieldName ascii false true ["x".toList, "x_".toList] i "x".toList = "x_".toList := by
  unfold fieldName
  have : formatCcDb ascii false true (if ["x".toList, "x_".toList].contains (unkeyword false "x".toList) then
        unkeyword false "x".toList ++ "_".toList else unkeyword false "x".toList) = some "x_".toList := by
    decide +kernel
  simp only [this]
  rfl

/-- Disagreement: a name with `r#` keeps it, which is not an identifier in C++. -/
theorem raw_name_not_ident : formatCcDb ascii false true "r#type".toList = some "r#type".toList ∧
    ¬ IsIdent ascii "r#type".toList := by decide +kernel

/-! ### Rust identifiers (C170) -/

/-- syn's keywords -/
def synKw : List Str := rustKeywords.map String.toList

theorem synKw_ok : SynKeywords synKw := fun _ hw _ => List.mem_map_of_mem hw

example : rsIdent ascii synKw "foo".toList = some (.plain "foo".toList) := by decide +kernel
example : rsIdent ascii synKw "type".toList = some (.raw "type".toList) := by decide +kernel
example : rsIdent ascii synKw "try".toList = some (.raw "try".toList) := by decide +kernel
example : rsIdent ascii synKw "foo-bar-".toList = some (.plain "foo_bar_".toList) := by decide +kernel
example : rsIdent ascii synKw "r#type".toList = some (.raw "type".toList) := by decide +kernel
example : rsIdent ascii synKw "crate".toList = none := by decide +kernel
example : rsIdent ascii synKw "".toList = none := by decide +kernel

/-- Disagreement: the C++ name `_` is let through by the importer, but has no Rust identifier (a panic). -/
theorem underscore_panics : importName ['_'] = some ['_'] ∧ IsIdent ascii ['_'] ∧ rsIdent ascii synKw ['_'] = none := by
  decide +kernel

/-- Disagreement: two targets can get the same crate name. -/
theorem crates_collide : rsIdent ascii synKw "a-b".toList = rsIdent ascii synKw "a_b".toList := by decide +kernel

/-! ### Thunks (C171) -/

def funcs : List Func := [⟨"_Z1fv".toList, false, 1⟩, ⟨"_Z1gv".toList, true, 0xdeadbeef⟩, ⟨"_Z1hv".toList, false, 2⟩,
  ⟨"_Z1hv".toList, false, 3⟩]

example : funcs.map (thunkIdent ascii funcs) = ["__rust_thunk___Z1fv".toList, "__rust_thunk__deadbeef__Z1gv".toList,
    "__rust_thunk__00000002__Z1hv".toList, "__rust_thunk__00000003__Z1hv".toList] := by decide +kernel

example : ∀ f ∈ funcs, Plain ascii f.mangled ∧ f.hash < 2 ^ 32 := by
  intro f hf
  simp only [funcs, List.mem_cons, List.not_mem_nil, or_false] at hf
  rcases hf with rfl | rfl | rfl | rfl
  · exact ⟨itanium_plain (s := "1fv".toList) (by decide +kernel), by decide⟩
  · exact ⟨itanium_plain (s := "1gv".toList) (by decide +kernel), by decide⟩
  · exact ⟨itanium_plain (s := "1hv".toList) (by decide +kernel), by decide⟩
  · exact ⟨itanium_plain (s := "1hv".toList) (by decide +kernel), by decide⟩

/-- Disagreement (admitted in a comment of the code): names with characters that are not in identifiers can collide. -/
theorem fragments_collide : fragment ascii "a.b".toList = "a_u46_b".toList ∧
    fragment ascii "a_u46_b".toList = "a_u46_b".toList ∧
    fragment ascii (Char.ofNat 1 :: "foo".toList) = fragment ascii "foo".toList := by
  have h : dec 46 = "46".toList := by
    rw [dec, dec]; decide +kernel
  refine ⟨?_, by decide +kernel, by decide +kernel⟩
  have : fragment ascii "a.b".toList = "a_u".toList ++ dec 46 ++ "_b".toList := by
    simp [fragment, stripOne, ascii]
  rw [this, h]
  decide +kernel

/-! ### Pointers (C172) -/

def int : List Tok := [.ident "int"]

example : (CTy.base .no int).Proper := by unfold CTy.Proper; decide +kernel

example : pointerType [.ident "const", .ident "int", .punct '*'] = some true := by decide +kernel
example : pointerType [.ident "int", .ident "const", .punct '*'] = some true := by decide +kernel
example : pointerType [.ident "int", .punct '*'] = some false := by decide +kernel
example : pointerType [.ident "int"] = none := by decide +kernel

/-- Disagreement: `const int**` is said to be a pointer to const, but what it points to, `const int*`, is not const. -/
theorem pointer_to_pointer_misread :
    pointerType (CTy.ptr (.ptr (.base .west int) false) false).spelling = some true ∧
    (CTy.ptr (.base .west int) false).isConst = false := by decide +kernel

end Verif.Names

import Verif.CcLayout.Enum
/-
C59-C61: cases that meet the hypotheses, and layouts outside them for which the generated class is wrong.
-/
namespace Verif.CcLayout

/-- `struct { a: u8, b: Opaque3, c: u32, d: () }`, reordered by rustc to c, a, b with d at offset 0. -/
def exReordered : RType :=
  ⟨[⟨0, 4, 1, 1, true⟩, ⟨1, 5, 2, 1, false⟩, ⟨2, 0, 4, 4, true⟩, ⟨3, 0, 0, 1, false⟩], 8, 4, false, none⟩

theorem exReordered_ok : exReordered.StructOk := by
  refine ⟨by decide, by decide, by decide, by decide, by decide, by decide, fun h => absurd h (by decide)⟩

example : ∃ c, generateStruct exReordered = some c ∧ StructMatches exReordered c := struct_layout _ exReordered_ok

/-- The members: `c`, `a` and a blob of 3 bytes that covers the padding. -/
theorem exReordered_members : (generateStruct exReordered).map (fun c => c.mems.map fun m => (m.field.map (·.index), m.size)) =
    some [(some 2, 4), (some 0, 1), (some 1, 3)] := by decide

/-- `#[repr(C)] struct { a: u8, b: u32, c: u16 }`: no padding members. -/
def exReprC : RType := ⟨[⟨0, 0, 1, 1, true⟩, ⟨1, 4, 4, 4, true⟩, ⟨2, 8, 2, 2, true⟩], 12, 4, true, none⟩

theorem exReprC_ok : exReprC.StructOk := by
  refine ⟨by decide, by decide, by decide, by decide, by decide, by decide, ?_⟩
  intro _
  exact ⟨⟨by decide, by decide, by decide, (by decide : 12 = up 10 4)⟩, Or.inl rfl⟩

example : ∃ c, generateStruct exReprC = some c ∧ StructMatches exReprC c := struct_layout _ exReprC_ok

theorem exReprC_members : (generateStruct exReprC).map (fun c => c.mems.length) = some 3 := by decide

/-- `#[repr(C, packed)] struct { a: u8, b: u32 }`. -/
def exPacked : RType := ⟨[⟨0, 0, 1, 1, true⟩, ⟨1, 1, 4, 4, true⟩], 5, 1, true, some 1⟩

theorem exPacked_ok : exPacked.StructOk := by
  refine ⟨by decide, by decide, by decide, by decide, by decide, by decide, ?_⟩
  intro _
  exact ⟨⟨by decide, by decide, (by decide : 5 = up 5 1)⟩, Or.inr rfl⟩

example : ∃ c, generateStruct exPacked = some c ∧ StructMatches exPacked c := struct_layout _ exPacked_ok

/-- `#[repr(C)] union { a: u8, b: u32, c: [u16; 3] }`. -/
def exUnion : RType := ⟨[⟨0, 0, 1, 1, true⟩, ⟨1, 0, 4, 4, true⟩, ⟨2, 0, 6, 2, true⟩], 8, 4, true, none⟩

theorem exUnion_ok : exUnion.UnionOk := ⟨by decide, by decide, by decide, by decide⟩

example : ∃ c, generateUnion exUnion = some c ∧ UnionMatches exUnion c := union_layout _ exUnion_ok

/-- `#[repr(C)] enum { A, B(u8, u64), C(u16) }` with a tag of 4 bytes. -/
def exEnum : List (List Ty) := [[], [⟨1, 1⟩, ⟨8, 8⟩], [⟨2, 2⟩]]

theorem exEnum_ok : EnumOk 4 exEnum := by
  refine ⟨⟨2, rfl⟩, by decide, ?_⟩
  intro ts hts t ht
  simp only [exEnum, List.mem_cons, List.not_mem_nil, or_false] at hts
  rcases hts with rfl | rfl | rfl
  · exact absurd ht (by simp)
  · simp only [List.mem_cons, List.not_mem_nil, or_false] at ht
    rcases ht with rfl | rfl
    · exact ⟨⟨0, rfl⟩, by decide⟩
    · exact ⟨⟨3, rfl⟩, by decide⟩
  · simp only [List.mem_cons, List.not_mem_nil, or_false] at ht
    subst ht
    exact ⟨⟨1, rfl⟩, by decide⟩

example : ∃ c, generateEnum (rustEnum 4 exEnum) = some c ∧ EnumMatches (rustEnum 4 exEnum) c := enum_layout _ _ exEnum_ok

theorem exEnum_size : (rustEnum 4 exEnum).size = 24 ∧ (rustEnum 4 exEnum).align = 8 := by decide

/-- A tag of 2 bytes at offset 2 of 6. -/
theorem variant_bytes_case : variantBytes false 6 2 2 258 = some [0, 0, 2, 1, 0, 0] ∧ variantBytes true 6 2 2 258 = some [0, 0, 1, 2, 0, 0] := by
  decide

/-! ### Disagreements -/

/-- `#[repr(C, packed(2))] struct { a: u8, b: u32 }`: rustc puts `b` at 2, the packed C++ class has no padding and puts it at 1. -/
def badPacked : RType := ⟨[⟨0, 0, 1, 1, true⟩, ⟨1, 2, 4, 4, true⟩], 6, 2, true, some 2⟩

theorem packed2_wrong : ∃ c, generateStruct badPacked = some c ∧ c.offsets.map (fun x => (x.1.field.map (·.index), x.2)) = [(some 0, 0), (some 1, 1)] := by
  exact ⟨⟨[⟨some ⟨0, 0, 1, 1, true⟩, 1, 1⟩, ⟨some ⟨1, 2, 4, 4, true⟩, 4, 4⟩], 2, true⟩, by decide, by decide⟩

/-- `union { a: Opaque8, b: u32 }`: the size of the blob of `a` is taken to be 0 (up to the offset of `b`), so that it is omitted and
the C++ union has 4 bytes, not 8. -/
def badUnion : RType := ⟨[⟨0, 0, 8, 4, false⟩, ⟨1, 0, 4, 4, true⟩], 8, 4, true, none⟩

theorem union_opaque_wrong : ∃ c, generateUnion badUnion = some c ∧ c.unionSize = 4 := by
  exact ⟨⟨[⟨some ⟨1, 0, 4, 4, true⟩, 4, 4⟩], 4, false⟩, by decide, by decide⟩

/-- `#[repr(C)] enum { A(Opaque8) }` with a tag of 4 bytes and a payload of alignment 8, which has no C++ type: the struct of `A` gets
`alignas(0)`, and its blob is at 4, not 8. -/
def badEnum : REnum := ⟨4, 4, [⟨[⟨0, 8, 8, 8, false⟩], 16, 8⟩], 16, 8⟩

theorem enum_opaque_wrong : ∃ c, generateEnum badEnum = some c ∧ c.payloadOffset = 4 ∧ c.sizeOf = 16 := by
  exact ⟨⟨4, 4, [some ⟨[⟨some ⟨0, 0, 8, 8, false⟩, 8, 1⟩], 0, false⟩], 8⟩, by decide, by decide, by decide⟩

end Verif.CcLayout

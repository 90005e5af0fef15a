import Verif.CcLayout.Model
/-
C59-C61: specification: layout of C++ classes, and of Rust types.
-/
namespace Verif.CcLayout

/-- The least multiple of `a` that is at least `n`. -/
def up (n a : Nat) : Nat := (n + a - 1) / a * a

/-- Members in order, each at the next multiple of its alignment. -/
def place : Nat → List Mem → List (Mem × Nat) × Nat
  | pos, [] => ([], pos)
  | pos, m :: ms => ((m, up pos m.align) :: (place (up pos m.align + m.size) ms).1, (place (up pos m.align + m.size) ms).2)

/-- `packed` drops the alignment of members. -/
def CClass.members (c : CClass) : List Mem := if c.packed then c.mems.map fun m => { m with align := 1 } else c.mems

def natural (ms : List Mem) : Nat := ms.foldr (fun m a => max m.align a) 1

/-- `alignof`; `alignas(0)` has no effect. -/
def CClass.alignOf (c : CClass) : Nat := max (natural c.members) c.alignas

/-- `alignas` must not be less strict than the alignment without it. -/
def CClass.Valid (c : CClass) : Prop := c.alignas = 0 ∨ natural c.members ≤ c.alignas

/-- `offsetof` the members, in a struct. -/
def CClass.offsets (c : CClass) : List (Mem × Nat) := (place 0 c.members).1

/-- `sizeof` of a struct that is not empty. -/
def CClass.sizeOf (c : CClass) : Nat := up (place 0 c.members).2 c.alignOf

/-- `sizeof` of a union that is not empty. -/
def CClass.unionSize (c : CClass) : Nat := up (c.members.foldr (fun m n => max m.size n) 0) c.alignOf

/-- The C++ class has the layout of the Rust struct. -/
structure StructMatches (t : RType) (c : CClass) : Prop where
  valid : c.Valid
  size : c.sizeOf = t.size
  align : c.alignOf = t.align
  /-- A field with a C++ type is a member of that size at the offset of the Rust field. -/
  known : ∀ f ∈ t.fields, f.known = true → ∃ m, (m, f.offset) ∈ c.offsets ∧ m.field = some f ∧ m.size = f.size
  /-- Members for fields are at the offsets of the Rust fields (what the generated assertions check). -/
  offsets : ∀ x ∈ c.offsets, ∀ f, x.1.field = some f → f ∈ t.fields ∧ x.2 = f.offset
  /-- The bytes of other fields are in members without a type. -/
  blobs : ∀ f ∈ t.fields, f.known = false → ∀ b, f.offset ≤ b → b < f.offset + f.size →
    ∃ x ∈ c.offsets, (∃ g, x.1.field = some g ∧ g.known = false) ∧ x.2 ≤ b ∧ b < x.2 + x.1.size

/-- The alignment of a field in Rust. -/
def RType.fieldAlign (t : RType) (f : RField) : Nat := match t.packed with
  | none => f.align
  | some n => min n f.align

/-- The fields are placed in order, each at the next multiple of its alignment. -/
def RType.InOrder (t : RType) : Nat → List RField → Prop
  | pos, [] => t.size = up pos t.align
  | pos, f :: fs => f.offset = up pos (t.fieldAlign f) ∧ t.InOrder (f.offset + f.size) fs

/-- What is known of the rustc layout of a struct: with any order of the fields, and with gaps anywhere but at the start. -/
structure RType.StructOk (t : RType) : Prop where
  indices : (t.fields.map (·.index)).Nodup
  disjoint : ∀ f ∈ t.fields, ∀ g ∈ t.fields, f.index ≠ g.index → f.offset + f.size ≤ g.offset ∨ g.offset + g.size ≤ f.offset
  within : ∀ f ∈ t.fields, f.offset + f.size ≤ t.size
  start : ∃ f ∈ t.fields, f.offset = 0
  /-- C++ has no types of size 0. -/
  known : ∀ f ∈ t.fields, f.known = true → 0 < f.size ∧ 0 < f.align ∧ (t.packed = none → f.align ≤ t.align ∧ f.align ∣ f.offset)
  size : 0 < t.align ∧ t.align ∣ t.size
  /-- `repr(C)`: in order of declaration; `packed` without argument. -/
  reprC : t.reprC = true → t.InOrder 0 t.fields ∧ (t.packed = none ∨ t.packed = some 1)

/-- Unions: all fields have a C++ type. -/
structure RType.UnionOk (t : RType) : Prop where
  nonempty : t.fields ≠ []
  known : ∀ f ∈ t.fields, f.known = true ∧ f.offset = 0 ∧ 0 < f.size ∧ (t.packed = none → f.align ≤ t.align)
  pos : 0 < t.align
  size : t.size = up (t.fields.foldr (fun f n => max f.size n) 0) t.align

/-- The C++ union has the layout of the Rust union. -/
structure UnionMatches (t : RType) (c : CClass) : Prop where
  valid : c.Valid
  size : c.unionSize = t.size
  align : c.alignOf = t.align
  fields : c.members.map (fun m => (m.field, m.size)) = t.fields.map fun f => (some f, f.size)

/-! `repr(C)` enums, by the Rust reference: a tag and a union of `repr(C)` structs. -/

/-- The type of a field. -/
structure Ty where
  size : Nat
  align : Nat

def maxAlign (n : Nat) (ts : List Ty) : Nat := ts.foldr (fun t a => max t.align a) n

/-- Fields of a variant in order, starting at `pos`. -/
def fieldsFrom : Nat → Nat → List Ty → List RField
  | _, _, [] => []
  | i, pos, t :: ts => ⟨i, up pos t.align, t.size, t.align, true⟩ :: fieldsFrom (i + 1) (up pos t.align + t.size) ts

def endFrom : Nat → List Ty → Nat
  | pos, [] => pos
  | pos, t :: ts => endFrom (up pos t.align + t.size) ts

/-- The alignment of the enum. -/
def enumAlign (tag : Nat) (vs : List (List Ty)) : Nat := vs.foldr (fun ts a => maxAlign a ts) tag

/-- rustc's layout of a `repr(C)` enum with a tag of `tag` bytes and variants with these fields, all known: every variant starts
with the tag, and its fields come after the tag and at a multiple of the alignment of the enum. -/
def rustEnum (tag : Nat) (vs : List (List Ty)) : REnum :=
  let a := enumAlign tag vs
  let variants := vs.map fun ts => (⟨fieldsFrom 0 (up tag a) ts, up (endFrom (up tag a) ts) a, a⟩ : RVariant)
  ⟨tag, tag, variants, variants.foldr (fun v n => max v.size n) 0, a⟩

def Pow2 (n : Nat) : Prop := ∃ k, n = 2 ^ k

structure EnumOk (tag : Nat) (vs : List (List Ty)) : Prop where
  tag : Pow2 tag
  variants : vs ≠ []
  types : ∀ ts ∈ vs, ∀ t ∈ ts, Pow2 t.align ∧ 0 < t.size

/-- The C++ layout: the tag at 0, then the union. -/
def CEnum.payloadAlign (c : CEnum) : Nat := c.variants.foldr (fun v a => max (match v with | some s => s.alignOf | none => 1) a) 1
def CEnum.payloadSize (c : CEnum) : Nat :=
  up (c.variants.foldr (fun v n => max (match v with | some s => s.sizeOf | none => 0) n) 0) c.payloadAlign
def CEnum.payloadOffset (c : CEnum) : Nat := up c.tagSize c.payloadAlign
def CEnum.hasPayload (c : CEnum) : Bool := c.variants.any (·.isSome)
def CEnum.alignOf (c : CEnum) : Nat := max (max c.tagAlign c.payloadAlign) c.alignas
def CEnum.sizeOf (c : CEnum) : Nat := up (if c.hasPayload then c.payloadOffset + c.payloadSize else c.tagSize) c.alignOf

/-- Offsets of all fields of a variant, from the start of the enum. -/
def CEnum.fieldOffsets (c : CEnum) (s : CClass) : List (Option Nat × Nat × Nat) :=
  s.offsets.map fun x => (x.1.field.map (·.index), c.payloadOffset + x.2, x.1.size)

structure EnumMatches (e : REnum) (c : CEnum) : Prop where
  size : c.sizeOf = e.size
  align : c.alignOf = e.align
  tag : c.tagSize = e.tagSize
  valid : ∀ s, some s ∈ c.variants → s.Valid
  /-- Variants have a struct iff they have fields, and the fields are at the offsets of the Rust fields. -/
  fields : c.variants.map (fun v => match v with | some s => c.fieldOffsets s | none => []) =
    e.variants.map fun v => v.fields.map fun f => (some f.index, f.offset, f.size)

/-- The number in bytes, in the given order. -/
def fromBytes (bigEndian : Bool) (l : List Nat) : Nat := (if bigEndian then l.reverse else l).foldr (fun b n => b + 256 * n) 0

end Verif.CcLayout

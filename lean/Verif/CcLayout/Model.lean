/-
C59-C61: layout of the C++ types generated for Rust structs, unions and enums.
Model of cc_bindings_from_rs/generate_bindings/generate_struct_and_union.rs, lines 1577-1604 and 2085-2976, and of query_compiler.rs
lines 342-387. Types are modelled by size and alignment; rustc's layout is the input.
-/
namespace Verif.CcLayout

/-- A field with its place in the rustc layout, all in bytes. `known`: `prepare_field_type` (lines 2315-2341) succeeds, so there is a C++
type, of the same size and alignment. -/
structure RField where
  index : Nat
  offset : Nat
  size : Nat
  align : Nat
  known : Bool
deriving DecidableEq

/-- A member of a C++ class: for a field, or padding. -/
structure Mem where
  field : Option RField
  size : Nat
  align : Nat
deriving DecidableEq

/-- Lexicographic order of the sort keys, lines 2247-2251. -/
def keyLe (f g : RField) : Bool :=
  let s := fun x : RField => if x.known then x.size else 0
  decide (f.offset < g.offset ∨ f.offset = g.offset ∧ (s f < s g ∨ s f = s g ∧ f.index ≤ g.index))

def insert (f : RField) : List RField → List RField
  | [] => [f]
  | g :: l => if keyLe f g then f :: g :: l else g :: insert f l

/-- `sort_by_key`: a stable sort, here by insertion. -/
def sort : List RField → List RField
  | [] => []
  | f :: l => insert f (sort l)

/-- Lines 2254-2263: each field with `offset_of_next_field`. -/
def withNext (size : Nat) : List RField → List (RField × Nat)
  | [] => []
  | [f] => [(f, size)]
  | f :: g :: l => (f, g.offset) :: withNext size (g :: l)

/-- `emit_field_err`, lines 2459-2481, with `Field::size`, lines 2103-2110: a blob up to the next field, or nothing; `none` if the
subtraction underflows. -/
def emitBlob (f : RField) (next : Nat) : Option (List Mem) :=
  if f.offset ≤ next then some (if next - f.offset = 0 then [] else [⟨some f, next - f.offset, 1⟩]) else none

/-- `emit_struct_field`, lines 2483-2535; `none` if the assertion of line 2501 fails. -/
def emitStruct (noPad : Bool) (f : RField) (next : Nat) : Option (List Mem) :=
  if f.known then
    if f.offset + f.size ≤ next then
      some (⟨some f, f.size, f.align⟩ :: if noPad ∨ next - f.offset - f.size = 0 then [] else [⟨none, next - f.offset - f.size, 1⟩])
    else none
  else emitBlob f next

/-- A Rust struct or union: the fields in order of declaration. `packed`: the argument of `repr(packed)`. -/
structure RType where
  fields : List RField
  size : Nat
  align : Nat
  reprC : Bool
  packed : Option Nat

/-- The generated C++ class: members, `alignas` and `__attribute__((packed))`, lines 1577-1604. -/
structure CClass where
  mems : List Mem
  alignas : Nat
  packed : Bool
deriving DecidableEq

/-- `analyze_layout` for structs, lines 2283-2288, and `generate_struct`, lines 2606-2624. -/
def generateStruct (t : RType) : Option CClass := do
  let noPad := t.reprC && t.fields.all (·.known)
  let mems ← (withNext t.size (sort t.fields)).mapM fun x => emitStruct noPad x.1 x.2
  return ⟨mems.flatten, t.align, t.packed.isSome⟩

/-- `emit_union_field`, lines 2536-2582 (a `struct` around the member when not `repr(C)`, with the same size and alignment). -/
def emitUnion (f : RField) (next : Nat) : Option (List Mem) :=
  if f.known then some [⟨some f, f.size, f.align⟩] else emitBlob f next

/-- `generate_union`, lines 2626-2642; the fields are not sorted, line 2247. -/
def generateUnion (t : RType) : Option CClass := do
  let mems ← (withNext t.size t.fields).mapM fun x => emitUnion x.1 x.2
  return ⟨mems.flatten, t.align, t.packed.isSome⟩

/-- A variant in the rustc layout of a `repr(C)` enum: its layout includes the tag. -/
structure RVariant where
  fields : List RField
  size : Nat
  align : Nat

/-- The rustc layout of a `repr(C)` enum with `Variants::Multiple`. -/
structure REnum where
  tagSize : Nat
  tagAlign : Nat
  variants : List RVariant
  size : Nat
  align : Nat

/-- query_compiler.rs lines 360-366: the first field, or the end. -/
def payloadOffset (v : RVariant) : Nat := match v.fields with
  | [] => v.size
  | f :: _ => f.offset

/-- `get_tag_size_with_padding`, query_compiler.rs lines 342-387; `none` if it panics. -/
def tagSizeWithPadding (e : REnum) : Option Nat := match e.variants with
  | [] => none
  | v :: vs => if vs.all fun w => payloadOffset w == payloadOffset v then some (payloadOffset v) else none

/-- Subtraction of `u64`; `none` on underflow. -/
def sub (a b : Nat) : Option Nat := if b ≤ a then some (a - b) else none

/-- `emit_enum_field`, lines 2584-2604: no padding. -/
def emitEnum (f : RField) (next : Nat) : Option (List Mem) :=
  if f.known then some [⟨some f, f.size, f.align⟩] else emitBlob f next

/-- Offsets relative to the payload, lines 2222-2225. -/
def shift (tag : Nat) (f : RField) : Option RField := (sub f.offset tag).map fun o => { f with offset := o }

/-- The struct for a variant: lines 2206-2267, 2803-2862; `none` if its size is 0. -/
def variantStruct (tag : Nat) (v : RVariant) : Option (Option CClass) := do
  let size ← sub v.size tag
  let fields ← v.fields.mapM (shift tag)
  let mems ← (withNext size (sort fields)).mapM fun x => emitEnum x.1 x.2
  let align ← sub v.align tag
  return if size = 0 then none else some ⟨mems.flatten, align, false⟩

/-- The generated class: the tag, and an anonymous union of the structs, lines 2864-2906. -/
structure CEnum where
  tagSize : Nat
  tagAlign : Nat
  variants : List (Option CClass)
  alignas : Nat
deriving DecidableEq

/-- `generate_enum` for `EnumKind::ReprC`. -/
def generateEnum (e : REnum) : Option CEnum := do
  let tag ← tagSizeWithPadding e
  let vs ← e.variants.mapM (variantStruct tag)
  return ⟨e.tagSize, e.tagAlign, vs, e.align⟩

/-- `to_le_bytes` of a `u128`. -/
def leBytes : Nat → Nat → List Nat
  | 0, _ => []
  | n + 1, v => v % 256 :: leBytes n (v / 256)

/-- The bytes of the static constructor of a variant without fields of an enum that is not `repr(C)`, lines 2036-2048: the tag at its
offset in zeros; `none` if a slice is out of range. -/
def variantBytes (bigEndian : Bool) (adtSize tagOffset tagSize tagVal : Nat) : Option (List Nat) := do
  let n := min (← sub adtSize tagOffset) tagSize
  let tag ← if n ≤ 16 then some (if bigEndian then (leBytes 16 tagVal).reverse.drop (16 - n) else (leBytes 16 tagVal).take n) else none
  return List.replicate tagOffset 0 ++ tag ++ List.replicate (adtSize - tagOffset - tag.length) 0

end Verif.CcLayout

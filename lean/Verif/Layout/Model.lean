/-
C56-C58: layout of the Rust struct generated for a C++ record.
Model of rs_bindings_from_cc/generate_bindings/generate_struct_and_union.rs lines 266-401, 437-600 and 813-821, and of the parts of
database/code_snippet.rs (lines 565-600, 1260-1385) that turn the result into a Rust type.
-/
namespace Verif.Layout

/-- `Field` of ir.rs, lines 1640-1700: `offset` and `size` in bits. `known`: the result of `get_field_rs_type_kind_for_layout`
(lines 121-185): `none` if it fails, otherwise the alignment in bytes of the Rust type, whose size is the size of the field. -/
structure Field where
  offset : Nat
  size : Nat
  bitfield : Bool
  known : Option Nat
deriving DecidableEq

/-- The parts of `Record` used here; `size` and `align` in bytes. -/
structure Record where
  fields : List Field
  size : Nat
  align : Nat
  union : Bool
  overrideAlign : Bool
  aggregate : Bool
  threadSafe : Bool

/-- `FieldWithLayout`, lines 439-447. -/
structure Bound where
  ir : Option Field
  offset : Nat
  stop : Option Nat
deriving DecidableEq

/-- Lines 452-480, for one field. -/
def toBound (union : Bool) (f : Field) : Option Bound :=
  if f.size = 0 then none
  else some ⟨if f.bitfield then none else some f, f.offset,
    if f.known.isSome then some (f.offset + f.size) else if union then some f.size else none⟩

/-- `coalesce` with the function of lines 484-495, where `a` is what has been merged so far. -/
def coalesceFrom (a : Bound) : List Bound → List Bound
  | [] => [a]
  | b :: l => if a.ir.isNone && b.ir.isNone then coalesceFrom ⟨none, a.offset, b.stop⟩ l else a :: coalesceFrom b l

def coalesce : List Bound → List Bound
  | [] => []
  | a :: l => coalesceFrom a l

/-- `fields_with_bounds`, lines 449-496. -/
def bounds (r : Record) : List Bound := coalesce (r.fields.filterMap (toBound r.union))

/-- What a member of the Rust type stands for. -/
inductive Tag
  | nonField
  | padding
  | bits
  | field (f : Field)
deriving DecidableEq

/-- A member of the Rust type, with the size and alignment of its type in bytes. Arrays of `MaybeUninit<u8>` have alignment 1;
`ManuallyDrop` and `Cell` do not change size and alignment. -/
structure Mem where
  tag : Tag
  size : Nat
  align : Nat
deriving DecidableEq

/-- `BitPadding::padding_size_in_bytes`, code_snippet.rs lines 1268-1272. -/
def bytes (bits : Nat) : Nat := (bits + 7) / 8

/-- `NonZeroUsize::new(..).expect(..)` of a difference: `none` if it panics (on 0 or on underflow). -/
def blob (tag : Tag) (stop start : Nat) : Option Mem := if start < stop then some ⟨tag, bytes (stop - start), 1⟩ else none

/-- Lines 290-300: size of the padding; `none` if the subtraction underflows. -/
def paddingBits (union : Bool) (ir : Option Field) (prevEnd offset : Nat) : Option Nat :=
  if union || ir.any (·.known.isSome) then some 0
  else if bytes prevEnd * 8 ≤ offset then some (offset - bytes prevEnd * 8) else none

/-- The member for the field itself: lines 304-316 and 356-383. -/
def fieldMem (b : Bound) (stop : Nat) : Option Mem :=
  match b.ir with
  | none => blob .bits stop b.offset
  | some f => match f.known with
    | none => blob (.field f) stop f.offset
    | some a => some ⟨.field f, f.size / 8, a⟩

/-- `field_definition`, lines 266-397, as tokens (code_snippet.rs lines 1318-1361): padding, then the field. -/
def fieldDefinition (union : Bool) (b : Bound) (prevEnd stop : Nat) : Option (List Mem) := do
  let pad ← paddingBits union b.ir prevEnd b.offset
  let m ← fieldMem b stop
  return (if pad = 0 then [] else [⟨.padding, bytes pad, 1⟩]) ++ [m]

/-- The assertion of lines 518-525. -/
def assertOk (union : Bool) (prev : Option Bound) (cur : Bound) : Bool :=
  match prev with
  | some ⟨some _, _, some stop⟩ => union || decide (stop ≤ cur.offset)
  | _ => true

/-- Lines 518-537. -/
def checkedDefinition (union : Bool) (prev : Option Bound) (cur : Bound) (prevEnd stop : Nat) : Option (List Mem) :=
  if assertOk union prev cur then fieldDefinition union cur prevEnd stop else none

/-- Lines 507-539: the fields with their neighbours; `none` if something panics. -/
def definitions (union : Bool) (size : Nat) : Option Bound → List Bound → Option (List Mem)
  | _, [] => some []
  | prev, cur :: rest => do
    let ms ← checkedDefinition union prev cur ((prev.bind (·.stop)).getD cur.offset)
      ((cur.stop.or (rest.head?.map (·.offset))).getD (size * 8))
    let rest ← definitions union size (some cur) rest
    return ms ++ rest

/-- Lines 572-576. -/
def headBytes (r : Record) : Nat := match r.fields with
  | f :: _ => f.offset / 8
  | [] => r.size

/-- Lines 592-594, as tokens (code_snippet.rs lines 579-587). -/
def headPadding (r : Record) : List Mem :=
  if headBytes r > 0 ∨ ¬ (r.aggregate ∨ r.union) then [⟨.nonField, headBytes r, 1⟩] else []

/-- Lines 305, 358: a bitfield or an opaque field sets `override_alignment`. -/
def erased (b : Bound) : Bool := match b.ir with
  | none => true
  | some f => f.known.isNone

/-- The generated type: its members and the argument of `repr(align)`, lines 498, 813-821 and code_snippet.rs lines 565-600.
Lifetime markers, of size 0 and alignment 1, are left out. -/
structure RustType where
  mems : List Mem
  align : Option Nat
  union : Bool

def generate (r : Record) : Option RustType := do
  let ms ← definitions r.union r.size none (bounds r)
  let override := r.overrideAlign || (bounds r).any erased
  let mems := if r.threadSafe then [⟨.nonField, r.size, 1⟩] else headPadding r ++ ms
  return ⟨mems, if (override || r.threadSafe) && decide (r.align > 1) then some r.align else none, r.union⟩

/-- The offsets of `Assertion::FieldOffsets`, lines 541-560, 901-902; `none` if the assertion `offset % 8 == 0` panics. -/
def fieldOffsets (r : Record) : Option (List (Field × Nat)) := do
  let l ← ((bounds r).filterMap (·.ir)).mapM fun f => if f.offset % 8 = 0 then some (f, f.offset / 8) else none
  return if r.threadSafe then [] else l

end Verif.Layout

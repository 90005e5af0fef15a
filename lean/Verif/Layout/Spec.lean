import Verif.Layout.Model
/-
C56-C58: specification. The layout of `repr(C)` types, and what is assumed of a C++ record.
-/
namespace Verif.Layout

/-- The least multiple of `a` that is at least `n`. -/
def up (n a : Nat) : Nat := (n + a - 1) / a * a

/-- `repr(C)` structs: members in order, each at the next multiple of its alignment. -/
def place : Nat → List Mem → List (Mem × Nat) × Nat
  | pos, [] => ([], pos)
  | pos, m :: ms =>
    let off := up pos m.align
    let (l, e) := place (off + m.size) ms
    ((m, off) :: l, e)

def maxAlign (ms : List Mem) : Nat := ms.foldr (fun m a => max m.align a) 1
def maxSize (ms : List Mem) : Nat := ms.foldr (fun m a => max m.size a) 0

/-- `align_of`. -/
def RustType.alignOf (t : RustType) : Nat := max (maxAlign t.mems) (t.align.getD 1)

/-- `offset_of` for each member. -/
def RustType.offsets (t : RustType) : List (Mem × Nat) := if t.union then t.mems.map fun m => (m, 0) else (place 0 t.mems).1

/-- `size_of`. -/
def RustType.sizeOf (t : RustType) : Nat := up (if t.union then maxSize t.mems else (place 0 t.mems).2) t.alignOf

/-- The members for fields. -/
def RustType.fieldsAt (t : RustType) : List (Field × Nat × Nat) :=
  t.offsets.filterMap fun (m, off) => match m.tag with
    | .field f => some (f, off, m.size)
    | _ => none

/-- The fields of a record that have a member of their own. -/
def ownFields (r : Record) : List Field := r.fields.filter fun f => decide (f.size ≠ 0) && !f.bitfield

/-- The generated type has the size and alignment of the record, and every field that is no bitfield and not empty is a member
at its C++ offset; if its type is known the member has the size of the field. -/
structure Matches (r : Record) (t : RustType) : Prop where
  size : t.sizeOf = r.size
  align : t.alignOf = r.align
  fields : t.fieldsAt.map (fun x => (x.1, x.2.1)) = (ownFields r).map fun f => (f, f.offset / 8)
  sizes : ∀ x ∈ t.fieldsAt, x.1.known.isSome = true → 8 * x.2.2 = x.1.size

/-- What is assumed of each field. -/
structure FieldOk (align : Nat) (f : Field) : Prop where
  byte : f.bitfield = false → f.offset % 8 = 0
  known : ∀ a, f.known = some a → f.bitfield = false → f.size % 8 = 0 ∧ 0 < a ∧ a ≤ align ∧ a ∣ f.offset / 8

/-- Neighbours: only the tail of an opaque field may be used by its successor; bitfields start in a new byte unless they follow
a bitfield; what is known is at the first aligned byte. -/
structure Next (f g : Field) : Prop where
  order : (if f.known.isSome then f.offset + f.size else f.offset + 1) ≤ g.offset
  start : f.bitfield = false → g.offset % 8 = 0
  natural : ∀ a, g.known = some a → g.bitfield = false → f.known.isSome = true → g.offset = 8 * up (bytes (f.offset + f.size)) a

def Pairs (P : Field → Field → Prop) : List Field → Prop
  | a :: b :: l => P a b ∧ Pairs P (b :: l)
  | _ => True

/-- The first field of the record, empty or not, tells where the fields start (after the bases). -/
def FirstOk : List Field → List Field → Prop
  | [], _ => True
  | _ :: _, [] => False
  | g :: _, f :: _ => if f.bitfield = false ∧ f.known.isSome = true then ∃ a, f.known = some a ∧ f.offset = 8 * up (g.offset / 8) a else
    f.offset % 8 = 0 ∧ g.offset / 8 = f.offset / 8

/-- What is assumed of a struct; `fs` are its fields that are not empty. -/
structure StructOk (r : Record) (fs : List Field) : Prop where
  nonempty : fs = r.fields.filter fun f => f.size ≠ 0
  struct : r.union = false
  each : ∀ f ∈ fs, FieldOk r.align f
  next : Pairs Next fs
  first : FirstOk r.fields fs
  /-- The record ends with its last field, up to alignment; an opaque field begins before the end. -/
  last : ∀ f, fs.getLast? = some f →
    if f.known.isSome then r.size = up (bytes (f.offset + f.size)) r.align else f.offset < r.size * 8
  size : 0 < r.align ∧ r.align ∣ r.size
  /-- Alignment comes from the fields unless there are bitfields, opaque fields or an explicit alignment. -/
  align : r.overrideAlign = false → (∀ f ∈ fs, f.bitfield = false ∧ f.known.isSome) →
    (fs = [] ∧ r.align = 1) ∨ ∃ f ∈ fs, f.known = some r.align

/-- The most bytes a field of the list needs. -/
def mostBytes (fs : List Field) : Nat := fs.foldr (fun f n => max (bytes f.size) n) 0

/-- What is assumed of a union. -/
structure UnionOk (r : Record) : Prop where
  union : r.union = true
  start : ∀ f ∈ r.fields, f.offset = 0
  known : ∀ f ∈ r.fields, f.bitfield = false → ∀ a, f.known = some a → f.size % 8 = 0 ∧ 0 < a ∧ a ≤ r.align
  /-- A bitfield is no wider than its type, which the union is aligned to. -/
  bits : ∀ f ∈ r.fields, f.bitfield = true → bytes f.size ≤ r.align
  size : if r.fields = [] then r.align ∣ r.size else (∃ f ∈ r.fields, f.size ≠ 0) ∧ r.size = up (mostBytes r.fields) r.align
  pos : 0 < r.align
  /-- Alignment comes from the fields unless there are bitfields, opaque fields or an explicit alignment. -/
  align : r.overrideAlign = false → (∀ f ∈ r.fields, f.size ≠ 0 → f.bitfield = false ∧ f.known.isSome = true) →
    (r.fields = [] ∧ r.align = 1) ∨ ∃ f ∈ r.fields, f.size ≠ 0 ∧ f.known = some r.align

/-! The layout of C++ classes, by the Itanium ABI, for fields that take space. -/

/-- A declaration of a field. Sizes and alignments in bytes; `known` as in `Field`. -/
inductive Decl
  /-- A field of a type with this size and alignment. -/
  | field (size align : Nat) (known : Bool)
  /-- `[[no_unique_address]]`: what follows may use the tail padding, after `dsize` bytes. -/
  | reuse (dsize align : Nat)
  /-- A bitfield of `width` bits of an integer type with `unit` bytes; without a name it does not align the class. -/
  | bits (width unit : Nat) (known named : Bool)

def Decl.ok : Decl → Prop
  | .field s a _ => 0 < s ∧ 0 < a
  | .reuse d a => 0 < d ∧ 0 < a
  | .bits w u _ _ => 0 < w ∧ w ≤ 8 * u

def Decl.align : Decl → Nat
  | .field _ a _ => a
  | .reuse _ a => a
  | .bits _ u _ named => if named then u else 1

/-- The field, if the fields before end at bit `pos`: at the next multiple of the alignment; a bitfield directly at `pos` unless it
would cross a unit. -/
def Decl.at : Decl → Nat → Field
  | .field s a k, pos => ⟨8 * up (bytes pos) a, 8 * s, false, if k then some a else none⟩
  | .reuse d a, pos => ⟨8 * up (bytes pos) a, 8 * up d a, false, none⟩
  | .bits w u k _, pos => ⟨if pos % (8 * u) + w > 8 * u then up pos (8 * u) else pos, w, true, if k then some u else none⟩

/-- Where the field ends for what follows. -/
def Decl.stop : Decl → Nat → Nat
  | .reuse d a, pos => 8 * (up (bytes pos) a + d)
  | d, pos => (d.at pos).offset + (d.at pos).size

def layout : Nat → List Decl → List Field × Nat
  | pos, [] => ([], pos)
  | pos, d :: ds => (d.at pos :: (layout (d.stop pos) ds).1, (layout (d.stop pos) ds).2)

/-- A class: `base` bytes for bases and vtable pointer, aligned to `baseAlign` (which includes `alignas` on the class);
`override` if there is any of these. -/
structure Class where
  base : Nat
  baseAlign : Nat
  override : Bool
  decls : List Decl
  aggregate : Bool

structure Class.Ok (c : Class) : Prop where
  decls : ∀ d ∈ c.decls, d.ok
  pos : 0 < c.baseAlign
  plain : c.override = false → c.base = 0 ∧ c.baseAlign = 1

def Class.align (c : Class) : Nat := c.decls.foldr (fun d a => max d.align a) c.baseAlign

/-- The record in the IR; a class takes at least one byte. -/
def Class.record (c : Class) : Record where
  fields := (layout (8 * c.base) c.decls).1
  size := up (max 1 (bytes (layout (8 * c.base) c.decls).2)) c.align
  align := c.align
  union := false
  overrideAlign := c.override
  aggregate := c.aggregate
  threadSafe := false

end Verif.Layout

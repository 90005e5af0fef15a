/-!
# Memory, rustc's enum layouts and the tag accessors generated for
`rs_std::Option<T>` and `rs_std::Result<T, E>`

`RsStd.Layout` describes what `tcx.layout_of` returns for a two-variant enum whose variants have
at most one field; `rustVariant` is rustc's rule for reading the variant from memory.  These two
are the specification side (they are facts about rustc, not about this repository).  `cppTag` and
`cppSetTag` are the accessors that crubit generates.
-/
namespace Verif.RsStd

abbrev Byte := Fin 256

/-- The bytes of one object, by offset from its start (`unsigned char storage_[size]`;
generate_template_specialization.rs:1542). -/
abbrev Mem := Nat → Byte

/-- The object representation of a payload value. -/
abbrev Val := List Byte

/-- `rustc_abi::Endian` (used at generate_template_specialization.rs:1378-1382). -/
inductive Endian | little | big
  deriving DecidableEq

/-- `n` bytes from offset `o`. -/
def rd (m : Mem) (o n : Nat) : List Byte := (List.range n).map fun i => m (o + i)

/-- Store the bytes `bs` from offset `o`. -/
def wr (m : Mem) (o : Nat) (bs : List Byte) : Mem :=
  fun a => if o ≤ a then (bs[a - o]?).getD (m a) else m a

/-- The unsigned number whose least significant byte comes first. -/
def leVal : List Byte → Nat
  | [] => 0
  | b :: bs => b.val + 256 * leVal bs

/-- The `n` least significant bytes of `v`, least significant first. -/
def leBytes : Nat → Nat → List Byte
  | 0, _ => []
  | n + 1, v => (⟨v % 256, Nat.mod_lt _ (by decide)⟩ : Byte) :: leBytes n (v / 256)

/-- How the machine reads an integer stored in `bs` (also `std::bit_cast` from bytes). -/
def native : Endian → List Byte → Nat
  | .little, bs => leVal bs
  | .big, bs => leVal bs.reverse

/-- How the machine stores an integer in `n` bytes (also `std::bit_cast` to bytes). -/
def toNative : Endian → Nat → Nat → List Byte
  | .little, n, v => leBytes n v
  | .big, n, v => (leBytes n v).reverse

/-! ## What rustc says about the enum -/

/-- `rustc_abi::TagEncoding` (matched at generate_template_specialization.rs:1419, 1457, 1197, 1212). -/
inductive Enc
  | direct
  | niche (start first last untagged : Nat)

/-- What matters of a payload type.  `valid` says which byte strings are values of the type.
`mv v` is the value a C++ move construction from `v` yields and the value it leaves behind;
`clone v` is a copy. -/
structure Ty where
  size : Nat
  valid : Val → Bool
  /-- the type has a destructor that does something (`needs_drop`) -/
  hasDtor : Bool
  /-- `T(UnsafeRelocateTag{}, std::move(x))` is well formed -/
  relocatable : Bool
  moveConstructible : Bool
  moveAssignable : Bool
  unpin : Bool
  copyable : Bool
  mv : Val → Val × Val
  clone : Val → Val

/-- `tcx.layout_of` of a two-variant enum; `off v` and `ty v` are about field 0 of variant `v`
(for a variant without fields `ty v` has size 0). -/
structure Layout where
  size : Nat
  tagOff : Nat
  tagSize : Nat
  enc : Enc
  off : Nat → Nat
  ty : Nat → Ty

/-- The number rustc stores for the tagged variant `v`, in the tag's width
(`niche_start + (v - niche_variants.start)`, truncated; rustc's `codegen_set_discr`). -/
def Layout.nicheVal (L : Layout) (start first v : Nat) : Nat :=
  (start + (v - first)) % 256 ^ L.tagSize

/-- The variant rustc reads from memory (`codegen_get_discr`); `none`: no variant. -/
def rustVariant (e : Endian) (L : Layout) (m : Mem) : Option Nat :=
  let t := native e (rd m L.tagOff L.tagSize)
  match L.enc with
  | .direct => if t < 2 then some t else none
  | .niche start first last untagged =>
    let w := 256 ^ L.tagSize
    let rel := (t + (w - start % w)) % w
    if rel ≤ last - first then some (first + rel) else some untagged

/-- `m` is how rustc represents variant `v` with payload `x`. -/
def RustEnc (e : Endian) (L : Layout) (m : Mem) (v : Nat) (x : Val) : Prop :=
  rustVariant e L m = some v ∧ rd m (L.off v) (L.ty v).size = x ∧ (L.ty v).valid x = true

/-- Ranges `[a, a+n)` and `[b, b+k)` have no byte in common. -/
def Disjoint (a n b k : Nat) : Prop := a + n ≤ b ∨ b + k ≤ a ∨ n = 0 ∨ k = 0

/-- What rustc guarantees about the layout of a two-variant enum (both inhabited). -/
structure Layout.WF (e : Endian) (L : Layout) : Prop where
  tagPos : 0 < L.tagSize
  tagIn : L.tagOff + L.tagSize ≤ L.size
  payIn : ∀ v, v < 2 → L.off v + (L.ty v).size ≤ L.size
  len : ∀ v, v < 2 → ∀ x, (L.ty v).valid x = true → x.length = (L.ty v).size
  /-- moving and copying produce values of the type -/
  mvOk : ∀ v, v < 2 → ∀ x, (L.ty v).valid x = true →
    (L.ty v).valid ((L.ty v).mv x).1 = true ∧ (L.ty v).valid ((L.ty v).mv x).2 = true
  cloneOk : ∀ v, v < 2 → ∀ x, (L.ty v).valid x = true → (L.ty v).valid ((L.ty v).clone x) = true
  /-- a direct tag has its own bytes -/
  direct : L.enc = .direct → ∀ v, v < 2 → Disjoint L.tagOff L.tagSize (L.off v) (L.ty v).size
  /-- With a niche, one variant is tagged and the other one is not; the untagged one starts at
  offset 0 and no value of it has the niche's number in the tag bytes; the tagged one has its
  payload beside the tag. -/
  niche : ∀ s f l u, L.enc = .niche s f l u →
    f = l ∧ f < 2 ∧ u < 2 ∧ u ≠ f ∧ L.off u = 0 ∧
    L.tagOff + L.tagSize ≤ (L.ty u).size ∧
    Disjoint L.tagOff L.tagSize (L.off f) (L.ty f).size ∧
    ∀ x, (L.ty u).valid x = true →
      native e ((x.drop L.tagOff).take L.tagSize) ≠ s % 256 ^ L.tagSize

/-! ## The generated tag accessors -/

/-- `endian_index` / `byte_index_read` / `byte_index_write`
(generate_template_specialization.rs:1379-1382, 1126-1133). -/
def endianIndex (e : Endian) (n i : Nat) : Nat :=
  match e with
  | .little => i
  | .big => n - 1 - i

/-- The generated `tag()` (generate_template_specialization.rs:1390-1396 for Option, 1141-1147 for
Result): a loop that fills `__bytes`, then `bit_cast`. -/
def cppTag (e : Endian) (off n : Nat) (m : Mem) : Nat :=
  native e ((List.range n).foldl (fun bytes i => bytes.set (endianIndex e n i) (m (off + i)))
    (List.replicate n (0 : Byte)))

/-- The generated `set_tag(tag)` (generate_template_specialization.rs:1398-1403 for Option,
1149-1154 for Result): `bit_cast`, then a loop that stores byte by byte. -/
def cppSetTag (e : Endian) (off n : Nat) (m : Mem) (t : Nat) : Mem :=
  let bytes := toNative e n t
  (List.range n).foldl
    (fun m i => wr m (off + i) [(bytes[endianIndex e n i]?).getD 0]) m

/-- `literal_of_tag_ty` (generate_template_specialization.rs:442-454): `truncate_from_uint`.  The
C++ literal's text is not modelled here; its value is taken modulo the tag's width. -/
def literalOfTagTy (n v : Nat) : Nat := v % 256 ^ n

end Verif.RsStd

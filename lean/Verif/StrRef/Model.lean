/-
Model of support/rs_std/internal/is_utf8.h, support/rs_std/str_ref.h and support/rs_std/slice_ref.h.

A `std::string_view` is the list of its bytes as `unsigned char` values (natural numbers; the theorems
assume they are < 256). Pointers are addresses (0 is `nullptr`).
-/
namespace Verif.StrRef

/-- `IsAscii(char)`, is_utf8.h lines 54-59. -/
def isAsciiChar (c : Nat) : Bool := c ≤ 0x7f

/-- `IsAscii(string_view)`, is_utf8.h lines 62-69. -/
def isAscii : List Nat → Bool
  | [] => true
  | c :: str => if !isAsciiChar c then false else isAscii str

/-- `kFirstByteToUtf8CharSize`, is_utf8.h lines 77-95 (rows 0-7: 1; rows 8-B: 0; row C: two 0 then 2;
row D: 2; row E: 3; row F: five 4 then 0). -/
def firstByteToUtf8CharSize : List Nat :=
  List.replicate 128 1 ++ List.replicate 64 0 ++ ([0, 0] ++ List.replicate 14 2) ++ List.replicate 16 2 ++
  List.replicate 16 3 ++ (List.replicate 5 4 ++ List.replicate 11 0)

/-- a byte outside 0x80..0xBF -/
def notTail (b : Nat) : Bool := b < 0x80 || b > 0xBF

/-- `case 1` of `IsUtf8Char`, is_utf8.h lines 181-189. -/
def case1 (first : Nat) : Bool :=
  if first ≥ 0x80 && first < 0xC2 then false
  else if first > 0xF4 then false
  else true

/-- `case 2` (falls through to `case 1`), is_utf8.h lines 145-180. -/
def case2 (first second : Nat) : Bool :=
  if notTail second then false
  else if first = 0xE0 then (if second < 0xA0 then false else case1 first)
  else if first = 0xED then (if second > 0x9F then false else case1 first)
  else if first = 0xF0 then (if second < 0x90 then false else case1 first)
  else if first = 0xF4 then (if second > 0x8F then false else case1 first)
  else (if second < 0x80 then false else case1 first)

/-- `case 3` (falls through), is_utf8.h lines 138-144. -/
def case3 (first second third : Nat) : Bool := if notTail third then false else case2 first second

/-- `case 4` (falls through), is_utf8.h lines 131-137. -/
def case4 (first second third fourth : Nat) : Bool := if notTail fourth then false else case3 first second third

/-- `IsUtf8Char`, is_utf8.h lines 101-192. -/
def isUtf8Char : List Nat → Bool
  | [a] => case1 a
  | [a, b] => case2 a b
  | [a, b, c] => case3 a b c
  | [a, b, c, d] => case4 a b c d
  | _ => false

/-- The loop of `IsUtf8`, is_utf8.h lines 200-213. The fuel is the number of iterations; `none` means the
loop has not ended yet (the theorems show that the length of the string suffices). -/
def isUtf8Loop : Nat → List Nat → Option Bool
  | _, [] => some true
  | 0, _ :: _ => none
  | fuel + 1, c :: str =>
    let charSize := firstByteToUtf8CharSize.getD c 0
    if charSize > (c :: str).length then some false
    else if !isUtf8Char ((c :: str).take charSize) then some false
    else isUtf8Loop fuel ((c :: str).drop charSize)

/-- `IsUtf8`, is_utf8.h lines 195-214. -/
def isUtf8 (str : List Nat) (fuel : Nat) : Option Bool :=
  if isAscii str then some true else isUtf8Loop fuel str

/-- `SliceRef<T>`, slice_ref.h lines 160-171: the union (pointer or dangling pointer, as one word) and the
size. -/
structure Slice where
  word : Nat
  size : Nat
deriving DecidableEq, Repr

/-- The default constructor, slice_ref.h line 41 (`align` = `alignof(T)`). -/
def Slice.default (align : Nat) : Slice := ⟨align, 0⟩

/-- The primary constructor `SliceRef(T* ptr, size_t size)`, slice_ref.h lines 45-50 (all other constructors
delegate to it). -/
def Slice.new (align ptr size : Nat) : Slice :=
  let size_ := if ptr = 0 then 0 else size
  if size_ > 0 then ⟨ptr, size_⟩ else ⟨align, size_⟩

/-- `data()`, slice_ref.h line 150. -/
def Slice.data (s : Slice) : Nat := if s.size > 0 then s.word else 0

/-- `operator std::span<T>` / `to_span`, slice_ref.h lines 139-141, 153-155: (pointer, size). -/
def Slice.toSpan (s : Slice) : Nat × Nat := (if s.size > 0 then s.word else 0, s.size)

/-- Memory seen as elements of `T`: what `*(p + i)` reads, as a function of the base pointer and index. -/
abbrev Mem (T : Type) := Nat → Nat → T

/-- `std::equal(a, a + n, b)`. -/
def stdEqual {T : Type} [DecidableEq T] (m : Mem T) (a b : Nat) : Nat → Nat → Bool
  | _, 0 => true
  | i, n + 1 => if m a i = m b i then stdEqual m a b (i + 1) n else false

/-- `EqualImpl`, slice_ref.h lines 174-178. -/
def Slice.equalImpl {T : Type} [DecidableEq T] (m : Mem T) (a b : Slice) : Bool :=
  if a.size ≠ b.size then false else stdEqual m a.data b.data 0 a.size

/-- `StrRef::FromUtf8`, str_ref.h lines 53-59 and 143-144: the slice over the view, or nullopt. The view is
(pointer, bytes). -/
def fromUtf8 (ptr : Nat) (bytes : List Nat) : Option Slice :=
  match isUtf8 bytes bytes.length with
  | some true => some (Slice.new 1 ptr bytes.length)
  | _ => none

end Verif.StrRef

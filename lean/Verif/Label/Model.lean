import Verif.Common.Utf8
/-
Model of rs_bindings_from_cc/bazel_label.rs.  A `str` is its list of characters (`Char` = Unicode
scalar value, as in Rust); its bytes are the UTF-8 encoding.
-/
namespace Verif.Label
open Verif.Utf8

abbrev Str := List Char

/-- std: `s.bytes()`. -/
def bytes (s : Str) : List Nat := encodeAll (s.map Char.toNat)

/-- std: `str::split_once(c)`: at the first occurrence. -/
def splitOnce (c : Char) : Str → Option (Str × Str)
  | [] => none
  | x :: xs => if x = c then some ([], xs) else (splitOnce c xs).map fun (a, b) => (x :: a, b)

/-- std: `str::rsplit_once(c)`: at the last occurrence. -/
def rsplitOnce (c : Char) : Str → Option (Str × Str)
  | [] => none
  | x :: xs =>
    match rsplitOnce c xs with
    | some (a, b) => some (x :: a, b)
    | none => if x = c then some ([], xs) else none

/-- `target_name`, lines 20-28. -/
def targetName (l : Str) : Str :=
  match splitOnce ':' l with
  | some (_, t) => t
  | none =>
    match rsplitOnce '/' l with
    | some (_, c) => c
    | none => l

/-- `package_name`, lines 30-32. -/
def packageName (l : Str) : Str := ((rsplitOnce ':' l).getD (l, [])).1

/-- `last_package_component`, lines 34-36. -/
def lastPackageComponent (l : Str) : Str := ((rsplitOnce '/' (packageName l)).getD ([], [])).2

/-- std: `char::is_ascii_alphanumeric`. -/
def isAsciiAlnum (c : Char) : Bool :=
  ('0' ≤ c && c ≤ '9') || ('a' ≤ c && c ≤ 'z') || ('A' ≤ c && c ≤ 'Z')

/-- `target_name_escaped`, lines 45-53. `isNumeric` is `char::is_numeric` (Unicode tables not
modelled; the theorems assume only that it holds on ASCII digits). -/
def targetNameEscaped (isNumeric : Char → Bool) (l : Str) : Str :=
  let targetName := targetName l
  let targetName :=
    if targetName = "core".toList then "core_".toList ++ lastPackageComponent l
    else
      match targetName with
      | c :: _ => if isNumeric c then 'n' :: targetName else targetName
      | [] => targetName
  targetName.map fun c => if isAsciiAlnum c then c else '_'

/-- std: lowercase hexadecimal digit. -/
def hexDigit (n : Nat) : Char := if n < 10 then Char.ofNat (48 + n) else Char.ofNat (87 + n)

/-- One iteration of the loop of `convert_to_cc_identifier`, lines 67-73 (`{b:02x}`). -/
def escapeByte (b : Nat) : List Char :=
  if isAsciiAlnum (Char.ofNat b) then [Char.ofNat b] else ['_', hexDigit (b / 16), hexDigit (b % 16)]

/-- `convert_to_cc_identifier`, lines 60-85. -/
def convertToCcIdentifier (l : Str) : List Char := '_' :: (bytes l).flatMap escapeByte

/-- `components`, lines 87-89. -/
def components (l : Str) : Str × Str := (targetName l, packageName l)

/-- `PartialEq::eq`, lines 92-96. -/
def eq (a b : Str) : Bool := decide (components a = components b)

/-- std: lexicographic comparison of byte slices (`str::cmp`). -/
def cmpBytes : List Nat → List Nat → Ordering
  | [], [] => .eq
  | [], _ :: _ => .lt
  | _ :: _, [] => .gt
  | a :: as, b :: bs => if a < b then .lt else if b < a then .gt else cmpBytes as bs

/-- `Ord::cmp`, lines 104-108: lexicographic comparison of the pair of `&str`. -/
def cmp (a b : Str) : Ordering :=
  match cmpBytes (bytes (components a).1) (bytes (components b).1) with
  | .eq => cmpBytes (bytes (components a).2) (bytes (components b).2)
  | o => o

/-- `Hash::hash`, lines 110-114: what is fed to the hasher (std: the bytes of each `str` followed by
0xff). -/
def hashInput (a : Str) : List Nat := bytes (components a).1 ++ [0xff] ++ (bytes (components a).2 ++ [0xff])

/-- `Display::fmt`, lines 122-131. -/
def display (l : Str) : Str :=
  let p := "//_unknown_target:".toList
  if p.isPrefixOf l then l.drop p.length else l

end Verif.Label

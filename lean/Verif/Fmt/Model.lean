/-!
# Format strings given at run time

Models `/repo/common/dyn_format.rs`. Strings are lists of characters, the number of
variables is the length of the list of names.
-/
namespace Verif.Fmt

/-- `Fragment`, /repo/common/dyn_format.rs lines 18-24. -/
inductive Frag where
  | str (s : List Char)
  | var (i : Nat)
deriving DecidableEq

/-- What `parse_with_metavars` fails with, lines 54-57, 61, 66-71 (the format string quoted in
the messages is left out). `fuel` is no failure of the code: it stands for a loop that does not
end. -/
inductive Err where
  | unmatchedClose
  | unmatchedOpen
  | unknown (name : List Char)
  | fuel
deriving DecidableEq

/-- Rust's `char::is_whitespace` (Unicode `White_Space`), used by `trim` on line 63. -/
def isWs (c : Char) : Bool :=
  let n := c.toNat
  (9 ≤ n && n ≤ 13) || n == 32 || n == 0x85 || n == 0xA0 || n == 0x1680 ||
    (0x2000 ≤ n && n ≤ 0x200A) || n == 0x2028 || n == 0x2029 || n == 0x202F ||
    n == 0x205F || n == 0x3000

/-- `str::trim`, used on line 63. -/
def trim (s : List Char) : List Char :=
  ((s.dropWhile isWs).reverse.dropWhile isWs).reverse

/-- `push_str`, lines 39-45. -/
def pushStr (fs : List Frag) (s : List Char) : List Frag :=
  match fs.getLast? with
  | some (.str t) => fs.dropLast ++ [.str (t ++ s)]
  | _ => fs ++ [.str s]

/-- The pattern of `find(&['{', '}'])`, line 47. -/
def brace (c : Char) : Bool := c == '{' || c == '}'

/-- The loop of `parse_with_metavars`, lines 47-78; the first argument bounds the number of
rounds. -/
def loop (names : List (List Char)) : Nat → List Frag → List Char → Except Err (List Frag)
  | 0, _, _ => .error .fuel
  | n + 1, fs, s =>
    let pre := s.takeWhile fun c => !brace c
    match s.dropWhile fun c => !brace c with
    | [] => .ok (if s.isEmpty then fs else pushStr fs s)
    | '{' :: '{' :: r => loop names n (pushStr fs (pre ++ ['{'])) r
    | '}' :: '}' :: r => loop names n (pushStr fs (pre ++ ['}'])) r
    | '}' :: _ => .error .unmatchedClose
    | _ :: r =>
      let fs := pushStr fs pre
      let inner := r.takeWhile fun c => c != '}'
      match r.dropWhile fun c => c != '}' with
      | [] => .error .unmatchedOpen
      | _ :: r =>
        match names.findIdx? fun x => x == trim inner with
        | none => .error (.unknown (trim inner))
        | some i => loop names n (fs ++ [.var i]) r

/-- `parse_with_metavars`, lines 31-80. -/
def parse (names : List (List Char)) (s : List Char) : Except Err (List Frag) :=
  loop names (s.length + 1) [] s

/-- `format`, lines 92-102; `none` is a panic from `args[*i]`. -/
def format (args : List (List Char)) : List Frag → Option (List Char)
  | [] => some []
  | .str s :: fs => (format args fs).map fun r => s ++ r
  | .var i :: fs =>
    match args[i]? with
    | none => none
    | some a => (format args fs).map fun r => a ++ r

end Verif.Fmt

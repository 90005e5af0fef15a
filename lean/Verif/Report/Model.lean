import Verif.Report.Spec

/-
Model of common/error_report.rs: `FormattedError` (54-115), `ItemScope` (247-263), `hide_unstable_details` (278-286),
`ErrorReport` (290-466) and `FatalErrors` (505-540).

Simplified: a map is a function; JSON is not modelled; strings are lists of characters; `none` is a panic.
-/

namespace Verif.Report

/-! ### `FormattedError` -/

/-- `FormattedError` (error_report.rs:56-66) -/
structure Formatted where
  fmt : Str
  full : Str
deriving DecidableEq

/-- `FormattedError::new` (error_report.rs:69-74) -/
def Formatted.new (fmt full : Str) : Formatted := ⟨fmt, if full = fmt then [] else full⟩

/-- `Display` (error_report.rs:105-113) -/
def Formatted.display (e : Formatted) : Str := if e.full.isEmpty then e.fmt else e.full

/-- `new_static` (error_report.rs:76-84): the format string and the result of formatting -/
def Formatted.newStatic (fmt msg : Str) : Formatted := .new fmt msg

/-- `new_dynamic` (error_report.rs:86-93) -/
def Formatted.newDynamic (msg : Str) : Formatted := .new msg []

/-! ### `hide_unstable_details` -/

/-- `\d+`, greedy: what follows -/
def digits (digit : Char → Bool) : Str → Option Str
  | [] => none
  | c :: s => if digit c then some (s.dropWhile digit) else none

/-- A literal -/
def literal : Str → Str → Option Str
  | [], s => some s
  | _ :: _, [] => none
  | a :: l, c :: s => if a = c then literal l s else none

/-- The first expression (error_report.rs:280), at the beginning: what follows -/
def defId (digit : Char → Bool) (s : Str) : Option Str := do
  let s ← literal ['D', 'e', 'f', 'I', 'd', '('] s
  let s ← digits digit s
  let s ← literal [':'] s
  let s ← digits digit s
  literal [' ', '~', ' '] s

def isHex (c : Char) : Bool := ('0' ≤ c && c ≤ '9') || ('a' ≤ c && c ≤ 'f') || ('A' ≤ c && c ≤ 'F')

/-- The second expression (error_report.rs:284), at the beginning: what follows -/
def hash : Str → Option Str
  | '[' :: a :: b :: c :: d :: ']' :: s => if isHex a && isHex b && isHex c && isHex d then some s else none
  | _ => none

/-- `replace_all`: matches from left to right; `skip`: characters of a match that are left -/
def replaceAll (m : Str → Option Str) (r : Str) : Nat → Str → Str
  | _, [] => []
  | k + 1, _ :: s => replaceAll m r k s
  | 0, c :: s =>
      match m (c :: s) with
      | some t => r ++ replaceAll m r (s.length - t.length) s
      | none => c :: replaceAll m r 0 s

/-- `hide_unstable_details` (error_report.rs:278-286) -/
def hide (digit : Char → Bool) (s : Str) : Str :=
  replaceAll hash [] 0 (replaceAll (defId digit) ['D', 'e', 'f', 'I', 'd', '('] 0 s)

/-! ### `ErrorReport` -/

/-- `ErrorReportEntry` (error_report.rs:471-496) -/
structure Entry where
  name : Str := []
  errors : List Formatted := []
  category : Nat := 0
  unique : Option Str := none
  target : Option Str := none

/-- `ErrorReport` (error_report.rs:290-301) -/
structure Report where
  map : Nat → Option Entry
  current : Option Item

def Report.empty : Report := ⟨fun _ => none, none⟩

/-- `current_item`, `DEFAULT_ITEM` (error_report.rs:344-355): its number -/
def Report.cur (R : Report) : Nat :=
  match R.current with
  | some i => i.id
  | none => 0

/-- `entry(self.current_item().id).or_insert_with(..)`, changed by `f` -/
def Report.update (R : Report) (f : Entry → Entry) : Report :=
  { R with map := fun n => if n = R.cur then some (f ((R.map n).getD {})) else R.map n }

mutual
/-- `report` (error_report.rs:358-389), with `root_cause` -/
def Report.report (h : Str → Str) (R : Report) : Err → Report
  | .formatted f m => R.update fun e => { e with errors := e.errors ++ [.new f (h m)] }
  | .list es => R.reportL h es
  | .other m => R.update fun e => { e with errors := e.errors ++ [.new ['{', '}'] (h m)] }
  | .context _ e => R.report h e
def Report.reportL (h : Str → Str) (R : Report) : List Err → Report
  | [] => R
  | e :: es => (R.report h e).reportL h es
end

/-- `enter_item` (error_report.rs:391-416): the old item -/
def Report.enter (R : Report) (i : Item) : Option (Option Item × Report) :=
  match R.map i.id with
  | none =>
      some (R.current, ⟨fun n => if n = i.id then some { name := i.name, unique := i.unique, target := i.target } else R.map n,
        some i⟩)
  | some e => if e.name = i.name then some (R.current, { R with current := some i }) else none

/-- `exit_item` (error_report.rs:427-434) -/
def Report.exit (R : Report) (i : Item) (old : Option Item) : Option Report :=
  if R.current = some i then some { R with current := old } else none

/-- `add_category` (error_report.rs:436-445) -/
def Report.category (R : Report) (c : Nat) : Report := R.update fun e => { e with category := e.category ||| c }

mutual
/-- Calls of a generator; `ItemScope::new` and its destructor (error_report.rs:253-263) -/
def Report.act (h : Str → Str) (R : Report) : Act → Option Report
  | .report e => some (R.report h e)
  | .category c => some (R.category c)
  | .item i body =>
      match R.enter i with
      | none => none
      | some (old, R) =>
          match R.actL h body with
          | none => none
          | some R => R.exit i old
def Report.actL (h : Str → Str) (R : Report) : List Act → Option Report
  | [] => some R
  | a :: as =>
      match R.act h a with
      | none => none
      | some R => R.actL h as
end

/-! ### `FatalErrors` -/

/-- `ReportFatalError::report` (error_report.rs:513-520) -/
def fatalReport (s msg : Str) : Str := s ++ '\n' :: msg ++ ['\n']

/-- `take_string` (error_report.rs:527-529): the string and what is left -/
def fatalTake (s : Str) : Str × Str := (s, [])

/-- `drop` (error_report.rs:532-539): whether it panics -/
def fatalDropPanics (s : Str) : Bool := !s.isEmpty

end Verif.Report

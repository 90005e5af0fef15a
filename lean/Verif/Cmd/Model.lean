import Verif.Cmd.Spec

/-
Model of rs_bindings_from_cc/cmdline.cc: `ParseTargetArgs` (209-258) after the JSON has been read, the checks of `Create` (307-352),
`ExpandParamfiles` (354-400) and `PreprocessTargetArgs` (402-440).

Simplified: maps are functions; the other flags are what `Create` asks about them; strings have no NUL.
-/

namespace Verif.Cmd

/-- The maps in `CmdlineArgs` -/
structure Maps where
  headers : Str → Option Str
  features : Str → List Str
  crates : Str → Option Str

def Maps.empty : Maps := ⟨fun _ => none, fun _ => [], fun _ => none⟩

/-- `try_emplace` and the choice between conflicting targets (cmdline.cc:230-242) -/
def Maps.addHeader (O : Order) (M : Maps) (t h : Str) : Maps :=
  { M with headers := fun x =>
      if x = h then
        match M.headers h with
        | none => some t
        | some t' => if O.lt t t' then some t else some t'
      else M.headers x }

/-- The loop over headers (cmdline.cc:223-243) -/
def Maps.addHeaders (O : Order) (M : Maps) (t : Str) : List Str → Option Maps
  | [] => some M
  | h :: hs => if h = [] then none else (M.addHeader O t h).addHeaders O t hs

/-- The loop over features (cmdline.cc:244-251) -/
def Maps.addFeatures (M : Maps) (t : Str) : List Str → Option Maps
  | [] => some M
  | f :: fs =>
      if f = [] then none
      else Maps.addFeatures { M with features := fun x => if x = t then f :: M.features x else M.features x } t fs

/-- cmdline.cc:252-254 -/
def Maps.addCrate (M : Maps) (t : Str) : Option Str → Maps
  | none => M
  | some c => { M with crates := fun x => if x = t then some c else M.crates x }

/-- The body of the loop of `ParseTargetArgs` (cmdline.cc:216-255) -/
def Maps.addTarget (O : Order) (M : Maps) (a : Target) : Option Maps :=
  if a.t = [] then none
  else
    match M.addHeaders O a.t a.h with
    | none => none
    | some M =>
        match M.addFeatures a.t a.f with
        | none => none
        | some M => some (M.addCrate a.t a.c)

/-- `ParseTargetArgs` (cmdline.cc:209-258) -/
def parseTargets (O : Order) (M : Maps) : List Target → Option Maps
  | [] => some M
  | a :: as =>
      match M.addTarget O a with
      | none => none
      | some M => parseTargets O M as

/-- The flags that `Create` checks -/
structure Flags where
  target : Str
  rsOut : Str
  ccOut : Str
  publicHeaders : List Str
  supportFormat : Str
  hasPlaceholder : Bool
  scanned : List Str
  instantiationsOut : Str

/-- `Cmdline::Create` (cmdline.cc:307-352): no error -/
def create (F : Flags) (M : Maps) : Bool :=
  !F.target.isEmpty && !F.rsOut.isEmpty && !F.ccOut.isEmpty && !F.publicHeaders.isEmpty &&
    (!F.supportFormat.isEmpty && F.hasPlaceholder) && !(F.scanned.isEmpty != F.instantiationsOut.isEmpty) &&
    F.publicHeaders.all fun h => (M.headers h).isSome

/-! ### `ExpandParamfiles` -/

/-- The loop over the contents of a file (cmdline.cc:370-393); `cur`: `next_arg` -/
def readArgs (cur : Str) : Str → List Str
  | [] => if cur.isEmpty then [] else [cur]
  | '\\' :: [] => [cur ++ ['\\']]
  | '\\' :: c :: s => readArgs (cur ++ [c]) s
  | c :: s => if c = '\n' then cur :: readArgs [] s else readArgs (cur ++ [c]) s

/-- `ExpandParamfiles` (cmdline.cc:354-400); `files`: the contents of files, empty if they can not be read. -/
def expand (files : Str → Str) : List Str → List Str
  | [] => []
  | a :: as =>
      match a with
      | '@' :: f => readArgs [] (files f) ++ expand files as
      | a => a :: expand files as

/-! ### `PreprocessTargetArgs` -/

/-- The predicate of `remove_if` (cmdline.cc:419-436), with its variables: the arguments that are kept and the values -/
def scan (isTarget done : Bool) : List Str → List Str × List Str
  | [] => ([], [])
  | a :: as =>
      if done then
        let (k, v) := scan isTarget done as
        (a :: k, v)
      else if isTarget then
        let (k, v) := scan false done as
        (k, a :: v)
      else if a = flag then scan true done as
      else if a = stop then
        let (k, v) := scan isTarget true as
        (a :: k, v)
      else
        let (k, v) := scan isTarget done as
        (a :: k, v)

/-- The string that is built (cmdline.cc:414-415, 423, 437-438) -/
def joinArgs (vs : List Str) : Str :=
  ("--target_args=[".toList ++ vs.flatMap fun v => v ++ [',']).dropLast ++ [']']

/-- `PreprocessTargetArgs` (cmdline.cc:402-440) -/
def preprocess : List Str → List Str
  | [] => []
  | a :: as =>
      if a = flag then
        let (k, v) := scan true false as
        joinArgs v :: k
      else a :: preprocess as

end Verif.Cmd

import Verif.Common.Utf8
/-
Model of `LossyFormatter` (support/rs_std/lossy_formatter.rs).

* Bytes are natural numbers; nothing below assumes they are < 256 (the theorems hold for a superset
  of the real byte strings).
* Panics (`expect`, `assert!`) are the result `none`.
* The underlying `core::fmt::Formatter` is an arbitrary sink: it answers `Ok`/`Err` to every write
  by an oracle that may look at the entire history of writes.  The history is kept in `Fmt.log`.
* `core::str` (`utf8_chunks`, `from_utf8`, `chars().next()`) is not part of the repository; it is
  transcribed from the Rust standard library (`core/src/str/lossy.rs`, `core/src/str/validations.rs`).
-/
namespace Verif.Lossy
open Verif.Utf8

/-- std: `(b as i8) < -64`, i.e. `b & 192 == 128`. -/
def isCont (b : Nat) : Bool := 0x80 ≤ b && b ≤ 0xBF

/-- std: `utf8_char_width` (table `UTF8_CHAR_WIDTH`). -/
def charWidth (b : Nat) : Nat :=
  if b < 0x80 then 1
  else if 0xC2 ≤ b && b ≤ 0xDF then 2
  else if 0xE0 ≤ b && b ≤ 0xEF then 3
  else if 0xF0 ≤ b && b ≤ 0xF4 then 4
  else 0

/-- std: the `match (first, second)` of the 3-byte case. -/
def second3 (a b : Nat) : Bool :=
  (a == 0xE0 && (0xA0 ≤ b && b ≤ 0xBF)) || ((0xE1 ≤ a && a ≤ 0xEC) && (0x80 ≤ b && b ≤ 0xBF)) ||
  (a == 0xED && (0x80 ≤ b && b ≤ 0x9F)) || ((0xEE ≤ a && a ≤ 0xEF) && (0x80 ≤ b && b ≤ 0xBF))

/-- std: the `match (first, second)` of the 4-byte case. -/
def second4 (a b : Nat) : Bool :=
  (a == 0xF0 && (0x90 ≤ b && b ≤ 0xBF)) || ((0xF1 ≤ a && a ≤ 0xF3) && (0x80 ≤ b && b ≤ 0xBF)) ||
  (a == 0xF4 && (0x80 ≤ b && b ≤ 0x8F))

/-- std: `safe_get(xs, i)`. -/
def safeGet (xs : List Nat) (i : Nat) : Nat := xs.getD i 0

/-- std: one iteration of the loop of `Utf8Chunks::next` on the remaining source: how far `i`
advances, and whether the sequence was complete (`valid_up_to = i`) or the loop breaks. -/
def scan1 (src : List Nat) : Nat × Bool :=
  let a := safeGet src 0
  match charWidth a with
  | 1 => (1, true)
  | 2 => if isCont (safeGet src 1) then (2, true) else (1, false)
  | 3 => if second3 a (safeGet src 1) then
           if isCont (safeGet src 2) then (3, true) else (2, false)
         else (1, false)
  | 4 => if second4 a (safeGet src 1) then
           if isCont (safeGet src 2) then
             if isCont (safeGet src 3) then (4, true) else (3, false)
           else (2, false)
         else (1, false)
  | _ => (1, false)

theorem scan1_pos (src : List Nat) : 1 ≤ (scan1 src).1 := by
  unfold scan1; simp only; (repeat' split) <;> simp

/-- A `Utf8Chunk`. -/
structure Chunk where
  valid : List Nat
  invalid : List Nat

/-- std: `Utf8Chunks::next` on a source (the caller checks that it is not empty): the chunk and the
remaining source. -/
def nextChunk (src : List Nat) : Chunk × List Nat :=
  if h : src = [] then (⟨[], []⟩, []) else
    let s := scan1 src
    if s.2 then
      let r := nextChunk (src.drop s.1)
      (⟨src.take s.1 ++ r.1.valid, r.1.invalid⟩, r.2)
    else (⟨[], src.take s.1⟩, src.drop s.1)
termination_by src.length
decreasing_by
  have := scan1_pos src
  have : src.length ≠ 0 := by simpa using h
  simp only [List.length_drop]
  omega

theorem nextChunk_rest_le (src : List Nat) : (nextChunk src).2.length ≤ src.length := by
  induction src using nextChunk.induct with
  | case1 => simp [nextChunk]
  | case2 src h s hs ih =>
    rw [nextChunk]
    simp only [h, dite_false, hs, if_true, s] at ih ⊢
    simp only [List.length_drop] at ih
    omega
  | case3 src h s hs =>
    rw [nextChunk]
    simp [h, hs, s]

theorem nextChunk_rest_lt (src : List Nat) (h : src ≠ []) : (nextChunk src).2.length < src.length := by
  have hp := scan1_pos src
  have hl : src.length ≠ 0 := by simpa using h
  rw [nextChunk]
  simp only [h, dite_false]
  split
  · have := nextChunk_rest_le (src.drop (scan1 src).1)
    simp only [List.length_drop] at this ⊢
    omega
  · simp only [List.length_drop]; omega

/-- std: the whole iterator `src.utf8_chunks()`. -/
def utf8Chunks (src : List Nat) : List Chunk :=
  if h : src = [] then [] else (nextChunk src).1 :: utf8Chunks (nextChunk src).2
termination_by src.length
decreasing_by exact nextChunk_rest_lt src h

/-- std: outcome of `run_utf8_validation` on the sequence at the head of a non-empty source:
`ok n` (the sequence has n bytes) or `err error_len`. -/
inductive V
  | ok (n : Nat)
  | err (errorLen : Option Nat)
deriving DecidableEq

/-- std: `run_utf8_validation`, one sequence.  `next!()` yields `err None` at the end of the input. -/
def validate1 (src : List Nat) : V :=
  let a := safeGet src 0
  match charWidth a with
  | 1 => .ok 1
  | 2 => if src.length ≤ 1 then .err none
         else if isCont (safeGet src 1) then .ok 2 else .err (some 1)
  | 3 => if src.length ≤ 1 then .err none
         else if second3 a (safeGet src 1) then
           if src.length ≤ 2 then .err none
           else if isCont (safeGet src 2) then .ok 3 else .err (some 2)
         else .err (some 1)
  | 4 => if src.length ≤ 1 then .err none
         else if second4 a (safeGet src 1) then
           if src.length ≤ 2 then .err none
           else if isCont (safeGet src 2) then
             if src.length ≤ 3 then .err none
             else if isCont (safeGet src 3) then .ok 4 else .err (some 3)
           else .err (some 2)
         else .err (some 1)
  | _ => .err (some 1)

theorem validate1_pos (src : List Nat) (n : Nat) (h : validate1 src = .ok n) : 1 ≤ n := by
  unfold validate1 at h; simp only at h
  (repeat' split at h) <;> simp at h <;> omega

/-- std: `str::from_utf8(src)`: `none` = `Ok`, `some e` = `Err` with `error_len() = e`. -/
def fromUtf8 (src : List Nat) : Option (Option Nat) :=
  if h : src = [] then none else
    match hv : validate1 src with
    | .ok n => fromUtf8 (src.drop n)
    | .err e => some e
termination_by src.length
decreasing_by
  have := validate1_pos src n hv
  have : src.length ≠ 0 := by simpa using h
  simp only [List.length_drop]; omega

/-- std: `s.chars().next()` on a valid UTF-8 string (`next_code_point`). -/
def firstChar (s : List Nat) : Option Nat :=
  match s with
  | [] => none
  | x :: r =>
    if x < 0x80 then some x
    else
      let y := safeGet r 0 % 64
      if x < 0xE0 then some (x % 32 * 64 + y)
      else
        let z := safeGet r 1 % 64
        if x < 0xF0 then some (x % 16 * 4096 + (y * 64 + z))
        else some (x % 8 * 262144 + ((y * 64 + z) * 64 + safeGet r 2 % 64))

/-- `incomplete_utf8::PushState`, lines 560-581. -/
inductive PushState
  | incomplete
  | valid (c : Nat)
  | invalid
  | invalidThenValid (c : Nat)
  | invalidThenInvalid
deriving DecidableEq, Repr

/-- `IncompleteUtf8::copy_from_slice` + `.expect(..)`, lines 643-647 and `Len::try_from` 668-682.
`IncompleteUtf8` (bytes + len) is modelled by the list `bytes[..len]`; `none` is the panic. -/
def copyFromSlice (data : List Nat) : Option (List Nat) :=
  if data.length ≤ 3 then some data else none

/-- `IncompleteUtf8::push`, lines 591-641. Result `none` = panic. -/
def push (buf : List Nat) (data : Nat) : Option (PushState × List Nat) :=
  let nextBytes := buf ++ [data]
  match utf8Chunks nextBytes with
  | [] => none                                   -- expect("non-empty bytes should have first chunk")
  | first :: chunks =>
    match fromUtf8 first.invalid with
    | none =>
      if chunks.isEmpty then
        (firstChar first.valid).map fun c => (.valid c, [])
      else none                                  -- assert!(chunks.next().is_none())
    | some firstError =>
      match chunks with
      | [] =>
        if firstError.isSome then some (.invalid, [])
        else (copyFromSlice first.invalid).map fun b => (.incomplete, b)
      | second :: chunks =>
        if ¬ chunks.isEmpty then none            -- assert!(chunks.next().is_none())
        else match fromUtf8 second.invalid with
        | none => (firstChar second.valid).map fun c => (.invalidThenValid c, [])
        | some secondError =>
          if secondError.isSome then some (.invalidThenInvalid, [])
          else (copyFromSlice second.invalid).map fun b => (.invalid, b)

/-- A write to the underlying formatter. -/
inductive Op
  | str (s : List Nat)
  | char (c : Nat)
deriving DecidableEq, Repr

/-- Bytes a write adds to the output. -/
def Op.bytes : Op → List Nat
  | .str s => s
  | .char c => encode c

abbrev Log := List (Op × Bool)

/-- `LossyFormatter`, lines 18-21: the writer (its history) and the pending bytes. -/
structure Fmt where
  log : Log
  pending : List Nat
deriving DecidableEq, Repr

/-- The sink's decision on a write given all earlier writes. -/
abbrev Sink := Log → Op → Bool

/-- `LossyFormatter::new`, lines 24-35. -/
def Fmt.new : Fmt := ⟨[], []⟩

/-- `self.writer.write_str / write_char`: the write is recorded with the sink's answer. -/
def write (k : Sink) (f : Fmt) (o : Op) : Fmt × Bool :=
  let ok := k f.log o
  (⟨f.log ++ [(o, ok)], f.pending⟩, ok)

/-- `char::REPLACEMENT_CHARACTER`. -/
def repl : Nat := 0xFFFD

/-- The closure `write_two_chars`, lines 100-104. -/
def writeTwo (k : Sink) (f : Fmt) (a b : Nat) : Fmt × Bool :=
  let r := write k f (.char a)
  if r.2 then write k r.1 (.char b) else (r.1, false)

/-- `write_byte`, lines 99-115. -/
def writeByte (k : Sink) (f : Fmt) (data : Nat) : Option (Fmt × Bool) :=
  (push f.pending data).map fun (st, p) =>
    let f := ⟨f.log, p⟩
    match st with
    | .incomplete => (f, true)
    | .valid c => write k f (.char c)
    | .invalid => write k f (.char repl)
    | .invalidThenValid c => writeTwo k f repl c
    | .invalidThenInvalid => writeTwo k f repl repl

/-- The first loop of `write_slice`, lines 50-59: `(formatter, progressed, Some rest)`, or `None` in
the last component for the early `return progressed`. -/
def drain (k : Sink) (f : Fmt) (progressed : Nat) : List Nat → Option (Fmt × Nat × Option (List Nat))
  | [] => some (f, progressed, some [])
  | first :: rest =>
    if f.pending.isEmpty then some (f, progressed, some (first :: rest))
    else
      match writeByte k f first with
      | none => none
      | some (f, false) => some (f, progressed, none)
      | some (f, true) => drain k f (progressed + 1) rest

/-- The closure `write_chunks`, lines 61-87, iterating over the chunks of the data; `?` on an error
ends the loop with the count so far. -/
def writeChunks (k : Sink) (f : Fmt) (progressed : Nat) : List Chunk → Option (Fmt × Nat)
  | [] => some (f, progressed)
  | chunk :: chunks =>
    let r := write k f (.str chunk.valid)
    if ¬ r.2 then some (r.1, progressed) else
    let progressed := progressed + chunk.valid.length
    match fromUtf8 chunk.invalid with
    | none => if chunk.invalid.isEmpty then writeChunks k r.1 progressed chunks else none -- assert!
    | some errorLen =>
      let hasNextChunk := ¬ chunks.isEmpty
      let hasUnexpectedByte := errorLen.isSome
      if hasNextChunk ∨ hasUnexpectedByte then
        let r := write k r.1 (.char repl)
        if ¬ r.2 then some (r.1, progressed)
        else writeChunks k r.1 (progressed + chunk.invalid.length) chunks
      else
        match copyFromSlice chunk.invalid with
        | none => none                                                                     -- expect
        | some b => writeChunks k ⟨r.1.log, b⟩ (progressed + chunk.invalid.length) chunks

/-- `write_slice`, lines 48-90. -/
def writeSlice (k : Sink) (f : Fmt) (data : List Nat) : Option (Fmt × Nat) :=
  match drain k f 0 data with
  | none => none
  | some (f, progressed, none) => some (f, progressed)
  | some (f, progressed, some data) => writeChunks k f progressed (utf8Chunks data)

/-- `iter::repeat_n(data, count).take_while(|b| self.write_byte(*b).is_ok()).count()`, lines 126-128. -/
def fillBytes (k : Sink) (f : Fmt) (data : Nat) : Nat → Option (Fmt × Nat)
  | 0 => some (f, 0)
  | count + 1 =>
    match writeByte k f data with
    | none => none
    | some (f, false) => some (f, 0)
    | some (f, true) => (fillBytes k f data count).map fun (f, n) => (f, n + 1)

/-- `iter::repeat_n(data, count).take_while(|c| self.writer.write_char(*c).is_ok()).count()`, lines 146-148. -/
def fillChars (k : Sink) (f : Fmt) (data : Nat) : Nat → Fmt × Nat
  | 0 => (f, 0)
  | count + 1 =>
    let r := write k f (.char data)
    if r.2 then
      let q := fillChars k r.1 data count
      (q.1, q.2 + 1)
    else (r.1, 0)

/-- `write_fill`, lines 124-149. -/
def writeFill (k : Sink) (f : Fmt) (count data : Nat) : Option (Fmt × Nat) :=
  if ¬ data < 0x80 then fillBytes k f data count
  else if count = 0 then some (f, 0)
  else
    if ¬ f.pending.isEmpty then
      let r := write k ⟨f.log, []⟩ (.char repl)
      if ¬ r.2 then some (r.1, 0) else some (fillChars k r.1 data count)
    else some (fillChars k f data count)

/-- `flush`, lines 160-166. -/
def flush (k : Sink) (f : Fmt) : Fmt × Bool :=
  if f.pending.isEmpty then (f, true)
  else write k ⟨f.log, []⟩ (.char repl)

/-- A call by the user of the formatter. -/
inductive Call
  | slice (d : List Nat)
  | byte (b : Nat)
  | fill (count data : Nat)
  | flush
deriving DecidableEq, Repr

/-- One call; the number is the returned count (`byte`, `flush`: 1 / 0 for success / failure). -/
def call (k : Sink) (f : Fmt) : Call → Option (Fmt × Nat)
  | .slice d => writeSlice k f d
  | .byte b => (writeByte k f b).map fun (f, ok) => (f, if ok then 1 else 0)
  | .fill n b => writeFill k f n b
  | .flush => let r := flush k f; some (r.1, if r.2 then 1 else 0)

/-- A history of calls; counts are collected. -/
def calls (k : Sink) (f : Fmt) : List Call → Option (Fmt × List Nat)
  | [] => some (f, [])
  | c :: cs =>
    match call k f c with
    | none => none
    | some (f, n) => (calls k f cs).map fun (f, ns) => (f, n :: ns)

end Verif.Lossy

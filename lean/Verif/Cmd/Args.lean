import Verif.Cmd.Model

/-
Arguments from files, and arguments about targets (C176).
-/

namespace Verif.Cmd

/-! ### Files -/

theorem readArgs_line (a : Str) : ∀ (cur s : Str), readArgs cur (escaped a ++ '\n' :: s) = (cur ++ a) :: readArgs [] s := by
  induction a with
  | nil =>
    intro cur s
    rw [escaped, List.flatMap_nil, List.nil_append, readArgs]
    · simp
    · intro h; cases h
    · intro c s h; cases h
  | cons c a ih =>
    intro cur s
    have e : escaped (c :: a) = (if c = '\\' ∨ c = '\n' then ['\\', c] else [c]) ++ escaped a := List.flatMap_cons
    rw [e]
    split
    · rw [List.append_assoc]
      show readArgs cur ('\\' :: c :: (escaped a ++ '\n' :: s)) = _
      rw [readArgs, ih]
      simp
    · rename_i hc
      rw [not_or] at hc
      rw [List.append_assoc]
      show readArgs cur (c :: (escaped a ++ '\n' :: s)) = _
      rw [readArgs, if_neg hc.2, ih]
      · simp
      · intro h; exact absurd h hc.1
      · intro d s h; exact absurd h hc.1

/-- C176: What is written to a file as arguments, with backslashes before backslashes and line ends, is read from it. -/
theorem file_roundtrip (as : List Str) : readArgs [] (fileOf as) = as := by
  induction as with
  | nil => rfl
  | cons a as ih =>
    unfold fileOf at ih ⊢
    rw [List.flatMap_cons, List.append_assoc]
    refine (readArgs_line a [] (as.flatMap fun a => escaped a ++ ['\n'])).trans ?_
    rw [ih, List.nil_append]

theorem readArgs_last (a : Str) : ∀ (cur : Str), cur ++ a ≠ [] → readArgs cur (escaped a) = [cur ++ a] := by
  induction a with
  | nil =>
    intro cur h
    rw [List.append_nil] at h ⊢
    show readArgs cur [] = _
    rw [readArgs, if_neg (by simpa using h)]
  | cons c a ih =>
    intro cur h
    have e : escaped (c :: a) = (if c = '\\' ∨ c = '\n' then ['\\', c] else [c]) ++ escaped a := List.flatMap_cons
    rw [e]
    split
    · show readArgs cur ('\\' :: c :: escaped a) = _
      rw [readArgs, ih _ (by simp)]
      simp
    · rename_i hc
      rw [not_or] at hc
      show readArgs cur (c :: escaped a) = _
      rw [readArgs, if_neg hc.2, ih _ (by simp)]
      · simp
      · intro h; exact absurd h hc.1
      · intro d s h; exact absurd h hc.1

/-- C176: also if the last line end is missing, unless the last argument is empty. -/
theorem file_no_newline (as : List Str) {a : Str} (h : a ≠ []) : readArgs [] (fileOf as ++ escaped a) = as ++ [a] := by
  induction as with
  | nil => exact readArgs_last a [] (by simpa using h)
  | cons b as ih =>
    unfold fileOf at ih ⊢
    rw [List.flatMap_cons, List.append_assoc, List.append_assoc]
    refine (readArgs_line b [] ((as.flatMap fun a => escaped a ++ ['\n']) ++ escaped a)).trans ?_
    rw [ih]
    rfl

theorem expand_append (files : Str → Str) (as bs : List Str) :
    expand files (as ++ bs) = expand files as ++ expand files bs := by
  induction as with
  | nil => rfl
  | cons a as ih =>
    rw [List.cons_append, expand.eq_def files (a :: (as ++ bs)), expand.eq_def files (a :: as)]
    dsimp only
    split
    · rw [ih, List.append_assoc]
    · rw [ih]; rfl

/-- C176: Arguments that do not begin with `@` stay as they are. -/
theorem expand_plain (files : Str → Str) {as : List Str} (h : ∀ a ∈ as, a.head? ≠ some '@') : expand files as = as := by
  induction as with
  | nil => rfl
  | cons a as ih =>
    unfold expand
    split
    · exact absurd rfl (h _ (List.mem_cons_self ..))
    · rw [ih fun b hb => h b (List.mem_cons_of_mem _ hb)]

/-- C176: An argument `@file` is replaced by the arguments in the file, which are taken as they are. -/
theorem expand_file (files : Str → Str) {pre post as : List Str} {f : Str} (h : ∀ a ∈ pre ++ post, a.head? ≠ some '@')
    (hf : files f = fileOf as) : expand files (pre ++ ('@' :: f) :: post) = pre ++ as ++ post := by
  rw [expand_append, expand_plain files fun a ha => h a (List.mem_append_left _ ha)]
  show pre ++ (readArgs [] (files f) ++ expand files post) = _
  rw [hf, file_roundtrip, expand_plain files fun a ha => h a (List.mem_append_right _ ha), List.append_assoc]

/-! ### Targets -/

theorem scan_done (t : Bool) (as : List Str) : scan t true as = (as, []) := by
  induction as with
  | nil => rfl
  | cons a as ih => rw [scan, if_pos rfl, ih]

theorem scan_items {tail : List Str} (ht : tail = [] ∨ tail.head? = some stop) : ∀ {is : List Item}, Proper is →
    scan false false (is.flatMap Item.write ++ tail) = (plains is ++ tail, values is)
  | [], _ => by
      rcases ht with rfl | ht
      · rfl
      · cases tail with
        | nil => rfl
        | cons a as =>
          have : a = stop := by simpa using ht
          subst this
          show scan false false (stop :: as) = (stop :: as, [])
          rw [scan, if_neg (by decide), if_neg (by decide), if_neg (by decide), if_pos rfl, scan_done]
  | .plain a :: is, h => by
      have ha := h a (List.mem_cons_self ..)
      rw [List.flatMap_cons, List.append_assoc]
      show scan false false (a :: (is.flatMap Item.write ++ tail)) = _
      rw [scan, if_neg (by decide), if_neg (by decide), if_neg ha.1, if_neg ha.2,
        scan_items ht fun b hb => h b (List.mem_cons_of_mem _ hb)]
      rfl
  | .target v :: is, h => by
      rw [List.flatMap_cons, List.append_assoc]
      show scan false false (flag :: v :: (is.flatMap Item.write ++ tail)) = _
      rw [scan, if_neg (by decide), if_neg (by decide), if_pos rfl, scan, if_neg (by decide), if_pos rfl,
        scan_items ht fun b hb => h b (List.mem_cons_of_mem _ hb)]
      rfl

theorem commas_eq : ∀ (vs : List Str), vs ≠ [] → (vs.flatMap fun v => v ++ [',']).dropLast = commas vs
  | [], h => absurd rfl h
  | [a], _ => by simp [commas]
  | a :: b :: l, _ => by
      have := commas_eq (b :: l) (by simp)
      rw [List.flatMap_cons, commas, ← this, List.append_assoc, List.dropLast_append_of_ne_nil (by simp)]
      congr 1
      exact List.dropLast_cons_of_ne_nil (by simp)

theorem join_eq {vs : List Str} (h : vs ≠ []) : joinArgs vs = "--target_args=[".toList ++ commas vs ++ [']'] := by
  unfold joinArgs
  rw [List.dropLast_append_of_ne_nil, commas_eq vs h]
  cases vs with
  | nil => exact absurd rfl h
  | cons a l => simp

/-- C176: All `--target_to_arg` before `--` are replaced by one `--target_args` with the list of their values, in order, in
the place of the first; all other arguments stay, in order. -/
theorem preprocess_items {pre rest : List Item} {v : Str} {tail : List Str} (hp : Proper pre) (hr : Proper rest)
    (hv : values pre = []) (ht : tail = [] ∨ tail.head? = some stop) :
    preprocess ((pre ++ .target v :: rest).flatMap Item.write ++ tail) =
      plains pre ++ ("--target_args=[".toList ++ commas (v :: values rest) ++ [']']) :: (plains rest ++ tail) := by
  induction pre with
  | nil =>
    rw [List.nil_append, List.flatMap_cons, List.append_assoc]
    show preprocess (flag :: v :: (rest.flatMap Item.write ++ tail)) = _
    rw [preprocess, if_pos rfl, scan, if_neg (by decide), if_pos rfl, scan_items ht hr]
    show joinArgs (v :: values rest) :: _ = _
    rw [join_eq (by simp)]
    rfl
  | cons i pre ih =>
    cases i with
    | target w => cases hv
    | plain a =>
      have ha := hp a (List.mem_cons_self ..)
      rw [List.cons_append, List.flatMap_cons, List.append_assoc]
      show preprocess (a :: ((pre ++ .target v :: rest).flatMap Item.write ++ tail)) = _
      rw [preprocess, if_neg ha.1, ih (fun b hb => hp b (List.mem_cons_of_mem _ hb)) hv]
      rfl

/-- C176: Without `--target_to_arg` nothing is changed. -/
theorem preprocess_none {as : List Str} (h : flag ∉ as) : preprocess as = as := by
  induction as with
  | nil => rfl
  | cons a as ih =>
    rw [List.mem_cons, not_or] at h
    rw [preprocess, if_neg fun e => h.1 e.symm, ih h.2]

/-! ### Examples -/

example : Proper [.plain "--x".toList, .target "{}".toList, .plain "y".toList, .target "--".toList] ∧
    preprocess (["--x", "--target_to_arg", "{}", "y", "--target_to_arg", "--", "--", "--target_to_arg", "z"].map
      String.toList) = ["--x", "--target_args=[{},--]", "y", "--", "--target_to_arg", "z"].map String.toList := by
  constructor
  · intro a ha
    simp at ha
    rcases ha with rfl | rfl <;> decide
  · decide +kernel

example : fileOf ["a b".toList, [], "c\\\n".toList] = "a b\n\nc\\\\\\\n\n".toList := by decide +kernel

example : expand (fun _ => "x\n@y\n".toList) ["p".toList, "@f".toList] = ["p", "x", "@y"].map String.toList := by
  simp [expand, readArgs]

/-- Disagreement: the last argument of a file is lost if it is empty and there is no line end after it. -/
theorem empty_last_lost : readArgs [] (fileOf ["a".toList] ++ escaped []) = ["a".toList] := by
  simp [fileOf, escaped, readArgs]

/-- Disagreement: `--target_to_arg` after `--` is not left alone if there is none before. -/
theorem after_stop_changed : preprocess (["--", "--target_to_arg", "x"].map String.toList) =
    ["--", "--target_args=[x]"].map String.toList := by decide +kernel

/-- Disagreement: `--target_to_arg` without a value makes an argument that is no list. -/
theorem missing_value : preprocess [flag] = ["--target_args=]".toList] := by decide +kernel

end Verif.Cmd

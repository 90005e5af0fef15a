import Verif.Printer.Prov

/-!
# Printing generated code: examples, and where the printer and compilers disagree
-/

namespace Verif.Printer

local notation "t!" s => String.toList s

/-- `std::vector<'a', 1.5> f(&x, "a\"b") { return -1; } // done` -/
def exVec : TS :=
  .ident (t! "std") (.colon true (.colon false (.ident (t! "vector") (.punct '<' false
    (.lit (.quoted [] '\'' ['a'] []) (.punct ',' false (.lit (.num false ['1'] (some ['5'])) (.punct '>' false
    (.captureTag (t! "a.rs") (t! "3") (t! "4")
    (.captureBegin (.ident ['f'] (.captureEnd (.group .paren
      (.punct '&' false (.punct '\'' true (.ident ['a'] (.ident ['x'] (.punct ',' false (.lit (.quoted ['b'] '"' (t! "a\\\"b") []) .nil))))))
    (.group .brace (.ident (t! "return") (.lit (.num true ['1'] none) (.punct ';' false .nil)))
    (.comment (t! "done \"it\"\nreally") (.newline (.ident (t! "a") (.colon false (.colon true (.colon false (.ident ['b'] .nil)))))))))))))))))))))

theorem exVec_clean : exVec.Clean := by
  simp [exVec, TS.Clean, wordOk, numOk, Lit.ok, TS.first, TS.marked, TS.isIdent, TS.startsWith, TS.fraction, Lit.whole]
  decide

theorem exVec_commentsOk : exVec.CommentsOk := by
  simp [exVec, TS.CommentsOk]

theorem exVec_capOk : exVec.CapOk := by
  simp [exVec, TS.CapOk]

theorem exVec_print : print exVec =
    t! "std::vector<'a',1.5>f (&'a x,b\"a\\\"b\"){ return -1; }// done \"it\"\n// really\n\na: ::b" := by decide +kernel

theorem exVec_lex : lex (print exVec) = some exVec.toks := print_lexes exVec exVec_clean
theorem exVec_lex_cpp : lex (splice (print exVec)) = some exVec.toks := print_lexes_cpp exVec exVec_clean exVec_commentsOk

theorem exVec_record : (attach 0 [] [] [] 0 (evAt none 0 exVec)).map (fun c => (c.index, c.word, c.tagPos, c.pos)) =
    [(1, ['f'], 20, 20)] := by decide +kernel

/-! ## Streams that are not `Clean` -/

/-- Two separate `&` and one `&&` are the same text: only colons are kept apart. -/
theorem separate_puncts_glued :
    print (.punct '&' false (.punct '&' false (.ident ['x'] .nil))) = print (.punct '&' true (.punct '&' false (.ident ['x'] .nil))) := by
  decide +kernel

/-- `a / /* … */ b`-like streams start a comment. -/
theorem separate_slashes_comment : lex (print (.ident ['a'] (.punct '/' false (.punct '/' false (.ident ['b'] .nil))))) =
    some [.word ['a']] := by decide +kernel

/-- An invisible group glues words together. -/
theorem invisible_group_glues : lex (print (.ident ['a'] (.group .none (.ident ['b'] .nil) .nil))) = some [.word (t! "ab")] := by
  decide +kernel

/-- A whole number, a point and a number become one number: `t.0.1` is `t` and `.` and `0.1`. -/
theorem tuple_index_glued : lex (print (.ident ['t'] (.punct '.' false (.lit (.num false ['0'] none) (.punct '.' false
    (.lit (.num false ['1'] none) .nil)))))) = some [.word ['t'], .punct '.', .word (t! "0.1")] := by decide +kernel

/-! ## Comments -/

/-- A comment that ends in a quote swallows the next line of a header. -/
theorem quote_swallows : lex (splice (print (.comment (t! "expected \"x\"") (.ident ['i'] (.newline (.ident ['j'] .nil)))))) =
    some [.word ['j']] := by decide +kernel

theorem quote_swallows_rust : lex (print (.comment (t! "expected \"x\"") (.ident ['i'] (.newline (.ident ['j'] .nil))))) =
    some [.word ['i'], .word ['j']] := by decide +kernel

theorem backslash_swallows : lex (splice (print (.comment (t! "C:\\") (.ident ['i'] (.newline (.ident ['j'] .nil)))))) =
    some [.word ['j']] := by decide +kernel

/-- `__LITERALLY__ "#include \"x.h\""` writes a backslash for the last quote. -/
theorem literally_include : literally (t! "#include \"x.h\"") = t! "#include \"x.h\\\n" := by decide +kernel

/-- Text that looks like an escape breaks the line. -/
theorem path_breaks : commentText (t! "C:\\new") = t! "// C:\\\n// ew\n" := by decide +kernel

/-! ## Provenance -/

/-- `fn foo` at line 1, whose documentation says what `foo` does. -/
def exDoc (doc : Text) : TS :=
  .captureTag (t! "a.rs") (t! "7") (t! "10") (.comment (doc ++ t! "\n\nGenerated from: a.rs;l=1")
    (.ident (t! "void") (.captureBegin (.ident (t! "foo") (.captureEnd (.group .paren .nil (.punct ';' false
      (.newline (.ident (t! "foo_thunk") (.punct ';' false .nil)))))))))) 

/-- What is found in the text itself, not formatted. -/
def exFound (doc : Text) : List (Nat × Text) :=
  let s := write none (exDoc doc) { result := [] }
  let m : Nat → Option Sub := fun n => ((s.map.find? fun p => p.1 = n).bind fun p => record s.result p.2).join
  (fixUp s.result (t! "// Generated from:") m).map fun (n, a, b, _) => (n, (s.result.drop a).take (b - a + 6))

/-- Documentation that does not name the function: it is found. -/
theorem found_undocumented : exFound (t! "Frobs.") = [(1, t! "foo ();\nf")] := by decide +kernel

/-- Documentation that names it: the index counts from the tag, before the documentation, but the search starts after it, so
another place is marked. -/
theorem found_documented_wrong : exFound (t! "Calls foo.") = [(1, t! "foo_thunk")] := by decide +kernel

/-- Documentation with the pattern moves all tags. -/
theorem found_pattern_wrong : exFound (t! "x\nGenerated from: y") = [(1, t! "foo ();\nf")] ∧
    (let s := write none (.comment (t! "Generated from: y") (exDoc [])) { result := [] }
     let m : Nat → Option Sub := fun n => ((s.map.find? fun p => p.1 = n).bind fun p => record s.result p.2).join
     (fixUp s.result (t! "// Generated from:") m).length = 1) := by decide +kernel

/-- `unwrap` fails for a capture of punctuation within a longer run of it. -/
theorem record_panics : (let s := write none (.captureTag ['x'] ['1'] ['2'] (.punct '<' false (.captureBegin (.punct '<' true
    (.punct '<' false (.captureEnd .nil)))))) { result := [] }
    s.map.map fun p => record s.result p.2) = [none] := by decide +kernel

end Verif.Printer

import Verif.Names.Spec
import Verif.Names.Words

/-
Facts about the lists of reserved words (for C168, C169).
-/

namespace Verif.Names

theorem cpp_keywords_listed : ∀ w ∈ cppKeywords, w.toList ∈ keywords := by
  decide +kernel

theorem no_underscore : ∀ w ∈ keywords ++ macros, w.getLast? = some '_' → w.dropLast ∉ keywords ++ macros := by
  decide +kernel

theorem words_ident : ∀ w ∈ keywords ++ macros, w ≠ [] ∧
    (∀ c ∈ w.take 1, c.isAlpha = true ∨ c = '_') ∧ ∀ c ∈ w, c.isAlpha = true ∨ c.isDigit = true ∨ c = '_' := by
  decide +kernel

theorem no_field : ∀ w ∈ keywords ++ macros, ¬ (w.take 7 = "__field".toList) := by decide +kernel

theorem no_crubit : ∀ w ∈ keywords ++ macros, ¬ (w.take 8 = "__crubit".toList) := by decide +kernel

end Verif.Names

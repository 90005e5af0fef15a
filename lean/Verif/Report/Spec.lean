/-
Specification vocabulary for error reports (C177, C178).
-/

namespace Verif.Report

abbrev Str := List Char

/-- What identifies an item -/
structure Item where
  name : Str
  id : Nat
  unique : Option Str
  target : Option Str
deriving DecidableEq

/-- An error: made from a format string, a list of errors, another one, or one with context. If the formatted message is the
same as the format string, `full` is empty. -/
inductive Err where
  | formatted (fmt full : Str)
  | list (es : List Err)
  | other (msg : Str)
  | context (msg : Str) (e : Err)

/-- What a generator does with a report, scope by scope -/
inductive Act where
  | report (e : Err)
  | category (c : Nat)
  | item (i : Item) (body : List Act)

mutual
/-- All errors in an error: format strings and messages -/
def Err.all : Err → List (Str × Str)
  | .formatted f m => [(f, m)]
  | .other m => [(['{', '}'], m)]
  | .context _ e => e.all
  | .list es => Err.allL es
def Err.allL : List Err → List (Str × Str)
  | [] => []
  | e :: es => e.all ++ Err.allL es
end

mutual
/-- The errors that are reported for the item `n`, where `cur` is the innermost item -/
def Act.errors (n cur : Nat) : Act → List (Str × Str)
  | .report e => if cur = n then e.all else []
  | .category _ => []
  | .item i body => errorsL n i.id body
def errorsL (n cur : Nat) : List Act → List (Str × Str)
  | [] => []
  | a :: as => a.errors n cur ++ errorsL n cur as
end

mutual
/-- The categories of the item `n` -/
def Act.categories (n cur : Nat) : Act → List Nat
  | .report _ => []
  | .category c => if cur = n then [c] else []
  | .item i body => categoriesL n i.id body
def categoriesL (n cur : Nat) : List Act → List Nat
  | [] => []
  | a :: as => a.categories n cur ++ categoriesL n cur as
end

mutual
/-- All items -/
def Act.items : Act → List Item
  | .item i body => i :: itemsL body
  | _ => []
def itemsL : List Act → List Item
  | [] => []
  | a :: as => a.items ++ itemsL as
end

/-- Items with the same number have the same name. -/
def Consistent (is : List Item) : Prop := ∀ i ∈ is, ∀ j ∈ is, i.id = j.id → i.name = j.name

/-- Digits of hexadecimal numbers -/
def Hex (c : Char) : Prop := c ∈ "0123456789abcdefABCDEF".toList

end Verif.Report

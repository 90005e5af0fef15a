import Verif.Tmpl.Spec

/-
Model of rs_bindings_from_cc/collect_instantiations.rs, support/cc_template/cc_template_impl.rs and of what happens between
them (rs_bindings_from_cc/ir_from_cc.cc:223-237, generate_bindings_and_metadata.cc:43-61, 127-138).

Simplified: files are given as tokens; how a token stream is printed is a parameter; so are the order in which a hash set is
listed, the order of strings, and what clang makes of a type that is written in C++. The JSON file with the map is the map.
-/

namespace Verif.Tmpl

/-- `syn::parse2::<syn::Macro>` and `is_ident("cc_template")` (collect_instantiations.rs:66-69), for at most three tokens:
the body of the macro -/
def asMacro : List TT → Option (List TT)
  | [.ident s, .punct '!', .group d ts] => if s = "cc_template".toList ∧ d ≠ .none then some ts else none
  | _ => none

/-- `to_string().replace(' ', "")` (collect_instantiations.rs:87, cc_template_impl.rs:54); `pr`: `to_string` -/
def name (pr : List TT → Str) (ts : List TT) : Str := (pr ts).filter (· ≠ ' ')

/-- `HashSet::insert` -/
def add (s : List Str) (n : Str) : List Str := if n ∈ s then s else n :: s

/-- collect_instantiations.rs:87-88 -/
def note (pr : List TT → Str) (acc : List Str) : Option (List TT) → List Str
  | some body => add acc (name pr body)
  | none => acc

mutual
/-- `find_cc_template_calls` (collect_instantiations.rs:62-94), the recursion into a group -/
def findT (pr : List TT → Str) (acc : List Str) : TT → List Str
  | .group _ us => find pr acc us
  | _ => acc
/-- `find_cc_template_calls` (collect_instantiations.rs:62-94) -/
def find (pr : List TT → Str) (acc : List Str) : List TT → List Str
  | [] => acc
  | t :: ts =>
      find pr (findT pr (note pr acc (asMacro (t :: ts.take 2))) t) ts
end

/-- `collect_instantiations_impl` (collect_instantiations.rs:47-60); `enum`: the order of the hash set; `le`: of strings -/
def collect (pr : List TT → Str) (enum : List Str → List Str) (le : Str → Str → Bool) (files : List (List TT)) : List Str :=
  (enum (files.foldl (find pr) [])).mergeSort le

/-- The records behind the aliases `using __cc_template_instantiation_$0 = $1;` (ir_from_cc.cc:223-237); `none`: an error of
the C++ compiler. -/
def aliases (resolve : Str → Option Rec) : List Str → Option (List Rec)
  | [] => some []
  | n :: ns =>
      match resolve n, aliases resolve ns with
      | some r, some rs => some (r :: rs)
      | _, _ => none

/-- `FindInstantiationsInNamespace` (generate_bindings_and_metadata.cc:43-61); `recs`: the records of the IR -/
def found (recs : List Rec) (as : List Rec) : List Rec := recs.filter fun r => (as.map Rec.id).contains r.id

/-- The map of instantiations (generate_bindings_and_metadata.cc:127-138): `insert` keeps the first. -/
def instantiations (rs : List Rec) : List (Str × Str) :=
  rs.foldl (fun m r => if (m.lookup r.ccName).isSome then m else m ++ [(r.ccName, r.rsName)]) []

/-- `get_instantiation_struct_name` (cc_template_impl.rs:35-66), without the path -/
def expand (pr : List TT → Str) (m : List (Str × Str)) (body : List TT) : Option Str := m.lookup (name pr body)

/-- The whole way from the Rust sources to the map -/
def pipeline (pr : List TT → Str) (enum : List Str → List Str) (le : Str → Str → Bool) (resolve : Str → Option Rec)
    (recs : List Rec) (files : List (List TT)) : Option (List (Str × Str)) :=
  (aliases resolve (collect pr enum le files)).map fun as => instantiations (found recs as)

end Verif.Tmpl

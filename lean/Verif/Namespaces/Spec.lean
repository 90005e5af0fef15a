import Verif.Namespaces.Model
namespace Verif.Namespaces

/-- `Declares js path`: the list of sibling namespaces declares the nested namespace `path`. -/
inductive Declares : List Json → List String → Prop
  | here {js j} : j ∈ js → Declares js [j.name]
  | inside {js j p} : j ∈ js → Declares j.children p → Declares js (j.name :: p)

/-- No two siblings have the same name, at any depth. -/
inductive Distinct : List Json → Prop
  | mk {js} : (js.map Json.name).Nodup → (∀ j ∈ js, Distinct j.children) → Distinct js

/-- A target's hierarchy declares a namespace path. -/
def Hierarchy.declares (h : Hierarchy) (path : List String) : Prop := Declares h.namespaces path

/-- `InIr ids siblings path`: among the namespace items `siblings` of the IR (those that resolve) there
is one that declares `path`. -/
inductive InIr (ids : Nat → Option IrNs) : List Nat → List String → Prop
  | here {sibs id ns} : id ∈ sibs → ids id = some ns → InIr ids sibs [ns.name]
  | inside {sibs id ns p} : id ∈ sibs → ids id = some ns → InIr ids ns.children p → InIr ids sibs (ns.name :: p)

/-- `Opens ir sibs path`: among the items with ids `sibs` there is a namespace item of the IR, owned by the
current target, that opens the nested namespace `path`. -/
inductive Opens (ir : IR) : List Nat → List String → Prop
  | here {sibs : List Nat} {id : Nat} {ns : IrNs} : id ∈ sibs → (id, ns) ∈ ir.namespaces → ns.owningTarget = ir.currentTarget →
      Opens ir sibs [ns.name]
  | inside {sibs : List Nat} {id : Nat} {ns : IrNs} {p : List String} : id ∈ sibs → (id, ns) ∈ ir.namespaces →
      ns.owningTarget = ir.currentTarget → Opens ir ns.children p → Opens ir sibs (ns.name :: p)

end Verif.Namespaces

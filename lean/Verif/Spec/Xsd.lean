import Verif.Model.Xsd
import Verif.Spec.Xml
/-! Specification vocabulary: the order of elements that XML schemas declare. -/
namespace Verif.Spec
open Xsd

/-- `n` is the first declaration with this tag and name: in the first schema that has one, the first one. -/
def Declared (schemas : List Node) (kind name : Str) (n : Node) : Prop :=
  ∃ before s after left right, schemas = before ++ s :: after ∧ s.children = left ++ n :: right ∧
    n.tag = xsd kind ∧ n.attr s%"name" = some name ∧
    (∀ m ∈ left, ¬ (m.tag = xsd kind ∧ m.attr s%"name" = some name)) ∧
    ∀ s' ∈ before, ∀ m ∈ s'.children, ¬ (m.tag = xsd kind ∧ m.attr s%"name" = some name)

/-- The children with one of these tags. -/
def childrenWith (kinds : List Str) (n : Node) : List Node := n.children.filter (fun c => c.tag ∈ kinds.map xsd)

/-- What an element declaration is called: its own name, or the name of the element it refers to. -/
def declName (d : Node) : Option Str := (d.attr s%"name").or (d.attr s%"ref")

/-- The complex type `ct` puts the elements `ds` in order: it is one group of elements (choice or sequence); or it extends another type with
something, and has the order of that type (the elements it adds are not ordered: they count as elements of other names); or it extends another type
with nothing: then nothing is ordered. -/
inductive TypeContains (schemas : List Node) : Node → List Node → Prop
  | group {ct g} : childrenWith [s%"complexContent"] ct = [] → childrenWith [s%"choice", s%"sequence"] ct = [g] →
      TypeContains schemas ct (childrenWith [s%"element"] g)
  | extension {ct cc ext b base ds} : childrenWith [s%"choice", s%"sequence"] ct = [] → childrenWith [s%"complexContent"] ct = [cc] →
      childrenWith [s%"extension"] cc = [ext] → ext.children ≠ [] → ext.attr s%"base" = some b → Declared schemas s%"complexType" b base →
      TypeContains schemas base ds → TypeContains schemas ct ds
  | emptyExtension {ct cc ext} : childrenWith [s%"choice", s%"sequence"] ct = [] → childrenWith [s%"complexContent"] ct = [cc] →
      childrenWith [s%"extension"] cc = [ext] → ext.children = [] → TypeContains schemas ct []

/-- The element `el` is declared to contain the elements `ds`, in this order: its type, given in place, is one group of elements (choice, sequence or
all); or it is given by name; or it has no complex type. -/
inductive Contains (schemas : List Node) (el : Node) : List Node → Prop
  | inline {ct g} : el.attr s%"type" = none → childrenWith [s%"complexType"] el = [ct] →
      childrenWith [s%"choice", s%"sequence", s%"all"] ct = [g] →
      Contains schemas el (childrenWith [s%"element"] g)
  | named {t ct ds} : el.attr s%"type" = some t → childrenWith [s%"complexType"] el = [] → Declared schemas s%"complexType" t ct →
      TypeContains schemas ct ds → Contains schemas el ds
  | simple : (∀ t ct, el.attr s%"type" = some t → ¬ Declared schemas s%"complexType" t ct) →
      childrenWith [s%"complexType"] el = [] → Contains schemas el []

/-- Following these tags from the element `el` one gets to the element declaration `d`.  (The elements contained in an
element must have different names.) -/
inductive Leads (schemas : List Node) : Node → List Str → Node → Prop
  | here {el} : Leads schemas el [] el
  | own {el ds c tag p d} : Contains schemas el ds → (ds.map declName).Nodup → c ∈ ds → c.attr s%"name" = some tag →
      Leads schemas c p d → Leads schemas el (tag :: p) d
  | ref {el ds c g tag p d} : Contains schemas el ds → (ds.map declName).Nodup → c ∈ ds → c.attr s%"name" = none →
      c.attr s%"ref" = some tag → Declared schemas s%"element" tag g → Leads schemas g p d → Leads schemas el (tag :: p) d

/-- Following these tags from an element of a document one gets to the element `d`. -/
inductive Inside : Xml.Elem → List Str → Xml.Elem → Prop
  | here {e} : Inside e [] e
  | child {e c p d} : c ∈ e.children → Inside c p d → Inside e (c.tag :: p) d

/-- The children are in the order of these names (a child with another name comes after them). -/
def InOrder (names : List Str) (cs : List Xml.Elem) : Prop := cs.Pairwise (fun c d => ¬ Precedes names d.tag c.tag)

end Verif.Spec

import Verif.Model.Xml
import Verif.Spec.List
/-! Specification vocabulary for XML output and input. -/
namespace Verif.Spec
open Xml

/-! ### Sorting -/

/-- In the list of element names, `a` comes before `b`; a name that is not in the list comes after those that are. -/
def Precedes (names : List Str) (a b : Str) : Prop := a ∈ names ∧ (b ∉ names ∨ names.idxOf a < names.idxOf b)

mutual
/-- The second element is the first one sorted by the schema: the same tag, attributes and text; as children the sorted children
of the first, rearranged; no child after one that it should precede; and children that the schema does not tell apart in their old order. -/
inductive SortedAs : Order → Elem → Elem → Prop
  | mk {o t a x cs ds cs'} :
      SortedChildren o cs ds →
      ds.Perm cs' →
      cs'.Pairwise (fun c d => ¬ Precedes (Dict.keys o.entries) d.tag c.tag) →
      (∀ name ∈ Dict.keys o.entries, cs'.filter (fun c => c.tag = name) = ds.filter (fun c => c.tag = name)) →
      cs'.filter (fun c => c.tag ∉ Dict.keys o.entries) = ds.filter (fun c => c.tag ∉ Dict.keys o.entries) →
      SortedAs o (.mk t a x cs) (.mk t a x cs')
/-- Each child sorted by the part of the schema for its tag (unknown tags: no order). -/
inductive SortedChildren : Order → List Elem → List Elem → Prop
  | nil {o} : SortedChildren o [] []
  | cons {o c d cs ds} : SortedAs ((Dict.get o.entries c.tag).getD (.mk [])) c d → SortedChildren o cs ds →
      SortedChildren o (c :: cs) (d :: ds)
end

/-! ### Lists and dicts in XML input -/

/-- A list of dicts (a list whose first item is a dict) occurs at this path. -/
inductive ListAt : List (Str × Json) → List Str → Prop
  | here {d k g l} : (k, .arr (.obj g :: l)) ∈ d → ListAt d [k]
  | list {d k g l fs p} : (k, .arr (.obj g :: l)) ∈ d → .obj fs ∈ (.obj g :: l) → ListAt fs p → ListAt d (k :: p)
  | dict {d k fs p} : (k, .obj fs) ∈ d → ListAt fs p → ListAt d (k :: p)

/-- A dict that is not an item of a list occurs at this path. -/
inductive DictAt : List (Str × Json) → List Str → Prop
  | here {d k fs} : (k, .obj fs) ∈ d → DictAt d [k]
  | list {d k l fs p} : (k, .arr l) ∈ d → .obj fs ∈ l → DictAt fs p → DictAt d (k :: p)
  | dict {d k fs p} : (k, .obj fs) ∈ d → DictAt fs p → DictAt d (k :: p)

mutual
/-- The second value (at path `p`) is the first one with exactly the dicts at paths in `wrap` that are not items of a list made
one-element lists. -/
inductive Wrapped (wrap : List Str → Prop) : List Str → Json → Json → Prop
  | leaf {p a} : Wrapped wrap p (.leaf a) (.leaf a)
  | dict {p fs gs} : ¬ wrap p → WrappedFields wrap p fs gs → Wrapped wrap p (.obj fs) (.obj gs)
  | wrap {p fs gs} : wrap p → WrappedFields wrap p fs gs → Wrapped wrap p (.obj fs) (.arr [.obj gs])
  | list {p l m} : WrappedItems wrap p l m → Wrapped wrap p (.arr l) (.arr m)
/-- The same for the entries of the dict at path `p`. -/
inductive WrappedFields (wrap : List Str → Prop) : List Str → List (Str × Json) → List (Str × Json) → Prop
  | nil {p} : WrappedFields wrap p [] []
  | cons {p k v w fs gs} : Wrapped wrap (p ++ [k]) v w → WrappedFields wrap p fs gs → WrappedFields wrap p ((k, v) :: fs) ((k, w) :: gs)
/-- The same for the items of the list at path `p`: dicts stay dicts, and what is not a dict stays as it is. -/
inductive WrappedItems (wrap : List Str → Prop) : List Str → List Json → List Json → Prop
  | nil {p} : WrappedItems wrap p [] []
  | dict {p fs gs l m} : WrappedFields wrap p fs gs → WrappedItems wrap p l m → WrappedItems wrap p (.obj fs :: l) (.obj gs :: m)
  | leaf {p a l m} : WrappedItems wrap p l m → WrappedItems wrap p (.leaf a :: l) (.leaf a :: m)
  | list {p a l m} : WrappedItems wrap p l m → WrappedItems wrap p (.arr a :: l) (.arr a :: m)
end

/-! ### Elements -/

/-- The texts of the scalars of an entry: of its value, or of the items of its list. -/
def scalarsOf : Json → List Str
  | .leaf a => [Py.str a]
  | .arr l => l.filterMap (fun j => match j with | .leaf a => some (Py.str a) | _ => none)
  | .obj _ => []

/-- The dicts of an entry: its value, or the items of its list. -/
def dictsOf : Json → List (List (Str × Json))
  | .leaf _ => []
  | .obj fs => [fs]
  | .arr l => l.filterMap (fun j => match j with | .obj fs => some fs | _ => none)

/-- The entry is an attribute. -/
def isAttribute (k : Str) : Bool := k.head? = some '@'

/-- The entries of a dict that become child elements, with their tags, in order. -/
def kids (fs : List (Str × Json)) : List (Str × List (Str × Json)) :=
  fs.flatMap (fun f => if isAttribute f.1 then [] else (dictsOf f.2).map (fun g => (f.1, g)))

/-- `q` gives the qualified names, given the namespaces of the prefixes: a name without a colon stays as it is; in others what is before the first colon is the prefix,
and is replaced by its namespace in braces (nothing in the braces for an unknown prefix). -/
structure Qualifies (ns : List (Str × Str)) (q : Str → Str) : Prop where
  plain : ∀ name, ':' ∉ name → q name = name
  known : ∀ pre rest uri, ':' ∉ pre → Dict.get ns pre = some uri → q (pre ++ s%":" ++ rest) = s%"{" ++ uri ++ s%"}" ++ rest
  unknown : ∀ pre rest, ':' ∉ pre → Dict.get ns pre = none → q (pre ++ s%":" ++ rest) = s%"{}" ++ rest

/-- The only prefix known from the start. -/
def xmlPrefix : List (Str × Str) := [(s%"xml", s%"http://www.w3.org/XML/1998/namespace")]

/-- The element for a dict: its attributes are the `@`-entries, its text is the (last non-empty) text of the `text()` entry, and its children are
the elements of the dicts in the other entries, in order, except those that are not valid XML.  `q` gives the qualified name (the prefix of a name
replaced by its namespace). -/
inductive Renders (valid : Str → List (Str × Str) → Bool) (q : Str → Str) : Str → List (Str × Json) → Elem → Prop
  | mk {tag fs attrib text es children} :
      (Dict.keys attrib).Nodup →
      (∀ name t, Dict.get attrib name = some t ↔ ∃ k v, ('@' :: k, v) ∈ fs ∧ q k = name ∧ (scalarsOf v).getLast? = some t) →
      text = (((fs.filter (fun f => f.1 = s%"text()")).flatMap (fun f => scalarsOf f.2)).filter (· ≠ [])).getLast? →
      All₂ (fun kg e => Renders valid q kg.1 kg.2 e) (kids fs) es →
      children = es.filter (fun e => valid e.tag e.attrib) →
      Renders valid q tag fs (.mk (q tag) attrib text children)

/-- Data without namespace declarations, in which at every level the attributes have different (qualified) names and are not dicts. -/
inductive PlainXml (q : Str → Str) : List (Str × Json) → Prop
  | mk {fs} :
      ((fs.filter (fun f => isAttribute f.1)).map (fun f => q (f.1.drop 1))).Nodup →
      (∀ f ∈ fs, isAttribute f.1 = true → Py.startsWith s%"@xmlns" f.1 = false ∧ dictsOf f.2 = []) →
      (∀ kg ∈ kids fs, PlainXml q kg.2) →
      PlainXml q fs

/-- Somewhere there is a scalar that is neither an attribute nor a `text()`, or a list in a list. -/
inductive Misplaced : List (Str × Json) → Prop
  | scalar {fs k v} : (k, v) ∈ fs → scalarsOf v ≠ [] → isAttribute k = false → k ≠ s%"text()" → Misplaced fs
  | nested {fs k l m} : (k, .arr l) ∈ fs → .arr m ∈ l → Misplaced fs
  | inside {fs k v g} : (k, v) ∈ fs → g ∈ dictsOf v → Misplaced g → Misplaced fs

mutual
/-- The same data, except that at every level the attributes may be in a different order among the entries. -/
inductive Reordered : Json → Json → Prop
  | leaf {a} : Reordered (.leaf a) (.leaf a)
  | dict {fs gs} : ReorderedDict fs gs → Reordered (.obj fs) (.obj gs)
  | list {l m} : ReorderedItems l m → Reordered (.arr l) (.arr m)
inductive ReorderedDict : List (Str × Json) → List (Str × Json) → Prop
  | mk {fs hs gs} : (Dict.keys fs).Nodup → ReorderedFields fs hs →
      (hs.filter (fun f => isAttribute f.1)).Perm (gs.filter (fun f => isAttribute f.1)) →
      hs.filter (fun f => !isAttribute f.1) = gs.filter (fun f => !isAttribute f.1) → ReorderedDict fs gs
inductive ReorderedFields : List (Str × Json) → List (Str × Json) → Prop
  | nil : ReorderedFields [] []
  | cons {k v w fs gs} : Reordered v w → ReorderedFields fs gs → ReorderedFields ((k, v) :: fs) ((k, w) :: gs)
inductive ReorderedItems : List Json → List Json → Prop
  | nil : ReorderedItems [] []
  | cons {v w l m} : Reordered v w → ReorderedItems l m → ReorderedItems (v :: l) (w :: m)
end

end Verif.Spec

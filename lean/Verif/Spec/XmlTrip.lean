import Verif.Spec.RoundTrip
import Verif.Spec.Xml
/-! Specification vocabulary: XML data that survives being written to a spreadsheet and read back. -/
namespace Verif.Spec
open Xml

/-- A name of elements other than the id. -/
def Tag (n k : Str) : Prop := k ≠ [] ∧ '/' ∉ k ∧ isAttribute k = false ∧ k ≠ s%"#text" ∧ k ≠ s%"text()" ∧ k ≠ n

instance (n k : Str) : Decidable (Tag n k) := by unfold Tag; infer_instance

mutual
/-- Left: an element as `xmltodict` gives it (attributes `@a`, elements, and at the end the text under `#text`).  Right: the same data as a
JSON object: the text is the field `text()`, and the id element (named `n`, with a text and nothing else) is a plain value. -/
inductive XmlFields (n : Str) : List (Str × Json) → List (Str × Json) → Prop
  | nil : XmlFields n [] []
  | attr {k s : Str} {fs gs : List (Str × Json)} : isAttribute k = true → '/' ∉ k → XmlFields n fs gs →
      XmlFields n ((k, .leaf (.str s)) :: fs) ((k, .leaf (.str s)) :: gs)
  | text {s : Str} : XmlFields n [(s%"#text", .leaf (.str s))] [(s%"text()", .leaf (.str s))]
  | id {s : Str} {fs gs : List (Str × Json)} : XmlFields n fs gs →
      XmlFields n ((n, .obj [(s%"#text", .leaf (.str s))]) :: fs) ((n, .leaf (.str s)) :: gs)
  | one {k : Str} {fs gs r t : List (Str × Json)} : Tag n k → XmlFields n fs gs → XmlFields n r t →
      XmlFields n ((k, .obj fs) :: r) ((k, .obj gs) :: t)
  | many {k : Str} {l m : List Json} {r t : List (Str × Json)} : Tag n k → l ≠ [] → XmlItems n l m → XmlFields n r t →
      XmlFields n ((k, .arr l) :: r) ((k, .arr m) :: t)
/-- The same for several elements with one name. -/
inductive XmlItems (n : Str) : List Json → List Json → Prop
  | nil : XmlItems n [] []
  | cons {fs gs : List (Str × Json)} {l m : List Json} : XmlFields n fs gs → XmlItems n l m → XmlItems n (.obj fs :: l) (.obj gs :: m)
end

/-- The elements of the root list, which have no text of their own; and a name for the id element. -/
structure XmlRoot (n : Str) (xml json : List Json) : Prop where
  idName : isAttribute n = false ∧ n ≠ s%"#text" ∧ n ≠ s%"text()"
  items : XmlItems n xml json
  noText : ∀ fs ∈ objects xml, Dict.get fs s%"#text" = none

mutual
/-- The data with `text()` instead of `#text`, as `unflatten` makes it. -/
def withText : Json → Json
  | .leaf a => .leaf a
  | .obj fs => .obj (withTextF fs)
  | .arr l => .arr (withTextI l)
def withTextF : List (Str × Json) → List (Str × Json)
  | [] => []
  | (k, v) :: r => (if k = s%"#text" then s%"text()" else k, withText v) :: withTextF r
def withTextI : List Json → List Json
  | [] => []
  | v :: r => withText v :: withTextI r
end

/-- Cells keep their text; no schema; no root id. -/
def xmlTrip (conv : ConvEnv) (n : Str) : Trip where
  types := fun _ => none
  conv := conv
  write := fun a => a
  idName := n
  rootId := none

/-- Flattening XML with plain options. -/
structure PlainXmlFlatten (n : Str) (cfg : FCfg) : Prop where
  xml : cfg.xml = true
  idName : cfg.idName = n
  rootId : cfg.rootId = none
  schema : cfg.schema = none
  titles : cfg.useTitles = false
  wkt : cfg.wkt = false
  rollup : cfg.rollup = []
  filter : cfg.filter = none
  preserve : cfg.preserve = []

/-- Unflattening to XML with plain options. -/
structure PlainXmlUnflatten (n : Str) (cfg : UnCfg) : Prop where
  xml : cfg.row.xml = true
  types : cfg.row.types = fun _ => none
  idName : cfg.idName = some n
  rootId : cfg.rootId = none

end Verif.Spec

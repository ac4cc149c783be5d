import Verif.Spec.XmlTrip
import Verif.Spec.Holds
/-! Specification vocabulary: headings in XML mode, and the headings that say the same in JSON mode. -/
namespace Verif.Spec
open Xml

/-- The parts of a heading in XML mode: names of elements, each with or without a number after it, and at the end possibly an attribute (`@…`) or the id. -/
def XmlParts (n : Str) : List Str → Prop
  | [] => False
  | [k] => isint k = false ∧ (isAttribute k = true ∨ k = n ∨ Tag n k)
  | k :: s :: rest => Tag n k ∧ isint k = false ∧ (if isint s = true then rest = [] ∨ XmlParts n rest else XmlParts n (s :: rest))

def decXmlParts (n : Str) : (ps : List Str) → Decidable (XmlParts n ps)
  | [] => isFalse id
  | [k] => by unfold XmlParts; infer_instance
  | k :: s :: rest =>
    have := decXmlParts n rest
    have := decXmlParts n (s :: rest)
    by unfold XmlParts; infer_instance

instance (n : Str) (ps : List Str) : Decidable (XmlParts n ps) := decXmlParts n ps

/-- The heading of the same value in JSON mode: the text of an element is its field `text()`; attributes and ids are fields as they are. -/
def textHeading (n h : Str) : Str :=
  let last := (pathList h).getLast?.getD []
  if isAttribute last = true ∨ last = n then h else h ++ s%"/text()"

/-- The line with the headings of JSON mode. -/
def textHeadings (n : Str) (l : Line) : Line := l.map (fun c => (c.1.map (textHeading n), c.2))

/-- The sheet with the headings of JSON mode on the lines.  (The headings of the sheet as a whole are only there for the warnings and the source maps.) -/
def textSheetIn (n : Str) (s : SheetIn) : SheetIn := { s with lines := s.lines.map (textHeadings n) }

/-- The cells that are not blank are below such headings, and their values are not changed by conversion (as for all texts). -/
def XmlLine (conv : ConvEnv) (n : Str) (l : Line) : Prop :=
  ∀ c ∈ l, c.2.blank = false → (∃ h, c.1 = some h ∧ XmlParts n (pathList h)) ∧ (∀ d, c.2 ≠ .datetime d) ∧ convertType conv .untyped c.2 = .ok (.atom c.2, [])

/-- The same options in JSON mode. -/
def jsonMode (cfg : UnCfg) : UnCfg := { cfg with row := { cfg.row with xml := false } }

/-- A name for the id that can be told from attributes, texts and numbers. -/
def IdName (n : Str) : Prop := n ≠ [] ∧ isAttribute n = false ∧ n ≠ s%"text()" ∧ isint n = false

instance (n : Str) : Decidable (IdName n) := by unfold IdName; infer_instance

mutual
/-- The data with each id as an element of its own, with the id as its text. -/
def idElements (n : Str) : Json → Json
  | .leaf a => .leaf a
  | .obj fs => .obj (idElementsF n fs)
  | .arr l => .arr (idElementsI n l)
def idElementsF (n : Str) : List (Str × Json) → List (Str × Json)
  | [] => []
  | (k, v) :: r => (k, if k = n then .obj [(s%"text()", idElements n v)] else idElements n v) :: idElementsF n r
def idElementsI (n : Str) : List Json → List Json
  | [] => []
  | v :: r => idElements n v :: idElementsI n r
end

/-- The warning is not about the headings of a row that do not fit together, or about a cell. -/
def betweenRows : Warn → Prop
  | .ignored _ _ => True
  | .conflict _ _ _ _ => True
  | .dupHeading _ _ _ => True
  | _ => False

end Verif.Spec

import Verif.Model.Xml
/-!
What `xmltodict.parse(f, force_list=(root_list_path,), force_cdata=True)` (json_input.py:238-246) gives for an element.  `xmltodict` is a
dependency: this is its documented behaviour, read from its handler (`startElement`, `endElement`, `push_data`).
Simplifications: names are taken as they are in the file (no namespace processing, as by default); `text` stands for all the character data
of the element.
-/
namespace Verif.Xml

/-- `push_data`: a second element with the same name makes a list; names in `force_list` are lists at once. -/
def push (force : Option Str) (fs : List (Str × Json)) (k : Str) (v : Json) : List (Str × Json) :=
  match Dict.get fs k with
  | none => fs ++ [(k, if force = some k then .arr [v] else v)]
  | some (.arr l) => Dict.set fs k (.arr (l ++ [v]))
  | some w => Dict.set fs k (.arr [w, v])

/-- `data.strip() or None` (`strip_whitespace`). -/
def stripText : Option Str → Option Str
  | none => none
  | some t => if Py.strip Py.isSpace t = [] then none else some (Py.strip Py.isSpace t)

/-- Attributes with the prefix `@`. -/
def atAttribs (a : List (Str × Str)) : List (Str × Json) := a.map (fun p => ('@' :: p.1, .leaf (.str p.2)))

mutual
/-- `endElement`: an element without attributes, elements and text is `None`; a text is always under `#text` (`force_cdata`). -/
def parsed (force : Option Str) : Elem → Json
  | .mk _ a x cs =>
    let fs := parsedChildren force (atAttribs a) cs
    let fs := match stripText x with
      | none => fs
      | some t => push force fs s%"#text" (.leaf (.str t))
    if fs = [] then .leaf .none else .obj fs
/-- The elements inside, in order. -/
def parsedChildren (force : Option Str) (fs : List (Str × Json)) : List Elem → List (Str × Json)
  | [] => fs
  | c :: r => parsedChildren force (push force fs c.tag (parsed force c)) r
end

end Verif.Xml

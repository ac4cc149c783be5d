import Verif.Model.Flatten
/-! Specification vocabulary: documents with geometries, and with their texts instead. -/
namespace Verif.Spec

/-- An object that stands for a geometry. -/
def isGeometry (fs : List (Str × Json)) : Bool := Dict.has fs s%"type" && Dict.has fs s%"coordinates"

/-- The text of a geometry that consists of `type` and `coordinates` only and can be converted. -/
def textOf (cfg : FCfg) (fs : List (Str × Json)) : Option Str :=
  if fs.all (fun p => p.1 = s%"type" || p.1 = s%"coordinates") then cfg.wktOf fs else none

/-- The key of a field: not empty, without slash, and not one of an id. -/
def plainKey (cfg : FCfg) (k : Str) : Bool := !k.isEmpty && !k.contains '/' && k ≠ cfg.idName && some k ≠ cfg.rootId

mutual
/-- The value of a field, with the texts of geometries in their places. -/
def asTexts (cfg : FCfg) : Json → Json
  | .leaf a => .leaf a
  | .obj fs => if isGeometry fs then (match textOf cfg fs with | some t => .leaf (.str t) | none => .obj fs) else .obj (asTextsIn cfg fs)
  | .arr l => .arr (asTextsItems cfg l)
/-- The same for all fields of an object. -/
def asTextsIn (cfg : FCfg) : List (Str × Json) → List (Str × Json)
  | [] => []
  | (k, v) :: r => (k, if plainKey cfg k then asTexts cfg v else v) :: asTextsIn cfg r
/-- The same in all objects of an array (those that are no geometries themselves). -/
def asTextsItems (cfg : FCfg) : List Json → List Json
  | [] => []
  | .leaf a :: r => .leaf a :: asTextsItems cfg r
  | .arr l :: r => .arr l :: asTextsItems cfg r
  | .obj fs :: r => .obj (if isGeometry fs then fs else asTextsIn cfg fs) :: asTextsItems cfg r
end

end Verif.Spec

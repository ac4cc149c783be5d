import Verif.Spec.RoundTrip
import Verif.Spec.Columns
import Verif.Model.FlattenMain
/-! Specification vocabulary: `flatten` followed by `unflatten`. -/
namespace Verif.Spec
open Api

/-- Options of `flatten` and `unflatten` that match: JSON, no titles, WKT columns, rollup, filter, preserved fields, metatab, base document, default
configuration or vertical sheets; the same root list path, id name and root id (defaults are `main`, `id`, none). -/
structure MatchingOptions (o : FlOpts) (u : UnOpts) : Prop where
  flatten : o.xml = false ∧ o.useTitles = false ∧ o.wkt = false ∧ o.rollup = .off ∧ o.filterField = none ∧ o.filterValue = none ∧ o.preserve = none
  line : o.lineTerminator ∈ [s%"LF", s%"CRLF"]
  unflatten : u.xml = false ∧ u.convertTitles = false ∧ u.baseJson = none ∧ u.metatabName = none ∧ u.metatabOnly = false ∧ u.defaultConfig = [] ∧
    u.vertical = false
  isList : u.rootIsList = o.rootIsList
  path : u.rootListPath.getD s%"main" = o.rootListPath
  idName : u.idName.getD s%"id" = o.idName
  rootId : given u.rootId = given o.rootId

/-- The same with the titles of a schema as headings: both functions get the schema, `flatten` uses the titles, `unflatten` converts them. -/
structure TitledOptions (o : FlOpts) (u : UnOpts) (s : Schema) : Prop where
  flatten : o.xml = false ∧ o.useTitles = true ∧ o.wkt = false ∧ o.rollup = .off ∧ o.filterField = none ∧ o.filterValue = none ∧ o.preserve = none
  line : o.lineTerminator ∈ [s%"LF", s%"CRLF"]
  unflatten : u.xml = false ∧ u.convertTitles = true ∧ u.wkt = false ∧ u.baseJson = none ∧ u.metatabName = none ∧ u.metatabOnly = false ∧
    u.defaultConfig = [] ∧ u.vertical = false
  schema : o.schema = some s ∧ u.schema = some s
  isList : u.rootIsList = o.rootIsList
  path : u.rootListPath.getD s%"main" = o.rootListPath
  idName : u.idName.getD s%"id" = o.idName
  rootId : given u.rootId = given o.rootId

/-- The document with the objects: an object with the root list path as its only key, or just the list. -/
def documentOf (o : FlOpts) (root : List Json) : Json :=
  if o.rootIsList then .arr root else .obj [(o.rootListPath, .arr root)]

/-- A root list path that is just one key. -/
def OneKey (path : Str) : Prop := '/' ∉ path ∧ '.' ∉ path ∧ path ≠ s%"item"

/-- What happens to values on the way: `write` says what the file format makes of them, the types come from the schema of `unflatten`. -/
def tripOf (o : FlOpts) (u : UnOpts) (uenv : Env) (schema : Option Parsed) (write : Atom → Atom) : Trip where
  types := match schema with | some p => p.types | none => fun _ => none
  conv := { wkt := u.wkt, geoLib := uenv.geoLib, wktLoads := uenv.wktLoads }
  write := write
  idName := o.idName
  rootId := given o.rootId

/-- The schema of `flatten` gives no sheet a repeated, empty or `#` column. -/
def GoodColumns : Option Parsed → Prop
  | none => True
  | some p => ∀ s, s = p.main ∨ (∃ n, (n, s) ∈ p.subs) → s.headings.Nodup ∧ [] ∉ s.headings ∧ s%"#" ∉ s.headings

/-- No field of a root object, and no id, is called `#`. -/
def NoHash (o : FlOpts) (root : List Json) : Prop :=
  o.idName ≠ s%"#" ∧ o.rootId ≠ some s%"#" ∧ ∀ fs, .obj fs ∈ root → s%"#" ∉ Dict.keys fs

/-- The names of sub-sheets: those of the schema and those for arrays in the document. -/
def SubSheetName (o : FlOpts) (schema : Option Parsed) (root : List Json) (name : Str) : Prop :=
  (∃ p, schema = some p ∧ name ∈ Dict.keys p.subs) ∨ ∃ fs a, .obj fs ∈ root ∧ HasArray [] fs a ∧ sheetName o.trunc a = name

end Verif.Spec

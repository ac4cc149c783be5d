import Verif.Spec.Sheets
import Verif.Spec.Layout
import Verif.Spec.List
import Verif.Spec.Holds
import Verif.Model.Main
/-! Specification vocabulary: spreadsheets as users have them (a row of headings, and rows of cells below), in files of any format. -/
namespace Verif.Spec
open Api

/-- A sheet of a spreadsheet: the headings, and the rows below. -/
structure DataSheet where
  name : Str
  header : List Str
  rows : List (List Atom)

/-- A rectangular sheet with distinct headings; with columns that have letters (up to `ZZZ`). -/
structure DataSheet.Proper (t : DataSheet) : Prop where
  columns : t.header ≠ []
  named : [] ∉ t.header
  distinct : t.header.Nodup
  full : ∀ r ∈ t.rows, r.length = t.header.length
  letters : t.header.length ≤ 18278

/-- The lines of a sheet: each cell of a row with its heading. -/
def DataSheet.lines (t : DataSheet) : SheetIn :=
  { name := t.name, headings := some (t.header.map some), lines := t.rows.map (fun r => (t.header.map some).zip r) }

/-- A worksheet shows the sheet: possibly a configuration line, then as many rows as are to be skipped by the configuration in force, the headings, the further header
rows, and the rows.  The sheet is not configured to be ignored or to have comments; `base` is the default configuration. -/
def ShownIn (base : SheetConfig) (t : DataSheet) (grid : List (List Atom)) : Prop :=
  ∃ L : Layout (List Atom), grid = L.rows (·.map Atom.str) ∧ L.header = t.header.map .str ∧ L.data = t.rows ∧ L.Fits { base := base } hashRowA ∧
    (L.config { base := base }).hashcomments = false

/-- The same for a CSV file, in which cells are texts. -/
def ShownInText (base : SheetConfig) (t : DataSheet) (grid : List (List Str)) : Prop :=
  ∃ L : Layout (List Str), grid = L.rows id ∧ L.header = t.header ∧ L.data.map (·.map Atom.str) = t.rows ∧ L.Fits { base := base } hashRow

/-- A file (or directory) with these sheets, in the order in which they are read:

* CSV: the files `NAME.csv` of the directory, in whatever order the directory has them, among other files; sheets are in ascending order of name;
* XLSX, ODS: worksheets (tables) in order; in ODS, no row is without any value. -/
inductive InFile (base : SheetConfig) (ts : List DataSheet) : Input → Prop where
  | csv {files : List (Str × List (List Str))} (distinct : (files.map (·.1)).Nodup) (sorted : (ts.map (·.name)).Pairwise NameLt)
    (present : ∀ t ∈ ts, ∃ grid, (t.name ++ s%".csv", grid) ∈ files ∧ ShownInText base t grid)
    (only : ∀ n grid, (n ++ s%".csv", grid) ∈ files → ∃ t ∈ ts, t.name = n) : InFile base ts (.csv files)
  | xlsx {sheets : List (Str × Grid)} (distinct : (ts.map (·.name)).Nodup) (shown : All₂ (fun t s => s.1 = t.name ∧ ShownIn base t s.2.rows) ts sheets) :
    InFile base ts (.xlsx sheets)
  | ods {sheets : List (Str × List (List Atom))} (distinct : (ts.map (·.name)).Nodup) (shown : All₂ (fun t s => s.1 = t.name ∧ ShownIn base t s.2) ts sheets)
    (values : ∀ t ∈ ts, ∀ r ∈ t.rows, ∃ a ∈ r, a ≠ .none) : InFile base ts (.ods sheets)

/-- Plain use of `unflatten`: JSON, no titles, metatab or vertical sheets. -/
structure PlainUse (u : UnOpts) : Prop where
  json : u.xml = false
  titles : u.convertTitles = false
  metatab : u.metatabName = none
  metaOnly : u.metatabOnly = false
  horizontal : u.vertical = false

/-- The default configuration: options separated by commas. -/
def defaults (u : UnOpts) : SheetConfig := parseConfig (Py.split ',' u.defaultConfig)

/-- The id name in force: that of the option, else of the default configuration, else `id`. -/
def idInForce (u : UnOpts) : Str := u.idName.getD ((defaults u).idName.getD s%"id")

/-- The settings of `unflatten` for the sheets: the types of the schema, the id name and the root id (default none). -/
def settings (u : UnOpts) (env : Env) (schema : Option Parsed) : UnCfg :=
  { row := { types := match schema with | some p => p.types | none => fun _ => none
             xml := u.xml
             conv := { wkt := u.wkt, geoLib := env.geoLib, wktLoads := env.wktLoads } }
    idName := some (idInForce u), rootId := u.rootId.filter (fun t => !t.isEmpty) }

/-- The document with a list of objects: the list, or the base document with the list below the root list path (given as an option, else by the default configuration,
else `main`). -/
def documentWith (u : UnOpts) (base : List (Str × Json)) (items : List Json) : Json :=
  if u.rootIsList then .arr items else .obj (Dict.set base (u.rootListPath.getD ((defaults u).rootListPath.getD s%"main")) (.arr items))

end Verif.Spec

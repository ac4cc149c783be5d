import Verif.Spec.FlattenMain
import Verif.Spec.Sheets
import Verif.Spec.Flatten
import Verif.Spec.List
import Verif.Spec.Schema
/-! Specification vocabulary: the tables `flatten` and `create_template` write, in every format; and which data the options of `flatten` ask for. -/
namespace Verif.Spec
open Api

/-! ### Tables in files -/

/-- A sheet: headings and lines, which have values under some of the headings. -/
structure Table where
  name : Str
  header : List Str
  lines : List (List (Str × Json))

/-- No heading is repeated, and every value of a line has a heading. -/
structure Table.Complete (t : Table) : Prop where
  distinct : t.header.Nodup
  columns : ∀ line ∈ t.lines, ∀ h ∈ Dict.keys line, h ∈ t.header

/-- The values of a line, in the order of the headings. -/
def Table.values (t : Table) (line : List (Str × Json)) : List (Option Json) := t.header.map (Dict.get line)

/-- The text without control characters (other than tab, line feed and carriage return). -/
def legalText (s : Str) : Str :=
  s.filter (fun c => 32 ≤ c.toNat || c.toNat = 9 || c.toNat = 10 || c.toNat = 13)

/-- Texts without control characters; other scalars as they are. -/
def legal : Atom → Atom
  | .str s => .str (legalText s)
  | a => a

/-- A worksheet cell shows a value: it holds the scalar, or nothing. -/
inductive CellShows : Option Json → Atom → Prop where
  | missing : CellShows none .none
  | scalar (a : Atom) : CellShows (some (.leaf a)) (legal a)

/-- A value without control characters, if it is a scalar. -/
def legalValue : Json → Json
  | .leaf a => .leaf (legal a)
  | v => v

/-- The values that Python counts as false: null, false, zeros and the empty text. -/
inductive Falsy : Atom → Prop where
  | null : Falsy .none
  | no : Falsy (.bool false)
  | int : Falsy (.int 0)
  | dec {neg x} : Falsy (.dec (.fin neg 0 x))
  | float {f neg x} : f.exact = .fin neg 0 x → Falsy (.float f)
  | text : Falsy (.str [])

/-- A cell of an ODS table shows a value: it has its text, and, if it is a number other than zero (or the text of a number), the number.  An empty list or
dict is shown as nothing. -/
inductive OdsShows (lib : OdsLib) : Option Json → OdsCell → Prop where
  | missing : OdsShows lib none {}
  | null : OdsShows lib (some (.leaf .none)) {}
  | emptyList : OdsShows lib (some (.arr [])) {}
  | emptyDict : OdsShows lib (some (.obj [])) {}
  | number (a : Atom) (v : Str) : ¬ Falsy a → lib.number a = .ok v → OdsShows lib (some (.leaf a)) { kind := .float v, text := lib.text a }
  | text (a : Atom) : a ≠ .none → (Falsy a ∨ lib.number a = .error .value) → OdsShows lib (some (.leaf a)) { text := lib.text a }

/-- The worksheets of a workbook show the tables, in order: the title is what the library makes of the name (with prefix, at most 31 characters) and the
titles before; the first row has the headings, then there is a row for each line. -/
inductive Worksheets (title : List Str → Str → Except Err Str) (pfx : Str) : List Str → List Table → List (Str × Grid) → Prop where
  | nil {used} : Worksheets title pfx used [] []
  | cons {used t ts name g gs rows} : title used ((pfx ++ t.name).take 31) = .ok name → g.rows = t.header.map Atom.str :: rows →
    All₂ (fun line row => All₂ CellShows (t.values line) row) t.lines rows → Worksheets title pfx (used ++ [name]) ts gs →
    Worksheets title pfx used (t :: ts) ((name, g) :: gs)

/-- A CSV file shows a table: the headings, then a row for each line with the texts of its values. -/
def csvOf (strOf : Json → Str) (t : Table) : List (List Str) :=
  t.header :: t.lines.map (fun line => (t.values line).map (writtenText strOf))

/-- What is written shows the tables.  A CSV file with the name of several tables shows the last of them. -/
inductive WrittenShows (env : FlEnv) (pfx : Str) (tables : List Table) : Written → Prop where
  | csv {dir : Str} {files : List (Str × List (List Str))} (hn : (files.map (·.1)).Nodup)
    (h : ∀ file grid, (file, grid) ∈ files ↔ ∃ before t after, tables = before ++ t :: after ∧ (∀ t' ∈ after, t'.name ≠ t.name) ∧
      file = pfx ++ t.name ++ s%".csv" ∧ grid = csvOf env.strOf t) :
    WrittenShows env pfx tables (.csv dir files)
  | xlsx {file : Str} {sheets : List (Str × Grid)} (h : Worksheets env.title pfx [] tables sheets) : WrittenShows env pfx tables (.xlsx file sheets)
  | ods {file : Str} {ots : List OdsTable}
    (h : All₂ (fun t (ot : OdsTable) => ot.name = (pfx ++ t.name).take 31 ∧ ∃ header rows, ot.rows = header :: rows ∧
      header.repeated = 1 ∧ All₂ (fun h c => OdsShows env.ods (some (.leaf (.str h))) c) t.header header.cells ∧
      All₂ (fun line row => row.repeated = 1 ∧ All₂ (fun v c => OdsShows env.ods (v.map legalValue) c) (t.values line) row.cells) t.lines rows) tables ots) :
    WrittenShows env pfx tables (.ods file ots)

/-- The lines of the table with a name. -/
def linesOf (tables : List Table) (name : Str) : List (List (Str × Json)) :=
  match tables.find? (fun t => t.name = name) with
  | some t => t.lines
  | none => []

/-! ### What the options of `flatten` ask for -/

/-- The schema, if one is given, as its parser reads it with these options. -/
inductive SchemaOf (o : FlOpts) : Option Parsed → Prop where
  | none : o.schema = none → SchemaOf o none
  | parsed {s : Schema} {p : Parsed} {rollup : Bool} : o.schema = some s → (rollup = false ↔ o.rollup = .off ∨ o.rollup = .list []) →
    parseRoot { rollup, rootId := o.rootId.getD [], useTitles := o.useTitles, trunc := o.trunc, wkt := o.wkt } s = .ok p → SchemaOf o (some p)

/-- The root list of the document. -/
inductive RootList (o : FlOpts) : Json → List Json → Prop where
  | list {l : List Json} : o.rootIsList = true → RootList o (.arr l) l
  | path {content : Json} : o.rootIsList = false → (∀ k ∈ Py.split '/' o.rootListPath, '.' ∉ k ∧ k ≠ s%"item") →
    Clear (Py.split '/' o.rootListPath) content → RootList o content (itemsOf (keysTo (Py.split '/' o.rootListPath) content))

/-- The filter lets the object pass: no filter, or the object has the value in the field. -/
def passes (o : FlOpts) (j : Json) : Bool :=
  match o.filterField, o.filterValue with
  | some f, some v => f = [] || v = [] || selected f v j
  | _, _ => true

/-- The fields that are asked for: everything, or those of a list of paths, which is the content of a file, one path on each line. -/
inductive Asks (o : FlOpts) : Option (List (List Str)) → Prop where
  | everything : o.preserve.getD [] = [] → Asks o none
  | listed {lines : List Str} {paths : List (List Str)} : o.preserve = some lines → lines.map (Py.strip Py.isSpace) = paths.map pathText → Asks o (some paths)

/-- Is the field of the object at the path kept? -/
def keeps : Option (List (List Str)) → List Str → Str → Bool
  | none => everything
  | some paths => preserved paths

/-- Can the field `k` of the objects in the array `key` be rolled up?  With a list of paths, only if it, or a field of it, is listed. -/
def RollsAsked : Option (List (List Str)) → Str → Str → Prop
  | none, _, _ => True
  | some paths, key, k => RollsListed paths key k

/-- The list of paths fits the document (see `GoodList`), and no key starts with `0`. -/
def PathsFit (root : List Json) : Option (List (List Str)) → Prop
  | none => True
  | some paths => GoodList paths root ∧ ∀ j ∈ root, ∀ p w, At j p w → ∀ k ∈ p, k.head? ≠ some '0'

/-- The names of the fields with arrays to be rolled up: none without the option; with a schema that says what to roll up, nothing
but the columns the schema puts on the main sheet for it; else the names given directly, or the lines of the file of which the name is given. -/
inductive RollsUp (o : FlOpts) (env : FlEnv) (schema : Option Parsed) : (Str → Str → Prop) → Prop where
  | off : o.rollup = .off ∨ o.rollup = .list [] → RollsUp o env schema (fun _ _ => False)
  | schema {p : Parsed} : o.rollup ≠ .off → o.rollup ≠ .list [] → schema = some p → p.rollup ≠ [] →
    RollsUp o env schema (fun key k => pathText [key, s%"0", k] ∈ p.main.headings)
  | names {names : List Str} : o.rollup = .list (names.map some) → names ≠ [] → (∀ n, names = [n] → env.file n = none) → (∀ p, schema = some p → p.rollup = []) →
    RollsUp o env schema (fun key k => key ∈ names ∨ ∃ p, schema = some p ∧ pathText [key, s%"0", k] ∈ p.main.headings)
  | file {name : Str} {lines : List Str} : o.rollup = .list [some name] → env.file name = some lines → (∀ p, schema = some p → p.rollup = []) →
    RollsUp o env schema (fun key k => lines ≠ [] ∧
      (key ∈ lines.map (Py.strip Py.isSpace) ∨ ∃ p, schema = some p ∧ pathText [key, s%"0", k] ∈ p.main.headings))

/-- The line of an object of the root list has its values (those asked for) under the headings of their paths, and the values rolled up; nothing else. -/
def MainLine (keep : List Str → Str → Bool) (rolls : Str → Str → Prop) (fs : List (Str × Json)) (line : List (Str × Json)) : Prop :=
  ∀ heading v, Dict.get line heading = some v ↔ ∃ q, heading = pathText q ∧ (HasCell keep [] fs q v ∨ Rolled rolls fs q v)

/-- The line of an object in an array has its values (those asked for) under the headings of their paths, and the ids of the objects around it; nothing
else. -/
structure SubLine (ids : IdOpts) (keep : List Str → Str → Bool) (i : Item) (line : List (Str × Json)) : Prop where
  values : Holds keep (i.array ++ [s%"0"]) i.fields (IsIdOf ids i.around) line
  carries : '/' ∉ ids.idName → (∀ rid, ids.rootId = some rid → '/' ∉ rid ∧ rid ≠ ids.idName) → CarriesIds ids i.around line

/-! ### What the options of `create_template` ask for -/

/-- How the schema is read with these options. -/
def templateCfg (o : TmplOpts) : SchemaCfg :=
  { rollup := o.rollup, rootId := o.rootId.getD [], useTitles := o.useTitles, trunc := o.trunc, noDeprecated := o.noDeprecated, wkt := o.wkt }

/-- The columns of the main sheet: the fields of the schema that stand there, each once. -/
structure MainColumns (cfg : SchemaCfg) (s : Schema) (header : List Str) : Prop where
  distinct : header.Nodup
  exact : ∀ c, c ∈ header ↔ ∃ r t, Starts s r ∧ Shown cfg r c t

/-- The columns of the sheet with this name: the root id, if one is asked for; the ids of the objects around the arrays with this sheet name; the fields of
the items of these arrays. -/
structure SubColumns (cfg : SchemaCfg) (s : Schema) (name : Str) (ids cols : List Str) : Prop where
  distinctIds : ids.Nodup
  distinct : cols.Nodup
  ids : ∀ c, c ∈ ids ↔ ∃ r above below x q n p, Starts s r ∧ Trail cfg r above x ∧ Trail cfg x below q ∧ Field cfg q n p ∧
    kind cfg.wkt p = .objects ∧ name = tableName cfg (above ++ below) n ∧ s%"id" ∈ names x ∧ c = columnPath above s%"id"
  columns : ∀ c, c ∈ cols ↔ ∃ steps n p i f t, Reached cfg s steps n p ∧ kind cfg.wkt p = .objects ∧ p.items = some i ∧
    name = tableName cfg steps n ∧ Shown cfg i f t ∧ c = columnPath (steps ++ [⟨n, p, true⟩]) f

end Verif.Spec

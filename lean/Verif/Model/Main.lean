import Verif.Model.Api
import Verif.Model.Titles
import Verif.Model.Letters
import Verif.Model.Flatten
import Verif.Model.Xml
import Verif.Model.Xsd
/-!
The functions `unflatten`, `flatten` and `create_template` of `flattentool/__init__.py` as a whole: options, reading,
schemas, metatab, source maps, output.  File contents are given in decoded form (`Env`, `FlEnv`).
-/
namespace Verif.Api

/-! #### Reading -/

/-- The decoded input: a directory of CSV files (file name, rows), the worksheets of an XLSX file, or the tables of an
ODS file.  Decoding (csv, openpyxl, odfpy) is not modelled. -/
inductive Input where
  | csv (files : List (Str × List (List Str)))
  | xlsx (sheets : List (Str × Grid))
  | ods (sheets : List (Str × List (List Atom)))

/-- `INPUT_FORMATS` (input.py:964): the format a decoded input belongs to. -/
def Input.format : Input → Str
  | .csv _ => s%"csv"
  | .xlsx _ => s%"xlsx"
  | .ods _ => s%"ods"

/-- `read_sheets` (input.py:652-670, 715-736, 831-844): the names of the sheets to read. -/
def Input.select (i : Input) (incl : List Str) (excl : List (Option Str)) : List Str :=
  match i with
  | .csv files => selectCsv (files.map (·.1)) incl excl
  | .xlsx sheets => selectSheets (sheets.map (·.1)) incl excl
  | .ods sheets => selectSheets (sheets.map (·.1)) incl excl

/-- `configure_sheets` (input.py:348-352): the configuration of one sheet. -/
def Input.config (i : Input) (name : Str) : Except Err SheetConfig :=
  match i with
  | .csv files => csvConfig ((Dict.get files (name ++ s%".csv")).getD [])
  | .xlsx sheets => xlsxConfig ((Dict.get sheets name).getD ⟨0, []⟩)
  | .ods sheets => odsConfig ((Dict.get sheets name).getD [])

/-- `get_sheet_headings`, `get_sheet_lines`: one sheet. -/
def Input.sheet (i : Input) (rc : ReadCfg) (name : Str) : Except Err SheetIn :=
  match i with
  | .csv files => csvSheet rc name ((Dict.get files (name ++ s%".csv")).getD [])
  | .xlsx sheets => xlsxSheet rc name ((Dict.get sheets name).getD ⟨0, []⟩)
  | .ods sheets => odsSheet rc name ((Dict.get sheets name).getD [])

/-- Apply a function that can fail to a list. -/
def mapE {α β : Type} (f : α → Except Err β) : List α → Except Err (List β)
  | [] => .ok []
  | a :: r =>
    match f a with
    | .error e => .error e
    | .ok b =>
      match mapE f r with
      | .error e => .error e
      | .ok bs => .ok (b :: bs)

/-- `read_sheets` and the reading of the sheets.  Simplification: sheets are read lazily by the code, so that an error in
one of them can occur after others have been unflattened. -/
def Input.read (i : Input) (rc : ReadCfg) (incl : List Str) (excl : List (Option Str)) : Except Err (List SheetIn) :=
  mapE (i.sheet rc) (i.select incl excl)

/-- `get_sub_sheets_lines` (input.py:336-346): with `convert_titles` the headings are looked up; without a schema
`self.parser.sub_sheets` raises `AttributeError` (if there is any sheet). -/
def withTitles (convert : Bool) (schema : Option Parsed) (sheets : List SheetIn) : Except Err (List SheetIn) :=
  if !convert || sheets.isEmpty then .ok sheets
  else match schema with
    | none => .error .attr
    | some p => .ok (titleSheets p.lookup sheets)

/-! #### `unflatten` -/

/-- Options of `unflatten` (`__init__.py:208-236`).  `metatabName` and `rootId` may be given as empty texts; the two
source map options say whether a (non-empty) file name is given; the schemas are given in decoded form (`none`: not given);
`schema` and `metatabSchema` are read with all references resolved (see `loadRef`). -/
structure UnOpts where
  inputFormat : Option Str := none
  baseJson : Option Str := none
  rootListPath : Option Str := none
  rootIsList : Bool := false
  rootId : Option Str := none
  schema : Option Schema := none
  convertTitles : Bool := false
  cellSourceMap : Bool := false
  headingSourceMap : Bool := false
  idName : Option Str := none
  xml : Bool := false
  vertical : Bool := false
  metatabName : Option Str := none
  metatabOnly : Bool := false
  metatabSchema : Option Schema := none
  metatabVertical : Bool := false
  defaultConfig : Str := []
  trunc : Nat := 3
  wkt : Bool := false

/-- What the functions read: the input, the content of the base JSON file, and the libraries (geometries, validity of XML
names); the parsed XML schemas (`none`: not given); the depth at which recursion is given up. -/
structure Env where
  input : Input
  baseFile : Json := .obj []
  geoLib : Bool := true
  wktLoads : Str → Option Json := fun _ => none
  xmlValid : Str → List (Str × Str) → Bool := fun _ _ => true
  xmlSchemas : Option (List Xsd.Node) := none
  depth : Nat := 1000

/-- What `unflatten` writes: JSON or XML. -/
inductive Document where
  | json (j : Json)
  | xml (e : Xml.Elem)

/-- What `unflatten` writes, and its warnings. -/
structure UnOut where
  document : Document
  cellMap : List (Str × MapEntry)
  headingMap : List (Str × List (Str × Str))
  warns : List Warn
  schemaWarns : List SWarn

/-- `base_configuration.update(…)` (`__init__.py:308-310`). -/
def SheetConfig.update (base own : SheetConfig) : SheetConfig :=
  { skipRows := own.skipRows <|> base.skipRows
    headerRows := own.headerRows <|> base.headerRows
    ignore := own.ignore || base.ignore
    hashcomments := own.hashcomments || base.hashcomments
    xmlRootTag := own.xmlRootTag <|> base.xmlRootTag
    rootListPath := own.rootListPath <|> base.rootListPath
    idName := own.idName <|> base.idName }

/-- `__init__.py:261-263`: the configuration given as an option. -/
def defaultConfiguration (text : Str) : SheetConfig :=
  parseConfig ((Py.split ',' text).map (Py.strip Py.isSpace))

/-- A schema, if one is given, is parsed. -/
def parseOpt (cfg : SchemaCfg) : Option Schema → Except Err (Option Parsed)
  | none => .ok none
  | some s =>
    match parseRoot cfg s with
    | .error e => .error e
    | .ok p => .ok (some p)

/-- The parameters of the row builder given by a schema. -/
def rowCfg (o : UnOpts) (env : Env) (schema : Option Parsed) : RowCfg :=
  { types := match schema with | some p => p.types | none => fun _ => none
    xml := o.xml
    conv := { wkt := o.wkt, geoLib := env.geoLib, wktLoads := env.wktLoads } }

/-- The empty text counts as not given. -/
def given (s : Option Str) : Option Str := s.filter (fun t => !t.isEmpty)

/-- The result of one pass over sheets of the input. -/
structure Pass where
  result : List Json := []
  cells : List (Str × MapEntry) := []
  headings : List (Str × List (Str × Str)) := []
  warns : List Warn := []
  schemaWarns : List SWarn := []

/-- The warnings of the schema, if there is one. -/
def schemaWarnsOf : Option Parsed → List SWarn
  | some p => p.warns
  | none => []

/-- Reading and unflattening some sheets of the input with source maps. -/
def pass (o : UnOpts) (env : Env) (schema : Option Parsed) (cfg : UnCfg) (rc : ReadCfg) (root : Option Str) (incl : List Str)
    (excl : List (Option Str)) : Except Err Pass :=
  match env.input.read rc incl excl with
  | .error e => .error e
  | .ok sheets =>
    match withTitles o.convertTitles schema sheets with
    | .error e => .error e
    | .ok sheets =>
      if sheets.any (lettersFail rc.vertical) then .error .value
      else match fancyUnflatten cfg root o.cellSourceMap o.headingSourceMap sheets with
      | .error e => .error e
      | .ok (result, cm, hm, w) =>
        .ok { result, cells := cm.getD [], headings := hm.getD [], warns := w, schemaWarns := schemaWarnsOf schema }

/-- `__init__.py:268-299`: the metatab.  Its root id is the default of `SpreadsheetInput` (`ocid`), and the id name is `None`
unless given as an option; configuration is not used. -/
def metaPass (o : UnOpts) (env : Env) (name : Str) : Except Err Pass :=
  match parseOpt { wkt := o.wkt } o.metatabSchema with
  | .error e => .error e
  | .ok schema =>
    pass o env schema { row := rowCfg o env schema, idName := o.idName, rootId := some s%"ocid" }
      { base := {}, useConfig := false, vertical := o.metatabVertical } (some s%"meta") [name] []

/-- `__init__.py:300-305`: keys of the metatab's source maps without `meta/0/` and `meta/`. -/
def stripKeys {α : Type} (n : Nat) (m : List (Str × α)) : List (Str × α) :=
  dictOf (m.map (fun e => (e.1.drop n, e.2)))

/-- `sheet_configuration.get(metatab_name, {})` (`__init__.py:309`): the metatab's own configuration, if the sheet is there. -/
def metaConfig (env : Env) (name : Str) : Except Err SheetConfig :=
  if name ∈ env.input.select [name] [] then env.input.config name else .ok {}

/-- `__init__.py:320-358`: the other sheets. -/
def mainPass (o : UnOpts) (env : Env) (base : SheetConfig) (root idName : Str) : Except Err Pass :=
  match parseOpt { rollup := true, rootId := o.rootId.getD [], trunc := o.trunc, wkt := o.wkt } o.schema with
  | .error e => .error e
  | .ok schema =>
    pass o env schema { row := rowCfg o env schema, idName := some idName, rootId := given o.rootId }
      { base := base, useConfig := true, vertical := o.vertical } (if o.rootIsList then none else some root) [] [o.metatabName]

/-- `__init__.py:253-259`: the document to start from. -/
def baseDocument (o : UnOpts) (env : Env) : Json :=
  if o.rootIsList then .leaf .none
  else if given o.baseJson = none then .obj []
  else env.baseFile

/-- `base.update(result[0])` (`__init__.py:312-313`). -/
def addMeta (base : Json) (result : List Json) : Except Err Json :=
  match result with
  | [] => .ok base
  | .obj fs :: _ => (match base with | .obj b => .ok (.obj (Dict.update b fs)) | _ => .error .attr)
  | _ :: _ => .error .value

/-- `__init__.py:359-362`: the document with the result. -/
def addResult (o : UnOpts) (root : Str) (base : Json) (result : List Json) : Except Err Json :=
  if o.rootIsList then .ok (.arr result)
  else match base with
    | .obj b => .ok (.obj (Dict.set b root (.arr result)))
    | _ => .error .type

/-- xml_output.py:128-129: the order given by the XML schemas.  (The code reads it after converting the data: if both fail,
the error is the other one.) -/
def xmlOrder (env : Env) (root : Str) : Except Err (Option Xml.Order) :=
  match env.xmlSchemas with
  | none => .ok none
  | some schemas =>
    match Xsd.schemaDict schemas env.depth root none with
    | .error e => .error e
    | .ok o => .ok (some o)

/-- `__init__.py:364-411`: what is written.  (`toxml` needs a dict.)  The text form of JSON is
`dumpJson` (`Model/JsonText.lean`), which fails on infinite or NaN decimals and on other objects.  Simplification: the text
form of XML is not modelled. -/
def render (o : UnOpts) (env : Env) (config : SheetConfig) (root : Str) (doc : Json) : Except Err Document :=
  if o.xml then
    match doc with
    | .obj fs =>
      match xmlOrder env root with
      | .error e => .error e
      | .ok order =>
        match Xml.toXml env.xmlValid fs (config.xmlRootTag.getD s%"iati-activities") order with
        | .error e => .error e
        | .ok el => .ok (.xml el)
    | _ => .error .attr
  else .ok (.json doc)

/-- The state between the metatab and the other sheets. -/
structure Stage where
  base : Json
  config : SheetConfig
  md : Pass := {}

/-- `__init__.py:253-313`: base document, configuration, metatab. -/
def stage1 (o : UnOpts) (env : Env) : Except Err Stage :=
  let base := baseDocument o env
  let config := defaultConfiguration o.defaultConfig
  match given o.metatabName with
  | none => .ok { base, config }
  | some name =>
    if o.rootIsList then .ok { base, config }
    else match metaPass o env name with
      | .error e => .error e
      | .ok m =>
        match metaConfig env name with
        | .error e => .error e
        | .ok own =>
          match addMeta base m.result with
          | .error e => .error e
          | .ok base => .ok { base, config := SheetConfig.update config own,
                              md := { m with cells := stripKeys 7 m.cells, headings := stripKeys 5 m.headings } }

/-- `__init__.py:315-318`: the root list path and the id name in force. -/
def rootPathOf (o : UnOpts) (c : SheetConfig) : Str := o.rootListPath.getD (c.rootListPath.getD s%"main")
def idNameOf (o : UnOpts) (c : SheetConfig) : Str := o.idName.getD (c.idName.getD s%"id")

/-- `__init__.py:208-411` `unflatten`. -/
def runUnflatten (o : UnOpts) (env : Env) : Except Err UnOut :=
  match unflattenChecks o.inputFormat o.metatabName o.baseJson with
  | .error e => .error e
  | .ok _ =>
    if o.inputFormat ≠ some env.input.format then .error .value    -- the file is not in the format given
    else match stage1 o env with
      | .error e => .error e
      | .ok s =>
        if o.metatabOnly && !o.rootIsList then
          match render o env s.config (rootPathOf o s.config) s.base with
          | .error e => .error e
          | .ok d => .ok { document := d, cellMap := s.md.cells, headingMap := s.md.headings, warns := s.md.warns,
                           schemaWarns := s.md.schemaWarns }
        else match mainPass o env s.config (rootPathOf o s.config) (idNameOf o s.config) with
          | .error e => .error e
          | .ok m =>
            match addResult o (rootPathOf o s.config) s.base m.result with
            | .error e => .error e
            | .ok doc =>
              match render o env s.config (rootPathOf o s.config) doc with
              | .error e => .error e
              | .ok d => .ok { document := d, cellMap := Dict.update s.md.cells m.cells,
                               headingMap := Dict.update s.md.headings m.headings, warns := s.md.warns ++ m.warns,
                               schemaWarns := s.md.schemaWarns ++ m.schemaWarns }

end Verif.Api

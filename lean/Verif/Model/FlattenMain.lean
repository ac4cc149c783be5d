import Verif.Model.Main
import Verif.Model.Ods
/-!
The functions `flatten` and `create_template` of `flattentool/__init__.py` as a whole: options, the root list, rollup and
preserve options, output formats and names.
-/
namespace Verif.Api

/-! #### The root list -/

/-- `ijson` names a position by its keys, and `item` for every array, joined with dots. -/
def ijsonPrefix (segments : List Str) : Str := Py.join s%"." segments

mutual
/-- `ijson.items(file, path)` (json_input.py:313): the values whose prefix is `path`, in order; nothing inside of such a value.
(As in ijson's pure Python backend.) -/
def ijsonValue (path : Str) (segments : List Str) : Json → List Json
  | .leaf a => if ijsonPrefix segments = path then [.leaf a] else []
  | .obj fs => if ijsonPrefix segments = path then [.obj fs] else ijsonFields path segments fs
  | .arr l => if ijsonPrefix segments = path then [.arr l] else ijsonItems path segments l
def ijsonFields (path : Str) (segments : List Str) : List (Str × Json) → List Json
  | [] => []
  | (k, v) :: r => ijsonValue path (segments ++ [k]) v ++ ijsonFields path segments r
def ijsonItems (path : Str) (segments : List Str) : List Json → List Json
  | [] => []
  | j :: r => ijsonValue path (segments ++ [s%"item"]) j ++ ijsonItems path segments r
end

/-- json_input.py:306-309: the path given to ijson (`none`: the root is the list). -/
def itemPath : Option Str → Str
  | none => s%"item"
  | some p => p.map (fun c => if c = '/' then '.' else c) ++ s%".item"

/-- `path_search` (input.py:1137-1173) as it is used in json_input.py:264: following keys in dicts; a missing key gives an empty
dict; anything else than a dict raises `TypeError`.  Simplification: a key that ends with `[]` is an error as well (the code
raises `NameError`, `TypeError` or finds nothing). -/
def pathSearch : List Str → Json → Except Err Json
  | [], j => .ok j
  | k :: ks, .obj fs =>
    if Py.endsWith s%"[]" k then .error .type
    else match Dict.get fs k with
      | some v => pathSearch ks v
      | none => pathSearch ks (.obj [])
  | _ :: _, _ => .error .type

/-- `enumerate(self.root_json_list)` (json_input.py:322): what is iterated over. -/
def iterate : Json → Except Err (List Json)
  | .arr l => .ok l
  | .obj fs => .ok (fs.map (fun f => .leaf (.str f.1)))
  | .leaf (.str s) => .ok (s.map (fun c => .leaf (.str [c])))
  | .leaf _ => .error .type

/-- json_input.py:236-265, 305-313: the root list.  In XML mode `content` is what `xmltodict` gives inside of the root element. -/
def rootItems (xml : Bool) (path : Option Str) (content : Json) : Except Err (List Json) :=
  if xml then
    match content with
    | .obj fs =>
      let d := Json.obj (Xml.listDictConsistency fs)
      match path with
      | none => iterate d
      | some p =>
        match pathSearch (Py.split '/' p) d with
        | .error e => .error e
        | .ok j => iterate j
    | _ => .error .attr
  else .ok (ijsonValue (itemPath path) [] content)

/-! #### Options -/

/-- The `rollup` option of `flatten`: `False`/`None`, `True`, or a list of texts and `True` (`none`). -/
inductive RollupOpt where
  | off
  | flag
  | list (items : List (Option Str))

/-- Truth value. -/
def RollupOpt.truthy : RollupOpt → Bool
  | .off => false
  | .flag => true
  | .list l => !l.isEmpty

/-- Options of `flatten` (`__init__.py:82-105`).  `preserve`: the lines of the file, if one is given. -/
structure FlOpts where
  schema : Option Schema := none
  outputName : Option Str := none
  outputFormat : Str := s%"all"
  mainSheetName : Str := s%"main"
  rootListPath : Str := s%"main"
  rootIsList : Bool := false
  sheetPrefix : Str := []
  filterField : Option Str := none
  filterValue : Option Str := none
  preserve : Option (List Str) := none
  rollup : RollupOpt := .off
  rootId : Option Str := none
  useTitles : Bool := false
  xml : Bool := false
  idName : Str := s%"id"
  removeEmpty : Bool := false
  trunc : Nat := 3
  lineTerminator : Str := s%"CRLF"
  wkt : Bool := false

/-- What the functions find around them: the decoded content of the input file, the lines of files named by the rollup option;
and the libraries: `str()` of lists and dicts, geometries, iteration order of sets, the title openpyxl gives to a worksheet
(from the titles so far and the title asked for), and numbers and texts in ODS files. -/
structure FlEnv where
  content : Json := .arr []
  file : Str → Option (List Str) := fun _ => none
  strOf : Json → Str := fun _ => []
  geoLib : Bool := true
  wktOf : List (Str × Json) → Option Str := fun _ => none
  order : List Str → List Str := fun l => l
  title : List Str → Str → Except Err Str := fun _ t => .ok t
  ods : OdsLib := {}

/-- json_input.py:199-234: `self.rollup`, and whether the warning is given that direct input is ignored.  Two of the warnings
are never given, because `_` is called with two arguments: `TypeError`.  (Simplification: `[True]` raises the same; the code
asks whether file descriptor 1 is a file, and if so fails in reading from it.) -/
def rollupOf (opt : RollupOpt) (schema : Option Parsed) (file : Str → Option (List Str)) : Except Err (List Str × Bool) :=
  if !opt.truthy then .ok ([], false)
  else match schema with
    | some p =>
      if p.rollup.isEmpty then direct
      else .ok (p.rollup, match opt with
        | .list [none] => false
        | .list (_ :: _) => true
        | _ => false)
    | none => direct
where
  direct : Except Err (List Str × Bool) :=
    match opt with
    | .list [none] => .error .type
    | .list [some name] =>
      match file name with
      | some lines => .ok (lines.map (Py.strip Py.isSpace), false)
      | none => .ok ([name], false)
    | .list items => .ok (items.filterMap id, false)
    | _ => .error .type

/-- `__init__.py:121-132`: the schema parser of `flatten`. -/
def FlOpts.schemaCfg (o : FlOpts) : SchemaCfg :=
  { rollup := o.rollup.truthy, rootId := o.rootId.getD [], useTitles := o.useTitles, trunc := o.trunc, wkt := o.wkt }

/-- `__init__.py:137-153`: the options of the parser. -/
def FlOpts.parserCfg (o : FlOpts) (env : FlEnv) (schema : Option Parsed) (rollup : List Str) : FCfg :=
  { schema, rootId := given o.rootId, useTitles := o.useTitles, xml := o.xml, idName := o.idName
    filter := match given o.filterField, given o.filterValue with
      | some f, some v => some (f, v)
      | _, _ => none
    preserve := preserveSet (o.preserve.getD [])
    preserveInput := preserveInputSet (o.preserve.getD [])
    removeEmpty := o.removeEmpty, rollup, trunc := o.trunc, wkt := o.wkt, geoLib := env.geoLib, wktOf := env.wktOf
    order := env.order }

/-! #### Output -/

/-- What is written: a directory of CSV files, an XLSX workbook, an ODS document. -/
inductive Written where
  | csv (dir : Str) (files : List (Str × List (List Str)))
  | xlsx (file : Str) (sheets : List (Str × Grid))
  | ods (file : Str) (tables : List OdsTable)

/-- `FORMATS_SUFFIX` (output.py:169-173). -/
def suffix (format : Str) : Str := if format = s%"csv" then [] else '.' :: format

/-- output.py:57-85: the worksheets, each with the title openpyxl gives it. -/
def writeXlsx (title : List Str → Str → Except Err Str) (pfx : Str) : List Str → List (Str × Sheet) → Except Err (List (Str × Grid))
  | _, [] => .ok []
  | used, (n, s) :: r =>
    match title used (sheetTitle pfx n) with
    | .error e => .error e
    | .ok t =>
      match xlsxGrid s with
      | .error e => .error e
      | .ok g =>
        match writeXlsx title pfx (used ++ [t]) r with
        | .error e => .error e
        | .ok rest => .ok ((t, g) :: rest)

/-- output.py:132-161 `ODSOutput.write_sheet`: the table of a sheet. -/
def odsTable (lib : OdsLib) (pfx : Str) (p : Str × Sheet) : Except Err OdsTable :=
  match odsRowsOf lib p.2 with
  | .error e => .error e
  | .ok rows => .ok { name := sheetTitle pfx p.1, rows }

/-- output.py:44-51 `write_sheets` in a format. -/
def writeFormat (env : FlEnv) (pfx mainName name : Str) (st : FState) (format : Str) : Except Err Written :=
  if format = s%"csv" then
    match mapE (fun p => match csvGrid env.strOf p.2 with | .error e => .error e | .ok g => .ok (p.1, g)) (writeCsv pfx mainName st) with
    | .error e => .error e
    | .ok files => .ok (.csv name files)
  else if format = s%"xlsx" then
    match writeXlsx env.title pfx [] (outSheets mainName st) with
    | .error e => .error e
    | .ok sheets => .ok (.xlsx name sheets)
  else
    match mapE (odsTable env.ods pfx) (outSheets mainName st) with
    | .error e => .error e
    | .ok tables => .ok (.ods name tables)

/-- `__init__.py:66-81, 165-179`: the name of the output in a format: the name given, or a default; with the suffix of the format
unless one format and a name are given. -/
def outputNameOf (outputName : Option Str) (default_ outputFormat format : Str) : Str :=
  match given outputName with
  | some n => if outputFormat = s%"all" then n ++ suffix format else n
  | none => default_ ++ suffix format

/-- `__init__.py:66-81, 165-179`: all that is written. -/
def writeAll (env : FlEnv) (pfx mainName : Str) (outputName : Option Str) (default_ outputFormat : Str) (st : FState) : Except Err (List Written) :=
  match outputFormats outputFormat with
  | .error e => .error e
  | .ok fs => mapE (fun f => writeFormat env pfx mainName (outputNameOf outputName default_ outputFormat f) st f) fs

/-! #### `flatten` -/

/-- What `flatten` writes, and its warnings: those of the traversal and of the schema, whether direct input for rollup is ignored, the fields to
be preserved that are not in the schema (if there is a schema and such a list), and the texts from which characters are removed. -/
structure FlOut where
  written : List Written
  warns : List FWarn
  schemaWarns : List SWarn
  rollupIgnored : Bool
  preserveUnknown : Option (List Str)
  removed : List Str

/-- The parsed schema, if there is one. -/
def FlOpts.parsedSchema (o : FlOpts) : Option Parsed :=
  match parseOpt o.schemaCfg o.schema with
  | .ok p => p
  | .error _ => none

/-- json_input.py:285-301: the fields to be preserved that are not in the schema.  The warning is given whenever there is a schema, even if it
lists nothing; without one `None.flattened` raises `AttributeError`, which is caught.  (Simplification: the code makes a set of them; here
they are in the order of the file, repetitions included.) -/
def unknownPreserved (o : FlOpts) (schema : Option Parsed) : Option (List Str) :=
  match schema, o.preserve with
  | some p, some lines => some ((preserveInputSet lines).filter (fun f => !Dict.has p.flattened f))
  | _, _ => none

/-- output.py:66-80, 143-157: the texts of a sheet from which characters are removed, in the order of the warnings. -/
def removedFrom (s : Sheet) : List Str :=
  s.lines.flatMap (fun l => s.headings.filterMap (fun h =>
    match (Dict.get l h : Option Json) with
    | some (.leaf (.str t)) => if t.filter (fun c => !illegalChar c) ≠ t then some t else none
    | _ => none))

/-- The same for all sheets, in a format (CSV files can have all characters). -/
def removedIn (mainName : Str) (st : FState) (format : Str) : List Str :=
  if format = s%"csv" then [] else (outSheets mainName st).flatMap (fun p => removedFrom p.2)

/-- `__init__.py:112-153`: the sheets. -/
def flattenState (o : FlOpts) (env : FlEnv) : Except Err (FState × List SWarn × Bool) :=
  match parseOpt o.schemaCfg o.schema with
  | .error e => .error e
  | .ok schema =>
    match rollupOf o.rollup schema env.file with
    | .error e => .error e
    | .ok (rollup, ignored) =>
      match rootItems o.xml (if o.rootIsList then none else some o.rootListPath) env.content with
      | .error e => .error e
      | .ok root =>
        match Verif.flatten (o.parserCfg env schema rollup) root with
        | .error e => .error e
        | .ok st => .ok (st, schemaWarnsOf schema, ignored)

/-- The warnings about removed characters, for all formats written. -/
def removedAll (mainName outputFormat : Str) (st : FState) : List Str :=
  match outputFormats outputFormat with
  | .error _ => []
  | .ok fs => fs.flatMap (removedIn mainName st)

/-- `__init__.py:82-179` `flatten`.  Simplification: if the output in one format fails, what was written before is left out. -/
def runFlatten (o : FlOpts) (env : FlEnv) : Except Err FlOut :=
  match flattenPreChecks o.filterField o.filterValue o.lineTerminator with
  | .error e => .error e
  | .ok _ =>
    match flattenState o env with
    | .error e => .error e
    | .ok (st, sw, ignored) =>
      match writeAll env o.sheetPrefix o.mainSheetName o.outputName s%"flattened" o.outputFormat st with
      | .error e => .error e
      | .ok written => .ok { written, warns := st.warns, schemaWarns := sw, rollupIgnored := ignored
                             preserveUnknown := unknownPreserved o o.parsedSchema
                             removed := removedAll o.mainSheetName o.outputFormat st }

/-! #### `create_template` -/

/-- Options of `create_template` (`__init__.py:18-31`). -/
structure TmplOpts where
  schema : Schema
  outputName : Option Str := none
  outputFormat : Str := s%"all"
  mainSheetName : Str := s%"main"
  rollup : Bool := false
  rootId : Option Str := none
  useTitles : Bool := false
  trunc : Nat := 3
  noDeprecated : Bool := false
  lineTerminator : Str := s%"CRLF"
  wkt : Bool := false

/-- `__init__.py:45-55`: the schema parser of `create_template`. -/
def TmplOpts.schemaCfg (o : TmplOpts) : SchemaCfg :=
  { rollup := o.rollup, rootId := o.rootId.getD [], useTitles := o.useTitles, trunc := o.trunc, noDeprecated := o.noDeprecated, wkt := o.wkt }

/-- `__init__.py:18-81` `create_template`: the sheets of the schema are written. -/
def runTemplate (o : TmplOpts) (env : FlEnv) : Except Err (List Written × List SWarn) :=
  if o.lineTerminator ∉ lineTerminators then .error .value
  else match parseRoot o.schemaCfg o.schema with
    | .error e => .error e
    | .ok p =>
      match writeAll env [] o.mainSheetName o.outputName s%"template" o.outputFormat { main := p.main, subs := p.subs } with
      | .error e => .error e
      | .ok written => .ok (written, p.warns)

end Verif.Api

import Verif.Spec.Ods
/-! Specification vocabulary: what is written where (docs: `--output-format`, `--output-name`). -/
namespace Verif.Spec
open Api

/-- The format of something written, and the name of the file or directory. -/
def writtenAt : Written → Str × Str
  | .csv dir _ => (s%"csv", dir)
  | .xlsx file _ => (s%"xlsx", file)
  | .ods file _ => (s%"ods", file)

/-- The usual ending of a name: none for the directory of CSV files. -/
inductive Ending : Str → Str → Prop where
  | csv : Ending s%"csv" []
  | xlsx : Ending s%"xlsx" s%".xlsx"
  | ods : Ending s%"ods" s%".ods"

/-- Where output is expected, for the options and the default name. -/
inductive Places (default_ : Str) : (format : Str) → (name : Option Str) → List (Str × Str) → Prop where
  /-- All formats: the name, or the default name, with the usual endings. -/
  | all {name : Option Str} {base : Str} (hb : (name.getD [] = [] ∧ base = default_) ∨ (name = some base ∧ base ≠ [])) :
    Places default_ s%"all" name [(s%"xlsx", base ++ s%".xlsx"), (s%"csv", base), (s%"ods", base ++ s%".ods")]
  /-- One format, and a name: exactly this name. -/
  | named {format name e : Str} (hf : Ending format e) (hn : name ≠ []) : Places default_ format (some name) [(format, name)]
  /-- One format, without a name: the default name with the usual ending. -/
  | unnamed {format e : Str} {name : Option Str} (hf : Ending format e) (hn : name.getD [] = []) : Places default_ format name [(format, default_ ++ e)]

/-- The two results are about the same sheets: the same warnings, apart from those about characters that a format cannot hold. -/
def SameWarnings (a b : FlOut) : Prop :=
  a.warns = b.warns ∧ a.schemaWarns = b.schemaWarns ∧ a.rollupIgnored = b.rollupIgnored ∧ a.preserveUnknown = b.preserveUnknown

/-- The options of `flatten` that correspond to options of `create_template`.  `name`: the name of the output. -/
def templateAsFlatten (o : TmplOpts) (name : Str) : FlOpts :=
  { schema := some o.schema, outputName := some name, outputFormat := o.outputFormat, mainSheetName := o.mainSheetName
    rollup := if o.rollup then .flag else .off, rootId := o.rootId, useTitles := o.useTitles, trunc := o.trunc
    lineTerminator := o.lineTerminator, wkt := o.wkt, rootIsList := true }

/-- The input that is read from what was written: CSV files are found in any order; ODS tables are decoded. -/
inductive ReadBack (lib : OdsLib) : Written → Input → Prop where
  | csv {dir : Str} {files found : List (Str × List (List Str))} (h : found.Perm files) : ReadBack lib (.csv dir files) (.csv found)
  | xlsx {file : Str} {sheets : List (Str × Grid)} : ReadBack lib (.xlsx file sheets) (.xlsx sheets)
  | ods {file : Str} {tables : List OdsTable} {decoded : List (Str × List (List Atom))} (h : readTables lib tables [] = .ok decoded) :
    ReadBack lib (.ods file tables) (.ods decoded)

/-- An input of which every sheet is one row, which is no configuration. -/
inductive OneRowEach : Input → Prop where
  | csv {files : List (Str × List (List Str))} (hn : (files.map (·.1)).Nodup) (h : ∀ f ∈ files, ∃ row, f.2 = [row] ∧ row.head? ≠ some s%"#") :
    OneRowEach (.csv files)
  | xlsx {sheets : List (Str × Grid)} (h : ∀ g ∈ sheets, ∃ row, g.2.rows = [row] ∧ row.head? ≠ some (.str s%"#")) : OneRowEach (.xlsx sheets)
  | ods {sheets : List (Str × List (List Atom))} (h : ∀ g ∈ sheets, ∃ row, g.2 = [row] ∧ row.head? ≠ some (.str s%"#")) : OneRowEach (.ods sheets)

/-- Options of `unflatten` to JSON without base document, metatab, default configuration or vertical sheets.  (Titles can only be converted with a schema.) -/
structure PlainUnflatten (u : UnOpts) : Prop where
  json : u.xml = false
  noBase : u.baseJson = none
  noMeta : u.metatabName = none ∧ u.metatabOnly = false
  noConfig : u.defaultConfig = []
  horizontal : u.vertical = false
  titles : u.convertTitles = true → u.schema ≠ none

/-- The document without data. -/
def emptyDocument (u : UnOpts) : Json :=
  if u.rootIsList then .arr [] else .obj [(u.rootListPath.getD s%"main", .arr [])]

end Verif.Spec

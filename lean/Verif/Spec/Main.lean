import Verif.Model.Main
import Verif.Spec.Sheets
/-! Specification vocabulary for the functions as a whole. -/
namespace Verif.Spec
open Api

/-- The files or sheets whose sheet name satisfies `p`.  (The sheet `M` of a directory of CSV files is the file `M.csv`.) -/
def onlySheet (name : Str) : Input → Input
  | .csv files => .csv (files.filter (fun f => f.1 = name ++ s%".csv"))
  | .xlsx sheets => .xlsx (sheets.filter (fun s => s.1 = name))
  | .ods sheets => .ods (sheets.filter (fun s => s.1 = name))

/-- The input without one sheet. -/
def withoutSheet (name : Str) : Input → Input
  | .csv files => .csv (files.filter (fun f => f.1 ≠ name ++ s%".csv"))
  | .xlsx sheets => .xlsx (sheets.filter (fun s => s.1 ≠ name))
  | .ods sheets => .ods (sheets.filter (fun s => s.1 ≠ name))

/-- No two files of a directory, or worksheets of a workbook, have the same name. -/
def DistinctSheets : Input → Prop
  | .csv files => (files.map (·.1)).Nodup
  | .xlsx sheets => (sheets.map (·.1)).Nodup
  | .ods sheets => (sheets.map (·.1)).Nodup

/-- The sheet does not start with a configuration line (a line whose first cell is `#`). -/
def NoConfigLine (name : Str) : Input → Prop
  | .csv files => ∀ first rest, (name ++ s%".csv", first :: rest) ∈ files → first.head? ≠ some s%"#"
  | .xlsx sheets => ∀ g, (name, g) ∈ sheets → (g.row 0).head? ≠ some (.str s%"#")
  | .ods sheets => ∀ first rest, (name, first :: rest) ∈ sheets → first.head? ≠ some (.str s%"#")

/-- The rows of a sheet of the file. -/
def fileRows : Input → Str → List (List Atom)
  | .csv files, name => ((Dict.get files (name ++ s%".csv")).getD []).map (·.map Atom.str)
  | .xlsx sheets, name => ((Dict.get sheets name).getD ⟨0, []⟩).rows
  | .ods sheets, name => (Dict.get sheets name).getD []

/-- The cell of the file in a sheet, a row and a column (both from 1). -/
def fileCell (i : Input) (sheet : Str) (row col : Nat) : Option Atom :=
  if row = 0 ∨ col = 0 then none else ((fileRows i sheet)[row - 1]?).bind (·[col - 1]?)

/-- No row of the table reaches beyond the column `ZZZ`, the last one that has letters. -/
def WithinZZZ {α : Type} (rows : List (List α)) : Prop := ∀ row ∈ rows, row.length ≤ 18278

/-- No sheet of the file reaches beyond the column `ZZZ`. -/
def NarrowFile : Input → Prop
  | .csv files => ∀ f ∈ files, WithinZZZ f.2
  | .xlsx sheets => ∀ s ∈ sheets, s.2.width ≤ 18278 ∧ WithinZZZ s.2.rows
  | .ods sheets => ∀ s ∈ sheets, WithinZZZ s.2

/-- The row is not one that the reader of the format leaves out: CSV: an empty line; ODS: a row without any value under a heading. -/
def KeptRow : Input → List Atom → List Atom → Prop
  | .csv _, _, row => row ≠ []
  | .xlsx _, _, _ => True
  | .ods _, headings, row => ∃ (c : Nat) (h : Str) (v : Atom), headings[c]? = some (.str h) ∧ h ≠ [] ∧ row[c]? = some v ∧ v ≠ .none

/-- A sheet that is read just as it stands in the file: no configuration line; the first row are the headings, which are texts (or empty cells), no two the
same; and no row is left out. -/
structure PlainSheet (i : Input) (name : Str) : Prop where
  noConfig : NoConfigLine name i
  headings : ∀ first rest, fileRows i name = first :: rest → first.Nodup ∧ ∀ a ∈ first, a = .none ∨ ∃ s, a = .str s
  kept : ∀ first rest, fileRows i name = first :: rest → ∀ row ∈ rest, KeptRow i first row

/-- The text of a cell that is a text. -/
def textCell : Atom → Option Str
  | .str s => some s
  | _ => none

/-- The texts in the configuration line (a first row that starts with `#`) of some rows; none if there is no such line. -/
def lineItems : List (List Atom) → List Str
  | (first :: items) :: _ => if first = .str s%"#" then items.filterMap textCell else []
  | _ => []

/-- The texts in the configuration line of a sheet. -/
def configItems (i : Input) (name : Str) : List Str := lineItems (fileRows i name)

/-- The texts in the default configuration given as an option. -/
def defaultItems (o : UnOpts) : List Str := (Py.split ',' o.defaultConfig).map (Py.strip Py.isSpace)

/-- What is configured for an option: in the first of the sources that says anything, the last that is said. -/
def configured (option : Str) (sources : List (List Str)) : Option Str :=
  (sources.filterMap (fun items => (argsOf option items).getLast?)).head?

/-- Where configuration for the whole run comes from: the configuration line of the metatab, if there is one; and the default configuration. -/
def sources (o : UnOpts) (env : Env) : List (List Str) :=
  (match o.metatabName with
   | some M => if M = [] ∨ o.rootIsList = true then [] else [configItems env.input M]
   | none => []) ++ [defaultItems o]

end Verif.Spec

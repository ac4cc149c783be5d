import Verif.Spec.ApiTrip
/-! Specification vocabulary: tables of ODS files (OpenDocument 1.2, 9.1: repeated and covered cells, repeated rows). -/
namespace Verif.Spec
open Api

/-- The cells of a row, one for each column. -/
def columnsOf (cells : List OdsCell) : List OdsCell := cells.flatMap (fun c => List.replicate c.repeated c)

/-- The rows of a table, one for each row that is shown. -/
def rowsShown (rows : List OdsRow) : List (List OdsCell) := rows.flatMap (fun r => List.replicate r.repeated (columnsOf r.cells))

/-- No cell is hidden by a merged one. -/
def NotMerged (cells : List OdsCell) : Prop := ∀ c ∈ cells, c.covered = false

/-- The value of a cell; a cell without a text has none. -/
inductive CellValue (lib : OdsLib) : OdsCell → Atom → Prop where
  | empty {cov n kind} : CellValue lib ⟨cov, n, kind, []⟩ .none
  | text {cov n t} (h : t ≠ []) : CellValue lib ⟨cov, n, .other, t⟩ (.str t)
  | whole {cov n t v i} (h : t ≠ []) (hd : '.' ∉ v) (hi : Py.int? v = some i) : CellValue lib ⟨cov, n, .float v, t⟩ (.int i)
  | decimal {cov n t v f} (h : t ≠ []) (hd : '.' ∈ v) (hf : lib.float v = some f) : CellValue lib ⟨cov, n, .float v, t⟩ (.float f)
  | date {cov n t v d} (h : t ≠ []) (hd : '.' ∉ v) (hf : lib.date v = some d) : CellValue lib ⟨cov, n, .date v, t⟩ (.datetime d)
  | time {cov n t v d k} (h : t ≠ []) (hd : '.' ∈ v) (hk : v.length + k = max v.length 26) (hf : lib.date (v ++ List.replicate k '0') = some d) :
    CellValue lib ⟨cov, n, .date v, t⟩ (.datetime d)

/-- The values of a row are those of cells, column by column; further columns are empty, and at the end of the row nothing empty is kept. -/
structure RowReads (lib : OdsLib) (cells : List OdsCell) (row : List Atom) : Prop where
  width : row.length ≤ cells.length
  value : ∀ (i : Nat) c, cells[i]? = some c → CellValue lib c ((row[i]?).getD .none)
  last : row.getLast? ≠ some .none

/-- What becomes of a scalar that is written to a cell and read (nothing, if that fails). -/
def odsBack (lib : OdsLib) (a : Atom) : Atom :=
  match odsMake lib (cleanValue (some (.leaf a))) with
  | .error _ => .none
  | .ok c =>
    match odsValue lib c with
    | .ok (some v) => v
    | _ => .none

/-- A text that is written and read as a text: it is no number, and its characters survive. -/
def StaysText (lib : OdsLib) (h : Str) : Prop := lib.number (.str h) = .error .value ∧ lib.text (.str h) = h

instance (lib : OdsLib) (h : Str) [DecidableEq (Except Err Str)] : Decidable (StaysText lib h) := by unfold StaysText; infer_instance

/-- Every heading that the sheets of the document can have is written and read as a text: those of the schema, the ids, the paths of values. -/
def HeadingsAreTexts (o : FlOpts) (env : FlEnv) (schema : Option Parsed) (root : List Json) : Prop :=
  ∀ st, Verif.flatten (o.parserCfg env schema []) root = .ok st → ∀ s ∈ sheetsOf st, ∀ h ∈ s.headings, StaysText env.ods h

/-- Titles of tables are distinct: none is longer than 31 characters, and no sub-sheet is called like the main sheet. -/
def ShortNames (o : FlOpts) (schema : Option Parsed) (root : List Json) : Prop :=
  (o.sheetPrefix ++ o.mainSheetName).length ≤ 31 ∧
  ∀ n, SubSheetName o schema root n → n ≠ o.mainSheetName ∧ (o.sheetPrefix ++ n).length ≤ 31

end Verif.Spec

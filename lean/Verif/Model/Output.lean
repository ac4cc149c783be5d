import Verif.Model.Flatten
import Verif.Model.Readers
/-!
`flattentool/output.py`: how sheets become grids of cells, and under which names.
Writing files with openpyxl and odfpy is not modelled; for the text of CSV files see `Model/CsvText.lean`.
-/
namespace Verif

/-- `ILLEGAL_CHARACTERS_RE` of openpyxl: `[\000-\010]|[\013-\014]|[\016-\037]`. -/
def illegalChar (c : Char) : Bool :=
  c.toNat ≤ 8 || (c.toNat ≥ 11 && c.toNat ≤ 12) || (c.toNat ≥ 14 && c.toNat ≤ 31)

/-- output.py:70-80, 147-157: illegal characters are removed from strings. -/
def cleanValue : Option Json → Option Json
  | some (.leaf (.str s)) => some (.leaf (.str (s.filter (fun c => !illegalChar c))))
  | v => v

/-- output.py:62-82 `XLSXOutput.write_sheet` and output.py:132-161
`ODSOutput.write_sheet`: the rows after the header; a missing value is `None`.  (How a value is encoded in a file is not modelled.) -/
def xlsxRows (s : Sheet) : List (List (Option Json)) :=
  s.lines.map (fun l => s.headings.map (fun h => cleanValue (Dict.get l h)))

/-- output.py:95-108 `CSVOutput.write_sheet`: `csv.DictWriter` raises `ValueError` when
a line has a key that is not a heading (`extrasaction="raise"`); a missing value is
written as the empty string (`restval`). -/
def csvRows (s : Sheet) : Except Err (List (List (Option Json))) :=
  if s.lines.all (fun l => l.all (fun kv => s.headings.contains kv.1)) then
    .ok (s.lines.map (fun l => s.headings.map (fun h => Dict.get l h)))
  else .error .value

/-- The text `csv` writes for a value: nothing for a missing value or `None`, else `str()`.  `strOf` is `str()` of lists and
dicts (which can be ids), a parameter. -/
def csvText (strOf : Json → Str) : Option Json → Str
  | none => []
  | some (.leaf .none) => []
  | some (.leaf a) => Py.str a
  | some v => strOf v

/-- output.py:95-108: a CSV file as a grid of texts: the header row and the rows.  (The text of the file is
`Csv.writeText`, Model/CsvText.lean.) -/
def csvGrid (strOf : Json → Str) (s : Sheet) : Except Err (List (List Str)) :=
  match csvRows s with
  | .error e => .error e
  | .ok rows => .ok (s.headings :: rows.map (fun r => r.map (csvText strOf)))

/-- A value as a worksheet cell; lists and dicts cannot be written (openpyxl raises `ValueError`). -/
def xlsxCell : Option Json → Except Err Atom
  | none => .ok .none
  | some (.leaf a) => .ok a
  | some _ => .error .value

/-- output.py:62-82: a worksheet as a grid of cells.  (Simplification: openpyxl gives back a `Decimal` as a float.  A heading
with an illegal character, on which openpyxl raises, is not modelled.) -/
def xlsxGrid (s : Sheet) : Except Err Grid :=
  match (xlsxRows s).mapM (fun r => r.mapM xlsxCell) with
  | .error e => .error e
  | .ok rows => .ok { width := s.headings.length, rows := s.headings.map Atom.str :: rows }

/-- output.py:44-51 `write_sheets`: names in writing order. -/
def insertSheet (x : Str × Sheet) : List (Str × Sheet) → List (Str × Sheet)
  | [] => [x]
  | y :: r => if strLeName x.1 y.1 then x :: y :: r else y :: insertSheet x r
where
  strLeName : Str → Str → Bool
  | [], _ => true
  | _ :: _, [] => false
  | a :: as, b :: bs => if a = b then strLeName as bs else decide (a.toNat < b.toNat)

/-- `sorted(self.parser.sub_sheets.items())`. -/
def sortSheets : List (Str × Sheet) → List (Str × Sheet)
  | [] => []
  | x :: r => insertSheet x (sortSheets r)

/-- output.py:44-51: the sheets in writing order. -/
def outSheets (mainName : Str) (st : FState) : List (Str × Sheet) :=
  (mainName, st.main) :: sortSheets st.subs

/-- output.py:98: the file of a sheet. -/
def csvFile (pfx name : Str) : Str := pfx ++ (name ++ s%".csv")

/-- output.py:65, 134: the title of a sheet. -/
def sheetTitle (pfx name : Str) : Str := (pfx ++ name).take 31

/-- A directory after writing files in order: the last write to a name wins. -/
def writeCsv (pfx mainName : Str) (st : FState) : List (Str × Sheet) :=
  (outSheets mainName st).foldl (fun d p => Dict.set d (csvFile pfx p.1) p.2) []

end Verif

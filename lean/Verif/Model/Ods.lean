import Verif.Model.Output
/-!
ODS files: the cells `ODSOutput` writes (output.py:111-161) and how `ODSReader` (ODSReader.py) reads tables.  XML encoding (odfpy) is not modelled.
-/
namespace Verif

/-- The value type of a cell element, with its value. -/
inductive OdsKind where
  | float (value : Str)
  | date (value : Str)
  | other
  deriving DecidableEq, Repr

/-- A cell element of a row: `table:covered-table-cell` (hidden by a merged cell) or `table:table-cell`; `table:number-columns-repeated`; value; the text
inside (`str(cell)`). -/
structure OdsCell where
  covered : Bool := false
  repeated : Nat := 1
  kind : OdsKind := .other
  text : Str := []
  deriving DecidableEq, Repr

/-- A row element, with `table:number-rows-repeated`. -/
structure OdsRow where
  repeated : Nat := 1
  cells : List OdsCell
  deriving DecidableEq, Repr

/-- A table element.  Simplification: rows directly inside of the table, cells directly inside of a row. -/
structure OdsTable where
  name : Str
  rows : List OdsRow
  deriving DecidableEq, Repr

/-- Libraries: `str(float(v))` or the exception of `float(v)`; `float(text)`; `datetime.fromisoformat(text)`; and the text read from a
file for a value `P(text=v)`. -/
structure OdsLib where
  number : Atom → Except Err Str := fun _ => .error .value
  float : Str → Option PyFloat := fun _ => none
  date : Str → Option PyDatetime := fun _ => none
  text : Atom → Str := Py.str

/-! #### Reading -/

/-- ODSReader.py:34-38 `GrowingList.__setitem__`. -/
def growSet (l : List Atom) (i : Nat) (v : Atom) : List Atom :=
  if i < l.length then l.set i v else l ++ List.replicate (i - l.length) .none ++ [v]

/-- `date_value.ljust(26, "0")` if there is a dot (ODSReader.py:103-104). -/
def padDate (v : Str) : Str := if '.' ∈ v then v ++ List.replicate (26 - v.length) '0' else v

/-- ODSReader.py:75-107: the value of a cell; nothing if the cell has no text. -/
def odsValue (lib : OdsLib) (c : OdsCell) : Except Err (Option Atom) :=
  if c.text = [] then .ok none
  else match c.kind with
    | .float v =>
      if '.' ∈ v then
        match lib.float v with
        | some f => .ok (some (.float f))
        | none => .error .value
      else match Py.int? v with
        | some n => .ok (some (.int n))
        | none => .error .value
    | .date v =>
      match lib.date (padDate v) with
      | some d => .ok (some (.datetime d))
      | none => .error .value
    | .other => .ok (some (.str c.text))

/-- ODSReader.py:74-108: `for rr in range(int(repeat))`. -/
def readRepeated (lib : OdsLib) (c : OdsCell) : Nat → List Atom → Nat → Except Err (List Atom)
  | 0, arr, _ => .ok arr
  | k + 1, arr, count =>
    match odsValue lib c with
    | .error e => .error e
    | .ok none => readRepeated lib c k arr (count + 1)
    | .ok (some v) => readRepeated lib c k (growSet arr count v) (count + 1)

/-- ODSReader.py:62-108: the cells of a row.  `getElementsByType(TableCell)` does not find covered cells.  (`clonespannedcolumns` is never set.) -/
def readCells (lib : OdsLib) : List OdsCell → List Atom → Nat → Except Err (List Atom)
  | [], arr, _ => .ok arr
  | c :: r, arr, count =>
    if c.covered then readCells lib r arr count
    else match readRepeated lib c c.repeated arr count with
      | .error e => .error e
      | .ok arr => readCells lib r arr (count + c.repeated)

/-- ODSReader.py:52-110: the rows of a table; `number-rows-repeated` is not looked at. -/
def readRows (lib : OdsLib) : List OdsRow → Except Err (List (List Atom))
  | [] => .ok []
  | r :: rest =>
    match readCells lib r.cells [] 0 with
    | .error e => .error e
    | .ok row =>
      match readRows lib rest with
      | .error e => .error e
      | .ok rows => .ok (row :: rows)

/-- ODSReader.py:44-49, 112: all tables; of tables with the same name the last one counts. -/
def readTables (lib : OdsLib) : List OdsTable → List (Str × List (List Atom)) → Except Err (List (Str × List (List Atom)))
  | [], d => .ok d
  | t :: rest, d =>
    match readRows lib t.rows with
    | .error e => .error e
    | .ok rows => readTables lib rest (Dict.set d t.name rows)

/-! #### Writing -/

/-- `if value` (output.py:118). -/
def Atom.truthy : Atom → Bool
  | .none => false
  | .bool b => b
  | .dec (.fin _ c _) => c ≠ 0
  | .float f => (match f.exact with | .fin _ c _ => c ≠ 0 | _ => true)
  | .int i => i ≠ 0
  | .str s => !s.isEmpty
  | _ => true

/-- output.py:115-130 `_make_cell`: `float()` raises `TypeError` on lists and dicts.  (Simplification: an empty list or dict gives an empty cell.) -/
def odsMake (lib : OdsLib) : Option Json → Except Err OdsCell
  | none => .ok {}
  | some (.leaf a) =>
    if a.truthy then
      match lib.number a with
      | .ok v => .ok { kind := .float v, text := lib.text a }
      | .error .value => .ok { text := lib.text a }
      | .error e => .error e
    else .ok { text := match a with | .none => [] | a => lib.text a }
  | some (.obj fs) => if fs.isEmpty then .ok {} else .error .type
  | some (.arr l) => if l.isEmpty then .ok {} else .error .type

/-- Apply a function that can fail to a list. -/
def mapRow (lib : OdsLib) : List (Option Json) → Except Err (List OdsCell)
  | [] => .ok []
  | v :: r =>
    match odsMake lib v with
    | .error e => .error e
    | .ok c =>
      match mapRow lib r with
      | .error e => .error e
      | .ok cs => .ok (c :: cs)

/-- The rows of a list of lists of values. -/
def mapRows (lib : OdsLib) : List (List (Option Json)) → Except Err (List OdsRow)
  | [] => .ok []
  | v :: r =>
    match mapRow lib v with
    | .error e => .error e
    | .ok c =>
      match mapRows lib r with
      | .error e => .error e
      | .ok cs => .ok ({ cells := c } :: cs)

/-- output.py:132-161 `write_sheet`: the rows of the table: header, then the lines (texts without illegal characters). -/
def odsRowsOf (lib : OdsLib) (s : Sheet) : Except Err (List OdsRow) :=
  mapRows lib (s.headings.map (fun h => some (.leaf (.str h))) :: xlsxRows s)

end Verif

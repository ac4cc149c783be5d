import Verif.Model.Lib
import Verif.Model.Unflatten
/-!
`CSVInput`, `XLSXInput`, `ODSInput` (input.py:629-961) after the file has been
decoded into a grid of cells.  File decoding (csv, openpyxl, odfpy) is not
modelled.
-/
namespace Verif

/-- Options of the reader: configuration from the command line or metatab,
`use_configuration`, orientation. -/
structure ReadCfg where
  base : SheetConfig := {}
  useConfig : Bool := true
  vertical : Bool := false

/-- The configuration in force and whether the sheet has a configuration line
(input.py:633-638, 673-678, 740-745, 782-787, 846-864). -/
def resolveConfig (rc : ReadCfg) (own : SheetConfig) : SheetConfig × Nat :=
  let cfg := if own.nonEmpty then own else rc.base
  (if rc.useConfig then cfg else {}, if own.nonEmpty then 1 else 0)

def SheetConfig.skip (c : SheetConfig) : Nat := (c.skipRows.getD 0).toNat
def SheetConfig.hdrs (c : SheetConfig) : Nat := (c.headerRows.getD 1).toNat

/-- `OrderedDict(pairs)`. -/
def dictOf {κ α : Type} [DecidableEq κ] (ps : List (κ × α)) : List (κ × α) := Dict.update [] ps

/-! #### CSV -/

/-- input.py:690-698 `get_sheet_configuration`: an empty file raises
`StopIteration`. -/
def csvConfig (rows : List (List Str)) : Except Err SheetConfig :=
  match rows with
  | [] => .error .stop
  | (h :: t) :: _ => .ok (if h = s%"#" then parseConfig t else {})
  | [] :: _ => .ok {}

/-- input.py:632-650 `get_sheet_headings`; `[]` stands for `None` as well. -/
def csvHeadings (rc : ReadCfg) (own : SheetConfig) (rows : List (List Str)) : List Str :=
  let (cfg, line) := resolveConfig rc own
  if cfg.ignore then [] else (rows[cfg.skip + line]?).getD []

/-- `csv.DictReader.__next__` on one row: `dict(zip(fieldnames, row))`, missing
fields are `None`, superfluous values go to the key `None` (which `generate_rows`
drops). -/
def dictReaderRow (fieldnames row : List Str) : List (Str × Atom) :=
  Dict.update (dictOf ((fieldnames.zip row).map (fun p => (p.1, Atom.str p.2))))
    ((fieldnames.drop row.length).map (fun f => (f, Atom.none)))

/-- input.py:672-688 `generate_rows` and `DictReader`, which skips empty rows. -/
def csvLines (rc : ReadCfg) (own : SheetConfig) (rows : List (List Str)) : Except Err (List Line) :=
  let (cfg, line) := resolveConfig rc own
  match rows.drop (cfg.skip + line) with
  | [] => .error .stop
  | fieldnames :: rest =>
    if rest.length < cfg.hdrs - 1 then .error .stop
    else .ok (((rest.drop (cfg.hdrs - 1)).filter (· ≠ [])).map (fun row =>
      dictOf (fieldnames.map (fun f =>
        (some f, (Dict.get (dictReaderRow fieldnames row) f).getD Atom.none)))))

/-- A CSV sheet as `do_unflatten` sees it.  Lines are generated lazily in Python, so
errors in a sheet without headings do not occur. -/
def csvSheet (rc : ReadCfg) (name : Str) (rows : List (List Str)) : Except Err SheetIn :=
  match csvConfig rows with
  | .error e => .error e
  | .ok own =>
    let hs := csvHeadings rc own rows
    if hs = [] then .ok { name, headings := some [], lines := [] }
    else match csvLines rc own rows with
      | .error e => .error e
      | .ok lines => .ok { name, headings := some (hs.map some), lines }

/-! #### XLSX -/

/-- A heading cell as dict key. -/
def headingOf : Atom → Option Str
  | .none => none
  | a => some (Py.str a)

/-- `not header`: `None`, the empty string and numeric zero. -/
def Atom.falsy (a : Atom) : Bool :=
  a.blank || (Val.atom a).pyEq (.atom (.int 0))

/-- A text cell's text; `item.split()` raises on anything else (lib.py:11). -/
def cellText : Atom → Option Str
  | .str s => some s
  | _ => none

/-- A worksheet: `width` columns, all rows padded to that width by openpyxl. -/
structure Grid where
  width : Nat
  rows : List (List Atom)

/-- Row `n` (0-based) of a worksheet; rows beyond the end read as empty cells. -/
def Grid.row (g : Grid) (n : Nat) : List Atom := (g.rows[n]?).getD (List.replicate g.width .none)

/-- Columns of the worksheet as rows. -/
def Grid.transpose (g : Grid) : Grid :=
  { width := g.rows.length,
    rows := (List.range g.width).map (fun i => g.rows.map (fun r => (r[i]?).getD .none)) }

/-- input.py:770-779 `get_sheet_configuration`: cells that are not strings raise
`AttributeError` in `item.split()`; falsy cells are skipped. -/
def xlsxConfig (g : Grid) : Except Err SheetConfig :=
  match g.row 0 with
  | a :: t =>
    if a = .str s%"#" then
      match (t.filter (fun c => !c.falsy)).mapM cellText with
      | some l => .ok (parseConfig l)
      | none => .error .attr
    else .ok {}
  | [] => .ok {}

/-- Whether the sheet is to be ignored (input.py:640, 748-752, 867-871). -/
def ignoredSheet (cfg : SheetConfig) (name : Str) : Bool :=
  cfg.ignore || (cfg.hashcomments && Py.startsWith s%"#" name)

/-- Header row and data rows of a worksheet (input.py:754-768, 789-809). -/
def xlsxParts (rc : ReadCfg) (own : SheetConfig) (g : Grid) : List Atom × List (List Atom) :=
  let (cfg, line) := resolveConfig rc own
  if rc.vertical then
    (((g.transpose.row cfg.skip)).drop line,
      ((g.transpose.rows.drop (cfg.skip + cfg.hdrs)).map (fun r => r.drop line)))
  else (g.row (cfg.skip + line), g.rows.drop (cfg.skip + line + cfg.hdrs))

/-- input.py:811-827: the line of a data row. -/
def xlsxLine (cfg : SheetConfig) (header row : List Atom) : Line :=
  dictOf ((header.zip row).map (fun (h, v) =>
    (headingOf h,
     if h.falsy then Atom.none
     else match h with
       | .str s => if cfg.hashcomments && Py.startsWith s%"#" s then Atom.none else v
       | _ => v)))

/-- An XLSX sheet as `do_unflatten` sees it. -/
def xlsxSheet (rc : ReadCfg) (name : Str) (g : Grid) : Except Err SheetIn :=
  match xlsxConfig g with
  | .error e => .error e
  | .ok own =>
    let cfg := (resolveConfig rc own).1
    let (header, data) := xlsxParts rc own g
    if ignoredSheet cfg name then .ok { name, headings := some [], lines := [] }
    else .ok { name, headings := some (header.map headingOf), lines := data.map (xlsxLine cfg header) }

/-! #### ODS -/

/-- input.py:886-899 `get_sheet_configuration`: returns the whole first row, so a
gap (`None`) or number in it raises `AttributeError` in `item.split()`. -/
def odsConfig (rows : List (List Atom)) : Except Err SheetConfig :=
  match rows with
  | (a :: t) :: _ =>
    if a = .str s%"#" then
      match (a :: t).mapM cellText with
      | some l => .ok (parseConfig l)
      | none => .error .attr
    else .ok {}
  | _ => .ok {}

/-- Header row and data rows (input.py:873-884, 914-941). -/
def odsParts (rc : ReadCfg) (own : SheetConfig) (rows : List (List Atom)) :
    List Atom × List (List Atom) :=
  let (cfg, line) := resolveConfig rc own
  if rc.vertical then
    let body := rows.drop line
    let longest := body.foldl (fun m r => max m r.length) 0
    (body.filterMap (fun r => r[cfg.skip]?),
      (List.range (longest - 1)).map (fun i =>
        (body.filter (· ≠ [])).map (fun r => (r[i + 1]?).getD .none)))
  else ((rows[cfg.skip + line]?).getD [], rows.drop (cfg.skip + line + cfg.hdrs))

/-- input.py:944-958: the line of a data row; `hashcomments` with a non-string
heading raises `AttributeError`. -/
def odsLine (cfg : SheetConfig) (header row : List Atom) : Except Err Line :=
  if cfg.hashcomments && (header.zip row).any (fun p => !p.1.falsy && (match p.1 with | .str _ => false | _ => true))
  then .error .attr
  else .ok (dictOf ((header.zip row).map (fun (h, v) =>
    (headingOf h,
     if h.falsy then Atom.none
     else match h with
       | .str s => if cfg.hashcomments && Py.startsWith s%"#" s then Atom.none else v
       | _ => v))))

/-- An ODS sheet as `do_unflatten` sees it: lines with no value at all are dropped
(input.py:959-961). -/
def odsSheet (rc : ReadCfg) (name : Str) (rows : List (List Atom)) : Except Err SheetIn :=
  match odsConfig rows with
  | .error e => .error e
  | .ok own =>
    let cfg := (resolveConfig rc own).1
    let (header, data) := odsParts rc own rows
    if ignoredSheet cfg name || header == [] then .ok { name, headings := some [], lines := [] }
    else match data.mapM (odsLine cfg header) with
      | .error e => .error e
      | .ok lines =>
        .ok { name, headings := some (header.map headingOf),
              lines := lines.filter (fun l => !l.all (fun kv => kv.2 == .none)) }

/-! #### Sheet selection -/

/-- `a <= b` on strings, for `sorted` of file names. -/
def strLe (a b : Str) : Bool :=
  match a, b with
  | [], _ => true
  | _ :: _, [] => false
  | x :: xs, y :: ys => if x = y then strLe xs ys else decide (x.toNat < y.toNat)

/-- Insertion into a sorted list of names. -/
def insertName (x : Str) : List Str → List Str
  | [] => [x]
  | y :: r => if strLe x y then x :: y :: r else y :: insertName x r

/-- `sorted(names)`. -/
def sortNames : List Str → List Str
  | [] => []
  | x :: r => insertName x (sortNames r)

/-- `list.remove(x)` if present. -/
def removeFirst (x : Str) : List Str → List Str
  | [] => []
  | y :: r => if y = x then r else y :: removeFirst x r

/-- `for sheet in exclude: if sheet in names: …`: all sheets of that name (XLSX, ODS: the
names are dict keys), or the first in the list (CSV). -/
def excludeAll (l : List Str) : Option Str → List Str
  | some x => l.filter (· ≠ x)
  | none => l
def excludeFirst (l : List Str) : Option Str → List Str
  | some x => removeFirst x l
  | none => l

/-- input.py:724-735, 833-843: XLSX and ODS, sheets in file order; `exclude` may
contain `None`. -/
def selectSheets (names : List Str) (incl : List Str) (excl : List (Option Str)) : List Str :=
  let a := if incl.isEmpty then names else names.filter (fun n => incl.contains n)
  excl.foldl excludeAll a

/-- input.py:652-669: CSV, from the file names of the directory. -/
def selectCsv (files : List Str) (incl : List Str) (excl : List (Option Str)) : List Str :=
  let names := sortNames ((files.filter (Py.endsWith s%".csv")).map (fun f => f.take (f.length - 4)))
  let a := if incl.isEmpty then names else names.filter (fun n => incl.contains n)
  excl.foldl excludeFirst a

end Verif

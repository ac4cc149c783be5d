import Verif.Model.Unflatten
/-! Specification vocabulary: the rows of a spreadsheet, each unflattened on its own. -/
namespace Verif.Spec

/-- A non-blank line: its sheet, its number within the sheet (from 0) and its cells. -/
structure RowIn where
  sheet : SheetIn
  number : Nat
  line : Line

/-- Is some cell of the line non-blank? -/
def hasData (l : Line) : Bool := l.any (fun kv => !kv.2.blank)

/-- The lines that count, in order: lines with data, of sheets that have headings. -/
def rowsIn (sheets : List SheetIn) : List RowIn :=
  sheets.flatMap (fun s => if s.headings = some [] then [] else
    (s.lines.zipIdx.filter (fun p => hasData p.1)).map (fun p => ⟨s, p.2, p.1⟩))

/-- A row unflattened on its own: sheet name, root id cell, object, warnings. -/
structure Row where
  sheet : Str
  root : Val
  fields : Fields
  warns : List Warn

/-- One row on its own. -/
def rowAlone (cfg : UnCfg) (r : RowIn) : Except Err Row :=
  match unflattenRow cfg.row cfg.idName (lineCells r.sheet.name r.sheet.headings r.number 0 r.line) with
  | .error e => .error e
  | .ok (fs, w) => .ok ⟨r.sheet.name, rootKey cfg r.line, fs, w⟩

/-- All rows, each on its own; an error if one fails. -/
def rowsAlone (cfg : UnCfg) : List RowIn → Except Err (List Row)
  | [] => .ok []
  | r :: rs =>
    match rowAlone cfg r with
    | .error e => .error e
    | .ok x =>
      match rowsAlone cfg rs with
      | .error e => .error e
      | .ok xs => .ok (x :: xs)

end Verif.Spec

import Verif.Model.Main
import Verif.Model.JsonText
/-!
The source map files that `unflatten` writes (`flattentool/__init__.py:392-411`).
-/
namespace Verif.Api

/-- input.py:452-463: the column in a location: `str(k + 1)` if the orientation is vertical, otherwise
`get_column_letter(k + 1)`.  (The model keeps the number in `Loc.col` until it is written.) -/
def columnText (vertical : Bool) (n : Nat) : Except Err Str :=
  if vertical then .ok (Py.natStr n) else columnLetter n

/-- `__init__.py:275, 330`: the orientation of the sheet of this name. -/
def verticalSheet (o : UnOpts) (sheet : Str) : Bool :=
  if o.metatabName = some sheet then o.metatabVertical else o.vertical

/-- input.py:456-463, 594: a location is a tuple of four, written by `json` as a list. -/
def locJson (o : UnOpts) (l : Loc) : Except Err Json :=
  match columnText (verticalSheet o l.sheet) l.col with
  | .error e => .error e
  | .ok c => .ok (.arr [.leaf (.str l.sheet), .leaf (.str c), .leaf (.int l.row), .leaf (.str l.heading)])

/-- input.py:555-563: an entry of the cell source map. -/
def entryJson (o : UnOpts) : MapEntry → Except Err Json
  | .cells l =>
    match mapE (locJson o) l with
    | .error e => .error e
    | .ok js => .ok (.arr js)
  | .rows l => .ok (.arr (l.map (fun r => .arr [.leaf (.str r.1), .leaf (.int r.2)])))

/-- The same with its key. -/
def fieldJson (o : UnOpts) (e : Str × MapEntry) : Except Err (Str × Json) :=
  match entryJson o e.2 with
  | .error x => .error x
  | .ok j => .ok (e.1, j)

/-- The cell source map, as `json` sees it. -/
def cellMapJson (o : UnOpts) (m : List (Str × MapEntry)) : Except Err Json :=
  match mapE (fieldJson o) m with
  | .error e => .error e
  | .ok fs => .ok (.obj fs)

/-- `__init__.py:392-401`: the cell source map file. -/
def cellMapFile (o : UnOpts) (out : UnOut) : Except Err Str :=
  match cellMapJson o out.cellMap with
  | .error e => .error e
  | .ok j => dumpJson j

/-- The heading source map, as `json` sees it. -/
def headingMapJson (m : List (Str × List (Str × Str))) : Json :=
  .obj (m.map (fun e => (e.1, .arr (e.2.map (fun h => .arr [.leaf (.str h.1), .leaf (.str h.2)])))))

/-- `__init__.py:402-411`: the heading source map file. -/
def headingMapFile (out : UnOut) : Except Err Str := dumpJson (headingMapJson out.headingMap)

end Verif.Api

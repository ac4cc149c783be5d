import Verif.Model.SourceMap
import Verif.Spec.Sheets
/-! Specification vocabulary: the paths of values in documents and in trees of cells. -/
namespace Verif.Spec

/-- The same thing one step further down. -/
def under {α : Type} (s : PStep) (e : List PStep × α) : List PStep × α := (s :: e.1, e.2)

mutual
/-- The scalar values in a document, each with its path: keys of objects and positions in arrays (from 0). -/
def leaves : Json → List (List PStep × Atom)
  | .leaf a => [([], a)]
  | .obj fs => leavesInFields fs
  | .arr is => leavesInItems 0 is
def leavesInFields : List (Str × Json) → List (List PStep × Atom)
  | [] => []
  | (k, v) :: r => (leaves v).map (under (.key k)) ++ leavesInFields r
def leavesInItems (i : Nat) : List Json → List (List PStep × Atom)
  | [] => []
  | v :: r => (leaves v).map (under (.idx i)) ++ leavesInItems (i + 1) r
end

mutual
/-- The cells in an unflattened tree, each with its path. -/
def cellsIn : CTree → List (List PStep × Cell)
  | .cell c => [([], c)]
  | .obj fs => cellsInFields fs
  | .list is => cellsInItems 0 is
def cellsInFields : List (Str × CTree) → List (List PStep × Cell)
  | [] => []
  | (k, t) :: r => (cellsIn t).map (under (.key k)) ++ cellsInFields r
def cellsInItems (i : Nat) : List (List (Str × CTree)) → List (List PStep × Cell)
  | [] => []
  | fs :: r => (cellsInFields fs).map (under (.idx i)) ++ cellsInItems (i + 1) r
end

/-- A path as text. -/
def stepsText (p : List PStep) : Str := Py.join s%"/" (p.map PStep.str)

/-- A path as text, without the positions in arrays. -/
def keysText (p : List PStep) : Str :=
  Py.join s%"/" (p.filterMap (fun s => match s with | .key k => some k | .idx _ => none))

/-- The keys on a path, without the positions in arrays. -/
def keysOn (p : List PStep) : List Str :=
  p.filterMap (fun s => match s with | .key k => some k | .idx _ => none)

/-- The locations of a cell: its own, and those of the cells with an equal value that were merged into it. -/
def locations (c : Cell) : List Loc := c.loc :: c.sub.map (·.2)

/-- An entry that stands for a cell. -/
def cellEntry : Str × MapEntry → Option (Str × List Loc)
  | (k, .cells l) => some (k, l)
  | _ => none

/-- An entry that stands for a row. -/
def rowEntry : Str × MapEntry → Option (Str × List (Str × Nat))
  | (k, .rows l) => some (k, l)
  | _ => none

/-- The entries of a source map that stand for cells. -/
def cellEntries (m : List (Str × MapEntry)) : List (Str × List Loc) := m.filterMap cellEntry

/-- The entries of a source map that stand for rows. -/
def rowEntries (m : List (Str × MapEntry)) : List (Str × List (Str × Nat)) := m.filterMap rowEntry

/-- The start of all paths: the name under which the list of objects is put, if there is one. -/
def rootSteps : Option Str → List PStep
  | some r => [.key r]
  | none => []

/-- The value at a path of a document. -/
def valueAt : Json → List PStep → Option Json
  | j, [] => some j
  | .obj fs, .key k :: p => (match Dict.get fs k with | some j => valueAt j p | none => none)
  | .arr is, .idx i :: p => (match is[i]? with | some j => valueAt j p | none => none)
  | _, _ :: _ => none

/-- The heading of a column of a sheet: the heading in that position, or the line's own if the sheet has no list of headings. -/
def headingOf (s : SheetIn) (col : Nat) (own : Option Str) : Str :=
  match s.headings with
  | some hs => (hs[col]?.getD none).getD s%"None"
  | none => own.getD s%"None"

/-- The spreadsheet has, in the cell that the location names, this value under this heading: the location gives the name of the sheet,
the number of the line (line 2 is the first one below the headings), the number of the column (from 1) and the heading. -/
def CellThere (sheets : List SheetIn) (loc : Loc) (own : Option Str) (a : Atom) : Prop :=
  ∃ s ∈ sheets, s.headings ≠ some [] ∧ s.name = loc.sheet ∧
    ∃ line, 2 ≤ loc.row ∧ s.lines[loc.row - 2]? = some line ∧
      1 ≤ loc.col ∧ line[loc.col - 1]? = some (own, a) ∧ headingOf s (loc.col - 1) own = loc.heading

/-- One step of a path comes before another: names in the order of their code points, positions in the order of the numbers. -/
def StepLt : PStep → PStep → Prop
  | .key x, .key y => NameLt x y
  | .idx i, .idx j => i < j
  | _, _ => False

/-- One path comes strictly before another: step by step, from the left. -/
def PathLt : List PStep → List PStep → Prop
  | [], [] => False
  | [], _ :: _ => True
  | _ :: _, [] => False
  | a :: p, b :: q => StepLt a b ∨ (a = b ∧ PathLt p q)

/-- What a source map records: the path of a value, the value and its locations. -/
structure Recorded where
  path : List PStep
  value : Val
  locs : List Loc

/-- The records are exactly about the values of the document: what is recorded, taken together, are all the scalars of the document with
their paths (the value of one cell can be a list or a geometry, with several scalars). -/
def Exhaustive (out : List Json) (rs : List Recorded) : Prop :=
  (leavesInItems 0 out).Perm (rs.flatMap (fun r => (leaves r.value.toJson).map (fun e => (r.path ++ e.1, e.2))))

/-- The records are exactly about a document, apart from the scalars `rest`: what is recorded, together with `rest`, are all the scalars of the document
with their paths, and each record gives the value found at its path, and at least one location. -/
structure RecordsOf (doc : Json) (rest : List (List PStep × Atom)) (rs : List Recorded) : Prop where
  all : (leaves doc).Perm (rest ++ rs.flatMap (fun r => (leaves r.value.toJson).map (fun e => (r.path ++ e.1, e.2))))
  value : ∀ r ∈ rs, valueAt doc r.path = some r.value.toJson ∧ r.locs ≠ []

/-- A cell source map says the same as the records: its entries for cells are the records, each under the text of its path; its entries for rows are those
of the objects that directly contain a recorded value, and list without repetition the rows of the locations of those values.  No key occurs twice. -/
structure CellMapOf (cm : List (Str × MapEntry)) (rs : List Recorded) : Prop where
  cells : cellEntries cm = rs.map (fun r => (stepsText r.path, r.locs))
  once : (cm.map (·.1)).Nodup
  rows : ∀ k, (∃ l, (k, l) ∈ rowEntries cm) ↔ ∃ r ∈ rs, stepsText r.path.dropLast = k
  rowsOf : ∀ k l, (k, l) ∈ rowEntries cm → l.Nodup ∧ ∀ sheet row, (sheet, row) ∈ l ↔
    ∃ r ∈ rs, stepsText r.path.dropLast = k ∧ ∃ loc ∈ r.locs, loc.sheet = sheet ∧ loc.row = row

/-- A heading source map says the same as the records: it has one key for each path of a recorded value with the positions in arrays left out, and lists
under it without repetition the pairs of sheet and heading of the locations recorded for the values with that path. -/
structure HeadingMapOf (hs : List (Str × List (Str × Str))) (rs : List Recorded) : Prop where
  once : (hs.map (·.1)).Nodup
  keys : ∀ k, (∃ l, (k, l) ∈ hs) ↔ ∃ r ∈ rs, keysText r.path = k
  headings : ∀ k l, (k, l) ∈ hs → l.Nodup ∧ ∀ sheet heading, (sheet, heading) ∈ l ↔
    ∃ r ∈ rs, keysText r.path = k ∧ ∃ loc ∈ r.locs, loc.sheet = sheet ∧ loc.heading = heading

end Verif.Spec

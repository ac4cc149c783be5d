import Verif.Spec.FileEdit
import Verif.Spec.Blank
/-! Specification vocabulary: the rows of spreadsheets, blanks aside. -/
namespace Verif.Spec

/-- The rows with data of all sheets, each cell with its heading. -/
def dataRows (T : List DataSheet) : List Line := T.flatMap (fun t => (t.rows.map t.line).filter hasData)

/-- The cells of a row that are not blank, with their headings. -/
def DataSheet.filled (t : DataSheet) (r : List Atom) : List (Str × Atom) := (t.header.zip r).filter (fun c => !c.2.blank)

/-- The sheets differ only in rows without data, blank cells (other than in the column of the root id) and columns without data. -/
structure SameButEmpty (rootId : Option Str) (t t' : DataSheet) : Prop where
  name : t.name = t'.name
  rows : (t.rows.filter (fun r => hasData (t.line r))).map (fun r => (rootCell rootId (t.line r), t.filled r)) =
    (t'.rows.filter (fun r => hasData (t'.line r))).map (fun r => (rootCell rootId (t'.line r), t'.filled r))

end Verif.Spec

import Verif.Spec.Files
import Verif.Spec.Edit
/-! Specification vocabulary: a row of a spreadsheet is edited, or added. -/
namespace Verif.Spec

/-- A row under the headings of a sheet. -/
def DataSheet.line (t : DataSheet) (r : List Atom) : Line := (t.header.map some).zip r

/-- The sheets are the same but for one row, row number `n` of the sheet `t`, which is `r` in one and `r'` in the other. -/
inductive RowReplaced (t : DataSheet) (n : Nat) (r r' : List Atom) : List DataSheet → List DataSheet → Prop
  | intro {before after : List DataSheet} {above below : List (List Atom)} : above.length = n →
    RowReplaced t n r r' (before ++ { t with rows := above ++ r :: below } :: after) (before ++ { t with rows := above ++ r' :: below } :: after)

/-- The second sheets are the first with the row `r` added at the end of the last sheet. -/
inductive RowAdded (t : DataSheet) (r : List Atom) : List DataSheet → List DataSheet → Prop
  | intro {before : List DataSheet} {rows : List (List Atom)} : RowAdded t r (before ++ [{ t with rows := rows }]) (before ++ [{ t with rows := rows ++ [r] }])

/-- The rows are the same but for the cell in one column, that with the heading `h`; both cells are not blank. -/
inductive RowCellChanged (header : List Str) (h : Str) (a a' : Atom) : List Atom → List Atom → Prop
  | intro {left right : List Atom} : a.blank = false → a'.blank = false → header[left.length]? = some h →
    RowCellChanged header h a a' (left ++ a :: right) (left ++ a' :: right)

end Verif.Spec

import Verif.Spec.JsonText
import Verif.Spec.List
import Verif.Model.SourceMap
/-!
Specification: names of spreadsheet columns, and the content of source map files.
-/
namespace Verif.Spec

/-- The letter is the `d`-th of `A` to `Z`, counted from 1. -/
inductive Letter : Char → Nat → Prop
  | mk (d : Nat) (h1 : 1 ≤ d) (h2 : d ≤ 26) : Letter (Char.ofNat (64 + d)) d

/-- The text is the name of column `n` as spreadsheets count columns: `A` is 1, `Z` is 26, `AA` is 27. -/
inductive ColumnName : Str → Nat → Prop
  | one {c d} : Letter c d → ColumnName [c] d
  | more {s n c d} : ColumnName s n → Letter c d → ColumnName (s ++ [c]) (26 * n + d)

/-- A location in a source map file: sheet, column, row, heading. -/
def LocWritten (vertical : Str → Bool) (l : Loc) (v : JVal) : Prop :=
  ∃ column, v = .arr [.str l.sheet, .str column, .num l.row, .str l.heading] ∧
    if vertical l.sheet then IntPart column l.col else ColumnName column l.col

/-- An entry of the cell source map file: the locations of a value, or the rows of an object. -/
inductive EntryWritten (vertical : Str → Bool) : MapEntry → JVal → Prop
  | cells {l vs} : All₂ (LocWritten vertical) l vs → EntryWritten vertical (.cells l) (.arr vs)
  | rows {l} : EntryWritten vertical (.rows l) (.arr (l.map (fun r => .arr [.str r.1, .num r.2])))

end Verif.Spec

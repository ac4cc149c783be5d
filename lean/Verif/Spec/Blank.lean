import Verif.Spec.Rows
import Verif.Spec.List
/-! Specification vocabulary: what a sheet says, blanks aside. -/
namespace Verif.Spec

/-- The heading shown for the cell number `k` of a line whose own key is `h`. -/
def headingAt (hs : Option (List (Option Str))) (k : Nat) (h : Option Str) : Option Str :=
  match hs with
  | some hs => hs[k]?.getD none
  | none => h

/-- The non-blank cells of a line from cell number `k` on: key, heading and value of each. -/
def cellsFrom (hs : Option (List (Option Str))) : Nat → Line → List (Option Str × Option Str × Atom)
  | _, [] => []
  | k, (h, v) :: r =>
    if v.blank then cellsFrom hs (k + 1) r else (h, headingAt hs k h, v) :: cellsFrom hs (k + 1) r

/-- The root-id cell of a line: nothing if there is no such column. -/
def rootCell (rootId : Option Str) (l : Line) : Atom :=
  match rootId with
  | some r => (Dict.get l (some r)).getD .none
  | none => .none

/-- What a sheet says: for every line that has data, its root-id cell and its non-blank cells, in order. -/
def content (rootId : Option Str) (s : SheetIn) : List (Atom × List (Option Str × Option Str × Atom)) :=
  (s.lines.filter hasData).map (fun l => (rootCell rootId l, cellsFrom s.headings 0 l))

/-- Two sheets that differ only in blank cells and blank lines. -/
structure SameButBlanks (rootId : Option Str) (s s' : SheetIn) : Prop where
  name : s.name = s'.name
  headed : s.headings = some [] ↔ s'.headings = some []
  content : content rootId s = content rootId s'

/-- The warning concerns duplicate headings. -/
def aboutDuplicates : Warn → Bool
  | .dupHeading _ _ _ => true
  | _ => false

end Verif.Spec

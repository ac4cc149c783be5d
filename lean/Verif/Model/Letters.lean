import Verif.Model.Unflatten
/-!
`openpyxl.utils.cell.get_column_letter`, which `input.py` calls for the columns named in warnings
(403-436) and for the column of every cell (460-463).
-/
namespace Verif

/-- `openpyxl/utils/cell.py` `get_column_letter`, the loop: `col_idx, remainder = divmod(col_idx, 26)`; a
remainder of 0 counts as 26 and one less is left; `chr(remainder + 64)`; the letters in reverse. -/
def columnLetters (n : Nat) (acc : Str) : Str :=
  if h : n = 0 then acc
  else if n % 26 = 0 then columnLetters (n / 26 - 1) ('Z' :: acc)
  else columnLetters (n / 26) (Char.ofNat (n % 26 + 64) :: acc)
termination_by n
decreasing_by all_goals omega

/-- `openpyxl/utils/cell.py` `get_column_letter`: `ValueError` for a column outside of 1 to 18278 (`ZZZ`). -/
def columnLetter (n : Nat) : Except Err Str :=
  if n = 0 ∨ 18278 < n then .error .value else .ok (columnLetters n [])

/-- Some column among the first `n` has no letters. -/
def lettersMissing (n : Nat) : Bool := (List.range n).any (fun k => match columnLetter (k + 1) with | .ok _ => false | .error _ => true)

/-- input.py:395-440, 449-463: `get_column_letter` raises `ValueError` while the sheet is read: for an ignored column with a
duplicate heading, or (unless the orientation is vertical) for the column of a cell of a line that is not
blank.  Simplification: the code raises this when it comes to the cell; here the sheets are checked first. -/
def lettersFail (vertical : Bool) (s : SheetIn) : Bool :=
  if s.headings = some [] then false
  else
    (match s.headings with
      | some hs => (headingWarns s.name hs).any (fun w => match w with
        | .dupHeading _ cols _ => cols.any (fun c => match columnLetter (c + 1) with | .ok _ => false | .error _ => true)
        | _ => false)
      | none => false) ||
    (!vertical && s.lines.any (fun l => !blankLine l && lettersMissing l.length))

end Verif

import Verif.Py.Str
import Verif.Py.Val
import Verif.Model.Convert
/-! Specification vocabulary for reading spreadsheets. -/
namespace Verif.Spec

/-- The cell consists of the option name and exactly one argument: that argument. -/
def argOf (option item : Str) : Option Str :=
  match Py.words item with
  | [w, a] => if Py.lower w = option then some a else none
  | _ => none

/-- The cell is exactly one of the given words. -/
def isFlag (names : List Str) (item : Str) : Bool :=
  match Py.words item with
  | [w] => names.contains (Py.lower w)
  | _ => false

/-- The arguments of all cells giving the option, in order. -/
def argsOf (option : Str) (items : List Str) : List Str := items.filterMap (argOf option)

/-- The arguments that are integers. -/
def intArgsOf (option : Str) (items : List Str) : List Int := (argsOf option items).filterMap Py.int?

/-- The columns (counted from 0) with the given heading, in order. -/
def positions (h : Str) (hs : List (Option Str)) : List Nat :=
  (List.range hs.length).filter (fun i => hs[i]? = some (some h))

/-- The distinct headings, ordered by their last column. -/
def distinctByLast : List (Option Str) → List Str
  | [] => []
  | none :: r => distinctByLast r
  | some h :: r => if some h ∈ r then distinctByLast r else h :: distinctByLast r

/-- The warnings about the headings of a sheet: for every heading in several columns, one that lists all its columns but the last. -/
def duplicateWarnings (sheet : Str) (hs : List (Option Str)) : List Warn :=
  (distinctByLast hs).filterMap (fun h =>
    if 2 ≤ (positions h hs).length then some (.dupHeading h (positions h hs).dropLast sheet) else none)

/-- Names in strictly ascending order of their code points. -/
def NameLt : Str → Str → Prop
  | [], [] => False
  | [], _ :: _ => True
  | _ :: _, [] => False
  | x :: xs, y :: ys => x.toNat < y.toNat ∨ (x = y ∧ NameLt xs ys)

/-- The text written to a CSV file for a value: nothing for a missing value or null, `str()` of a scalar; `strOf` is `str()` of lists and dicts. -/
def writtenText (strOf : Json → Str) : Option Json → Str
  | none => []
  | some (.leaf .none) => []
  | some (.leaf a) => Py.str a
  | some v => strOf v

/-! ### Lines of a sheet -/

/-- The distinct members of a list, in the order of their first occurrences. -/
def firsts {α : Type} [DecidableEq α] : List α → List α
  | [] => []
  | a :: r => a :: (firsts r).filter (· ≠ a)

/-- The line with the given columns (heading and value): one entry for every heading, in the order of first occurrence; its value is that of the
last column with the heading. -/
structure LineReads (columns : List (Option Str × Atom)) (line : List (Option Str × Atom)) : Prop where
  headings : line.map (·.1) = firsts (columns.map (·.1))
  values : ∀ (i : Nat) h v, columns[i]? = some (h, v) → (∀ (j : Nat) w, i < j → columns[j]? ≠ some (h, w)) → (h, v) ∈ line

/-- A cell of a CSV row; there is none if the row is too short. -/
def csvCell (row : List Str) (i : Nat) : Atom :=
  match row[i]? with
  | some t => .str t
  | none => .none

/-- The columns of a CSV row: a row may be too short (then there is no value) or too long (the rest is left out). -/
def csvColumns (header row : List Str) : List (Option Str × Atom) := header.zipIdx.map (fun c => (some c.1, csvCell row c.2))

/-- The heading given by a heading cell; an empty cell has none. -/
def headingText : Atom → Option Str
  | .none => none
  | .str s => some s
  | a => some (Py.str a)

/-- Python's truth value of a heading cell: empty cells, empty texts and zeros are false. -/
def hasHeading : Atom → Bool
  | .none => false
  | .str s => s ≠ []
  | a => !(Val.atom a).pyEq (.atom (.int 0))

/-- With `hashcomments`, a column whose heading starts with `#` is a comment. -/
def commentHeading : Atom → Bool
  | .str ('#' :: _) => true
  | _ => false

/-- The columns of a row of an XLSX or ODS sheet: columns without heading and comment columns have no value. -/
def sheetColumns (hashcomments : Bool) (header row : List Atom) : List (Option Str × Atom) :=
  (header.zip row).map (fun c => (headingText c.1, if hasHeading c.1 && !(hashcomments && commentHeading c.1) then c.2 else .none))

end Verif.Spec

import Verif.Spec.Address
import Verif.Spec.Blank
/-! Specification vocabulary: the numbers of array items in headings. -/
namespace Verif.Spec

/-- Other numbers for the items of each array: an array is given by the keys that lead to it. -/
abbrev Numbering := List Str → Int → Int

/-- The order of the items of each array stays the same. -/
def KeepsOrder (f : Numbering) : Prop := ∀ array i j, i < j → f array i < f array j

/-- The same position, with other numbers (below the keys `above`). -/
def renumber (f : Numbering) (above : List Str) : Addr → Addr
  | [] => []
  | (key, index) :: rest => (key, index.map (f (above ++ [key]))) :: renumber f (above ++ [key]) rest

/-- The position a heading names. -/
def positionOf (cfg : RowCfg) (heading : Option Str) : Option Addr := address cfg.types [] (pathList (heading.getD s%"None"))

/-- Two columns with the same cell: the position that the second heading names is that of the first, with other numbers.  (It does
not matter which headings blank cells have.)  The root id's column is the same. -/
structure SameColumn (cfg : UnCfg) (f : Numbering) (c c' : Option Str × Atom) : Prop where
  value : c.2 = c'.2
  rootId : ∀ r, cfg.rootId = some r → (c.1 = some r ↔ c'.1 = some r)
  position : c.2.blank = false → ∃ a, positionOf cfg.row c.1 = some a ∧ positionOf cfg.row c'.1 = some (renumber f [] a)

/-- Two lines with the same columns except for the numbers in the headings. -/
def Renumbered (cfg : UnCfg) (l l' : Line) : Prop := ∃ f, KeepsOrder f ∧ All₂ (SameColumn cfg f) l l'

/-- Two sheets with the same lines except for the numbers in the headings. -/
structure RenumberedSheet (cfg : UnCfg) (s s' : SheetIn) : Prop where
  name : s.name = s'.name
  headed : s.headings = some [] ↔ s'.headings = some []
  lines : All₂ (Renumbered cfg) s.lines s'.lines

/-- A warning without the headings it names. -/
def withoutHeading : Warn → Warn
  | .columnIsNumber _ => .columnIsNumber []
  | .notArray _ till => .notArray [] till
  | .notObject _ till => .notObject [] till
  | .ignored _ why => .ignored [] why
  | w => w

/-- The warnings of a run without the headings they name, leaving out those about duplicate headings. -/
def plainWarnings (w : List Warn) : List Warn := (w.filter (fun w => !aboutDuplicates w)).map withoutHeading

end Verif.Spec

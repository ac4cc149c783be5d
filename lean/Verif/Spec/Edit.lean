import Verif.Spec.Objects
import Verif.Spec.Holds
/-! Specification vocabulary: a spreadsheet is edited. -/
namespace Verif.Spec

/-- The spreadsheets are the same but for one line, line number `n` of the sheet `sh`, which is `l` in one and `l'` in the other. -/
inductive LineReplaced (sh : SheetIn) (n : Nat) (l l' : Line) : List SheetIn → List SheetIn → Prop
  | intro {before after : List SheetIn} {above below : List Line} : above.length = n →
    LineReplaced sh n l l' (before ++ { sh with lines := above ++ l :: below } :: after) (before ++ { sh with lines := above ++ l' :: below } :: after)

/-- The lines are the same but for the cell under one heading, which is `a` in one and `a'` in the other; both are not blank. -/
inductive CellChanged (h : Option Str) (a a' : Atom) : Line → Line → Prop
  | intro {left right : Line} : a.blank = false → a'.blank = false → CellChanged h a a' (left ++ (h, a) :: right) (left ++ (h, a') :: right)

/-- Both show the same value of a cell. -/
def SameShown (j j' : Json) : Prop := ∃ v, ShowsVal j v ∧ ShowsVal j' v

/-- The second spreadsheet is the first with the line `l` added at the end of the last sheet `sh`. -/
inductive LineAdded (sh : SheetIn) (l : Line) : List SheetIn → List SheetIn → Prop
  | intro {before : List SheetIn} {lines : List Line} :
    LineAdded sh l (before ++ [{ sh with lines := lines }]) (before ++ [{ sh with lines := lines ++ [l] }])

end Verif.Spec

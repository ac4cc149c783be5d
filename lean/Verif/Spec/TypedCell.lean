import Verif.Model.Unflatten
/-! Specification vocabulary: a spreadsheet with one cell. -/
namespace Verif.Spec

/-- A sheet with one heading and one cell below. -/
def oneCell (name h : Str) (a : Atom) : List SheetIn := [{ name, headings := some [some h], lines := [[(some h, a)]] }]

/-- The name of an element: not empty, no number, no attribute, one component, no brackets at the end. -/
structure ElementName (h : Str) : Prop where
  some : h ≠ []
  noNumber : isint h = false
  noAttribute : Py.startsWith s%"@" h = false
  single : '/' ∉ h
  noBrackets : Py.rstrip (fun c => c = '[' || c = ']') h = h

end Verif.Spec

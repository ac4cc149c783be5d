import Verif.Spec.RoundTrip
import Verif.Spec.Flatten
import Verif.Spec.Columns
/-! Specification vocabulary: lines that are the same up to order. -/
namespace Verif.Spec

/-- The two lines have values under the same headings, and the same ones (scalars are equal; an id that is an object or a list is the same up to order). -/
def SameCells (l m : FLine) : Prop :=
  ∀ h, (Dict.get l h = none ∧ Dict.get m h = none) ∨ ∃ v w, Dict.get l h = some v ∧ Dict.get m h = some w ∧ Rearranged v w

/-- The same lines, in any order. -/
def SameLines (ls ms : List FLine) : Prop := ∃ ks, All₂ SameCells ls ks ∧ ks.Perm ms

/-- The two results have the same sheets, the same columns on each sheet, and the same lines on each sheet, up to the order of sheets,
columns and lines. -/
structure SameUpToOrder (st st' : FState) : Prop where
  names : ∀ name, name ∈ Dict.keys st.subs ↔ name ∈ Dict.keys st'.subs
  columns : ∀ name s s', sheetNamed st name = some s → sheetNamed st' name = some s' → ∀ heading, heading ∈ s.headings ↔ heading ∈ s'.headings
  lines : ∀ name s s', sheetNamed st name = some s → sheetNamed st' name = some s' → SameLines s.lines s'.lines

end Verif.Spec

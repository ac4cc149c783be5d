import Verif.Spec.Comments
import Verif.Spec.List
/-! Specification vocabulary: sheets with rows and columns exchanged. -/
namespace Verif.Spec
open Api

/-- The cell in a row and a column (both from 0); nothing if there is none. -/
def cellAt (rows : List (List Atom)) (i j : Nat) : Atom := (((rows[i]?).getD [])[j]?).getD .none

/-- The second sheet is the first one, `w` columns wide, with rows and columns exchanged. -/
structure Exchanged (w : Nat) (b b' : List (List Atom)) : Prop where
  height : b'.length = w
  width : ∀ r ∈ b', r.length = b.length
  cells : ∀ i j, i < b.length → j < w → cellAt b' j i = cellAt b i j

/-- The first cell of a sheet. -/
def corner (rows : List (List Atom)) : Option Atom := rows.head?.bind (·.head?)

/-- The configuration line (after the `#`) has these texts in its cells, besides empty ones. -/
def ConfigTexts (c : List Atom) (items : List Str) : Prop :=
  c.head? = some (.str s%"#") ∧ c.tail.filter (fun a => !a.falsy) = items.map Atom.str

/-- The second worksheet is the first with rows and columns exchanged; a configuration line (one that gives some option) stays on top. -/
inductive TurnedXlsx : Grid → Grid → Prop
  | plain {g g' : Grid} : (∀ r ∈ g.rows, r.length = g.width) → corner g.rows ≠ some (.str s%"#") → g'.width = g.rows.length →
      Exchanged g.width g.rows g'.rows → TurnedXlsx g g'
  | config {w : Nat} {c c' : List Atom} {b b' : List (List Atom)} {items : List Str} : (∀ r ∈ b, r.length = w) →
      ConfigTexts c items → ConfigTexts c' items → items.any documented = true → Exchanged w b b' →
      TurnedXlsx ⟨w, c :: b⟩ ⟨b.length, c' :: b'⟩

/-- The number of columns of a table whose rows may have different lengths: that of the longest. -/
def longest (rows : List (List Atom)) : Nat := (rows.map List.length).foldr max 0

/-- The same for ODS: rows may have different lengths; none is empty. -/
inductive TurnedOds : List (List Atom) → List (List Atom) → Prop
  | plain {b b' : List (List Atom)} : corner b ≠ some (.str s%"#") → (∀ r ∈ b, r ≠ []) → Exchanged (longest b) b b' → TurnedOds b b'
  | config {c : List Atom} {items : List Str} {b b' : List (List Atom)} : c = (s%"#" :: items).map Atom.str → items.any documented = true →
      (∀ r ∈ b, r ≠ []) → Exchanged (longest b) b b' → TurnedOds (c :: b) (c :: b')

/-- The texts of configuration give neither `skipRows` nor `headerRows`. -/
def NoRowOptions (items : List Str) : Prop :=
  ∀ item ∈ items, (argOf s%"skiprows" item).bind Py.int? = none ∧ (argOf s%"headerrows" item).bind Py.int? = none

/-- The second file has the sheets of the first, with rows and columns exchanged where `turn` says so. -/
inductive TurnedFile (turn : Str → Bool) : Input → Input → Prop
  | xlsx {sheets sheets' : List (Str × Grid)} :
      All₂ (fun s s' => s'.1 = s.1 ∧ if turn s.1 then TurnedXlsx s.2 s'.2 else s'.2 = s.2) sheets sheets' →
      TurnedFile turn (.xlsx sheets) (.xlsx sheets')
  | ods {sheets sheets' : List (Str × List (List Atom))} :
      All₂ (fun s s' => s'.1 = s.1 ∧ if turn s.1 then TurnedOds s.2 s'.2 else s'.2 = s.2) sheets sheets' →
      TurnedFile turn (.ods sheets) (.ods sheets')

end Verif.Spec

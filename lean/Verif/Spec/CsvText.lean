import Verif.Py.Str
/-! Specification vocabulary: what becomes of texts in CSV files. -/
namespace Verif.Spec

/-- The text with every line break (`\r\n` or `\r`) as `\n`, and without null characters. -/
def asRead : Str → Str
  | [] => []
  | '\r' :: '\n' :: r => '\n' :: asRead r
  | '\r' :: r => '\n' :: asRead r
  | c :: r => if c = Char.ofNat 0 then asRead r else c :: asRead r

/-- The row can be read back: no field is longer than 131072 characters; the field of a row of one field does not consist of null characters only (it may be
empty). -/
structure CsvRow (row : List Str) : Prop where
  short : ∀ f ∈ row, (asRead f).length ≤ 131072
  single : ∀ f, row = [f] → f ≠ [] → asRead f ≠ []

/-- The row comes back as it is. -/
def CsvExact (row : List Str) : Prop := ∀ f ∈ row, f.length ≤ 131072 ∧ '\r' ∉ f ∧ Char.ofNat 0 ∉ f

end Verif.Spec

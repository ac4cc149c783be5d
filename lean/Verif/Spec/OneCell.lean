import Verif.Spec.Flatten
import Verif.Spec.List
/-! Specification vocabulary: arrays that are written into one cell. -/
namespace Verif.Spec

/-- The text of a scalar inside of an array (dates and numbers of other kinds do not occur in JSON documents). -/
inductive ScalarText : Json → Str → Prop
  | null : ScalarText (.leaf .none) s%"None"
  | yes : ScalarText (.leaf (.bool true)) s%"True"
  | no : ScalarText (.leaf (.bool false)) s%"False"
  | text {s} : ScalarText (.leaf (.str s)) s
  | int {i} : ScalarText (.leaf (.int i)) (Py.intStr i)
  | dec {d} : ScalarText (.leaf (.dec d)) (Py.decStr d)

/-- The text of an array inside of an array: its scalars, with commas between them; a text counts as the array of its characters. -/
inductive InnerText : Json → Str → Prop
  | list {l ts} : All₂ ScalarText l ts → InnerText (.arr l) (Py.join s%"," ts)
  | chars {s} : InnerText (.leaf (.str s)) (Py.join s%"," (s.map (fun c => [c])))

/-- The array is written into one cell, with this text: the scalars, or the inner arrays, with semicolons between them. -/
inductive OneCell : List Json → Str → Prop
  | scalars {l ts} : All₂ ScalarText l ts → OneCell l (Py.join s%";" ts)
  | lists {l ts m} : .arr m ∈ l → All₂ InnerText l ts → OneCell l (Py.join s%";" ts)

end Verif.Spec

import Verif.Py.Val
/-! Specification vocabulary: relations between JSON documents. -/
namespace Verif.Spec

mutual
/-- Every value of the first document is still in the second, at the same position: leaves are
the same, objects may have gained fields, arrays may have gained items (anywhere, the old ones
keep their order). -/
def Embeds : Json → Json → Prop
  | .leaf a, j => j = .leaf a
  | .obj fs, j => j = .obj fs ∨ ∃ gs, j = .obj gs ∧ EmbedsFields fs gs
  | .arr xs, j => ∃ ys, j = .arr ys ∧ EmbedsList xs ys
def EmbedsFields : List (Str × Json) → List (Str × Json) → Prop
  | [], _ => True
  | (k, v) :: r, gs => (∃ w, Dict.get gs k = some w ∧ Embeds v w) ∧ EmbedsFields r gs
def EmbedsList : List Json → List Json → Prop
  | [], _ => True
  | x :: xs, ys => ∃ before y after, ys = before ++ y :: after ∧ Embeds x y ∧ EmbedsList xs after
end

end Verif.Spec

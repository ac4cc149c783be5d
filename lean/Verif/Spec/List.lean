/-! Specification vocabulary: lists compared element by element. -/
namespace Verif.Spec

/-- The lists have the same length and `R` holds between elements at the same place. -/
inductive All₂ {α β : Type} (R : α → β → Prop) : List α → List β → Prop
  | nil : All₂ R [] []
  | cons {a b l m} : R a b → All₂ R l m → All₂ R (a :: l) (b :: m)

end Verif.Spec

import Verif.Spec.RoundTrip
/-! Specification vocabulary: documents that survive being flattened with rollup. -/
namespace Verif.Spec

/-- Every object has an id: the root objects, and those in arrays. -/
def Trip.AllHaveIds (T : Trip) (root : List Json) : Prop :=
  (∀ fs ∈ objects root, T.idOf fs ≠ none) ∧ ∀ it ∈ docItems everything root, T.idOf it.fields ≠ none

/-- Where an array of a root object has a value that is to be rolled up (`rolls`), the array has one item only, and the item's id is rolled up too. -/
def Trip.RollsWell (T : Trip) (rolls : Str → Str → Prop) (root : List Json) : Prop :=
  ∀ fs ∈ objects root, ∀ key l gs k v, (key, .arr l) ∈ fs → .obj gs ∈ l → (k, v) ∈ gs → rolls key k → l = [.obj gs] ∧ rolls key T.idName

end Verif.Spec

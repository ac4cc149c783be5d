import Verif.Model.FlattenMain
/-! Specification vocabulary for `flatten` as a whole. -/
namespace Verif.Spec
open Api

/-- Following keys in objects. -/
def keysTo : List Str → Json → Option Json
  | [], j => some j
  | k :: ks, .obj fs => (Dict.get fs k).bind (keysTo ks)
  | _ :: _, _ => none

/-- The items of a list; nothing else has items. -/
def itemsOf : Option Json → List Json
  | some (.arr l) => l
  | _ => []

/-- Along the keys, objects have distinct keys without dots; and at the end there is no object with a key `item`.  (The library that reads JSON files does
not tell `{"a": {"b": …}}` from `{"a.b": …}`, nor an item of a list from a field called `item`.) -/
def Clear : List Str → Json → Prop
  | [], .obj fs => s%"item" ∉ Dict.keys fs
  | [], _ => True
  | k :: ks, .obj fs => (Dict.keys fs).Nodup ∧ (∀ k' ∈ Dict.keys fs, '.' ∉ k') ∧ ∀ v, Dict.get fs k = some v → Clear ks v
  | _ :: _, _ => True

end Verif.Spec

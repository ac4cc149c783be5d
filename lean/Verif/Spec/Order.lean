import Verif.Spec.Covered
import Verif.Spec.Objects
/-! Specification vocabulary: rows that do not contradict each other, and the same data in another order. -/
namespace Verif.Spec

mutual
/-- The trees do not contradict each other: where both have something, both have an
object, both an array, or both equal values.  Array items are compared if they have the
same id. -/
def Agree (n : Option Str) (xml : Bool) : CTree → CTree → Prop
  | .cell c, u => ∃ d, u = .cell d ∧ c.value.pyEq d.value = true
  | .obj fs, u => ∃ gs, u = .obj gs ∧ AgreeFields n xml fs gs
  | .list is, u => ∃ js, u = .list js ∧ AgreeItems n xml is js
/-- Fields that both objects have agree. -/
def AgreeFields (n : Option Str) (xml : Bool) : List (Str × CTree) → List (Str × CTree) → Prop
  | [], _ => True
  | (k, t) :: r, gs => (∀ u, Dict.get gs k = some u → Agree n xml t u) ∧ AgreeFields n xml r gs
/-- Items with the same id agree. -/
def AgreeItems (n : Option Str) (xml : Bool) : List (List (Str × CTree)) → List (List (Str × CTree)) → Prop
  | [], _ => True
  | x :: r, js => (∀ y ∈ js, ∀ a b, cellId n xml x = some a → cellId n xml y = some b → a.pyEq b = true → AgreeFields n xml x y) ∧
      AgreeItems n xml r js
end

/-- Rows with the same root id and the same id do not contradict each other. -/
def Consistent (cfg : UnCfg) (rows : List RowIn) : Prop :=
  ∀ r ∈ rows, ∀ r' ∈ rows, sameRoot cfg r r' = true → ∀ o w o' w', doUnflatten cfg [alone r] = .ok ([o], w) →
    doUnflatten cfg [alone r'] = .ok ([o'], w') → AgreeItems cfg.idName cfg.row.xml [o] [o']

mutual
/-- Every value equals itself (unlike NaN) and is not a geometry. -/
def SelfEqual : CTree → Prop
  | .cell c => c.value.pyEq c.value = true ∧ ∀ g, c.value ≠ .geo g
  | .obj fs => SelfEqualFields fs
  | .list is => SelfEqualItems is
def SelfEqualFields : List (Str × CTree) → Prop
  | [] => True
  | (_, t) :: r => SelfEqual t ∧ SelfEqualFields r
def SelfEqualItems : List (List (Str × CTree)) → Prop
  | [] => True
  | x :: r => SelfEqualFields x ∧ SelfEqualItems r
end

/-- The root id and all values of the row equal themselves. -/
def Comparable (cfg : UnCfg) (r : RowIn) : Prop :=
  atomEq (rootCell cfg.rootId r.line) (rootCell cfg.rootId r.line) = true ∧
    ∀ o w, doUnflatten cfg [alone r] = .ok ([o], w) → SelfEqualFields o

mutual
/-- The same data, up to the order of fields and of array items. -/
inductive SameData : CTree → CTree → Prop
  | cell {c d : Cell} : c.value.pyEq d.value = true → SameData (.cell c) (.cell d)
  | obj {fs gs hs : List (Str × CTree)} : SameFields fs hs → hs.Perm gs → SameData (.obj fs) (.obj gs)
  | list {is js hs : List (List (Str × CTree))} : SameObjects is hs → hs.Perm js → SameData (.list is) (.list js)
/-- The same fields in the same order. -/
inductive SameFields : List (Str × CTree) → List (Str × CTree) → Prop
  | nil : SameFields [] []
  | cons {k : Str} {t u : CTree} {r s : List (Str × CTree)} : SameData t u → SameFields r s → SameFields ((k, t) :: r) ((k, u) :: s)
/-- The same objects in the same order. -/
inductive SameObjects : List (List (Str × CTree)) → List (List (Str × CTree)) → Prop
  | nil : SameObjects [] []
  | cons {x y : List (Str × CTree)} {r s : List (List (Str × CTree))} : SameData (.obj x) (.obj y) → SameObjects r s →
      SameObjects (x :: r) (y :: s)
end

mutual
/-- The same JSON data, up to the order of fields and of array items. -/
inductive SameJson : Json → Json → Prop
  | leaf {a b : Atom} : atomEq a b = true → SameJson (.leaf a) (.leaf b)
  | obj {fs gs hs : List (Str × Json)} : SameJsonFields fs hs → hs.Perm gs → SameJson (.obj fs) (.obj gs)
  | arr {is js hs : List Json} : SameJsonItems is hs → hs.Perm js → SameJson (.arr is) (.arr js)
/-- The same fields in the same order. -/
inductive SameJsonFields : List (Str × Json) → List (Str × Json) → Prop
  | nil : SameJsonFields [] []
  | cons {k : Str} {t u : Json} {r s : List (Str × Json)} : SameJson t u → SameJsonFields r s →
      SameJsonFields ((k, t) :: r) ((k, u) :: s)
/-- The same items in the same order. -/
inductive SameJsonItems : List Json → List Json → Prop
  | nil : SameJsonItems [] []
  | cons {x y : Json} {r s : List Json} : SameJson x y → SameJsonItems r s → SameJsonItems (x :: r) (y :: s)
end

end Verif.Spec

import Verif.Model.Unflatten
import Verif.Spec.Rows
import Verif.Spec.Paths
/-! Specification vocabulary: what merging must keep of a row. -/
namespace Verif.Spec

/-- The values are equal in Python's sense (or the very same: a NaN is not equal to itself). -/
def EqualVal (a b : Val) : Prop := a = b ∨ a.pyEq b = true

/-- The id of an object whose values are cells (in XML mode possibly the text of a subelement). -/
def cellId (idName : Option Str) (xml : Bool) (fs : List (Str × CTree)) : Option Val :=
  match idName with
  | none => none
  | some n =>
    match Dict.get fs n with
    | some (.cell c) => some c.value
    | some (.obj gs) =>
      if xml then (match Dict.get gs s%"text()" with | some (.cell c) => some c.value | _ => none) else none
    | _ => none


/-- A warning says that the column of the cell is ignored. -/
def Ignored (W : List Warn) (c : Cell) : Prop := ∃ why, .ignored c.loc.heading why ∈ W

/-- A warning says that the field's value in the cell is not used because another value was kept. -/
def Conflict (W : List Warn) (key : Str) (c : Cell) : Prop :=
  ∃ sheet kept, .conflict key sheet kept c.value ∈ W ∧ kept.pyEq c.value = false

mutual
/-- The columns of all cells in the tree are reported as ignored. -/
def AllIgnored (W : List Warn) : CTree → Prop
  | .cell c => Ignored W c
  | .obj fs => AllIgnoredFields W fs
  | .list is => AllIgnoredItems W is
def AllIgnoredFields (W : List Warn) : List (Str × CTree) → Prop
  | [] => True
  | (_, t) :: r => AllIgnored W t ∧ AllIgnoredFields W r
def AllIgnoredItems (W : List Warn) : List (List (Str × CTree)) → Prop
  | [] => True
  | fs :: r => AllIgnoredFields W fs ∧ AllIgnoredItems W r
end

mutual
/-- Every value of the first tree (which is in the field `key`) is in the second, at the same position with an equal value that is attributed
to (among others) the cell's location, or reported in `W`.  In arrays, objects with an id are found by their id; objects without id are all there, unchanged and in order. -/
def Covered (n : Option Str) (xml : Bool) (W : List Warn) (key : Str) : CTree → CTree → Prop
  | .cell c, u => (∃ b, u = .cell b ∧ EqualVal b.value c.value ∧ c.loc ∈ locations b) ∨ Ignored W c ∨ Conflict W key c
  | .obj fs, u => (∃ gs, u = .obj gs ∧ CoveredFields n xml W fs gs) ∨ AllIgnoredFields W fs
  | .list is, u =>
    (∃ js, u = .list js ∧ CoveredItems n xml W is js ∧
      (is.filter (fun x => (cellId n xml x).isNone)).Sublist (js.filter (fun x => (cellId n xml x).isNone))) ∨ AllIgnoredItems W is
/-- Every field is in the second object. -/
def CoveredFields (n : Option Str) (xml : Bool) (W : List Warn) : List (Str × CTree) → List (Str × CTree) → Prop
  | [], _ => True
  | (k, t) :: r, gs => (∃ u, Dict.get gs k = some u ∧ Covered n xml W k t u) ∧ CoveredFields n xml W r gs
/-- Every object with an id has its counterpart. -/
def CoveredItems (n : Option Str) (xml : Bool) (W : List Warn) : List (List (Str × CTree)) → List (List (Str × CTree)) → Prop
  | [], _ => True
  | x :: r, js =>
    (∀ k, cellId n xml x = some k → ∃ y ∈ js, ∃ k', cellId n xml y = some k' ∧ EqualVal k' k ∧ CoveredFields n xml W x y) ∧
      CoveredItems n xml W r js
end

/-! ### Rows whose objects are all identified -/

mutual
/-- Every array item has an id, and every value is one that can be recognised again: it equals itself (unlike NaN) and is not a geometry. -/
def Identified (n : Option Str) (xml : Bool) : CTree → Prop
  | .cell c => c.value.pyEq c.value = true ∧ ∀ g, c.value ≠ .geo g
  | .obj fs => IdentifiedFields n xml fs
  | .list is => IdentifiedItems n xml is
def IdentifiedFields (n : Option Str) (xml : Bool) : List (Str × CTree) → Prop
  | [] => True
  | (_, t) :: r => Identified n xml t ∧ IdentifiedFields n xml r
def IdentifiedItems (n : Option Str) (xml : Bool) : List (List (Str × CTree)) → Prop
  | [] => True
  | x :: r => ((cellId n xml x).isSome = true ∧ IdentifiedFields n xml x) ∧ IdentifiedItems n xml r
end

end Verif.Spec

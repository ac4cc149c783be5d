import Verif.Spec.Blank
/-! Specification vocabulary: which rows form one object. -/
namespace Verif.Spec

/-- Put `x` at the end of the first class whose first member is equivalent to it, or into a new class at
the end. -/
def addToClass {α : Type} (eq : α → α → Bool) (x : α) : List (List α) → List (List α)
  | [] => [[x]]
  | c :: r => if c.head?.any (fun y => eq y x) then (c ++ [x]) :: r else c :: addToClass eq x r

/-- The classes of equivalent elements, in order of their first member; members keep their order. -/
def classes {α : Type} (eq : α → α → Bool) (l : List α) : List (List α) :=
  l.foldl (fun cs x => addToClass eq x cs) []

/-- The id of an object: the scalar in its id field (in XML mode possibly as the text of a subelement). -/
def idOf (idName : Option Str) (xml : Bool) : Json → Option Atom
  | .obj fs =>
    match idName with
    | none => none
    | some n =>
      match Dict.get fs n with
      | some (.leaf a) => some a
      | some (.obj gs) =>
        if xml then (match Dict.get gs s%"text()" with | some (.leaf a) => some a | _ => none) else none
      | _ => none
  | _ => none

/-- The sheet that contains only the given row (at its place: the lines above it are blank). -/
def alone (r : RowIn) : SheetIn := { r.sheet with lines := List.replicate r.number [] ++ [r.line] }

/-- The id of a row: that of the object it gives on its own. -/
def rowId (cfg : UnCfg) (r : RowIn) : Option Atom :=
  match unflatten cfg [alone r] with
  | .ok ([o], _) => idOf cfg.idName cfg.row.xml o
  | _ => none

/-- Python equality of two scalars. -/
def atomEq (a b : Atom) : Bool := (Val.atom a).pyEq (.atom b)

def sameRoot (cfg : UnCfg) (r r' : RowIn) : Bool :=
  atomEq (rootCell cfg.rootId r.line) (rootCell cfg.rootId r'.line)

def sameId (cfg : UnCfg) (r r' : RowIn) : Bool :=
  match rowId cfg r, rowId cfg r' with
  | some a, some b => atomEq a b
  | _, _ => false

/-- The rows that make up each object: per root id, in order of first appearance, the rows with the same id, again
in order of first appearance, and then each row without id. -/
def objectRows (cfg : UnCfg) (rows : List RowIn) : List (List RowIn) :=
  (classes (sameRoot cfg) rows).flatMap (fun g =>
    classes (sameId cfg) (g.filter (fun r => (rowId cfg r).isSome)) ++
      (g.filter (fun r => (rowId cfg r).isNone)).map (fun r => [r]))

/-! ### Ids within arrays -/

mutual
/-- No array, at any depth, has two objects with equal ids; no object has a key twice. -/
def IdsUnique (n : Option Str) (xml : Bool) : Json → Prop
  | .leaf _ => True
  | .obj fs => (Dict.keys fs).Nodup ∧ IdsUniqueFields n xml fs
  | .arr is => is.Pairwise (fun a b => ∀ x y, idOf n xml a = some x → idOf n xml b = some y → atomEq x y = false) ∧
      IdsUniqueList n xml is
def IdsUniqueFields (n : Option Str) (xml : Bool) : List (Str × Json) → Prop
  | [] => True
  | (_, v) :: r => IdsUnique n xml v ∧ IdsUniqueFields n xml r
def IdsUniqueList (n : Option Str) (xml : Bool) : List Json → Prop
  | [] => True
  | v :: r => IdsUnique n xml v ∧ IdsUniqueList n xml r
end

end Verif.Spec

import Verif.Spec.Spread
/-! Specification vocabulary: what an object holds, with array items named by their ids. -/
namespace Verif.Spec

/-- An object, or an array with an object in it. -/
def Composite : Json → Prop
  | .obj _ => True
  | .arr l => ∃ gs, .obj gs ∈ l
  | .leaf _ => False

/-- The object has this id. -/
def HasId (m : Str) (v : Val) (fs : List (Str × Json)) : Prop := ∃ a, (m, .leaf a) ∈ fs ∧ (Val.atom a).pyEq v = true

/-- The object holds this value at this position.  `m` is the name of the id field. -/
inductive HoldsAt (m : Str) : List (Str × Json) → NamedPos → Json → Prop
  | value {fs k j} : (k, j) ∈ fs → ¬ Composite j → HoldsAt m fs [(k, none)] j
  | field {fs k gs p j} : (k, .obj gs) ∈ fs → HoldsAt m gs p j → HoldsAt m fs ((k, none) :: p) j
  | item {fs k l gs v p j} : (k, .arr l) ∈ fs → .obj gs ∈ l → HasId m v gs → HoldsAt m gs p j → HoldsAt m fs ((k, some v) :: p) j

/-- The value in the document is this value of a cell (or an equal one: 1, 1.0 and true are equal). -/
def ShowsVal (j : Json) (v : Val) : Prop := ∃ w : Val, w.toJson = j ∧ w.pyEq v = true

/-- Different items have different ids. -/
def OwnIds (m : Str) (l : List Json) : Prop :=
  l.Pairwise (fun a b => ∀ fs gs v, a = .obj fs → b = .obj gs → HasId m v fs → ¬ HasId m v gs)

mutual
/-- There is nothing else in the value: no empty objects, no field twice, and arrays of objects that are not empty and whose items all have ids of their own. -/
def Tidy (m : Str) : Json → Prop
  | .leaf _ => True
  | .obj fs => fs ≠ [] ∧ (fs.map (·.1)).Nodup ∧ TidyFields m fs
  | .arr l => (∀ gs, .obj gs ∉ l) ∨ (l ≠ [] ∧ OwnIds m l ∧ TidyItems m l)
def TidyFields (m : Str) : List (Str × Json) → Prop
  | [] => True
  | (_, v) :: r => Tidy m v ∧ TidyFields m r
def TidyItems (m : Str) : List Json → Prop
  | [] => True
  | .obj fs :: r => (∃ v, HasId m v fs) ∧ (fs.map (·.1)).Nodup ∧ TidyFields m fs ∧ TidyItems m r
  | _ :: _ => False
end

/-- The object is what is said about the object with this root id and this id: it has that id, holds what is said, nothing else is said, and there is nothing else in it. -/
structure IsSaid (cfg : UnCfg) (m : Str) (sheets : List SheetIn) (root : Atom) (id : Val) (fs : List (Str × Json)) : Prop where
  named : HasId m id fs
  holds : ∀ x, Said cfg m sheets x → atomEq x.root root = true → x.id.pyEq id = true → ∃ j, HoldsAt m fs x.pos j ∧ ShowsVal j x.value
  said : ∀ p j, HoldsAt m fs p j → ∃ x, Said cfg m sheets x ∧ atomEq x.root root = true ∧ x.id.pyEq id = true ∧ SameNamed p x.pos ∧ ShowsVal j x.value
  tidy : Tidy m (.obj fs)

/-- The rows describe these objects (given with their root ids): the objects have different ids and nothing else than values in them; the rows say of each what it
holds, all of it, and nothing else. -/
structure Describes (cfg : UnCfg) (m : Str) (sheets : List SheetIn) (docs : List (Atom × List (Str × Json))) : Prop where
  tidy : ∀ d ∈ docs, Tidy m (.obj d.2) ∧ (∃ v, HasId m v d.2) ∧ atomEq d.1 d.1 = true
  distinct : docs.Pairwise (fun d e => ∀ v, atomEq d.1 e.1 = true → HasId m v d.2 → ¬ HasId m v e.2)
  only : ∀ x, Said cfg m sheets x → ∃ d ∈ docs, atomEq x.root d.1 = true ∧ HasId m x.id d.2 ∧ ∃ j, HoldsAt m d.2 x.pos j ∧ ShowsVal j x.value
  all : ∀ d ∈ docs, ∀ p j, HoldsAt m d.2 p j →
    ∃ x, Said cfg m sheets x ∧ atomEq x.root d.1 = true ∧ HasId m x.id d.2 ∧ SameNamed p x.pos ∧ ShowsVal j x.value

end Verif.Spec

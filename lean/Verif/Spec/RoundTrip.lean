import Verif.Spec.Flatten
import Verif.Spec.Order
/-! Specification vocabulary: documents that survive being written to a spreadsheet and read back. -/
namespace Verif.Spec

/-- What happens to values on the way to a spreadsheet and back.
* `write`: the cell that a scalar of the document becomes in the spreadsheet that is read.
* `types`, `conv`: the types that the reading schema gives to paths, and the settings of the conversion of cells.
* `idName`, `rootId`: the names of the id and of the root id. -/
structure Trip where
  types : Str → Option CType
  conv : ConvEnv
  write : Atom → Atom
  idName : Str
  rootId : Option Str

/-- The scalar `b`, written into a column for the keys `ks`, is read back as `j`. -/
def Trip.Returns (T : Trip) (ks : List Str) (b : Atom) (j : Json) : Prop :=
  (T.write b).blank = false ∧ T.types (pathText ks) ≠ some .array ∧ T.types (pathText ks) ≠ some .object ∧
  ∃ v w, convertType T.conv ((T.types (pathText ks)).getD .untyped) (T.write b) = .ok (v, w) ∧
    v.blank = false ∧ v.pyEq v = true ∧ (∀ g, v ≠ .geo g) ∧ v.toJson = j

/-- A key that can be a part of a heading: not empty, no slash, not a number, no bracket at the end. -/
def GoodKey (k : Str) : Prop :=
  k ≠ [] ∧ '/' ∉ k ∧ Py.int? k = none ∧ k.getLast? ≠ some '[' ∧ k.getLast? ≠ some ']'

instance (k : Str) : Decidable (GoodKey k) := by unfold GoodKey; infer_instance

/-- The id of an object. -/
def Trip.idOf (T : Trip) (fs : List (Str × Json)) : Option Atom :=
  match Dict.get fs T.idName with
  | some (.leaf a) => some a
  | _ => none

/-- The object has fields with different, good keys, and its id, if there is one, is a scalar. -/
def Trip.Object (T : Trip) (fs : List (Str × Json)) : Prop :=
  fs ≠ [] ∧ (Dict.keys fs).Nodup ∧ (∀ k ∈ Dict.keys fs, GoodKey k) ∧
  (∀ v, Dict.get fs T.idName = some v → T.idOf fs ≠ none)

/-- The object does not have the root id. -/
def Trip.NoRoot (T : Trip) (fs : List (Str × Json)) : Prop := ∀ rid, T.rootId = some rid → Dict.get fs rid = none

/-- If there are objects in arrays below the object, it has an id. -/
def Trip.Named (T : Trip) (fs : List (Str × Json)) : Prop := items everything [] [] fs ≠ [] → T.idOf fs ≠ none

/-- The ids, where there are ids, are different. -/
def DifferentIds (a b : Option Atom) : Prop := ∀ x y, a = some x → b = some y → (Val.atom x).pyEq (.atom y) = false

/-- The id of a value. -/
def Trip.idOfValue (T : Trip) : Json → Option Atom
  | .obj fs => T.idOf fs
  | _ => none

mutual
/-- The value, below the keys `ks`, survives: scalars, and lists that are written into one cell, are read back as they are; other
arrays are arrays of objects whose ids, where they have ids, are different; the reading schema does not contradict. -/
def Trip.Fits (T : Trip) (ks : List Str) : Json → Prop
  | .leaf a => a.basic = true ∧ T.Returns ks a (.leaf a)
  | .obj fs => (T.types (pathText ks) = none ∨ T.types (pathText ks) = some .object) ∧ T.Object fs ∧ T.NoRoot fs ∧ T.FitsFields ks fs
  | .arr l => (∃ t, joinArray l = some t ∧ T.Returns ks (.str t) (.arr l)) ∨
      (joinArray l = none ∧ (T.types (pathText ks) = none ∨ T.types (pathText ks) = some .array) ∧ T.FitsItems ks l ∧
        l.Pairwise (fun x y => DifferentIds (T.idOfValue x) (T.idOfValue y)))
/-- The fields of an object. -/
def Trip.FitsFields (T : Trip) (ks : List Str) : List (Str × Json) → Prop
  | [] => True
  | (k, v) :: r => T.Fits (ks ++ [k]) v ∧ T.FitsFields ks r
/-- The items of an array of objects. -/
def Trip.FitsItems (T : Trip) (ks : List Str) : List Json → Prop
  | [] => True
  | .obj fs :: r => (T.Object fs ∧ T.NoRoot fs ∧ T.Named fs ∧ T.FitsFields ks fs) ∧ T.FitsItems ks r
  | _ :: _ => False
end

/-- The root id cell that the rows of a root object have. -/
def Trip.rootCell (T : Trip) (fs : List (Str × Json)) : Val :=
  match T.rootId with
  | none => .atom .none
  | some rid =>
    match Dict.get fs rid with
    | some (.leaf a) => .atom (T.write a)
    | _ => .atom .none

/-- The document survives. -/
structure Trip.FitsRoot (T : Trip) (root : List Json) : Prop where
  idName : GoodKey T.idName
  rootName : ∀ rid, T.rootId = some rid → rid ≠ T.idName ∧ '/' ∉ rid
  each : ∀ x ∈ root, ∃ fs, x = .obj fs ∧ T.Object fs ∧ T.Named fs ∧ T.FitsFields [] fs ∧
    ∀ rid v, T.rootId = some rid → Dict.get fs rid = some v → ∃ a, v = .leaf a ∧ (Val.atom (T.write a)).pyEq (.atom (T.write a)) = true
  distinct : (Spec.objects root).Pairwise (fun x y => (T.rootCell x).pyEq (T.rootCell y) = true → DifferentIds (T.idOf x) (T.idOf y))

/-- A line `l` of a spreadsheet, as it is read, has the data of the line `fl` that was written: its cells that are not blank are those of
`fl` (with values as they are written), each column once. -/
structure Trip.ReadBack (T : Trip) (fl : FLine) (l : Line) : Prop where
  columns : (l.map (·.1)).Nodup
  from_ : ∀ h a, (h, a) ∈ l → a.blank = false → ∃ s b, h = some s ∧ Dict.get fl s = some (.leaf b) ∧ a = T.write b
  all : ∀ s b, Dict.get fl s = some (.leaf b) → (T.write b).blank = false → (some s, T.write b) ∈ l
  noRoot : ∀ rid, T.rootId = some rid → Dict.get fl rid = none → ∀ a, (some rid, a) ∈ l → a = .none

/-- The settings of the reading program are those of the trip. -/
structure Trip.Reads (T : Trip) (cfg : UnCfg) : Prop where
  xml : cfg.row.xml = false
  types : cfg.row.types = T.types
  conv : cfg.row.conv = T.conv
  idName : cfg.idName = some T.idName
  rootId : cfg.rootId = T.rootId

mutual
/-- The same JSON data, up to the order of fields and of the objects in arrays (arrays of anything else are the same, in the same order). -/
inductive Rearranged : Json → Json → Prop
  | leaf {a : Atom} : Rearranged (.leaf a) (.leaf a)
  | obj {fs gs hs : List (Str × Json)} : RearrangedFields fs hs → hs.Perm gs → Rearranged (.obj fs) (.obj gs)
  | arr {is js hs : List Json} : RearrangedItems is hs → hs.Perm js → ((∀ x ∈ is, ∃ gs, x = .obj gs) ∨ hs = js) →
      Rearranged (.arr is) (.arr js)
/-- The same fields in the same order. -/
inductive RearrangedFields : List (Str × Json) → List (Str × Json) → Prop
  | nil : RearrangedFields [] []
  | cons {k : Str} {t u : Json} {r s : List (Str × Json)} : Rearranged t u → RearrangedFields r s →
      RearrangedFields ((k, t) :: r) ((k, u) :: s)
/-- The same items in the same order. -/
inductive RearrangedItems : List Json → List Json → Prop
  | nil : RearrangedItems [] []
  | cons {x y : Json} {r s : List Json} : Rearranged x y → RearrangedItems r s → RearrangedItems (x :: r) (y :: s)
end

end Verif.Spec

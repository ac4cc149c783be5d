import Verif.Model.Flatten
/-! Specification vocabulary for flattening: what a document should become, without sheets, columns or state. -/
namespace Verif.Spec

/-- The sheets of a flattening result. -/
def sheetsOf (st : FState) : List Sheet := st.main :: st.subs.map (·.2)

/-- The schema given to the flattening, if any, is one the schema parser produced (with any options). -/
def FromSchemaParser (cfg : FCfg) : Prop :=
  ∀ sp, cfg.schema = some sp → ∃ scfg sch, parseRoot scfg sch = .ok sp

/-- The options are plain: no titles, WKT, XML and rollup. -/
structure Plain (cfg : FCfg) : Prop where
  titles : cfg.useTitles = false
  wkt : cfg.wkt = false
  xml : cfg.xml = false
  rollup : cfg.rollup = []

/-- The lines of the sub-sheet with the given name (none if there is no such sheet). -/
def subLines (st : FState) (name : Str) : List FLine := ((Dict.get st.subs name).getD {}).lines

/-- A path as a heading: `a/0/b`. -/
def pathText (p : List Str) : Str := Py.join s%"/" p

/-- The objects of the root list. -/
def objects : List Json → List (List (Str × Json))
  | [] => []
  | .obj fs :: r => fs :: objects r
  | _ :: r => objects r

/-! ### The cells of an object

`keep p k` says whether field `k` of the object at path `p` is wanted.  The fields of the objects below belong to
the same line; the objects in arrays do not. -/

mutual
/-- The cells of an object at path `p`: path and value of each. -/
def cells (keep : List Str → Str → Bool) (p : List Str) : List (Str × Json) → List (List Str × Json)
  | [] => []
  | (k, v) :: r => (if keep p k then valueCells keep (p ++ [k]) v else []) ++ cells keep p r
termination_by structural fs => fs
/-- The cells of a value at path `p`. -/
def valueCells (keep : List Str → Str → Bool) (p : List Str) : Json → List (List Str × Json)
  | .leaf a => [(p, .leaf a)]
  | .obj fs => cells keep p fs
  | .arr l =>
    match joinArray l with
    | some t => [(p, .leaf (.str t))]
    | none => []
termination_by structural v => v
end

/-! ### The objects in arrays -/

/-- An object in an array: the path of the array (with `0` for the arrays crossed before), the objects around it with
their paths, from the outside in, and the fields of the object. -/
structure Item where
  array : List Str
  around : List (List Str × List (Str × Json))
  fields : List (Str × Json)

/-- How the ids are called. -/
structure IdOpts where
  idName : Str
  rootId : Option Str

/-- The id names of the options. -/
def idOpts (cfg : FCfg) : IdOpts := { idName := cfg.idName, rootId := cfg.rootId }

/-- `ids` with one more id, if the object has it. -/
def addId (path : Str) (name : Str) (fs : List (Str × Json)) (ids : List (Str × Json)) : List (Str × Json) :=
  match Dict.get fs name with
  | some v => Dict.set ids path v
  | none => ids

/-- The ids that objects below the object at path `p` carry: those of the objects around it, its root id and its
own id. -/
def idsBelow (o : IdOpts) (p : List Str) (fs : List (Str × Json)) (ids : List (Str × Json)) : List (Str × Json) :=
  addId (pathText (p ++ [o.idName])) o.idName fs
    (match o.rootId with
     | some rid => addId rid rid fs ids
     | none => ids)

/-- The ids that an object carries for the objects around it. -/
def idsOf (o : IdOpts) (around : List (List Str × List (Str × Json))) : List (Str × Json) :=
  around.foldl (fun ids a => idsBelow o a.1 a.2 ids) []

mutual
/-- The objects in the arrays below an object at path `p`, at any depth, inner ones first. -/
def items (keep : List Str → Str → Bool) (p : List Str) (around : List (List Str × List (Str × Json))) :
    List (Str × Json) → List Item
  | [] => []
  | (k, v) :: r => (if keep p k then valueItems keep (p ++ [k]) around v else []) ++ items keep p around r
termination_by structural fs => fs
def valueItems (keep : List Str → Str → Bool) (p : List Str) (around : List (List Str × List (Str × Json))) :
    Json → List Item
  | .leaf _ => []
  | .obj fs => items keep p (around ++ [(p, fs)]) fs
  | .arr l =>
    match joinArray l with
    | some _ => []
    | none => arrayItems keep p around l
termination_by structural v => v
def arrayItems (keep : List Str → Str → Bool) (p : List Str) (around : List (List Str × List (Str × Json))) :
    List Json → List Item
  | [] => []
  | .obj fs :: r =>
    items keep (p ++ [s%"0"]) (around ++ [(p ++ [s%"0"], fs)]) fs ++ ⟨p, around, fs⟩ :: arrayItems keep p around r
  | .leaf _ :: r => arrayItems keep p around r
  | .arr _ :: r => arrayItems keep p around r
termination_by structural l => l
end

/-- All the objects in arrays of a document, in order. -/
def docItems (keep : List Str → Str → Bool) (root : List Json) : List Item :=
  (objects root).flatMap (fun fs => items keep [] [([], fs)] fs)

/-- The cells of a path list as a line: the last one wins if headings coincide. -/
def toLine (cs : List (List Str × Json)) : FLine := Dict.update [] (cs.map (fun c => (pathText c.1, c.2)))

/-- The line of the object in an array: the ids of the objects around it, then its own cells. -/
def Item.line (o : IdOpts) (keep : List Str → Str → Bool) (i : Item) : FLine :=
  Dict.update (Dict.update [] (idsOf o i.around))
    ((cells keep (i.array ++ [s%"0"]) i.fields).map (fun c => (pathText c.1, c.2)))

/-- The sub-sheet for the objects of the array at path `p`. -/
def sheetName (trunc : Nat) (p : List Str) : Str :=
  makeSubSheetName (p.dropLast.flatMap (fun x => x ++ s%"/")) (p.getLast?.getD []) trunc

/-- The documented name of the sub-sheet for the array with key `k` of the object at path `q`: the shortened keys around it (not
the positions in arrays) and its own key, joined with `_`; colons become dashes. -/
def documentedName (trunc : Nat) (q : List Str) (k : Str) : Str :=
  ((q.filter (· ≠ s%"0")).flatMap (fun x => x.take trunc ++ s%"_") ++ k).map (fun c => if c = ':' then '-' else c)

/-- The sub-sheet for the objects of the array at path `p`, when headings are titles: the one the schema gives it, if any. -/
def sheetOf (cfg : FCfg) (p : List Str) : Str :=
  match (if cfg.useTitles then
      cfg.schema.bind (fun sp => Dict.get sp.subTitles (p.dropLast.flatMap (fun x => x ++ s%"/"), p.getLast?.getD []))
    else none) with
  | some t => t
  | none => sheetName cfg.trunc p

/-! ### The same, as relations -/

/-- The object at path `p` with the given fields has value `v` at path `q` (without crossing an array of objects; a list
of scalars counts as one text). -/
inductive HasCell (keep : List Str → Str → Bool) : List Str → List (Str × Json) → List Str → Json → Prop
  | scalar {p fs k a} : (k, .leaf a) ∈ fs → keep p k → HasCell keep p fs (p ++ [k]) (.leaf a)
  | list {p fs k l t} : (k, .arr l) ∈ fs → keep p k → joinArray l = some t →
      HasCell keep p fs (p ++ [k]) (.leaf (.str t))
  | deep {p fs k gs q v} : (k, .obj gs) ∈ fs → keep p k → HasCell keep (p ++ [k]) gs q v → HasCell keep p fs q v

/-- Every field is wanted. -/
def everything : List Str → Str → Bool := fun _ _ => true

/-- The line holds the values of the object at path `p`, and else only what `extra` allows. -/
structure Holds (keep : List Str → Str → Bool) (p : List Str) (fs : List (Str × Json)) (extra : Str → Json → Prop)
    (line : FLine) : Prop where
  complete : ∀ q v, HasCell keep p fs q v → Dict.get line (pathText q) = some v
  sound : ∀ h v, Dict.get line h = some v → (∃ q, h = pathText q ∧ HasCell keep p fs q v) ∨ extra h v

/-- The value is an id, or root id, of one of the objects. -/
def IsIdOf (o : IdOpts) (around : List (List Str × List (Str × Json))) (h : Str) (v : Json) : Prop :=
  ∃ p fs, (p, fs) ∈ around ∧
    ((h = pathText (p ++ [o.idName]) ∧ Dict.get fs o.idName = some v) ∨ (o.rootId = some h ∧ Dict.get fs h = some v))

/-- The line carries the ids of the objects around: the id of each under the heading of its path, and the root id of
the innermost one that has a root id. -/
structure CarriesIds (o : IdOpts) (around : List (List Str × List (Str × Json))) (line : FLine) : Prop where
  id : ∀ p fs v, (p, fs) ∈ around → Dict.get fs o.idName = some v → Dict.get line (pathText (p ++ [o.idName])) = some v
  rootId : ∀ rid outer p fs inner v, o.rootId = some rid → around = outer ++ (p, fs) :: inner → Dict.get fs rid = some v →
    (∀ a ∈ inner, Dict.get a.2 rid = none) → Dict.get line rid = some v

mutual
/-- Every object has distinct keys, and no key contains a slash. -/
def CleanKeys : Json → Prop
  | .leaf _ => True
  | .obj fs => (Dict.keys fs).Nodup ∧ (∀ k ∈ Dict.keys fs, '/' ∉ k) ∧ CleanFields fs
  | .arr l => CleanList l
def CleanFields : List (Str × Json) → Prop
  | [] => True
  | (_, v) :: r => CleanKeys v ∧ CleanFields r
def CleanList : List Json → Prop
  | [] => True
  | v :: r => CleanKeys v ∧ CleanList r
end

mutual
/-- The document can be flattened: scalars are texts, numbers, booleans or null, and every array is a list of scalars, a list
of lists of scalars, or a list of objects and nulls. -/
def Flattenable : Json → Prop
  | .leaf a => a.basic = true
  | .obj fs => FlattenableFields fs
  | .arr l => (joinArray l).isSome ∨ FlattenableItems l
def FlattenableFields : List (Str × Json) → Prop
  | [] => True
  | (_, v) :: r => Flattenable v ∧ FlattenableFields r
def FlattenableItems : List Json → Prop
  | [] => True
  | .obj fs :: r => FlattenableFields fs ∧ FlattenableItems r
  | .leaf a :: r => a = .none ∧ FlattenableItems r
  | .arr _ :: _ => False
end

/-! ### Rollup -/

/-- The columns wanted on the main sheet for a field `k` of the objects in array `key`: the array is to be rolled up, or the
schema has such a column on the main sheet. -/
def Rolls (cfg : FCfg) (key k : Str) : Prop :=
  key ∈ cfg.rollup ∨ ∃ sp, cfg.schema = some sp ∧ pathText [key, s%"0", k] ∈ sp.main.headings

/-- What rollup adds to the line of a root object: the values of the only object of an array, or, if there are more, a warning
text for each field they have. -/
inductive Rolled (rolls : Str → Str → Prop) (fs : List (Str × Json)) : List Str → Json → Prop
  | one {key gs k v} : (key, .arr [.obj gs]) ∈ fs → rolls key k → (k, v) ∈ gs → Rolled rolls fs [key, s%"0", k] v
  | many {key l gs k v} : (key, .arr l) ∈ fs → 2 ≤ l.length → .obj gs ∈ l → (k, v) ∈ gs → rolls key k →
      Rolled rolls fs [key, s%"0", k] (.leaf (.str s%"WARNING: More than one value supplied, consult the relevant sub-sheet for the data."))

/-- The object has at `f` an array of several items, and in one of them a value that is to be rolled up. -/
inductive TooMany (rolls : Str → Str → Prop) (fs : List (Str × Json)) (f : Str) : Prop
  | intro {l gs k v} : (f, .arr l) ∈ fs → 2 ≤ l.length → .obj gs ∈ l → (k, v) ∈ gs → rolls f k → TooMany rolls fs f

/-- Rollup can deal with the arrays of a root object: an array that does not fit into one cell has objects only, and if it has one object,
the values of that object are neither objects nor arrays. -/
def Rollable (fs : List (Str × Json)) : Prop :=
  ∀ key l, (key, .arr l) ∈ fs → joinArray l = none →
    (∀ j ∈ l, ∃ gs, j = .obj gs) ∧ ∀ gs, l = [.obj gs] → ∀ k v, (k, v) ∈ gs → ∃ a : Atom, v = .leaf a ∧ a.basic = true

/-- With a list of fields to be preserved, a field `k` of the objects in the array `key` can be rolled up if it, or a field of it, is listed. -/
def RollsListed (listed : List (List Str)) (key k : Str) : Prop := [key, k] ∈ listed ∨ ∃ x, [key, k, x] ∈ listed

/-! ### Filter -/

/-- The object has the text `v` in field `f`. -/
def selected (f v : Str) : Json → Bool
  | .obj fs =>
    match Dict.get fs f with
    | some (.leaf (.str s)) => s = v
    | _ => false
  | _ => false

/-- The sheets of a result (or the error). -/
def sheetsResult : Except Err FState → Except Err (Sheet × List (Str × Sheet))
  | .ok st => .ok (st.main, st.subs)
  | .error e => .error e

/-- The same line: the same value under every heading. -/
def SameLine (a b : FLine) : Prop := ∀ h, Dict.get a h = Dict.get b h

/-! ### Fields to preserve -/

/-- The value has another value at this path, ignoring positions in arrays. -/
inductive At : Json → List Str → Json → Prop
  | here {v} : At v [] v
  | field {fs k v p w} : (k, v) ∈ fs → At v p w → At (.obj fs) (k :: p) w
  | item {l v p w} : v ∈ l → At v p w → At (.arr l) p w

/-- A field is to be preserved, given the listed paths: it is listed, or lies above a listed field, or lies below a listed
field below which nothing else is listed. -/
def Preserved (listed : List (List Str)) (q : List Str) : Prop :=
  q ∈ listed ∨ (∃ l ∈ listed, q <+: l) ∨ ∃ g ∈ listed, g <+: q ∧ ∀ l ∈ listed, g <+: l → l = g

instance (listed : List (List Str)) (q : List Str) : Decidable (Preserved listed q) := by unfold Preserved; infer_instance

/-- The same, for field `k` of the object at path `p` (which has `0` for the arrays crossed). -/
def preserved (listed : List (List Str)) (p : List Str) (k : Str) : Bool :=
  decide (Preserved listed (p.filter (· ≠ s%"0") ++ [k]))

/-- The list of paths fits the document: the paths are well-formed; of the objects around a listed field the ones above its
parent are listed too, or are parents of listed fields; a root field with the name of a listed nested field is itself on the way to a
listed field; and the path of an object occurs in a listed path only as its beginning. -/
structure GoodList (listed : List (List Str)) (root : List Json) : Prop where
  some : listed ≠ []
  path : ∀ l ∈ listed, l ≠ [] ∧ ∀ x ∈ l, x ≠ [] ∧ '/' ∉ x
  trim : ∀ l ∈ listed, Py.strip Py.isSpace (pathText l) = pathText l
  above : ∀ l ∈ listed, ∀ q, q <+: l → q ≠ [] → q ∈ listed ∨ ∃ x, q ++ [x] ∈ listed
  names : ∀ fs k v q, .obj fs ∈ root → (k, v) ∈ fs → q ≠ [] → q ++ [k] ∈ listed → ∃ l ∈ listed, [k] <+: l
  inside : ∀ j p gs l a b, j ∈ root → At j p (.obj gs) → p ≠ [] → l ∈ listed → pathText l = a ++ (pathText p ++ s%"/") ++ b → p <+: l

end Verif.Spec

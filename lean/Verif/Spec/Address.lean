import Verif.Model.Unflatten
import Verif.Spec.Covered
/-! Specification vocabulary: the position a heading names, and the object described by values at positions. -/
namespace Verif.Spec

/-- One step of a position: a key, and for an array the index of the item meant. -/
abbrev Step := Str × Option Int

/-- A position in an object. -/
abbrev Addr := List Step

/-- The keys of a position, without the indices. -/
def Addr.keys (a : Addr) : List Str := a.map (·.1)

/-- A heading read as a position: its parts are keys, a number after a key is an index of the array under that key; the last part is a key.
`types` gives the schema's type of a path (a path is written without indices): under a key of type `array` an index may be left out
(it counts as -1), and an array or object cannot be the last part, nor a scalar an inner part.  `none`: the heading does not name a
position in this way (an empty part, a number at the start or at the end or after another number, or a conflict with the schema). -/
def address (types : Str → Option CType) (above : List Str) : List Str → Option Addr
  | [] => none
  | key :: rest =>
    if key = [] ∨ (Py.int? key).isSome then none
    else
      let ty := types (Py.join s%"/" (above ++ [key]))
      match rest with
      | [] => if ty = some .array ∨ ty = some .object then none else some [(key, none)]
      | next :: rest' =>
        match Py.int? next with
        | some i =>
          if ty = none ∨ ty = some .array then (address types (above ++ [key]) rest').map ((key, some i) :: ·) else none
        | none =>
          if ty = some .array then (address types (above ++ [key]) (next :: rest')).map ((key, some (-1)) :: ·)
          else if ty = none ∨ ty = some .object then (address types (above ++ [key]) (next :: rest')).map ((key, none) :: ·)
          else none

/-- Two positions that one object can have values at: where they part, they have different keys, or different indices of one array. -/
def Compatible : Addr → Addr → Prop
  | (k, none) :: a, (k', none) :: b => k ≠ k' ∨ Compatible a b
  | (k, some i) :: a, (k', some j) :: b => k ≠ k' ∨ i ≠ j ∨ Compatible a b
  | (k, _) :: _, (k', _) :: _ => k ≠ k'
  | _, _ => False

/-- The values of an object: what it has at each position. -/
abbrev Content := Addr → Option Val

/-- Does the content have something at or below the step? -/
def Has (f : Option Int → Content) (ix : Option Int) : Prop := ∃ rest, f ix rest ≠ none

/-- The numbers are in strictly ascending order. -/
def Ascending (l : List Int) : Prop := l.Pairwise (· < ·)

/-- The object has a field for each key that the content speaks about, and no other field. -/
def FieldsAre (f : Content) (fs : List (Str × Json)) : Prop :=
  (fs.map (·.1)).Nodup ∧ ∀ k, k ∈ fs.map (·.1) ↔ ∃ ix, Has (fun ix rest => f ((k, ix) :: rest)) ix

/-- The content is one value. -/
def IsValue (f : Option Int → Content) (j : Json) : Prop :=
  ∃ v0, v0.toJson = j ∧ ∀ ix rest v, f ix rest = some v ↔ ix = none ∧ rest = [] ∧ v = v0

mutual
/-- Each field has its value. -/
def BuiltFields (n : Option Str) (f : Content) : List (Str × Json) → Prop
  | [] => True
  | (k, v) :: r => BuiltVal n (fun ix rest => f ((k, ix) :: rest)) v ∧ BuiltFields n f r
/-- The value of a field is exactly what the content says: a cell's value; an object with its content; or an array with one item for each index
that the content speaks about, in ascending order of the indices, but the items that have an id before those that have none. -/
def BuiltVal (n : Option Str) (f : Option Int → Content) : Json → Prop
  | .leaf a => IsValue f (.leaf a)
  | .obj fs => IsValue f (.obj fs) ∨
      (∀ ix, Has f ix → ix = none) ∧ f none [] = none ∧ FieldsAre (f none) fs ∧ BuiltFields n (f none) fs
  | .arr is => IsValue f (.arr is) ∨
      (∀ ix, Has f ix → ix ≠ none) ∧
      ∃ withId without : List Int, Ascending withId ∧ Ascending without ∧
        (∀ i, i ∈ withId ↔ ∃ m, n = some m ∧ f (some i) [(m, none)] ≠ none) ∧
        (∀ i, i ∈ without ↔ Has f (some i) ∧ ∀ m, n = some m → f (some i) [(m, none)] = none) ∧
        BuiltItems n f (withId ++ without) is
/-- The items have the contents of the indices. -/
def BuiltItems (n : Option Str) (f : Option Int → Content) : List Int → List Json → Prop
  | i :: is, .obj fs :: r => (f (some i) [] = none ∧ FieldsAre (f (some i)) fs ∧ BuiltFields n (f (some i)) fs) ∧ BuiltItems n f is r
  | [], [] => True
  | _, _ => False
end

/-- The object has exactly the given content: the fields that the content speaks about, each with its value. -/
def Built (n : Option Str) (f : Content) (fs : List (Str × Json)) : Prop :=
  f [] = none ∧ FieldsAre f fs ∧ BuiltFields n f fs

/-- Different items of one array have different ids (or no id). -/
def DistinctIds (n : Option Str) (f : Content) : Prop :=
  ∀ above key i j m a b, n = some m → i ≠ j → f (above ++ [(key, some i), (m, none)]) = some a →
    f (above ++ [(key, some j), (m, none)]) = some b → a.pyEq b = false

/-- A column of a line: its heading and its cell. -/
structure Column where
  heading : Str
  cell : Atom

/-- The columns of a line that are not blank. -/
def columns (l : Line) : List Column :=
  (l.filter (fun c => !c.2.blank)).map (fun c => ⟨c.1.getD s%"None", c.2⟩)

/-- The position the column's heading names. -/
def Column.addr (cfg : RowCfg) (c : Column) : Option Addr := address cfg.types [] (pathList c.heading)

/-- The converted value of the column, and the warnings of the conversion. -/
def Column.value (cfg : RowCfg) (c : Column) : Except Err (Val × List Warn) :=
  convertType cfg.conv ((cfg.types (Py.join s%"/" (((c.addr cfg).getD []).map (·.1)))).getD .untyped) c.cell

/-- The content that the columns give: at the position a heading names, the converted value. -/
def contentOf (cfg : RowCfg) (cs : List Column) : Content := fun a =>
  match cs.find? (fun c => c.addr cfg == some a) with
  | some c => (match c.value cfg with | .ok (v, _) => some v | .error _ => none)
  | none => none

/-- A warning says that the column is ignored: it names the heading, or the heading without its indices. -/
def ColumnIgnored (cfg : RowCfg) (w : List Warn) (c : Column) : Prop :=
  (∃ t, .notArray c.heading t ∈ w) ∨ (∃ t, .notObject c.heading t ∈ w) ∨
    .isContainer (Py.join s%"/" (((c.addr cfg).getD []).map (·.1))) ∈ w

/-- Following keys into a document. -/
def follow : Json → List Str → Option Json
  | j, [] => some j
  | .obj fs, k :: ks => (match Dict.get fs k with | some j => follow j ks | none => none)
  | _, _ :: _ => none

/-- The position that keys lead to, without arrays. -/
def keyPath (ks : List Str) : Addr := ks.map (fun k => (k, none))

end Verif.Spec

import Verif.Spec.Tables
import Verif.Spec.Schema
/-! Specification vocabulary: what the warnings of `flatten` say. -/
namespace Verif.Spec

/-- The value has a field at this path, positions in arrays left out. -/
inductive HasField : Json → List Str → Prop
  | field {fs k v} : (k, v) ∈ fs → HasField (.obj fs) [k]
  | inner {fs k v p} : (k, v) ∈ fs → HasField v p → HasField (.obj fs) (k :: p)
  | item {l fs p} : .obj fs ∈ l → HasField (.obj fs) p → HasField (.arr l) p

/-- Some object has a field at this path. -/
def Occurs (root : List Json) (path : List Str) : Prop := ∃ fs, .obj fs ∈ root ∧ HasField (.obj fs) path

/-- The path names a property of the schema: a column or a list of objects (array positions left out), or an object (written with `0` below lists). -/
def KnownPath (cfg : SchemaCfg) (s : Schema) (t : Str) : Prop :=
  ∃ steps n p, Reached cfg s steps n p ∧
    ((((∃ ty, kind cfg.wkt p = .column ty) ∨ kind cfg.wkt p = .objects) ∧ t = plainPath steps n) ∨ (kind cfg.wkt p = .object ∧ t = columnPath steps n))

/-- The text of a value, if characters have to be removed from it. -/
def spoilt : Option Json → Option Str
  | some (.leaf (.str t)) => if legalText t = t then none else some t
  | _ => none

/-- The texts of a table from which characters have to be removed, line by line. -/
def Table.spoilt (t : Table) : List Str := t.lines.flatMap (fun line => (t.values line).filterMap Spec.spoilt)

/-- CSV files can hold all characters. -/
def holdsAll : Api.Written → Bool
  | .csv _ _ => true
  | _ => false

/-- The position that the warning names, if it is about something that is not an object. -/
def noObject : FWarn → Option Nat
  | .notAnObject n => some n
  | _ => none

/-- The positions of the entries of the list that are neither objects nor null, counted from `n`. -/
def noObjects : Nat → List Json → List Nat
  | _, [] => []
  | n, .obj _ :: r => noObjects (n + 1) r
  | n, .leaf .none :: r => noObjects (n + 1) r
  | n, _ :: r => n :: noObjects (n + 1) r

end Verif.Spec

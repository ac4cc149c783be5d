import Verif.Spec.Flatten
/-! Specification vocabulary: where ids are. -/
namespace Verif.Spec

/-- The id of the object, if there is one, is a scalar; and only objects of the root list (`top`) have the root id, which is a scalar. -/
def HasPlainIds (o : IdOpts) (top : Bool) (fs : List (Str × Json)) : Prop :=
  (∀ v, Dict.get fs o.idName = some v → ∃ a, v = .leaf a) ∧
  ∀ rid, o.rootId = some rid → if top then ∀ v, Dict.get fs rid = some v → ∃ a, v = .leaf a else Dict.get fs rid = none

mutual
/-- So do all objects inside of the value. -/
def PlainIds (o : IdOpts) (top : Bool) : Json → Prop
  | .leaf _ => True
  | .obj fs => HasPlainIds o top fs ∧ PlainIdsFields o fs
  | .arr l => PlainIdsItems o l
def PlainIdsFields (o : IdOpts) : List (Str × Json) → Prop
  | [] => True
  | (_, v) :: r => PlainIds o false v ∧ PlainIdsFields o r
def PlainIdsItems (o : IdOpts) : List Json → Prop
  | [] => True
  | j :: r => PlainIds o false j ∧ PlainIdsItems o r
end

/-- The object at path `p` contains, at path `a` (with `0` for arrays crossed), an array that is not written into one cell. -/
inductive HasArray : List Str → List (Str × Json) → List Str → Prop
  | here {p fs k l} : (k, .arr l) ∈ fs → joinArray l = none → HasArray p fs (p ++ [k])
  | deep {p fs k gs a} : (k, .obj gs) ∈ fs → HasArray (p ++ [k]) gs a → HasArray p fs a
  | item {p fs k l gs a} : (k, .arr l) ∈ fs → joinArray l = none → .obj gs ∈ l → HasArray (p ++ [k, s%"0"]) gs a → HasArray p fs a

/-- The columns of a sheet of the schema that flattening starts with: all of them, or only the root id and ids if empty columns of the
schema are to be removed. -/
def keptColumns (cfg : FCfg) (s : Sheet) : List Str :=
  (if s.rootId = [] then [] else [s.rootId]) ++ (s.idColumns ++ (if cfg.removeEmpty then [] else s.columns))

/-- The columns the schema, if there is one, gives to the sheet with a name (`none`: the main sheet). -/
def templateColumns (cfg : FCfg) (name : Option Str) : List Str :=
  match cfg.schema, name with
  | none, _ => []
  | some p, none => keptColumns cfg p.main
  | some p, some n =>
    match Dict.get p.subs n with
    | some s => keptColumns cfg s
    | none => []

/-- The sheet with a name (`none`: the main sheet). -/
def sheetNamed (st : FState) : Option Str → Option Sheet
  | none => some st.main
  | some n => Dict.get st.subs n

end Verif.Spec

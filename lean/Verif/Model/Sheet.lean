import Verif.Py.Val
/-!
`flattentool/sheet.py` `Sheet` (columns, lines) and `schema.make_sub_sheet_name`.
-/
namespace Verif

/-- A flattened line: heading to value.  Values are scalars, except that ids can be
any JSON value. -/
abbrev FLine := List (Str × Json)

/-- sheet.py:6-40 `Sheet`.  `rootId` is `""` when `None`.  The lines of a
`PersistentSheet` live in a store; see `Store.lean`. -/
structure Sheet where
  rootId : Str := []
  idColumns : List Str := []
  columns : List Str := []
  titles : List (Str × Str) := []
  lines : List FLine := []

/-- sheet.py:32-38 `__iter__`: the headings. -/
def Sheet.headings (s : Sheet) : List Str :=
  (if s.rootId.isEmpty then [] else [s.rootId]) ++ (s.idColumns ++ s.columns)

/-- sheet.py:24-30 `add_field`, `append`. -/
def Sheet.addField (s : Sheet) (field : Str) (idField : Bool := false) : Sheet :=
  if idField then
    if field ∈ s.idColumns then s else { s with idColumns := s.idColumns ++ [field] }
  else if field ∈ s.columns then s else { s with columns := s.columns ++ [field] }

/-- sheet.py:40-41 `append_line`. -/
def Sheet.appendLine (s : Sheet) (l : FLine) : Sheet := { s with lines := s.lines ++ [l] }

/-- json_input.py:57-60 `sheet_key_field`. -/
def sheetKeyField (s : Sheet) (key : Str) : Str × Sheet :=
  (key, if key ∈ s.headings then s else s.addField key)

/-- json_input.py:63-76 `sheet_key_title`. -/
def sheetKeyTitle (s : Sheet) (key : Str) : Str × Sheet :=
  match Dict.get s.titles key with
  | some title => (title, if title ∈ s.headings then s else s.addField title)
  | none => (key, if key ∈ s.headings then s else s.addField key)

/-- schema.py:37-45 `make_sub_sheet_name`. -/
def makeSubSheetName (parentPath propertyName : Str) (trunc : Nat) (sep : Char := '/') : Str :=
  Py.replaceAll s%":" s%"-"
    (Py.join s%"_" (((Py.split sep parentPath).filter (· ≠ s%"0")).map (·.take trunc)) ++ propertyName)

end Verif

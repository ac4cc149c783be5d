import Verif.Model.SourceMap
import Verif.Model.Lib
import Verif.Model.Output
/-!
`flattentool/__init__.py`: option checks, JSON numbers; and
`schema.is_ref_local`, `jsonloader_local_refs_disabled`.
-/
namespace Verif.Api

/-- Formats and line terminators (input.py:964, output.py:167, 175). -/
def formats : List Str := [s%"xlsx", s%"csv", s%"ods"]
def lineTerminators : List Str := [s%"LF", s%"CRLF"]

/-- `__init__.py:112-118`: the checks `flatten` makes before anything else, then
(after parsing, 165-179) the check of the output format.  `ok` means the checks
pass. -/
def flattenPreChecks (filterField filterValue : Option Str) (lineTerminator : Str) : Except Err Unit :=
  if (filterField.isNone && filterValue.isSome) || (filterField.isSome && filterValue.isNone) then
    .error .value
  else if lineTerminator ∉ lineTerminators then .error .value
  else .ok ()

/-- `__init__.py:165-179`: the formats written, or an error. -/
def outputFormats (fmt : Str) : Except Err (List Str) :=
  if fmt = s%"all" then .ok formats
  else if fmt ∈ formats then .ok [fmt]
  else .error .value

/-- `__init__.py:242-249`: the checks of `unflatten`. -/
def unflattenChecks (inputFormat : Option Str) (metatabName baseJson : Option Str) : Except Err Unit :=
  match inputFormat with
  | none => .error .value
  | some f =>
    if f ∉ formats then .error .value
    else if (metatabName.getD [] ≠ []) ∧ (baseJson.getD [] ≠ []) then .error .value
    else .ok ()

/-- schema.py:113-114 `is_ref_local`. -/
def isRefLocal (uri : Str) : Bool :=
  Py.lower (uri.take 7) ≠ s%"http://" && Py.lower (uri.take 8) ≠ s%"https://"

/-- schema.py:105-110 `jsonloader_local_refs_disabled`; `load` is `jsonref.jsonloader`. -/
def loadRef {α : Type} (load : Str → Except Err α) (uri : Str) : Except Err α :=
  if isRefLocal uri then .error .value else load uri

end Verif.Api

import Verif.Model.Convert
/-!
`flattentool/lib.py` `parse_sheet_configuration`.
-/
namespace Verif

/-- The dict built by `parse_sheet_configuration`: absent keys are `none`/`false`. -/
structure SheetConfig where
  skipRows : Option Int := none
  headerRows : Option Int := none
  ignore : Bool := false
  hashcomments : Bool := false
  xmlRootTag : Option Str := none
  rootListPath : Option Str := none
  idName : Option Str := none
  deriving DecidableEq, Repr

/-- Truth value of the dict: some key is present. -/
def SheetConfig.nonEmpty (c : SheetConfig) : Bool :=
  c.skipRows.isSome || c.headerRows.isSome || c.ignore || c.hashcomments || c.xmlRootTag.isSome ||
  c.rootListPath.isSome || c.idName.isSome

/-- lib.py:11-25: one configuration cell. -/
def configItem (c : SheetConfig) (item : Str) : SheetConfig :=
  match Py.words item with
  | [w] =>
    let l := Py.lower w
    if l = s%"ignore" then { c with ignore := true }
    else if l = s%"hashcomments" ∨ l = s%"hashcomment" then { c with hashcomments := true }
    else c
  | [w, a] =>
    let l := Py.lower w
    if l = s%"skiprows" then
      match Py.int? a with | some i => { c with skipRows := some (max i 0) } | none => c
    else if l = s%"headerrows" then
      match Py.int? a with | some i => { c with headerRows := some (max i 1) } | none => c
    else if l = s%"xmlroottag" then { c with xmlRootTag := some a }
    else if l = s%"rootlistpath" then { c with rootListPath := some a }
    else if l = s%"idname" then { c with idName := some a }
    else c
  | _ => c

/-- lib.py:9-27 `parse_sheet_configuration`. -/
def parseConfig (items : List Str) : SheetConfig := items.foldl configItem {}

end Verif

import Verif.Model.SchemaModel
/-!
`flattentool/json_input.py` `JSONParser`: `__init__` (sheets), `parse`,
`parse_json_dict`.
-/
namespace Verif

/-- Warnings of the JSON parser. -/
inductive FWarn where
  | notAnObject (index : Nat)
  | rollupMany (field : Str)
  | badGeo
  | geoDeps
  | preserveMissing (fields : List Str)
  deriving DecidableEq, Repr

/-- Options of `JSONParser`.
* `rootId`: `none` when `None` or empty.
* `filter`: `filter_field` and `filter_value` (both non-empty).
* `preserve`: `self.preserve_fields` (`[]` when not given), `preserveInput` likewise.
* `rollup`: `self.rollup` (`[]` when `False`).
* `wktOf`: `shapely.geometry.shape(d).wkt`, a parameter (`none`: invalid geometry).
* `order`: the iteration order of `set(…)` over keys (json_input.py:593), a parameter. -/
structure FCfg where
  schema : Option Parsed := none
  rootId : Option Str := some s%"ocid"
  useTitles : Bool := false
  xml : Bool := false
  idName : Str := s%"id"
  filter : Option (Str × Str) := none
  preserve : List Str := []
  preserveInput : List Str := []
  removeEmpty : Bool := false
  rollup : List Str := []
  trunc : Nat := 3
  wkt : Bool := false
  geoLib : Bool := true
  wktOf : List (Str × Json) → Option Str := fun _ => none
  order : List Str → List Str := fun l => l

/-- The parser's mutable state. -/
structure FState where
  main : Sheet := {}
  subs : List (Str × Sheet) := []
  seen : List Str := []
  warns : List FWarn := []

/-- A sheet argument: `none` is the main sheet. -/
abbrev SheetRef := Option Str

def FState.sheet (st : FState) : SheetRef → Sheet
  | none => st.main
  | some n => (Dict.get st.subs n).getD {}

def FState.setSheet (st : FState) (ref : SheetRef) (s : Sheet) : FState :=
  match ref with
  | none => { st with main := s }
  | some n => { st with subs := Dict.set st.subs n s }

def FState.warn (st : FState) (w : FWarn) : FState := { st with warns := st.warns ++ [w] }

/-- json_input.py:42 `type(x) in BASIC_TYPES`. -/
def Atom.basic : Atom → Bool
  | .none | .str _ | .int _ | .bool _ | .dec _ => true
  | .float _ | .datetime _ | .other _ => false

def Json.basic : Json → Bool
  | .leaf a => a.basic
  | _ => false

/-- json_input.py:384-387: the key function of a sheet. -/
def sheetKey (cfg : FCfg) (s : Sheet) (key : Str) : Str × Sheet :=
  if cfg.useTitles then sheetKeyTitle s key else sheetKeyField s key

/-- `sheet_key(sheet, key)`. -/
def FState.key (cfg : FCfg) (st : FState) (ref : SheetRef) (key : Str) : Str × FState :=
  let r := sheetKey cfg (st.sheet ref) key
  (r.1, st.setSheet ref r.2)

/-- `flattened_dict[sheet_key(sheet, key)] = value`. -/
def put (cfg : FCfg) (ref : SheetRef) (key : Str) (v : Json) (flat : FLine) (st : FState) :
    FLine × FState :=
  let r := st.key cfg ref key
  (Dict.set flat r.1 v, r.2)

/-! #### Before the loop over the keys -/

/-- Outcome of the code before the loop over the keys of a dict. -/
inductive Prologue where
  /-- early `return` -/
  | ret (st : FState)
  | go (pids : List (Str × Json)) (flat : FLine) (skip : Bool) (st : FState)

/-- The id of an ancestor as put on a sub-sheet line (json_input.py:434-437). -/
def parentIdValue (cfg : FCfg) (v : Json) : Except Err Json :=
  if cfg.xml then
    match v with
    | .obj fs => match Dict.get fs s%"#text" with | some t => .ok t | none => .error .key
    | _ => .error .type
  else .ok v

/-- json_input.py:431-437: put the parent ids on the line. -/
def putParentIds (cfg : FCfg) (ref : SheetRef) : List (Str × Json) → FLine → FState →
    Except Err (FLine × FState)
  | [], flat, st => .ok (flat, st)
  | (k, v) :: r, flat, st =>
    match parentIdValue cfg v with
    | .error e => .error e
    | .ok v' =>
      let p := put cfg ref k v' flat st
      putParentIds cfg ref r p.1 p.2

/-- `parent_id_fields[sheet_key(sheet, name)] = json_dict[field]` if the field is
there (json_input.py:439-445). -/
def addId (cfg : FCfg) (ref : SheetRef) (name field : Str) (fs : List (Str × Json))
    (pids : List (Str × Json)) (st : FState) : List (Str × Json) × FState :=
  match Dict.get fs field with
  | none => (pids, st)
  | some v =>
    let r := st.key cfg ref name
    (Dict.set pids r.1 v, r.2)

/-- json_input.py:389-416: the geometry part; `ok none` is the early return. -/
def geoStage (cfg : FCfg) (ref : SheetRef) (pn : Str) (flat : Option FLine) (fs : List (Str × Json))
    (st : FState) : Except Err (Option (Option FLine × Bool) × FState) :=
  if cfg.wkt && Dict.has fs s%"type" && Dict.has fs s%"coordinates" then
    if cfg.geoLib then
      let r := st.key cfg ref (Py.strip (· = '/') pn)
      match cfg.wktOf fs with
      | none => .ok (none, r.2.warn .badGeo)
      | some t =>
        match flat with
        | none => .error .type
        | some fl => .ok (some (some (Dict.set fl r.1 (.leaf (.str t))), true), r.2)
    else .ok (some (flat, false), st.warn .geoDeps)
  else .ok (some (flat, false), st)

/-- json_input.py:425-429: the object is skipped (`filter_value` is a string). -/
def filteredOut (cfg : FCfg) (pn : Str) (fs : List (Str × Json)) : Bool :=
  match cfg.filter with
  | none => false
  | some (f, v) =>
    if pn.isEmpty then
      match Dict.get fs f with
      | some (.leaf (.str s)) => s ≠ v
      | _ => true
    else false

/-- json_input.py:431-437: the ids of the ancestors start the line of a sub-sheet. -/
def startLine (cfg : FCfg) (ref : SheetRef) (topSub : Bool) (pids : List (Str × Json)) (flat : FLine) (st : FState) :
    Except Err (FLine × FState) :=
  if topSub then putParentIds cfg ref pids flat st else .ok (flat, st)

/-- json_input.py:439-440: the root id, if the object has one. -/
def addRootId (cfg : FCfg) (ref : SheetRef) (fs : List (Str × Json)) (pids : List (Str × Json)) (st : FState) :
    List (Str × Json) × FState :=
  match cfg.rootId with
  | none => (pids, st)
  | some rid => addId cfg ref rid rid fs pids st

/-- json_input.py:384-445: everything before the loop. -/
def prologue (cfg : FCfg) (ref : SheetRef) (pn : Str) (topSub : Bool) (pids : List (Str × Json))
    (flat : Option FLine) (fs : List (Str × Json)) (st : FState) : Except Err Prologue :=
  match geoStage cfg ref pn flat fs st with
  | .error e => .error e
  | .ok (none, st) => .ok (.ret st)
  | .ok (some (flat, skip), st) =>
    if filteredOut cfg pn fs then .ok (.ret st)
    else match startLine cfg ref topSub pids (flat.getD []) st with
      | .error e => .error e
      | .ok (fl, st) =>
        let r1 := addRootId cfg ref fs pids st
        let r2 := addId cfg ref (pn ++ cfg.idName) cfg.idName fs r1.1 r1.2
        .ok (.go r2.1 fl skip r2.2)

/-! #### Rollup -/

/-- The text put into rolled up cells with several values (json_input.py:615-617, 627-629). -/
def rollupText : Str := s%"WARNING: More than one value supplied, consult the relevant sub-sheet for the data."

/-- The sheet the schema has for an array (json_input.py:547-562). -/
def schemaSubSheet (sp : Parsed) (pn key : Str) : Option Sheet :=
  match Dict.get sp.subTitles (pn, key) with
  | some t => Dict.get sp.subs t
  | none => none

/-- json_input.py:528-590: the field of the main sheet a value of a single-item array is copied to, if
any: `full` is `parent_name + key + "/0/" + k`. -/
def rollupField (cfg : FCfg) (pn key full : Str) : Option Str :=
  match cfg.schema with
  | some sp =>
    if cfg.useTitles then
      if Dict.has sp.main.titles full then some full
      else match schemaSubSheet sp pn key with
        | some sh => if cfg.rollup.contains (pn ++ key) then some ((Dict.get sh.titles full).getD full) else none
        | none => none
    else if sp.main.headings.contains full || cfg.rollup.contains (pn ++ key) then some full
    else none
  | none => if cfg.rollup.contains (pn ++ key) then some full else none

/-- json_input.py:516-521, 595-600: `preserve_fields` keeps the field out of the rollup. -/
def rollupDropped (cfg : FCfg) (pn key k : Str) : Bool :=
  !cfg.preserve.isEmpty && !cfg.preserve.contains (pn ++ (key ++ '/' :: k))

/-- json_input.py:514-590: one key of a single-item array. -/
def rollupOne (cfg : FCfg) (ref : SheetRef) (pn key : Str) (k : Str) (v : Json) (flat : FLine) (st : FState) :
    Except Err (FLine × FState) :=
  if rollupDropped cfg pn key k then .ok (flat, st)
  else if !v.basic then .error .value
  else match rollupField cfg pn key (pn ++ (key ++ (s%"/0/" ++ k))) with
    | some f => .ok (put cfg ref f v flat st)
    | none => .ok (flat, st)

/-- json_input.py:514-590: the keys of a single-item array. -/
def rollupOnes (cfg : FCfg) (ref : SheetRef) (pn key : Str) : List (Str × Json) → FLine → FState →
    Except Err (FLine × FState)
  | [], flat, st => .ok (flat, st)
  | (k, v) :: r, flat, st =>
    match rollupOne cfg ref pn key k v flat st with
    | .error e => .error e
    | .ok (flat, st) => rollupOnes cfg ref pn key r flat st

/-- json_input.py:602-618: does the main sheet get a warning cell for this field of an array with
several items? -/
def rollupWarned (cfg : FCfg) (pn key full : Str) : Bool :=
  (match cfg.schema with
   | some sp => sp.main.headings.contains full
   | none => false) || cfg.rollup.contains (pn ++ key)

/-- json_input.py:593-629: one key of an array with several items. -/
def rollupMany (cfg : FCfg) (ref : SheetRef) (pn key : Str) (p : FLine × FState) (k : Str) : FLine × FState :=
  if !rollupDropped cfg pn key k && rollupWarned cfg pn key (pn ++ (key ++ (s%"/0/" ++ k))) then
    put cfg ref (pn ++ (key ++ (s%"/0/" ++ k))) (.leaf (.str rollupText)) p.1 (p.2.warn (.rollupMany (pn ++ key)))
  else p

/-- Distinct elements, first occurrences. -/
def dedup : List Str → List Str
  | [] => []
  | x :: r => x :: (dedup r).filter (· ≠ x)

/-- `sum((list(x.keys()) for x in value), [])`; `none` if some item is not a dict. -/
def allKeys : List Json → Option (List Str)
  | [] => some []
  | .obj fs :: r => (allKeys r).map (fun l => fs.map (·.1) ++ l)
  | _ :: _ => none

/-- json_input.py:501-629.  The warning of 505-511 is never given: `_` is called with two arguments, which
raises `TypeError`. -/
def rollupStage (cfg : FCfg) (ref : SheetRef) (pn key : Str) (items : List Json) (flat : FLine) (st : FState) :
    Except Err (FLine × FState) :=
  if cfg.rollup.isEmpty || !pn.isEmpty then .ok (flat, st)
  else if cfg.useTitles && cfg.schema.isNone then .error .type
  else match items with
    | [] => .ok (flat, st)
    | [.obj fs] => rollupOnes cfg ref pn key fs flat st
    | [_] => .error .attr
    | is =>
      match allKeys is with
      | none => .error .attr
      | some ks => .ok ((cfg.order (dedup ks)).foldl (rollupMany cfg ref pn key) (flat, st))

/-! #### The traversal -/

/-- json_input.py:453-464: whether `preserve_fields` drops this field. -/
def dropped (cfg : FCfg) (pn key : Str) : Bool :=
  let parentPath := Py.replaceAll s%"/0" [] pn
  cfg.preserve.any (fun f => Py.contains parentPath f) && !cfg.preserve.contains (parentPath ++ key)

/-- `str(x)` of a scalar of a basic type. -/
def basicStr : Json → Option Str
  | .leaf a => if a.basic then some (Py.str a) else none
  | _ => none

/-- An element of an "array of arrays" joined with commas (json_input.py:490-499): a
list of scalars, or a string (whose characters are joined). -/
def innerJoin : Json → Option Str
  | .arr l => (l.mapM basicStr).map (Py.join s%",")
  | .leaf (.str s) => some (Py.join s%"," (s.map (fun c => [c])))
  | _ => none

/-- The single cell of an array of scalars or of arrays of scalars
(json_input.py:482-499); `none` for other arrays. -/
def joinArray (l : List Json) : Option Str :=
  match l.mapM basicStr with
  | some ss => some (Py.join s%";" ss)
  | none => (l.mapM innerJoin).map (Py.join s%";")

/-- json_input.py:631-649: name of the sub-sheet of an array. -/
def subSheetName (cfg : FCfg) (pn key : Str) : Str :=
  match (if cfg.useTitles then cfg.schema.bind (fun sp => Dict.get sp.subTitles (pn, key)) else none) with
  | some t => t
  | none => makeSubSheetName pn key cfg.trunc

/-- json_input.py:650-653 -/
def FState.ensure (st : FState) (name : Str) : FState :=
  if Dict.has st.subs name then st else { st with subs := Dict.set st.subs name {} }

/-- Bookkeeping: go on with the result and the state of `m`. -/
def andThen {α β : Type} (m : Except Err (α × FState)) (k : α → FState → Except Err (β × FState)) :
    Except Err (β × FState) :=
  match m with
  | .error e => .error e
  | .ok (a, st) => k a st

mutual
/-- json_input.py:447-669: the loop over the keys of a dict.  `pn` is `parent_name`. -/
def parseFields (cfg : FCfg) (ref : SheetRef) (pn : Str) (pids : List (Str × Json)) (skip : Bool) :
    List (Str × Json) → FLine → FState → Except Err (FLine × FState)
  | [], flat, st => .ok (flat, st)
  | (key, value) :: rest, flat, st =>
    if skip && (key = s%"type" || key = s%"coordinates") then
      parseFields cfg ref pn pids skip rest flat st
    else
      let st := { st with seen := st.seen ++ [Py.replaceAll s%"/0" [] pn ++ key] }
      if dropped cfg pn key then parseFields cfg ref pn pids skip rest flat st
      else andThen (parseValue cfg ref pn pids key value flat st)
        (fun r st => parseFields cfg ref r.1 pids skip rest r.2 st)
termination_by structural fs => fs
/-- json_input.py:466-669: one entry of a dict.  The result is `parent_name` for the entries after it (in
XML mode it is changed by `#text`, 467-470) and the line. -/
def parseValue (cfg : FCfg) (ref : SheetRef) (pn : Str) (pids : List (Str × Json)) (key : Str) :
    Json → FLine → FState → Except Err ((Str × FLine) × FState)
  | .leaf a, flat, st =>
    if a.basic then
      if cfg.xml && key = s%"#text" then
        let p := put cfg ref (Py.strip (· = '/') pn) (.leaf a) flat st
        .ok ((Py.strip (· = '/') pn, p.1), p.2)
      else
        let p := put cfg ref (pn ++ key) (.leaf a) flat st
        .ok ((pn, p.1), p.2)
    else .error .value
  | .obj fs, flat, st =>
    match prologue cfg ref (pn ++ (key ++ s%"/")) false pids (some flat) fs st with
    | .error e => .error e
    | .ok (.ret st) => .ok ((pn, flat), st)
    | .ok (.go pids' flat skip' st) =>
      andThen (parseFields cfg ref (pn ++ (key ++ s%"/")) pids' skip' fs flat st)
        (fun flat st => .ok ((pn, flat), st))
  | .arr items, flat, st =>
    match joinArray items with
    | some t =>
      let p := put cfg ref (pn ++ key) (.leaf (.str t)) flat st
      .ok ((pn, p.1), p.2)
    | none =>
      andThen (rollupStage cfg ref pn key items flat st) (fun flat st =>
        andThen (parseItems cfg (subSheetName cfg pn key) (pn ++ (key ++ s%"/0/")) pids items
            (st.ensure (subSheetName cfg pn key)))
          (fun _ st => .ok ((pn, flat), st)))
termination_by structural v => v
/-- json_input.py:655-665, 671-672: the items of an array of objects.  Items that are
neither `null` nor objects raise (`TypeError` or `AttributeError`). -/
def parseItems (cfg : FCfg) (name : Str) (pn : Str) (pids : List (Str × Json)) :
    List Json → FState → Except Err (Unit × FState)
  | [], st => .ok ((), st)
  | .leaf a :: r, st => if a = .none then parseItems cfg name pn pids r st else .error .type
  | .arr _ :: _, _ => .error .attr
  | .obj fs :: r, st =>
    match prologue cfg (some name) pn true pids none fs st with
    | .error e => .error e
    | .ok (.ret st) => parseItems cfg name pn pids r st
    | .ok (.go pids' flat skip st) =>
      andThen (parseFields cfg (some name) pn pids' skip fs flat st) (fun flat st =>
        parseItems cfg name pn pids r (st.setSheet (some name) ((st.sheet (some name)).appendLine flat)))
termination_by structural l => l
end

/-- json_input.py:322-335, 671-672: one element of the root list. -/
def parseRootItem (cfg : FCfg) (num : Nat) (j : Json) (st : FState) : Except Err (Unit × FState) :=
  match j with
  | .leaf a => .ok ((), if a = .none then st else st.warn (.notAnObject num))
  | .arr _ => .ok ((), st.warn (.notAnObject num))
  | .obj fs =>
    match prologue cfg none [] false [] none fs st with
    | .error e => .error e
    | .ok (.ret st) => .ok ((), st)
    | .ok (.go pids flat skip st) =>
      andThen (parseFields cfg none [] pids skip fs flat st) (fun flat st =>
        .ok ((), st.setSheet none (st.main.appendLine flat)))

/-- json_input.py:321-335 `parse`: the loop (the commits are in `Store.lean`). -/
def parseRootList (cfg : FCfg) : Nat → List Json → FState → Except Err (Unit × FState)
  | _, [], st => .ok ((), st)
  | n, j :: r, st => andThen (parseRootItem cfg n j st) (fun _ st => parseRootList cfg (n + 1) r st)

/-- json_input.py:189-194: without the columns of the schema. -/
def clearColumns (cfg : FCfg) (s : Sheet) : Sheet :=
  if cfg.removeEmpty then { s with columns := [] } else s

/-- json_input.py:162-197: the sheets before parsing. -/
def initState (cfg : FCfg) : FState :=
  match cfg.schema with
  | none => {}
  | some sp => { main := clearColumns cfg sp.main, subs := sp.subs.map (fun p => (p.1, clearColumns cfg p.2)) }

/-- Is this the name of a sheet of the schema? -/
def isSchemaSheet (cfg : FCfg) (name : Str) : Bool :=
  match cfg.schema with
  | some sp => Dict.has sp.subs name
  | none => false

/-- json_input.py:345-349: sheets without lines are removed; only sheets that come from the schema
can be (the lines of a `PersistentSheet` are a generator, which is always true). -/
def dropEmptySheets (cfg : FCfg) (st : FState) : FState :=
  if cfg.removeEmpty then
    { st with subs := st.subs.filter (fun p => !(p.2.lines.isEmpty && isSchemaSheet cfg p.1)) }
  else st

/-- json_input.py:351-362: fields of `preserve_fields` that do not occur. -/
def warnMissing (cfg : FCfg) (st : FState) : FState :=
  let missing := cfg.preserveInput.filter (fun f => !st.seen.contains f)
  if missing.isEmpty then st else st.warn (.preserveMissing missing)

/-- json_input.py:345-362: after the loop. -/
def finish (cfg : FCfg) (st : FState) : FState := warnMissing cfg (dropEmptySheets cfg st)

/-- json_input.py:321-362 `JSONParser` on a root list. -/
def flatten (cfg : FCfg) (root : List Json) : Except Err FState :=
  match parseRootList cfg 0 root (initState cfg) with
  | .error e => .error e
  | .ok (_, st) => .ok (finish cfg st)

/-- json_input.py:269-283: `self.preserve_fields` from the lines of the file. -/
def preserveSet (lines : List Str) : List Str :=
  lines.flatMap (fun l =>
    let l := Py.strip Py.isSpace l
    let parts := match (Py.split '/' l).reverse with
      | last :: (p :: ps) => [Py.join s%"/" (p :: ps).reverse, last]
      | _ => [l]
    parts ++ [Py.rstrip (· = '/') l])

/-- json_input.py:280-283 `self.preserve_fields_input`. -/
def preserveInputSet (lines : List Str) : List Str :=
  lines.map (fun l => Py.rstrip (· = '/') (Py.strip Py.isSpace l))

end Verif

import Verif.Model.Convert
import Verif.Model.Sheet
/-!
`flattentool/schema.py`: `TitleLookup`, `SchemaParser`.
-/
namespace Verif

/-! #### Title lookup -/

/-- schema.py:48-49 `TitleLookup`: property name and children by normalised title. -/
inductive TitleTree where
  | node (prop : Str) (children : List (Str × TitleTree))

def TitleTree.prop : TitleTree → Str | .node p _ => p
def TitleTree.children : TitleTree → List (Str × TitleTree) | .node _ c => c

/-- `key.replace(" ", "").lower()` (schema.py:85-98). -/
def normTitle (s : Str) : Str := Py.lower (s.filter (· ≠ ' '))

/-- schema.py:57-83 `lookup_header_list` (on an empty list Python would raise;
`split` never gives one). -/
def lookupHeaderList : TitleTree → List Str → Str
  | _, [] => []
  | t, first :: rest =>
    if isint first then
      first ++ (if rest.isEmpty then [] else '/' :: lookupHeaderList t rest)
    else match Dict.get t.children (normTitle first) with
      | some c => if rest.isEmpty then c.prop else c.prop ++ '/' :: lookupHeaderList c rest
      | none => Py.join s%"/" ((first :: rest).map (Py.strip (· = ' ')))

/-- schema.py:51-55 `lookup_header`. -/
def lookupHeader (t : TitleTree) (h : Str) : Str := lookupHeaderList t (Py.split ':' h)

mutual
/-- `title_lookup[title] = TitleLookup()` with `property_name`, at the place given by
normalised titles. -/
def titleSet (key prop : Str) : List Str → TitleTree → TitleTree
  | [], .node p cs => .node p (Dict.set cs key (.node prop []))
  | k :: ks, .node p cs => .node p (titleSetIn key prop k ks cs)
def titleSetIn (key prop : Str) (k : Str) (ks : List Str) : List (Str × TitleTree) → List (Str × TitleTree)
  | [] => []
  | (k', t) :: r => if k' = k then (k', titleSet key prop ks t) :: r else (k', t) :: titleSetIn key prop k ks r
end

/-- The lookup object at a place (the empty one if the place does not exist). -/
def titleAt : List Str → TitleTree → TitleTree
  | [], t => t
  | k :: ks, t => match Dict.get t.children k with
    | some c => titleAt ks c
    | none => .node [] []

/-! #### Schemas -/

/-- The `type` keyword. -/
inductive TypeField where
  | absent
  | one (s : Str)
  | many (l : List Str)
  deriving DecidableEq, Repr

/-- schema.py:29-34 `get_property_type_set`. -/
def TypeField.set : TypeField → List Str
  | .absent => []
  | .one s => [s]
  | .many l => l

/-- The scalar parts of a schema dict the parser looks at.  `refTitle` and
`refDeprecated` belong to the `$ref` object that `jsonref` replaced. -/
structure SchemaInfo where
  type : TypeField := .absent
  title : Option Str := none
  refTitle : Option (Option Str) := none
  deprecated : Bool := false
  refDeprecated : Bool := false
  isDate : Bool := false
  rollUp : Option (List Str) := none

/-- A JSON schema after dereferencing (finite: a recursive schema makes the code
recurse for ever and is not modelled). -/
inductive Schema where
  | mk (info : SchemaInfo) (properties : Option (List (Str × Schema))) (items : Option Schema)
      (oneOf : Option (List Schema))

def Schema.info : Schema → SchemaInfo | .mk i _ _ _ => i
def Schema.properties : Schema → Option (List (Str × Schema)) | .mk _ p _ _ => p
def Schema.items : Schema → Option Schema | .mk _ _ i _ => i
def Schema.oneOf : Schema → Option (List Schema) | .mk _ _ _ o => o

/-- schema.py:266-272: the title of a property (`none` if falsy). -/
def SchemaInfo.effTitle (i : SchemaInfo) : Option Str :=
  match (match i.refTitle with | some t => t | none => i.title) with
  | some [] => none
  | t => t

/-- Options of `SchemaParser`. -/
structure SchemaCfg where
  rollup : Bool := false
  rootId : Str := []
  useTitles : Bool := false
  trunc : Nat := 3
  noDeprecated : Bool := false
  wkt : Bool := false

/-- Warnings of the schema parser. -/
inductive SWarn where
  | noTitle (field : Str)
  | missingTitle (field : Str)
  | missedRollUp (fields : List Str)
  | unrecognised (types : List Str) (name ctx : Str)
  | noProperties (path : Str)
  deriving Repr

/-- What the parser builds. -/
structure SState where
  subs : List (Str × Sheet) := []
  subTitles : List ((Str × Str) × Str) := []
  lookup : TitleTree := .node [] []
  flattened : List (Str × CType) := []
  rollup : List Str := []
  warns : List SWarn := []

def SState.warn (st : SState) (w : SWarn) : SState := { st with warns := st.warns ++ [w] }
def SState.setType (st : SState) (path : Str) (t : CType) : SState :=
  { st with flattened := Dict.set st.flattened path t }
def SState.modSub (st : SState) (name : Str) (f : Sheet → Sheet) : SState :=
  match Dict.get st.subs name with
  | some s => { st with subs := Dict.set st.subs name (f s) }
  | none => st

/-- `parent_path.replace("/0/", "/")`. -/
def noIndex (p : Str) : Str := Py.replaceAll s%"/0/" s%"/" p

/-- A yielded field with its title. -/
abbrev Yield := Str × Option Str

/-- schema.py:289-306: yields of an object property. -/
def objYield (name : Str) (title : Option Str) (y : Yield) : Yield :=
  (name ++ '/' :: y.1,
   match title, y.2 with
   | some t, some c => if c.isEmpty then none else some (t ++ ':' :: c)
   | _, _ => none)

/-- An empty title counts as none (`not child_title`, schema.py:376). -/
def truthy : Option Str → Option Str
  | some [] => none
  | t => t

/-- `title + ":" + child_title if title and child_title else None` (schema.py:302-304, 407-409). -/
def titlePair : Option Str → Option Str → Option Str
  | some t, some c => some (t ++ ':' :: c)
  | _, _ => none

/-- schema.py:374-398: the column of the sub-sheet for one field of an array of
objects. -/
def addColumn (cfg : SchemaCfg) (parentPath name : Str) (title parentTitle : Option Str) (sub : Str)
    (st : SState) (field : Str) (child : Option Str) : SState :=
  if cfg.useTitles then
    match child, parentTitle with
    | some c, some pt =>
      match title with
      | some t =>
        st.modSub sub (fun s => { s.addField (pt ++ (t ++ ':' :: c)) with
          titles := Dict.set s.titles (parentPath ++ (name ++ (s%"/0/" ++ field))) (pt ++ (t ++ ':' :: c)) })
      | none => st.warn (.noTitle (parentPath ++ name))
    | _, _ => st.warn (.missingTitle (parentPath ++ (name ++ (s%"/0/" ++ field))))
  else st.modSub sub (fun s => s.addField (parentPath ++ (name ++ (s%"/0/" ++ field))))

/-- schema.py:373-410: one field of an array of objects goes to the sub-sheet. -/
def arrayField (cfg : SchemaCfg) (parentPath name : Str) (title parentTitle : Option Str) (sub : Str)
    (rollUp : Option (List Str)) (st : SState) (y : Yield) : SState × List Yield :=
  let st := addColumn cfg parentPath name title parentTitle sub st y.1 (truthy y.2)
  if cfg.rollup && (rollUp.getD []).contains y.1 then
    ({ st with rollup := if parentPath ++ (name ++ (s%"/0/" ++ y.1)) ∈ st.rollup then st.rollup
        else st.rollup ++ [parentPath ++ (name ++ (s%"/0/" ++ y.1))] },
     [(name ++ (s%"/0/" ++ y.1), titlePair title (truthy y.2))])
  else (st, [])

/-- Fold of `arrayField`. -/
def arrayFields (cfg : SchemaCfg) (parentPath name : Str) (title parentTitle : Option Str) (sub : Str)
    (rollUp : Option (List Str)) : List Yield → SState → SState × List Yield
  | [], st => (st, [])
  | y :: r, st =>
    let (st1, ys1) := arrayField cfg parentPath name title parentTitle sub rollUp st y
    let (st2, ys2) := arrayFields cfg parentPath name title parentTitle sub rollUp r st1
    (st2, ys1 ++ ys2)

/-- schema.py:431-456: scalar properties; `none` if the type is not known. -/
def scalarType (i : SchemaInfo) : Option CType :=
  let ts := i.type.set
  if ts.contains s%"string" || ts.isEmpty then some (if i.isDate then .date else .string)
  else if ts.contains s%"number" then some .number
  else if ts.contains s%"integer" then some .integer
  else if ts.contains s%"boolean" then some .boolean
  else none

/-- The parameters of a call of `parse_schema_dict`. -/
structure SCtx where
  parentPath : Str := []
  idFields : List Str := []
  place : List Str := []
  parentTitle : Option Str := some []

/-- schema.py:238-247 `id_fields`. -/
def childIds (cfg : SchemaCfg) (ctx : SCtx) (props : List (Str × Schema)) : List Str :=
  match Dict.get props s%"id" with
  | none => ctx.idFields
  | some s =>
    if cfg.useTitles then
      ctx.idFields ++ [(ctx.parentTitle.getD ctx.parentPath) ++
        (match s.info.title with | some [] => s%"id" | some t => t | none => s%"id")]
    else ctx.idFields ++ [ctx.parentPath ++ s%"id"]

/-- The context of the recursive call for a child at `path`.  Without a title the
child uses the root title lookup (schema.py:218, `title_lookup.get(None)` is
`None`). -/
def childCtx (ctx : SCtx) (path : Str) (ids : List Str) (title : Option Str) : SCtx :=
  { parentPath := if path.isEmpty then [] else path ++ s%"/", idFields := ids,
    place := match title with | some t => ctx.place ++ [normTitle t] | none => [],
    parentTitle := match ctx.parentTitle, title with
      | some p, some t => some (p ++ (t ++ s%":"))
      | _, _ => none }

/-- schema.py:331-349: the name of the sub-sheet of an array of objects. -/
def subNameOf (cfg : SchemaCfg) (ctx : SCtx) (name : Str) (title : Option Str) : Str :=
  match cfg.useTitles, ctx.parentTitle with
  | true, some pt => makeSubSheetName pt (title.getD name) cfg.trunc ':'
  | _, _ => makeSubSheetName ctx.parentPath name cfg.trunc

/-- schema.py:338-343: `sub_sheet_titles` is only filled when titles are used. -/
def noteSubTitle (cfg : SchemaCfg) (ctx : SCtx) (name sub : Str) (st : SState) : SState :=
  match cfg.useTitles, ctx.parentTitle with
  | true, some _ => { st with subTitles := Dict.set st.subTitles (ctx.parentPath, name) sub }
  | _, _ => st

/-- schema.py:352-356: create the sub-sheet unless it exists. -/
def ensureSub (cfg : SchemaCfg) (sub : Str) (st : SState) : SState :=
  if Dict.has st.subs sub then st
  else { st with subs := Dict.set st.subs sub { rootId := cfg.rootId } }

/-- schema.py:359-361: one id column of a sub-sheet. -/
def addIdColumn (lk : TitleTree) (sub : Str) (st : SState) (f : Str) : SState :=
  st.modSub sub (fun s => { s.addField f true with titles := Dict.set s.titles (lookupHeader lk f) f })

/-- schema.py:331-361: create the sub-sheet of an array of objects and give it the
id columns. -/
def openSubSheet (cfg : SchemaCfg) (ctx : SCtx) (name : Str) (title : Option Str) (ids : List Str)
    (st : SState) : SState × Str :=
  (ids.foldl (addIdColumn (titleAt ctx.place st.lookup) (subNameOf cfg ctx name title))
     (ensureSub cfg (subNameOf cfg ctx name title) (noteSubTitle cfg ctx name (subNameOf cfg ctx name title) st)),
   subNameOf cfg ctx name title)

/-- schema.py:220-225: an array whose items are alternatives. -/
def isOneOfArray (info : SchemaInfo) (items : Option Schema) : Bool :=
  match info.type, items with
  | .one t, some (.mk _ _ _ (some _)) => t = s%"array"
  | _, _ => false

/-- Bookkeeping: go on with what `m` yielded and its state. -/
def sThen (m : Except Err (List Yield × SState)) (k : List Yield → SState → Except Err (List Yield × SState)) :
    Except Err (List Yield × SState) :=
  match m with
  | .error e => .error e
  | .ok (ys, st) => k ys st

/-- schema.py:252-262: deprecated properties are skipped. -/
def skipped (cfg : SchemaCfg) (i : SchemaInfo) : Bool := cfg.noDeprecated && (i.deprecated || i.refDeprecated)

/-- schema.py:273-275: record the title of a property. -/
def noteTitle (ctx : SCtx) (name : Str) (i : SchemaInfo) (st : SState) : SState :=
  match i.effTitle with
  | some t => { st with lookup := titleSet (normTitle t) name ctx.place st.lookup }
  | none => st

/-- schema.py:278-282: an object that stands for a geometry. -/
def isGeo (cfg : SchemaCfg) (props : Option (List (Str × Schema))) : Bool :=
  cfg.wkt && (Dict.has (props.getD []) s%"type") && (Dict.has (props.getD []) s%"coordinates")

/-- schema.py:431-465: a property that is neither object nor array. -/
def parseScalar (ctx : SCtx) (name : Str) (i : SchemaInfo) (st : SState) : List Yield × SState :=
  match scalarType i with
  | some t => ([(name, i.effTitle)], st.setType (noIndex ctx.parentPath ++ name) t)
  | none => ([], st.warn (.unrecognised i.type.set name ctx.parentPath))

/-- What the items of an array are (schema.py:311-331, 425-430). -/
inductive ItemKind where
  | scalars (t : CType)
  | objects
  | bad (e : Err)

/-- schema.py:311-331, 425-430: the kind of an array, from the types of its items. -/
def itemKind : Schema → ItemKind
  | .mk iinfo _ iitems _ =>
    let its := iinfo.type.set
    if its.contains s%"string" || its.isEmpty then .scalars .stringArray
    else if its.contains s%"number" then .scalars .numberArray
    else if its.contains s%"array" then
      match iitems with
      | none => .bad .key
      | some (.mk ni _ _ _) =>
        if ni.type.set.contains s%"string" || ni.type.set.contains s%"number" then .scalars .arrayArray
        else .bad .value
    else if its.contains s%"object" then .objects
    else .bad .value

/-- schema.py:412-423: names in `rollUp` that are no fields of the items are reported. -/
def checkRollUp (cfg : SchemaCfg) (i : SchemaInfo) (ys : List Yield) (st : SState) : SState :=
  let missed := (i.rollUp.getD []).filter (fun f => !(ys.map (·.1)).contains f)
  if cfg.rollup && !missed.isEmpty then st.warn (.missedRollUp missed) else st

/-- schema.py:372-423: what is done with the fields of the items of an array. -/
def finishArray (cfg : SchemaCfg) (ctx : SCtx) (name : Str) (i : SchemaInfo) (ys : List Yield) (st : SState) :
    List Yield × SState :=
  let r := arrayFields cfg ctx.parentPath name i.effTitle ctx.parentTitle (subNameOf cfg ctx name i.effTitle) i.rollUp ys st
  (r.2, checkRollUp cfg i ys r.1)

mutual
/-- schema.py:207-473 `parse_schema_dict`: the yielded fields and the new state.
Simplification: the generator is run to its end before its consumer, which can only
be seen in the order of columns of sub-sheets whose names collide. -/
def parseSchema (cfg : SchemaCfg) (ctx : SCtx) : Schema → SState → Except Err (List Yield × SState)
  | .mk info props items _, st =>
    if isOneOfArray info items then parseItemsOneOf cfg ctx items st
    else parseBody cfg ctx props st
termination_by structural x => x
/-- schema.py:237-247, 467-473: the `properties`, if there are any. -/
def parseBody (cfg : SchemaCfg) (ctx : SCtx) : Option (List (Str × Schema)) → SState → Except Err (List Yield × SState)
  | some ps, st => parseProps cfg ctx (childIds cfg ctx ps) ps st
  | none, st => .ok ([], st.warn (.noProperties ctx.parentPath))
termination_by structural x => x
/-- schema.py:226-235 -/
def parseItemsOneOf (cfg : SchemaCfg) (ctx : SCtx) : Option Schema → SState → Except Err (List Yield × SState)
  | some (.mk _ _ _ (some alts)), st => parseAlts cfg
      { ctx with parentPath := if ctx.parentPath.isEmpty then [] else ctx.parentPath ++ s%"/" } alts st
  | some (.mk _ _ _ none), st => .ok ([], st)
  | none, st => .ok ([], st)
termination_by structural x => x
/-- schema.py:226-235: the `oneOf` alternatives of type `object`. -/
def parseAlts (cfg : SchemaCfg) (ctx : SCtx) : List Schema → SState → Except Err (List Yield × SState)
  | [], st => .ok ([], st)
  | a :: r, st =>
    if a.info.type = .one s%"object" then
      sThen (parseSchema cfg ctx a st) (fun y1 st1 =>
        sThen (parseAlts cfg ctx r st1) (fun y2 st2 => .ok (y1 ++ y2, st2)))
    else parseAlts cfg ctx r st
termination_by structural x => x
/-- schema.py:249-465: the properties. -/
def parseProps (cfg : SchemaCfg) (ctx : SCtx) (ids : List Str) : List (Str × Schema) → SState →
    Except Err (List Yield × SState)
  | [], st => .ok ([], st)
  | (name, s) :: r, st =>
    if skipped cfg s.info then parseProps cfg ctx ids r st
    else sThen (parseProp cfg ctx ids name s (noteTitle ctx name s.info st)) (fun y1 st1 =>
      sThen (parseProps cfg ctx ids r st1) (fun y2 st2 => .ok (y1 ++ y2, st2)))
termination_by structural x => x
/-- schema.py:277-465: one property, after its title has been recorded. -/
def parseProp (cfg : SchemaCfg) (ctx : SCtx) (ids : List Str) (name : Str) : Schema → SState →
    Except Err (List Yield × SState)
  | .mk info props items _, st =>
    if info.type.set.contains s%"object" then                              -- 270-306
      if isGeo cfg props then
        .ok ([(name, info.effTitle)], st.setType (noIndex ctx.parentPath ++ name) .geojson)
      else
        -- the recursive call `parse_schema_dict` on the property itself, unfolded
        sThen (if isOneOfArray info items then
                parseItemsOneOf cfg (childCtx ctx (ctx.parentPath ++ name) ids info.effTitle) items
                  (st.setType (ctx.parentPath ++ name) .object)
               else parseBody cfg (childCtx ctx (ctx.parentPath ++ name) ids info.effTitle) props
                  (st.setType (ctx.parentPath ++ name) .object))
          (fun ys st => .ok (ys.map (objYield name info.effTitle), st))
    else if info.type.set.contains s%"array" then parseArray cfg ctx ids name info items st   -- 308-430
    else .ok (parseScalar ctx name info st)
termination_by structural x => x
/-- schema.py:308-430: an array property. -/
def parseArray (cfg : SchemaCfg) (ctx : SCtx) (ids : List Str) (name : Str) (info : SchemaInfo) : Option Schema → SState →
    Except Err (List Yield × SState)
  | none, _ => .error .key
  | some item, st =>
    match itemKind item with
    | .bad e => .error e
    | .scalars t => .ok ([(name, info.effTitle)], st.setType (noIndex ctx.parentPath ++ name) t)
    | .objects =>
      sThen (parseSchema cfg (childCtx ctx (ctx.parentPath ++ (name ++ s%"/0")) ids info.effTitle) item
          (openSubSheet cfg ctx name info.effTitle ids (st.setType (noIndex ctx.parentPath ++ name) .array)).1)
        (fun ys st => .ok (finishArray cfg ctx name info ys st))
termination_by structural x => x
end

/-- schema.py:192-205 `parse`: the fields of the main sheet. -/
def mainFields (cfg : SchemaCfg) : List Yield → Sheet × List SWarn → Sheet × List SWarn
  | [], r => r
  | (f, t) :: r, (sh, w) =>
    if cfg.useTitles then
      match t with
      | some (c :: cs) =>
        mainFields cfg r ({ sh.addField (c :: cs) with titles := Dict.set sh.titles f (c :: cs) }, w)
      | _ => mainFields cfg r (sh, w ++ [.noTitle f])
    else mainFields cfg r (sh.addField f, w)

/-- A parsed schema. -/
structure Parsed where
  main : Sheet
  subs : List (Str × Sheet)
  subTitles : List ((Str × Str) × Str)
  lookup : TitleTree
  flattened : List (Str × CType)
  rollup : List Str
  warns : List SWarn

/-- schema.py:192-205 `SchemaParser.parse`. -/
def parseRoot (cfg : SchemaCfg) (sch : Schema) : Except Err Parsed :=
  match parseSchema cfg {} sch {} with
  | .error e => .error e
  | .ok (ys, st) =>
    let (main, w) := mainFields cfg ys ({}, [])
    .ok { main, subs := st.subs, subTitles := st.subTitles, lookup := st.lookup,
          flattened := st.flattened, rollup := st.rollup, warns := st.warns ++ w }

end Verif

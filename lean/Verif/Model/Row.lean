import Verif.Model.Convert
/-!
Building the object of one spreadsheet row: `input.py` `Cell`,
`unflatten_main_with_parser`, `ListAsDict`, `TemporaryDict`,
`list_as_dicts_to_temporary_dicts`.
-/
namespace Verif

/-- `cell_location` (input.py:456-463): sheet name, column, row number, heading.
Simplification: the column is its 1-based number; rendering it as a letter
(`openpyxl.get_column_letter`) or as a number is not modelled. -/
structure Loc where
  sheet : Str
  col : Nat
  row : Nat
  heading : Str
  deriving DecidableEq, Repr

/-- input.py:48-52 `Cell`; `sub` holds value and location of each sub cell. -/
structure Cell where
  value : Val
  loc : Loc
  sub : List (Val × Loc) := []
  deriving Repr

/-- What a row is unflattened into (input.py:988-1131): cells, `OrderedDict`s and
`ListAsDict`s (integer index to `OrderedDict`). -/
inductive RTree where
  | cell (c : Cell)
  | obj (fs : List (Str × RTree))
  | lad (is : List (Int × List (Str × RTree)))

abbrev RFields := List (Str × RTree)

/-- Parameters of a run seen by the row builder: `parser.flattened` (constantly
`none` without schema), XML mode and the parameters of `convert_type`. -/
structure RowCfg where
  types : Str → Option CType := fun _ => none
  xml : Bool := false
  conv : ConvEnv := {}

/-- input.py:1006-1008 `path_till_now`. -/
def pathTillNow (items : List Str) : Str :=
  Py.join s%"/" (items.filter (fun i => !isint i))

/-- input.py:1010-1020: the type of the current path component. -/
def currentType (cfg : RowCfg) (path : Str) (till : Str) (cell : Cell) (next : Str) : Option CType :=
  match cell.value with
  | .atom (.datetime _) =>
    if cfg.xml && next.isEmpty && !Py.contains s%"datetime" path then some .date else cfg.types till
  | _ => cfg.types till

/-- `convert_type` applied to the current `cell_value` (input.py:1100-1110).
Simplification: a value that has already been converted to a list or geometry
(possible only for headings with an empty path component, which visit a cell
twice) is left as it is. -/
def convertCell (cfg : RowCfg) (ty : Option CType) (v : Val) : Except Err (Val × List Warn) :=
  match v with
  | .atom a =>
    let t := if cfg.xml && ty == some .array then .untyped else ty.getD .untyped
    convertType cfg.conv t a
  | v => .ok (v, [])

/-- input.py:1113-1131: put the converted cell into the current dict. -/
def putCell (cfg : RowCfg) (ty : Option CType) (item : Str) (cell : Cell) (cur : RFields) :
    Except Err RFields :=
  if cfg.xml then
    if Py.startsWith s%"@" item then .ok (Dict.set cur item (.cell cell))
    else if ty = some .array then .ok (Dict.set cur s%"text()" (.cell cell))
    else match Dict.get cur item with
      | none => .ok (Dict.set cur item (.obj [(s%"text()", .cell cell)]))
      | some (.obj fs) => .ok (Dict.set cur item (.obj (Dict.set fs s%"text()" (.cell cell))))
      | some _ => .error .type
  else .ok (Dict.set cur item (.cell cell))

/-- input.py:1084-1090: outside XML mode a column cannot put a value where another column put an
array or object. -/
def leafBlocked (xml : Bool) (t : Option RTree) : Bool :=
  match t with
  | some (.lad _) => !xml
  | some (.obj _) => !xml
  | _ => false

/-- input.py:1084-1131 "Other Types": returns the dict, the (mutated) cell and
the warnings. -/
def placeLeaf (cfg : RowCfg) (ty : Option CType) (till item : Str) (cell : Cell) (cur : RFields) :
    Except Err (RFields × Cell × List Warn) :=
  if leafBlocked cfg.xml (Dict.get cur item) then .ok (cur, cell, [.isContainer till])                    -- 1085-1098
  else match convertCell cfg ty cell.value with                           -- 1100-1111
    | .error e => .error e
    | .ok (v, w) =>
      let cell' := { cell with value := v }
      if v.blank then .ok (cur, cell', w)                                 -- 1112
      else match putCell cfg ty item cell' cur with
        | .error e => .error e
        | .ok cur' => .ok (cur', cell', w)

/-- input.py:1022-1033: is this component an array, and which index of it is meant? -/
def arrayIndex (next : Str) (ty : Option CType) : Option Int :=
  match Py.int? next with
  | some i => some i
  | none => if ty = some .array then some (-1) else none

/-- input.py:1035-1039: the array under a key, a new one if the key is free, `none` if something else is
there. -/
def ladAt (cur : RFields) (item : Str) : Option (List (Int × RFields)) :=
  match Dict.get cur item with
  | none => some []
  | some (.lad is) => some is
  | some _ => none

/-- input.py:1058-1062: the object under a key, a new one if the key is free, `none` if something else is
there. -/
def objAt (cur : RFields) (item : Str) : Option RFields :=
  match Dict.get cur item with
  | none => some []
  | some (.obj fs) => some fs
  | some _ => none

/-- Bookkeeping: `f` puts a changed inner dict back into its parent; `w` was emitted before. -/
def mapW (f : RFields → RFields) (w : List Warn) :
    Except Err (RFields × List Warn) → Except Err (RFields × List Warn)
  | .error e => .error e
  | .ok (c, w') => .ok (f c, w ++ w')

/-- input.py:995-1131: the loop over the components of one heading.  `pre` are
the components already visited, `cur` is `current_path`; the result is the
updated `current_path`.
Simplification: for headings with an empty component the same `Cell` object can
be stored twice in Python; here the two are separate. -/
def place (cfg : RowCfg) (path : Str) (pre : List Str) :
    List Str → Cell → RFields → Except Err (RFields × List Warn)
  | [], _, cur => .ok (cur, [])
  | item :: rest, cell, cur =>
    if isint item then                                                    -- 996-1004
      mapW id (if pre.isEmpty then [.columnIsNumber path] else [])
        (place cfg path (pre ++ [item]) rest cell cur)
    else
      let till := pathTillNow (pre ++ [item])
      let next := rest.headD []
      let ty := currentType cfg path till cell next
      if (Py.int? next).isSome && !(ty == none || ty == some .array) then .error .value
      else match arrayIndex next ty with
      | some idx =>                                                       -- 1034-1055
        match ladAt cur item with
        | none => .ok (cur, [.notArray path till])
        | some is =>
          let inner := (Dict.get is idx).getD []
          if !cfg.xml || rest.length > 1 then
            mapW (fun inner' => Dict.set cur item (.lad (Dict.set is idx inner'))) []
              (place cfg path (pre ++ [item]) rest cell inner)
          else
            match placeLeaf cfg (some .array) till item cell inner with
            | .error e => .error e
            | .ok (inner1, cell', w1) =>
              mapW (fun inner' => Dict.set cur item (.lad (Dict.set is idx inner'))) w1
                (place cfg path (pre ++ [item]) rest cell' inner1)
      | none =>
        if ty = some .object ∨ (ty = none ∧ next ≠ []) then               -- 1057-1072
          match objAt cur item with
          | none => .ok (cur, [.notObject path till])
          | some fs =>
            mapW (fun fs' => Dict.set cur item (.obj fs')) []
              (place cfg path (pre ++ [item]) rest cell fs)
        else if ty ≠ none ∧ next ≠ [] then .error .value                  -- 1073-1082
        else
          match placeLeaf cfg ty till item cell cur with                  -- 1084-1131
          | .error e => .error e
          | .ok (cur1, cell', w1) =>
            mapW id w1 (place cfg path (pre ++ [item]) rest cell' cur1)

/-- input.py:994 `path_list`. -/
def pathList (path : Str) : List Str :=
  (Py.split '/' path).map (Py.rstrip (fun c => c = '[' || c = ']'))

/-- input.py:988-1131: all columns of a row, skipping blank cells. -/
def placeAll (cfg : RowCfg) : List (Str × Cell) → RFields → Except Err (RFields × List Warn)
  | [], cur => .ok (cur, [])
  | (path, cell) :: rest, cur =>
    if cell.value.blank then placeAll cfg rest cur
    else match place cfg path [] (pathList path) cell cur with
      | .error e => .error e
      | .ok (cur1, w1) =>
        match placeAll cfg rest cur1 with
        | .error e => .error e
        | .ok (cur2, w2) => .ok (cur2, w1 ++ w2)

/-! ### From `ListAsDict` to `TemporaryDict` -/

/-- The tree of a row after `list_as_dicts_to_temporary_dicts`, and of the
accumulated result: cells, dicts and `TemporaryDict`s (items by id, in insertion
order, and items without id). -/
inductive Tree where
  | cell (c : Cell)
  | obj (fs : List (Str × Tree))
  | tmp (keyed : List (Val × List (Str × Tree))) (rest : List (List (Str × Tree)))

abbrev Fields := List (Str × Tree)

/-- `k in self.data` / `self.data[k]`: lookup by Python equality. -/
def keyGet {α : Type} (d : List (Val × α)) (k : Val) : Option α :=
  (d.find? (fun e => e.1.pyEq k)).map (·.2)

/-- `self.data[k] = v`: an equal key keeps its place (and its original key object). -/
def keySet {α : Type} : List (Val × α) → Val → α → List (Val × α)
  | [], k, v => [(k, v)]
  | (k', v') :: r, k, v => if k'.pyEq k then (k', v) :: r else (k', v') :: keySet r k v

/-- The data of a `TemporaryDict` (input.py:1176-1182). -/
structure TDict where
  keyed : List (Val × Fields) := []
  rest : List Fields := []

/-- The id of a dict as `TemporaryDict.append` sees it (input.py:1190-1204):
`ok none` when the id field is absent. -/
def itemKey (idName : Option Str) (xml : Bool) (item : Fields) : Except Err (Option Val) :=
  match idName with
  | none => .ok none
  | some n =>
    match Dict.get item n with
    | none => .ok none
    | some (.cell c) => .ok (some c.value)
    | some (.obj fs) =>
      if xml then
        match Dict.get fs s%"text()" with
        | some (.cell c) => .ok (some c.value)
        | some _ => .error .type
        | none => .error .key
      else .error .type
    | some (.tmp _ _) => if xml then .error .key else .error .type

/-- input.py:1189-1210 `TemporaryDict.append`. -/
def TDict.append (idName : Option Str) (xml : Bool) (td : TDict) (item : Fields) : Except Err TDict :=
  match itemKey idName xml item with
  | .error e => .error e
  | .ok none => .ok { td with rest := td.rest ++ [item] }
  | .ok (some k) =>
    if !k.hashable then .error .type
    else match keyGet td.keyed k with
      | none => .ok { td with keyed := td.keyed ++ [(k, item)] }
      | some old => .ok { td with keyed := keySet td.keyed k (Dict.update old item) }

/-- `for index in sorted(value.keys()): temporarydict.append(value[index])`. -/
def appendAll (idName : Option Str) (xml : Bool) : List Fields → TDict → Except Err TDict
  | [], td => .ok td
  | i :: r, td =>
    match td.append idName xml i with
    | .error e => .error e
    | .ok td' => appendAll idName xml r td'

/-- Insertion into a list sorted by index. -/
def insertIdx {α : Type} (x : Int × α) : List (Int × α) → List (Int × α)
  | [] => [x]
  | y :: r => if x.1 ≤ y.1 then x :: y :: r else y :: insertIdx x r

/-- `sorted(value.keys())` (with the values). -/
def sortIdx {α : Type} : List (Int × α) → List (Int × α)
  | [] => []
  | x :: r => insertIdx x (sortIdx r)

mutual
/-- input.py:971-984 `list_as_dicts_to_temporary_dicts`.  An empty dict is
removed (before its contents are looked at).  Simplification: an empty
`ListAsDict`, which cannot occur here, is kept in place instead of moving to the
end. -/
def toTemp (idName : Option Str) (xml : Bool) : List (Str × RTree) → Except Err Fields
  | [] => .ok []
  | (k, .cell c) :: r =>
    match toTemp idName xml r with
    | .error e => .error e
    | .ok r' => .ok ((k, .cell c) :: r')
  | (k, .obj fs) :: r =>
    if fs.isEmpty then toTemp idName xml r
    else match toTemp idName xml fs with
      | .error e => .error e
      | .ok fs' =>
        match toTemp idName xml r with
        | .error e => .error e
        | .ok r' => .ok ((k, .obj fs') :: r')
  | (k, .lad is) :: r =>
    match toTempItems idName xml is with
    | .error e => .error e
    | .ok is' =>
      match appendAll idName xml ((sortIdx is').map (·.2)) {} with
      | .error e => .error e
      | .ok td =>
        match toTemp idName xml r with
        | .error e => .error e
        | .ok r' => .ok ((k, .tmp td.keyed td.rest) :: r')
/-- The same loop on the values of a `ListAsDict`. -/
def toTempItems (idName : Option Str) (xml : Bool) :
    List (Int × List (Str × RTree)) → Except Err (List (Int × Fields))
  | [] => .ok []
  | (i, fs) :: r =>
    if fs.isEmpty then toTempItems idName xml r
    else match toTemp idName xml fs with
      | .error e => .error e
      | .ok fs' =>
        match toTempItems idName xml r with
        | .error e => .error e
        | .ok r' => .ok ((i, fs') :: r')
end

/-- input.py:987-1134 `unflatten_main_with_parser`. -/
def unflattenRow (cfg : RowCfg) (idName : Option Str) (cells : List (Str × Cell)) :
    Except Err (Fields × List Warn) :=
  match placeAll cfg cells [] with
  | .error e => .error e
  | .ok (rf, w) =>
    match toTemp idName cfg.xml rf with
    | .error e => .error e
    | .ok fs => .ok (fs, w)

end Verif

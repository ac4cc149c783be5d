import Verif.Model.Merge
/-!
`input.py` `SpreadsheetInput.do_unflatten`, `unflatten`,
`temporarydicts_to_lists`, `extract_list_to_value`.
-/
namespace Verif

/-- Options of `SpreadsheetInput` that `do_unflatten` looks at.  `rootId` is
`none` when the option is `None` or the empty string.
Simplification: headings are strings (`unflatten_main_with_parser` takes
`str(heading)`); a non-string heading is represented by its text. -/
structure UnCfg where
  row : RowCfg := {}
  idName : Option Str := some s%"id"
  rootId : Option Str := some s%"ocid"

/-- One line of a sheet: an `OrderedDict` from heading (`none`: Python `None`, the
heading of columns without one) to cell value. -/
abbrev Line := List (Option Str × Atom)

/-- A sheet as `do_unflatten` sees it: its name, `get_sheet_headings` (`none` when
not implemented) and `get_sheet_lines`. -/
structure SheetIn where
  name : Str
  headings : Option (List (Option Str)) := none
  lines : List Line

/-! #### Duplicate headings -/

/-- input.py:376-386: the loop over the headings from the right; `i` is the
position from the right, `found` maps a heading to `[i, columns…]`. -/
def findHeadings (lastCol : Nat) : Nat → List (Option Str) → List (Str × List Nat) →
    List (Str × List Nat)
  | _, [], found => found
  | i, none :: r, found => findHeadings lastCol (i + 1) r found
  | i, some h :: r, found =>
    match Dict.get found h with
    | some l => findHeadings lastCol (i + 1) r (Dict.set found h (l ++ [(lastCol - i) - 1]))
    | none => findHeadings lastCol (i + 1) r (Dict.set found h [i])

/-- input.py:376-440: the warnings about duplicate headings. -/
def headingWarns (sheet : Str) (hs : List (Option Str)) : List Warn :=
  (findHeadings hs.length 0 hs.reverse []).reverse.filterMap (fun e =>
    if e.2.length > 1 then some (.dupHeading e.1 e.2.tail.reverse sheet) else none)

/-! #### One row -/

/-- input.py:445 -/
def blankLine (l : Line) : Bool := l.all (fun kv => kv.2.blank)

/-- input.py:449-463: the cells of line `j` (0-based) of a sheet. -/
def lineCells (sheet : Str) (headings : Option (List (Option Str))) (j : Nat) :
    Nat → Line → List (Str × Cell)
  | _, [] => []
  | k, (h, v) :: r =>
    let heading := match headings with
      | some hs => (hs[k]?.getD none).getD s%"None"
      | none => h.getD s%"None"
    (h.getD s%"None", { value := .atom v, loc := { sheet, col := k + 1, row := j + 2, heading } })
      :: lineCells sheet headings j (k + 1) r

/-- input.py:477-483 `inthere` guarded by `self.id_name in unflattened` (485-489). -/
def rowKey (idName : Option Str) (xml : Bool) (fs : Fields) : Except Err (Option Val) :=
  match idName with
  | none => .ok none
  | some n =>
    match Dict.get fs n with
    | none => .ok none
    | some (.cell c) => .ok (some c.value)
    | some (.obj g) =>
      if xml then
        match Dict.get g s%"text()" with
        | some (.cell c) => .ok (some c.value)
        | some _ => .error .attr
        | none => .error .key
      else .error .attr
    | some (.tmp _ _) => if xml then .error .key else .error .attr

/-- input.py:485-508: merge the row into its root-id group, or append it. -/
def addToGroup (cfg : UnCfg) (sheet : Str) (fs : Fields) (td : TDict) : Except Err (TDict × List Warn) :=
  match rowKey cfg.idName cfg.row.xml fs with
  | .error e => .error e
  | .ok none =>
    match td.append cfg.idName cfg.row.xml fs with
    | .error e => .error e
    | .ok td' => .ok (td', [])
  | .ok (some k) =>
    if !k.hashable then .error .type
    else match keyGet td.keyed k with
      | some base =>
        let m := mergeFields sheet fs base
        .ok ({ td with keyed := keySet td.keyed k m.1 }, m.2)
      | none =>
        match td.append cfg.idName cfg.row.xml fs with
        | .error e => .error e
        | .ok td' => .ok (td', [])

/-- `main_sheet_by_ocid`: root id to `TemporaryDict`, in insertion order. -/
abbrev Groups := List (Val × TDict)

/-- input.py:448 `line.get(self.root_id) if self.root_id else None`. -/
def rootKey (cfg : UnCfg) (l : Line) : Val :=
  match cfg.rootId with
  | none => .atom .none
  | some r => .atom ((Dict.get l (some r)).getD .none)

/-- input.py:472-508: get or create the group of the row and add the row. -/
def addRow (cfg : UnCfg) (sheet : Str) (root : Val) (fs : Fields) (gs : Groups) :
    Except Err (Groups × List Warn) :=
  match addToGroup cfg sheet fs ((keyGet gs root).getD {}) with
  | .error e => .error e
  | .ok (td, w) => .ok (keySet gs root td, w)

/-- input.py:444-508: one line. -/
def addLine (cfg : UnCfg) (sheet : Str) (headings : Option (List (Option Str))) (j : Nat) (l : Line)
    (gs : Groups) : Except Err (Groups × List Warn) :=
  if blankLine l then .ok (gs, [])
  else match unflattenRow cfg.row cfg.idName (lineCells sheet headings j 0 l) with
    | .error e => .error e
    | .ok (fs, w1) =>
      match addRow cfg sheet (rootKey cfg l) fs gs with
      | .error e => .error e
      | .ok (gs', w2) => .ok (gs', w1 ++ w2)

/-- input.py:444-508: the lines of a sheet from number `j` on. -/
def addLines (cfg : UnCfg) (sheet : Str) (headings : Option (List (Option Str))) :
    Nat → List Line → Groups → Except Err (Groups × List Warn)
  | _, [], gs => .ok (gs, [])
  | j, l :: r, gs =>
    match addLine cfg sheet headings j l gs with
    | .error e => .error e
    | .ok (gs1, w1) =>
      match addLines cfg sheet headings (j + 1) r gs1 with
      | .error e => .error e
      | .ok (gs2, w2) => .ok (gs2, w1 ++ w2)

/-- input.py:369-508: the sheets.  A sheet with empty headings is skipped (374). -/
def addSheets (cfg : UnCfg) : List SheetIn → Groups → Except Err (Groups × List Warn)
  | [], gs => .ok (gs, [])
  | s :: r, gs =>
    if s.headings = some [] then addSheets cfg r gs
    else match addLines cfg s.name s.headings 0 s.lines gs with
      | .error e => .error e
      | .ok (gs1, w1) =>
        match addSheets cfg r gs1 with
        | .error e => .error e
        | .ok (gs2, w2) =>
          .ok (gs2, (match s.headings with | some hs => headingWarns s.name hs | none => [])
                      ++ (w1 ++ w2))

/-! #### The resulting cell tree -/

/-- The tree after `temporarydicts_to_lists`: cells, dicts, lists of dicts. -/
inductive CTree where
  | cell (c : Cell)
  | obj (fs : List (Str × CTree))
  | list (is : List (List (Str × CTree)))

mutual
/-- input.py:1216-1228 `temporarydicts_to_lists` with `to_list` (1212-1213). -/
def toLists : List (Str × Tree) → List (Str × CTree)
  | [] => []
  | (k, t) :: r => (k, treeToLists t) :: toLists r
/-- One value. -/
def treeToLists : Tree → CTree
  | .cell c => .cell c
  | .obj fs => .obj (toLists fs)
  | .tmp keyed rest => .list (keyedToLists keyed ++ itemsToLists rest)
/-- The items with ids. -/
def keyedToLists : List (Val × List (Str × Tree)) → List (List (Str × CTree))
  | [] => []
  | (_, fs) :: r => toLists fs :: keyedToLists r
/-- The items without id. -/
def itemsToLists : List (List (Str × Tree)) → List (List (Str × CTree))
  | [] => []
  | fs :: r => toLists fs :: itemsToLists r
end

/-- input.py:509-510: `sum(main_sheet_by_ocid.values(), [])` after conversion. -/
def groupsToList (gs : Groups) : List (List (Str × CTree)) :=
  gs.flatMap (fun g => keyedToLists g.2.keyed ++ itemsToLists g.2.rest)

/-- input.py:366-510 `do_unflatten`. -/
def doUnflatten (cfg : UnCfg) (sheets : List SheetIn) :
    Except Err (List (List (Str × CTree)) × List Warn) :=
  match addSheets cfg sheets [] with
  | .error e => .error e
  | .ok (gs, w) => .ok (groupsToList gs, w)

mutual
/-- input.py:613-626 `extract_dict_to_value`. -/
def toValue : List (Str × CTree) → List (Str × Json)
  | [] => []
  | (k, t) :: r => (k, treeToValue t) :: toValue r
/-- One value. -/
def treeToValue : CTree → Json
  | .cell c => c.value.toJson
  | .obj fs => .obj (toValue fs)
  | .list is => .arr (listToValue is)
/-- input.py:606-610 `extract_list_to_value`. -/
def listToValue : List (List (Str × CTree)) → List Json
  | [] => []
  | fs :: r => .obj (toValue fs) :: listToValue r
end

/-- input.py:512-515 `unflatten`. -/
def unflatten (cfg : UnCfg) (sheets : List SheetIn) : Except Err (List Json × List Warn) :=
  match doUnflatten cfg sheets with
  | .error e => .error e
  | .ok (t, w) => .ok (listToValue t, w)

end Verif

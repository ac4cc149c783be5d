import Verif.Model.Unflatten
/-!
`input.py` `extract_list_to_error_path`, `extract_dict_to_error_path`,
`fancy_unflatten`.
-/
namespace Verif

/-- A component of a path tuple: `str` or `int`. -/
inductive PStep where
  | key (s : Str)
  | idx (i : Nat)
  deriving DecidableEq, Repr

/-- `str(x)` of a component. -/
def PStep.str : PStep → Str
  | .key s => s
  | .idx i => Py.natStr i

abbrev PMap := List (List PStep × List Loc)

/-- `for p in res: assert p not in output; output[p] = res[p]` (input.py:571-573). -/
def addPaths : PMap → PMap → Except Err PMap
  | [], out => .ok out
  | (p, l) :: r, out =>
    if Dict.has out p then .error .assertion else addPaths r (out ++ [(p, l)])

mutual
/-- input.py:567-574 `extract_list_to_error_path` from item number `i` on. -/
def listErrorPath (path : List PStep) (i : Nat) : List (List (Str × CTree)) → PMap → Except Err PMap
  | [], out => .ok out
  | fs :: r, out =>
    match dictErrorPath (path ++ [.idx i]) fs [] with
    | .error e => .error e
    | .ok res =>
      match addPaths res out with
      | .error e => .error e
      | .ok out' => listErrorPath path (i + 1) r out'
/-- input.py:577-603 `extract_dict_to_error_path`. -/
def dictErrorPath (path : List PStep) : List (Str × CTree) → PMap → Except Err PMap
  | [], out => .ok out
  | (k, .list is) :: r, out =>
    match listErrorPath (path ++ [.key k]) 0 is [] with
    | .error e => .error e
    | .ok res =>
      match addPaths res out with
      | .error e => .error e
      | .ok out' => dictErrorPath path r out'
  | (k, .obj fs) :: r, out =>
    match dictErrorPath (path ++ [.key k]) fs [] with
    | .error e => .error e
    | .ok res =>
      match addPaths res out with
      | .error e => .error e
      | .ok out' => dictErrorPath path r out'
  | (k, .cell c) :: r, out =>
    if Dict.has out (path ++ [.key k]) then .error .assertion
    else if c.sub.all (fun s => s.1.pyEq c.value) then
      dictErrorPath path r (out ++ [(path ++ [.key k], c.loc :: c.sub.map (·.2))])
    else .error .assertion
end

/-! #### Sorting the paths -/

/-- `a < b` for two strings: lexicographic by code point. -/
def strLt : Str → Str → Bool
  | [], [] => false
  | [], _ :: _ => true
  | _ :: _, [] => false
  | a :: as, b :: bs => if a = b then strLt as bs else decide (a.toNat < b.toNat)

/-- `a < b` for path tuples; comparing a `str` with an `int` raises `TypeError`. -/
def pathLt : List PStep → List PStep → Except Err Bool
  | [], [] => .ok false
  | [], _ :: _ => .ok true
  | _ :: _, [] => .ok false
  | a :: as, b :: bs =>
    if a = b then pathLt as bs
    else match a, b with
      | .key x, .key y => .ok (strLt x y)
      | .idx i, .idx j => .ok (decide (i < j))
      | _, _ => .error .type

/-- Insert into a sorted list of (path, locations). -/
def insertPath (x : List PStep × List Loc) : PMap → Except Err PMap
  | [] => .ok [x]
  | y :: r =>
    match pathLt y.1 x.1 with
    | .error e => .error e
    | .ok true =>
      match insertPath x r with
      | .error e => .error e
      | .ok r' => .ok (y :: r')
    | .ok false => .ok (x :: y :: r)

/-- `sorted(cell_source_map.items())` (input.py:526).  Simplification: an insertion
sort; the paths are distinct, so the sorted list is unique.  Python's sort makes a
subset of all comparisons, so an error here is more likely than there. -/
def sortPaths : PMap → Except Err PMap
  | [] => .ok []
  | x :: r =>
    match sortPaths r with
    | .error e => .error e
    | .ok r' => insertPath x r'

/-! #### The three maps -/

/-- `"/".join(str(x) for x in path)` -/
def pathStr (p : List PStep) : Str := Py.join s%"/" (p.map PStep.str)

/-- `int(x)` succeeds (input.py:539-542). -/
def PStep.intLike : PStep → Bool
  | .key s => isint s
  | .idx _ => true

/-- input.py:537-543 `header_path`. -/
def headerPath (p : List PStep) : Str :=
  Py.join s%"/" ((p.filter (fun x => !x.intLike)).map PStep.str)

/-- Append `x` unless already there. -/
def addOnce {α : Type} [DecidableEq α] (l : List α) (x : α) : List α :=
  if x ∈ l then l else l ++ [x]

/-- `if key not in d: d[key] = []`, then append each element not already in `d[key]`. -/
def addGroup {α : Type} [DecidableEq α] (d : List (Str × List α)) (k : Str) (xs : List α) :
    List (Str × List α) :=
  Dict.set d k (xs.foldl addOnce ((Dict.get d k).getD []))

/-- input.py:527-550: `row_source_map`. -/
def rowMap (m : PMap) : List (Str × List (Str × Nat)) :=
  m.foldl (fun d e => addGroup d (pathStr e.1.dropLast) (e.2.map (fun l => (l.sheet, l.row)))) []

/-- input.py:528-553: `heading_source_map`. -/
def headingMap (m : PMap) : List (Str × List (Str × Str)) :=
  m.foldl (fun d e => addGroup d (headerPath e.1) (e.2.map (fun l => (l.sheet, l.heading)))) []

/-- Entries of the cell source map: cells have full locations, rows have
(sheet, row number). -/
inductive MapEntry where
  | cells (l : List Loc)
  | rows (l : List (Str × Nat))
  deriving DecidableEq, Repr

/-- input.py:559-563: add the row map to the cell map. -/
def addRows : List (Str × List (Str × Nat)) → List (Str × MapEntry) → Except Err (List (Str × MapEntry))
  | [], m => .ok m
  | (k, l) :: r, m => if Dict.has m k then .error .assertion else addRows r (m ++ [(k, .rows l)])

/-- input.py:555-558: `OrderedDict((path, location) …)`. -/
def cellMap (m : PMap) : List (Str × MapEntry) :=
  m.foldl (fun d e => Dict.set d (pathStr e.1) (.cells e.2)) []

/-- input.py:523-525: the start of all paths. -/
def rootPrefix : Option Str → List PStep
  | some r => [.key r]
  | none => []

/-- input.py:517-564 `fancy_unflatten`, after `do_unflatten`; `rootPath` is
`root_list_path` or `none` when the root is a list. -/
def sourceMaps (rootPath : Option Str) (wantCells wantHeadings : Bool)
    (tree : List (List (Str × CTree))) :
    Except Err (Option (List (Str × MapEntry)) × Option (List (Str × List (Str × Str)))) :=
  if !wantCells && !wantHeadings then .ok (none, none)
  else match listErrorPath (rootPrefix rootPath) 0 tree [] with
    | .error e => .error e
    | .ok pm =>
      match sortPaths pm with
      | .error e => .error e
      | .ok sorted =>
        let hm := if wantHeadings then headingMap sorted else []
        if wantCells then
          match addRows (rowMap sorted) (cellMap sorted) with
          | .error e => .error e
          | .ok cm => .ok (some cm, some hm)
        else .ok (none, some hm)

/-- input.py:517-564 `fancy_unflatten`. -/
def fancyUnflatten (cfg : UnCfg) (rootPath : Option Str) (wantCells wantHeadings : Bool)
    (sheets : List SheetIn) : Except Err (List Json ×
      Option (List (Str × MapEntry)) × Option (List (Str × List (Str × Str))) × List Warn) :=
  match doUnflatten cfg sheets with
  | .error e => .error e
  | .ok (tree, w) =>
    match sourceMaps rootPath wantCells wantHeadings tree with
    | .error e => .error e
    | .ok (cm, hm) => .ok (listToValue tree, cm, hm, w)

end Verif

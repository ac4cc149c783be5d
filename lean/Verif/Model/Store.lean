import Verif.Model.Sheet
/-!
`flattentool/sheet.py` `PersistentSheet`: the lines of all sheets live in one store
(a ZODB connection), by sheet name and line number.

ZODB itself is not modelled beyond this: the connection is a mapping whose reads see
the latest writes; `transaction.commit` and `cacheMinimize` do not change it.
-/
namespace Verif.Store

variable {α : Type}

/-- `BTrees.IOBTree.BTree`: integer keys in ascending order. -/
abbrev IBTree (α : Type) := List (Nat × α)

/-- `tree[k] = v`. -/
def btSet : IBTree α → Nat → α → IBTree α
  | [], k, v => [(k, v)]
  | (k', v') :: r, k, v =>
    if k = k' then (k, v) :: r
    else if k < k' then (k, v) :: (k', v') :: r
    else (k', v') :: btSet r k v

/-- The state: `connection.root.sheet_store` and the `name` and `index` attributes of
the sheet objects (numbered by creation). -/
structure State (α : Type) where
  store : List (Str × IBTree α) := []
  sheets : List (Str × Nat) := []

/-- Operations of the program on sheets. -/
inductive Op (α : Type) where
  /-- `PersistentSheet(name=…)` (sheet.py:50-55) -/
  | create (name : Str)
  /-- `sheet.append_line(line)` on sheet object number `i` (sheet.py:68-70) -/
  | append (i : Nat) (line : α)
  /-- `transaction.commit()` -/
  | commit

/-- sheet.py:50-70. -/
def step (s : State α) : Op α → State α
  | .create name =>
    { store := Dict.set s.store name [], sheets := s.sheets ++ [(name, 0)] }
  | .append i line =>
    match s.sheets[i]? with
    | none => s
    | some (name, idx) =>
      { store := Dict.set s.store name (btSet ((Dict.get s.store name).getD []) idx line),
        sheets := s.sheets.set i (name, idx + 1) }
  | .commit => s

def run (ops : List (Op α)) : State α := ops.foldl step {}

/-- sheet.py:57-66 `lines` of sheet object `i`: the values in key order. -/
def lines (s : State α) (i : Nat) : List α :=
  match s.sheets[i]? with
  | none => []
  | some (name, _) => ((Dict.get s.store name).getD []).map (·.2)

end Verif.Store

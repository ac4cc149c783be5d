import Verif.Model.Row
/-!
`input.py` `merge` and `warnings_for_ignored_columns`.
-/
namespace Verif

mutual
/-- input.py:168-181 `warnings_for_ignored_columns`, on one value. -/
def ignoredWarns (why : Why) : Tree → List Warn
  | .cell c => [.ignored c.loc.heading why]
  | .obj fs => ignoredWarnsFields why fs
  | .tmp keyed rest => ignoredWarnsKeyed why keyed ++ ignoredWarnsItems why rest
/-- input.py:175-177, over the values of a dict. -/
def ignoredWarnsFields (why : Why) : List (Str × Tree) → List Warn
  | [] => []
  | (_, t) :: r => ignoredWarns why t ++ ignoredWarnsFields why r
/-- input.py:178-180, over the items of a `TemporaryDict` that have an id. -/
def ignoredWarnsKeyed (why : Why) : List (Val × List (Str × Tree)) → List Warn
  | [] => []
  | (_, fs) :: r => ignoredWarnsFields why fs ++ ignoredWarnsKeyed why r
/-- input.py:178-180, over the items without id. -/
def ignoredWarnsItems (why : Why) : List (List (Str × Tree)) → List Warn
  | [] => []
  | fs :: r => ignoredWarnsFields why fs ++ ignoredWarnsItems why r
end

/-- input.py:233-269: a cell meets the existing value `bv` of field `key`.  The
result is the new value of the field.  A geometry is a dict in Python, so it is
always reported as ignored (216-229; a geometry can only meet a cell, because a
schema type of the path excludes an object there). -/
def mergeCell (sheet key : Str) (c : Cell) (bv : Tree) : Tree × List Warn :=
  match c.value, bv with
  | .geo _, bv => (bv, [.ignored c.loc.heading (.objectButOther key)])
  | v, .cell b =>
    if b.value.pyEq v then (.cell { b with sub := b.sub ++ [(v, c.loc)] }, [])
    else (.cell b, [.conflict key sheet b.value v])
  | _, bv => (bv, [.ignored c.loc.heading .otherIsContainer])

mutual
/-- input.py:187-274 `merge`: merge the row object (first list) into `base`. -/
def mergeFields (sheet : Str) : List (Str × Tree) → Fields → Fields × List Warn
  | [], base => (base, [])
  | (k, v) :: r, base =>
    match Dict.get base k with
    | none =>                                                             -- 271-273
      let b2 := mergeFields sheet r (Dict.set base k v)
      (b2.1, b2.2)
    | some bv =>
      let n := mergeTree sheet k v bv
      let b2 := mergeFields sheet r (Dict.set base k n.1)
      (b2.1, n.2 ++ b2.2)
/-- input.py:191-270: the value `v` of field `key` of the row meets the existing
value. -/
def mergeTree (sheet key : Str) : Tree → Tree → Tree × List Warn
  | .tmp keyed rest, bv =>                                                -- 193-215
    match bv with
    | .tmp bk br =>
      let m := mergeKeyed sheet keyed bk
      (.tmp m.1 (br ++ rest), m.2)
    | bv => (bv, ignoredWarnsKeyed (.arrayButOther key) keyed
                  ++ ignoredWarnsItems (.arrayButOther key) rest)
  | .obj fs, bv =>                                                        -- 216-229
    match bv with
    | .obj bfs =>
      let m := mergeFields sheet fs bfs
      (.obj m.1, m.2)
    | bv => (bv, ignoredWarnsFields (.objectButOther key) fs)
  | .cell c, bv => mergeCell sheet key c bv                               -- 230-269
/-- input.py:202-213: the items with an id. -/
def mergeKeyed (sheet : Str) : List (Val × List (Str × Tree)) → List (Val × Fields) →
    List (Val × Fields) × List Warn
  | [], bk => (bk, [])
  | (k, fs) :: r, bk =>
    match keyGet bk k with
    | none =>
      let b2 := mergeKeyed sheet r (keySet bk k fs)
      (b2.1, b2.2)
    | some bfs =>
      let m := mergeFields sheet fs bfs
      let b2 := mergeKeyed sheet r (keySet bk k m.1)
      (b2.1, m.2 ++ b2.2)
end

end Verif

import Verif.Py.Dec
/-!
`flattentool/lib.py` `isint` and `flattentool/input.py` `convert_type`, plus the
error and warning vocabulary of the model.
-/
namespace Verif

/-- Exceptions the modelled code can raise. -/
inductive Err where
  /-- `FlattenToolValueError` / `ValueError` -/
  | value
  /-- `TypeError`, e.g. unhashable dict key -/
  | type
  /-- `AttributeError` -/
  | attr
  /-- `KeyError` -/
  | key
  /-- `OverflowError` (`int(float('inf'))`) -/
  | overflow
  /-- `AssertionError` -/
  | assertion
  /-- `StopIteration` (or `RuntimeError` when it leaves a generator) -/
  | stop
  /-- `IndexError` -/
  | index
  /-- `RecursionError` -/
  | recursion
  deriving DecidableEq, Repr

/-- Why `warnings_for_ignored_columns` was called (input.py:195, 220, 240). -/
inductive Why where
  | arrayButOther (key : Str)
  | objectButOther (key : Str)
  | otherIsContainer
  deriving DecidableEq, Repr

/-- `warnings.warn` calls, by their data (the translated texts are not
modelled). -/
inductive Warn where
  | nonNumeric (text : Str)
  | nonInteger (text : Str)
  | badBoolean (text : Str)
  | nonNumericArray (text : Str)
  | badWkt (text : Str)
  | geoDeps
  /-- input.py:998: heading starts with a number -/
  | columnIsNumber (path : Str)
  /-- input.py:1040: column treats `till` as an array, another does not -/
  | notArray (path till : Str)
  /-- input.py:1064 -/
  | notObject (path till : Str)
  /-- input.py:1092 -/
  | isContainer (till : Str)
  /-- input.py:170: column (heading) ignored during merge -/
  | ignored (heading : Str) (why : Why)
  /-- input.py:258: conflicting values for a field during merge -/
  | conflict (field sheet : Str) (baseValue value : Val)
  /-- input.py:393-440: heading, ignored columns (0-based), sheet -/
  | dupHeading (heading : Str) (cols : List Nat) (sheet : Str)
  deriving Repr

/-- Type strings: values of `SchemaParser.flattened` (schema.py:283-456) and
`""` (`untyped`). -/
inductive CType where
  | untyped | number | integer | boolean | array | arrayArray | stringArray | numberArray
  | string | date | geojson | object
  deriving DecidableEq, Repr

/-- Parameters of a run that `convert_type` looks at: the `wkt` flag, whether
shapely/geojson are importable, and `shapely.wkt.loads` + `geojson.Feature`
(library code, a parameter; `none` is a parse error). -/
structure ConvEnv where
  wkt : Bool := false
  geoLib : Bool := true
  wktLoads : Str → Option Json := fun _ => none

/-- lib.py:1-6 `isint`. -/
def isint (s : Str) : Bool := (Py.int? s).isSome

/-- `Decimal(value)` for a scalar (input.py:75); `none` is a caught
`TypeError`/`ValueError`/`InvalidOperation`. -/
def toDecimal : Atom → Option Dec
  | .str s => Py.dec? s
  | .int i => some (.fin (i < 0) i.natAbs 0)
  | .bool b => some (.fin false (if b then 1 else 0) 0)
  | .dec d => some d
  | .float f => some f.exact
  | .none => none
  | .datetime _ => none
  | .other _ => none

/-- `int(value)` for a scalar (input.py:86): `ok none` is a caught
`TypeError`/`ValueError`, `error` an exception that is not caught. -/
def toInteger : Atom → Except Err (Option Int)
  | .str s => .ok (Py.int? s)
  | .int i => .ok (some i)
  | .bool b => .ok (some (if b then 1 else 0))
  | .dec (.fin neg c e) => .ok (some (Py.truncDec neg c e))
  | .dec (.inf _) => .error .overflow
  | .dec (.nan _ _ _) => .ok none
  | .float f =>
    match f.exact with
    | .fin neg c e => .ok (some (Py.truncDec neg c e))
    | .inf _ => .error .overflow
    | .nan _ _ _ => .ok none
  | .none => .ok none
  | .datetime _ => .ok none
  | .other _ => .ok none

/-- `[[Decimal(y) for y in x.split(",")] for x in value.split(";")]` or
`[Decimal(x) for x in value.split(";")]` (input.py:113-118). -/
def numberArray (s : Str) : Option Val :=
  if ',' ∈ s then
    ((Py.split ';' s).mapM (fun x => (Py.split ',' x).mapM Py.dec?)).map
      (fun l => .arr2 (l.map (fun r => r.map Atom.dec)))
  else ((Py.split ';' s).mapM Py.dec?).map (fun l => .arr (l.map Atom.dec))

/-- input.py:126-129 -/
def stringArray (s : Str) : Val :=
  if ',' ∈ s then .arr2 ((Py.split ';' s).map (fun x => (Py.split ',' x).map Atom.str))
  else .arr ((Py.split ';' s).map Atom.str)

/-- input.py:70-165 `convert_type`.  The result `.atom .none` is Python `None`. -/
def convertType (env : ConvEnv) (ty : CType) (v : Atom) : Except Err (Val × List Warn) :=
  if v.blank then .ok (.atom .none, [])                                   -- 71-72
  else match ty with
  | .number =>                                                            -- 73-83
    match toDecimal v with
    | some d => .ok (.atom (.dec d), [])
    | none => .ok (.atom (.str (Py.str v)), [.nonNumeric (Py.str v)])
  | .integer =>                                                           -- 84-94
    match toInteger v with
    | .error e => .error e
    | .ok (some i) => .ok (.atom (.int i), [])
    | .ok none => .ok (.atom (.str (Py.str v)), [.nonInteger (Py.str v)])
  | .boolean =>                                                           -- 95-108
    let s := Py.lower (Py.str v)
    if s = s%"true" ∨ s = s%"1" then .ok (.atom (.bool true), [])
    else if s = s%"false" ∨ s = s%"0" then .ok (.atom (.bool false), [])
    else .ok (.atom (.str (Py.str v)), [.badBoolean (Py.str v)])
  | .numberArray =>                                                       -- 109-129
    match numberArray (Py.str v) with
    | some r => .ok (r, [])
    | none => .ok (stringArray (Py.str v), [.nonNumericArray (Py.str v)])
  | .array | .arrayArray | .stringArray => .ok (stringArray (Py.str v), [])
  | .string =>                                                            -- 130-133
    match v with
    | .datetime d => .ok (.atom (.str d.localIso), [])
    | _ => .ok (.atom (.str (Py.str v)), [])
  | .date =>                                                              -- 134-137
    match v with
    | .datetime d => .ok (.atom (.str d.dateIso), [])
    | _ => .ok (.atom (.str (Py.str v)), [])
  | .geojson =>                                                           -- 138-157, 164-165
    if env.wkt then
      if env.geoLib then
        match v with
        | .str s =>
          match env.wktLoads s with
          | some g => .ok (.geo g, [])
          | none => .ok (.atom .none, [.badWkt s])
        | _ => .error .type
      else .ok (.atom (.str (Py.str v)), [.geoDeps])
    else .error .value
  | .untyped =>                                                           -- 158-163
    match v with
    | .datetime d => .ok (.atom (.str d.localIso), [])
    | .float f =>
      match f.exact with
      | .fin neg c e =>
        if (Dec.fin neg c e).canon = (Atom.int (Py.truncDec neg c e)).canon
        then .ok (.atom (.int (Py.truncDec neg c e)), [])
        else .ok (.atom (.str (Py.str v)), [])
      | .inf _ => .error .overflow
      | .nan _ _ _ => .error .value
    | .int i => .ok (.atom (.int i), [])
    | _ => .ok (.atom (.str (Py.str v)), [])
  | .object => .error .value                                              -- 164-165

end Verif

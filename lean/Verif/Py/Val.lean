import Verif.Py.Str
/-!
Python values that occur as spreadsheet cells and JSON leaves, and Python `==`.
-/
namespace Verif

/-- `decimal.Decimal`: finite `(-1)^neg * coeff * 10^exp`, infinities and NaNs. -/
inductive Dec where
  | fin (neg : Bool) (coeff : Nat) (exp : Int)
  | inf (neg : Bool)
  | nan (neg signaling : Bool) (payload : Nat)
  deriving DecidableEq, Repr

/-- A `float`, known through the observations the code makes on it: its text
(`str(f)`) and its exact value (`Decimal(f)`). -/
structure PyFloat where
  repr : Str
  exact : Dec
  deriving DecidableEq, Repr

/-- A `datetime.datetime`, known through the observations the code makes on it:
`str(d)`, `timezone.localize(d).isoformat()` (for the timezone of the run) and
`d.date().isoformat()`. -/
structure PyDatetime where
  text : Str
  localIso : Str
  dateIso : Str
  deriving DecidableEq, Repr

/-- Scalar Python values found in cells and JSON leaves.  `other` is any other
object, known by its `str()`. -/
inductive Atom where
  | none
  | str (s : Str)
  | int (i : Int)
  | bool (b : Bool)
  | dec (d : Dec)
  | float (f : PyFloat)
  | datetime (d : PyDatetime)
  | other (text : Str)
  deriving DecidableEq, Repr

/-- JSON documents as Python sees them (dicts in insertion order). -/
inductive Json where
  | leaf (a : Atom)
  | obj (fields : List (Str × Json))
  | arr (items : List Json)
  deriving Repr

/-- Values a cell can hold after `convert_type` (input.py:70-165): scalars, lists
and lists of lists of scalars, GeoJSON geometries (dicts). -/
inductive Val where
  | atom (a : Atom)
  | arr (l : List Atom)
  | arr2 (l : List (List Atom))
  | geo (g : Json)
  deriving Repr

/-- Strip trailing decimal zeros (at most `fuel` of them). -/
def stripZeros : Nat → Nat → Int → Nat × Int
  | 0, c, e => (c, e)
  | fuel + 1, c, e => if c % 10 = 0 then stripZeros fuel (c / 10) (e + 1) else (c, e)

/-- Canonical `(coefficient, exponent)` of `c * 10^e`. -/
def normDec (c : Nat) (e : Int) : Nat × Int := if c = 0 then (0, 0) else stripZeros c c e

/-- Canonical forms for Python `==`/`hash`: numbers of all types compare by
value. -/
inductive Canon where
  | none
  | str (s : Str)
  | num (neg : Bool) (coeff : Nat) (exp : Int)
  | inf (neg : Bool)
  | datetime (text : Str)
  | other (text : Str)
  deriving DecidableEq, Repr

def canonNum (neg : Bool) (c : Nat) (e : Int) : Canon :=
  if c = 0 then .num false 0 0 else .num neg (normDec c e).1 (normDec c e).2

def Dec.canon : Dec → Option Canon
  | .fin neg c e => some (canonNum neg c e)
  | .inf neg => some (.inf neg)
  | .nan _ _ _ => Option.none

/-- Canonical form of a scalar; NaN has none (it equals nothing).
Simplification: comparing or hashing a signalling NaN raises in Python; here it
is just unequal to everything. -/
def Atom.canon : Atom → Option Canon
  | .none => some .none
  | .str s => some (.str s)
  | .int i => some (canonNum (i < 0) i.natAbs 0)
  | .bool b => some (canonNum false (if b then 1 else 0) 0)
  | .dec d => d.canon
  | .float f => f.exact.canon
  | .datetime d => some (.datetime d.text)
  | .other t => some (.other t)

inductive VCanon where
  | atom (c : Canon)
  | arr (l : List Canon)
  | arr2 (l : List (List Canon))
  deriving DecidableEq, Repr

def Val.canon : Val → Option VCanon
  | .atom a => a.canon.map .atom
  | .arr l => (l.mapM Atom.canon).map .arr
  | .arr2 l => (l.mapM (fun (r : List Atom) => r.mapM Atom.canon)).map .arr2
  | .geo _ => Option.none

/-- Python `==` between cell values.  GeoJSON dicts are never compared by the
code with `==` against another dict, so they are just unequal to everything. -/
def Val.pyEq (a b : Val) : Bool :=
  match a.canon, b.canon with
  | some x, some y => x == y
  | _, _ => false

/-- Whether Python can hash the value (needed to use it as a dict key). -/
def Val.hashable : Val → Bool
  | .atom _ => true
  | _ => false

/-- `x is None or x == ""` -/
def Atom.blank : Atom → Bool
  | .none => true
  | .str [] => true
  | _ => false

def Val.blank : Val → Bool
  | .atom a => a.blank
  | _ => false

/-- A cell value as JSON. -/
def Val.toJson : Val → Json
  | .atom a => .leaf a
  | .arr l => .arr (l.map .leaf)
  | .arr2 l => .arr (l.map (fun r => .arr (r.map .leaf)))
  | .geo g => g

end Verif

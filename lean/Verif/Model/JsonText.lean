import Verif.Py.Float
import Verif.Model.Convert
/-!
The JSON text `unflatten` writes: `json.dump(…, indent=4, ensure_ascii=False,
default=decimal_datetime_default)` (`__init__.py:183-205, 380-411`) with the encoder of the standard
library (`json/encoder.py`).
-/
namespace Verif.Api

/-- What `decimal_datetime_default` makes of a `Decimal`. -/
inductive JNum where
  /-- `int(o)` -/
  | int (i : Int)
  /-- `NumberStr(o)`, a `float`: by its shortest decimal `± c * 10^q` -/
  | float (neg : Bool) (c : Nat) (q : Int)
  /-- `NumberStr(o)` when the decimal is beyond the largest `float` -/
  | infinite (neg : Bool)
  deriving DecidableEq, Repr

/-- `__init__.py:197-202` `decimal_datetime_default` on a `Decimal`: an integer if integral,
otherwise a `float` (`NumberStr`, whose own `__repr__` the encoder does not call: it uses
`float.__repr__`).  Infinities raise `OverflowError`, NaNs `ValueError` (both in `int(o)`). -/
def decimalDefault : Dec → Except Err JNum
  | .fin neg c e =>
    if (Atom.int (Py.truncDec neg c e)).canon = (Dec.fin neg c e).canon
    then .ok (.int (Py.truncDec neg c e))
    else match Py.floatOf c e with
      | some (c', q) => .ok (.float neg c' q)
      | none => .ok (.infinite neg)
  | .inf _ => .error .overflow
  | .nan _ _ _ => .error .value

/-- The text of a number (`json/encoder.py`: `int.__repr__`, `floatstr`). -/
def numText : JNum → Str
  | .int i => Py.intStr i
  | .float neg c q => Py.floatText neg c q
  | .infinite neg => (if neg then s%"-" else []) ++ s%"Infinity"

/-- The lower-case hexadecimal digit. -/
def hexDigit (n : Nat) : Char := if n < 10 then Char.ofNat (48 + n) else Char.ofNat (87 + n)

/-- `json/encoder.py` `ESCAPE_DCT`: how a character is written inside a string (`ensure_ascii=False`). -/
def escapeChar (c : Char) : Str :=
  if c = '\\' then s%"\\\\"
  else if c = '"' then s%"\\\""
  else if c = '\x08' then s%"\\b"
  else if c = '\x0c' then s%"\\f"
  else if c = '\n' then s%"\\n"
  else if c = '\r' then s%"\\r"
  else if c = '\t' then s%"\\t"
  else if c.toNat < 32 then s%"\\u00" ++ [hexDigit (c.toNat / 16), hexDigit (c.toNat % 16)]
  else [c]

/-- `json/encoder.py` `py_encode_basestring`. -/
def jsonString (s : Str) : Str := '"' :: (s.flatMap escapeChar ++ s%"\"")

/-- The text of a scalar.  A `float` is written by `float.__repr__`, which is also its `str()`, except
for infinities and NaN; a `datetime` goes through `decimal_datetime_default` (`__init__.py:203-204`);
any other object raises `TypeError` (205). -/
def dumpAtom : Atom → Except Err Str
  | .none => .ok s%"null"
  | .str s => .ok (jsonString s)
  | .int i => .ok (Py.intStr i)
  | .bool b => .ok (if b then s%"true" else s%"false")
  | .dec d =>
    match decimalDefault d with
    | .error e => .error e
    | .ok n => .ok (numText n)
  | .float f =>
    match f.exact with
    | .fin _ _ _ => .ok f.repr
    | .inf neg => .ok (numText (.infinite neg))
    | .nan _ _ _ => .ok s%"NaN"
  | .datetime d => .ok (jsonString d.text)
  | .other _ => .error .type

/-- A new line, indented (`json/encoder.py` `_make_iterencode`: `'\n' + _indent * level`). -/
def newline (level : Nat) : Str := '\n' :: List.replicate (4 * level) ' '

mutual
/-- `json/encoder.py` `_iterencode`, `_iterencode_list`, `_iterencode_dict` with `indent=4`; separators
`","` and `": "`. -/
def dump (level : Nat) : Json → Except Err Str
  | .leaf a => dumpAtom a
  | .arr [] => .ok s%"[]"
  | .arr (x :: xs) =>
    match dumpItems (level + 1) (x :: xs) with
    | .error e => .error e
    | .ok ts =>
      .ok ('[' :: (newline (level + 1) ++ (Py.join (',' :: newline (level + 1)) ts ++ (newline level ++ s%"]"))))
  | .obj [] => .ok s%"{}"
  | .obj (f :: fs) =>
    match dumpFields (level + 1) (f :: fs) with
    | .error e => .error e
    | .ok ts =>
      .ok ('{' :: (newline (level + 1) ++ (Py.join (',' :: newline (level + 1)) ts ++ (newline level ++ s%"}"))))
def dumpItems (level : Nat) : List Json → Except Err (List Str)
  | [] => .ok []
  | x :: xs =>
    match dump level x with
    | .error e => .error e
    | .ok t =>
      match dumpItems level xs with
      | .error e => .error e
      | .ok ts => .ok (t :: ts)
def dumpFields (level : Nat) : List (Str × Json) → Except Err (List Str)
  | [] => .ok []
  | (k, x) :: xs =>
    match dump level x with
    | .error e => .error e
    | .ok t =>
      match dumpFields level xs with
      | .error e => .error e
      | .ok ts => .ok ((jsonString k ++ (s%": " ++ t)) :: ts)
end

/-- `json.dumps(doc, indent=4, default=decimal_datetime_default, ensure_ascii=False)`. -/
def dumpJson (doc : Json) : Except Err Str := dump 0 doc

end Verif.Api

import Verif.Py.Val
/-!
`decimal.Decimal(text)`, `str(Decimal)`, `str()` of scalars, `int()` of scalars.
-/
namespace Verif.Py

/-- A run of decimal digits: accumulated value, number of digits, rest. -/
def takeDigits : Nat → Nat → Str → Nat × Nat × Str
  | acc, n, [] => (acc, n, [])
  | acc, n, c :: cs =>
    match digitVal c with
    | some d => takeDigits (acc * 10 + d) (n + 1) cs
    | none => (acc, n, c :: cs)

/-- The exponent part `[eE][+-]?digits` or nothing; must consume everything. -/
def expPart : Str → Option Int
  | [] => some 0
  | c :: cs =>
    if c = 'e' ∨ c = 'E' then
      let (neg, ds) := match cs with
        | '+' :: r => (false, r)
        | '-' :: r => (true, r)
        | r => (false, r)
      let (v, n, rest) := takeDigits 0 0 ds
      if n = 0 ∨ rest ≠ [] then none else some (if neg then -(v : Int) else v)
    else none

/-- `inf`, `infinity`, `nan<digits>`, `snan<digits>` (lower-cased text). -/
def specialDec (neg : Bool) (s : Str) : Option Dec :=
  if s = s%"inf" ∨ s = s%"infinity" then some (.inf neg)
  else
    let (sig, r) := match s with
      | 's' :: r => (true, r)
      | r => (false, r)
    match r with
    | 'n' :: 'a' :: 'n' :: ds =>
      let (v, _, rest) := takeDigits 0 0 ds
      if rest = [] then some (.nan neg sig v) else none
    | _ => none

/-- Unsigned part of the decimal syntax. -/
def unsignedDec (neg : Bool) (s : Str) : Option Dec :=
  let (iv, ni, r) := takeDigits 0 0 s
  let (fv, nf, r') := match r with
    | '.' :: r2 => takeDigits iv 0 r2
    | r2 => (iv, 0, r2)
  if ni + nf = 0 then specialDec neg (lower s)
  else match expPart r' with
    | some e => some (.fin neg fv (e - nf))
    | none => none

/-- `Decimal(s)` for a string; `none` is `InvalidOperation`.  Whitespace is
stripped and underscores removed first, as CPython does.
Simplification: the (astronomic) exponent limits are not modelled. -/
def dec? (s : Str) : Option Dec :=
  match (strip isSpace s).filter (· ≠ '_') with
  | '+' :: cs => unsignedDec false cs
  | '-' :: cs => unsignedDec true cs
  | cs => unsignedDec false cs

/-- `str(d)`: the General Decimal Arithmetic "to-scientific-string". -/
def decStr : Dec → Str
  | .fin neg c e =>
    let ds := natStr c
    let n : Int := ds.length
    let left := e + n
    let dot := if e ≤ 0 ∧ left > -6 then left else 1
    let (ip, fp) :=
      if dot ≤ 0 then (s%"0", '.' :: (List.replicate (-dot).toNat '0' ++ ds))
      else if dot ≥ n then (ds ++ List.replicate (dot - n).toNat '0', [])
      else (ds.take dot.toNat, '.' :: ds.drop dot.toNat)
    let ex := if left = dot then []
      else 'E' :: (if left - dot < 0 then intStr (left - dot) else '+' :: intStr (left - dot))
    (if neg then s%"-" else []) ++ (ip ++ (fp ++ ex))
  | .inf neg => (if neg then s%"-" else []) ++ s%"Infinity"
  | .nan neg sig p =>
    (if neg then s%"-" else []) ++ ((if sig then s%"sNaN" else s%"NaN") ++ (if p = 0 then [] else natStr p))

/-- `str(v)` for a scalar. -/
def str : Atom → Str
  | .none => s%"None"
  | .str s => s
  | .int i => intStr i
  | .bool b => if b then s%"True" else s%"False"
  | .dec d => decStr d
  | .float f => f.repr
  | .datetime d => d.text
  | .other t => t

/-- Truncation towards zero of a finite decimal: `int(d)`. -/
def truncDec (neg : Bool) (c : Nat) (e : Int) : Int :=
  let m : Nat := if e ≥ 0 then c * 10 ^ e.toNat else c / 10 ^ (-e).toNat
  if neg then -(m : Int) else m

end Verif.Py

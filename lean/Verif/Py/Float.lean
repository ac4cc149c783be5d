import Verif.Py.Dec
/-!
`float(d)` for a finite `Decimal` and `float.__repr__`: IEEE 754 double precision with rounding to
nearest, ties to even (CPython: `Python/dtoa.c` through `float(str(d))`), and the shortest decimal
text that reads back as the same double (`repr_style "short"`, dtoa mode 0).

A positive double is a pair `(m, k)` standing for `m * 2^k`, with `m < 2^53`, `k ≥ -1074` and
`m ≥ 2^52` unless `k = -1074`.
-/
namespace Verif.Py

/-- `a / b` rounded to the nearest integer, ties to even. -/
def roundHalfEven (a b : Nat) : Nat :=
  if 2 * (a % b) < b then a / b
  else if b < 2 * (a % b) then a / b + 1
  else if a / b % 2 = 0 then a / b else a / b + 1

/-- Numerator of `n / d / 2^k`. -/
def scaleNum (n : Nat) (k : Int) : Nat := n * 2 ^ (-k).toNat
/-- Denominator of `n / d / 2^k`. -/
def scaleDen (d : Nat) (k : Int) : Nat := d * 2 ^ k.toNat

/-- The exponent with which the double nearest to `n / d` is written: `2^52 ≤ n / d / 2^k < 2^53`
unless that would be below `-1074`. -/
def doubleExp (n d : Nat) : Int :=
  let k0 : Int := (Nat.log2 n : Int) - (Nat.log2 d : Int) - 53
  let k1 := if scaleNum n k0 < 2 ^ 53 * scaleDen d k0 then k0 else k0 + 1
  max k1 (-1074)

/-- The double nearest to `n / d` (`n`, `d` positive), with no upper limit on the exponent. -/
def toDouble (n d : Nat) : Nat × Int :=
  let k := doubleExp n d
  let m := roundHalfEven (scaleNum n k) (scaleDen d k)
  if m = 2 ^ 53 then (2 ^ 52, k + 1) else (m, k)

/-- Numerator of `c * 10^e`. -/
def decNum (c : Nat) (e : Int) : Nat := c * 10 ^ e.toNat
/-- Denominator of `c * 10^e`. -/
def decDen (e : Int) : Nat := 10 ^ (-e).toNat

/-- The double nearest to `c * 10^e`. -/
def decDouble (c : Nat) (e : Int) : Nat × Int := toDouble (decNum c e) (decDen e)

/-- Which of the two neighbours of `m * 2^k` among the multiples of `10^q` reads back as that
double: the nearer one if both do (ties to even). -/
def shortAt (D : Nat × Int) (q : Int) : Option Nat :=
  -- `m * 2^k / 10^q` as a fraction `a / b`
  let a := D.1 * 2 ^ D.2.toNat * 10 ^ (-q).toNat
  let b := 2 ^ (-D.2).toNat * 10 ^ q.toNat
  let lo := a / b
  let okLo := lo ≠ 0 ∧ decDouble lo q = D
  let okHi := decDouble (lo + 1) q = D
  if okLo ∧ okHi then some (roundHalfEven a b)
  else if okLo then some lo
  else if okHi then some (lo + 1)
  else none

/-- Largest exponent first. -/
def shortFrom (D : Nat × Int) : Nat → Int → Option (Nat × Int)
  | 0, _ => none
  | fuel + 1, q =>
    match shortAt D q with
    | some c => some (c, q)
    | none => shortFrom D fuel (q - 1)

/-- Where to begin: `10^q ≤ 2 * m * 2^k` fails for larger `q`. -/
def shortStart (D : Nat × Int) : Int :=
  if 54 + D.2 ≥ 0 then (54 + D.2) / 3 else (54 + D.2) / 4

/-- The shortest decimal `c * 10^q` that reads back as the double `m * 2^k > 0`, and among those the
nearest to it.  Trailing zeros of `c` are left to the printing. -/
def shortest (D : Nat × Int) : Option (Nat × Int) :=
  shortFrom D (shortStart D - min D.2 0 + 1).toNat (shortStart D)

/-- What `float(d)` is, for the finite decimal `c * 10^e` (without its sign), by its shortest
decimal `c' * 10^q'` (`(0, 0)` for zero); `none`: infinite. -/
def floatOf (c : Nat) (e : Int) : Option (Nat × Int) :=
  if c = 0 then some (0, 0)
  else
    let D := decDouble c e
    if D.2 > 971 then none
    else if D.1 = 0 then some (0, 0)
    else shortest D

/-- `float.__repr__` of `± c * 10^q` (the shortest decimal of the float):
`Python/pystrtod.c:format_float_short` with format code `r`: digits without trailing zeros, decimal
point after `decpt` digits; exponent form iff `decpt ≤ -4` or `decpt > 16`. -/
def floatText (neg : Bool) (c : Nat) (q : Int) : Str :=
  let (c', q') := normDec c q
  let ds := natStr c'
  let n : Int := ds.length
  let decpt := n + q'
  (if neg then s%"-" else []) ++
    (if c' = 0 then s%"0.0"
     else if decpt ≤ -4 ∨ 16 < decpt then
      ds.take 1 ++ (if n = 1 then [] else '.' :: ds.drop 1) ++
        'e' :: (if decpt - 1 < 0 then '-' else '+') ::
          (if (decpt - 1).natAbs < 10 then '0' :: natStr (decpt - 1).natAbs else natStr (decpt - 1).natAbs)
     else if decpt ≤ 0 then s%"0." ++ (List.replicate (-decpt).toNat '0' ++ ds)
     else if decpt ≥ n then ds ++ (List.replicate (decpt - n).toNat '0' ++ s%".0")
     else ds.take decpt.toNat ++ '.' :: ds.drop decpt.toNat)

end Verif.Py

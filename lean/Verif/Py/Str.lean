/-!
Python `str` primitives used by flatten-tool.  A Python string is modelled as
the list of its code points.  These are models of CPython built-ins (checked
against CPython 3.11's stdlib behaviour, not against /repo).
-/
namespace Verif

/-- Python `str`: a list of code points. -/
abbrev Str := List Char

open Lean in
/-- `s%"abc"` is the literal `['a', 'b', 'c'] : Str`. -/
macro:max "s%" s:str : term => do
  let cs := s.getString.toList.map (fun c => Syntax.mkCharLit c)
  `(([ $(cs.toArray),* ] : List Char))

namespace Py

/-- `s.split(sep)` for a one-character separator: always at least one piece. -/
def split (sep : Char) : Str → List Str
  | [] => [[]]
  | c :: cs =>
    if c = sep then [] :: split sep cs
    else match split sep cs with
      | [] => [[c]]
      | w :: ws => (c :: w) :: ws

/-- `sep.join(parts)`. -/
def join (sep : Str) : List Str → Str
  | [] => []
  | [x] => x
  | x :: y :: r => x ++ (sep ++ join sep (y :: r))

/-- `s.rstrip(chars)`: drop trailing characters satisfying `p`. -/
def rstrip (p : Char → Bool) : Str → Str
  | [] => []
  | c :: cs =>
    match rstrip p cs with
    | [] => if p c then [] else [c]
    | r => c :: r

/-- `s.lstrip(chars)`. -/
def lstrip (p : Char → Bool) (s : Str) : Str := s.dropWhile p

/-- `s.strip(chars)`. -/
def strip (p : Char → Bool) (s : Str) : Str := rstrip p (lstrip p s)

/-- Work horse of `replaceAll`: `skip` characters are still covered by the
previous match. -/
def replaceAux (old new : Str) : Nat → Str → Str
  | _, [] => []
  | n + 1, _ :: cs => replaceAux old new n cs
  | 0, c :: cs =>
    if old.isPrefixOf (c :: cs) then new ++ replaceAux old new (old.length - 1) cs
    else c :: replaceAux old new 0 cs

/-- `s.replace(old, new)` for non-empty `old` (left to right, non-overlapping). -/
def replaceAll (old new s : Str) : Str := replaceAux old new 0 s

/-- `sub in s` for strings. -/
def contains (sub : Str) : Str → Bool
  | [] => sub.isEmpty
  | c :: cs => sub.isPrefixOf (c :: cs) || contains sub cs

/-- `s.startswith(p)`. -/
def startsWith (p s : Str) : Bool := p.isPrefixOf s

/-- `s.endswith(p)`. -/
def endsWith (p s : Str) : Bool := p.reverse.isPrefixOf s.reverse

/-- Code points skipped by `int()` at both ends of its argument. -/
def isIntSpace (c : Char) : Bool :=
  (c.toNat ≥ 0x9 && c.toNat ≤ 0xd) || c.toNat == 0x20 || c.toNat == 0x85 || c.toNat == 0xa0 ||
  c.toNat == 0x1680 || (c.toNat ≥ 0x2000 && c.toNat ≤ 0x200a) || c.toNat == 0x2028 ||
  c.toNat == 0x2029 || c.toNat == 0x202f || c.toNat == 0x205f || c.toNat == 0x3000

/-- `str.isspace()` for one code point; used by `split()`, `strip()` and `Decimal()`. -/
def isSpace (c : Char) : Bool :=
  isIntSpace c || (c.toNat ≥ 0x1c && c.toNat ≤ 0x1f)

/-- The zeros of the Unicode decimal digit ranges (category Nd) other than ASCII. -/
def unicodeZeros : List Nat :=
  [0x660, 0x6f0, 0x7c0, 0x966, 0x9e6, 0xa66, 0xae6, 0xb66, 0xbe6, 0xc66, 0xce6, 0xd66, 0xde6,
   0xe50, 0xed0, 0xf20, 0x1040, 0x1090, 0x17e0, 0x1810, 0x1946, 0x19d0, 0x1a80, 0x1a90, 0x1b50,
   0x1bb0, 0x1c40, 0x1c50, 0xa620, 0xa8d0, 0xa900, 0xa9d0, 0xa9f0, 0xaa50, 0xabf0, 0xff10,
   0x104a0, 0x10d30, 0x11066, 0x110f0, 0x11136, 0x111d0, 0x112f0, 0x11450, 0x114d0, 0x11650,
   0x116c0, 0x11730, 0x118e0, 0x11950, 0x11c50, 0x11d50, 0x11da0, 0x16a60, 0x16ac0, 0x16b50,
   0x1d7ce, 0x1d7d8, 0x1d7e2, 0x1d7ec, 0x1d7f6, 0x1e140, 0x1e2f0, 0x1e950, 0x1fbf0]

/-- Value of a decimal digit code point, as used by `int()` and `Decimal()`. -/
def digitVal (c : Char) : Option Nat :=
  if c.toNat ≥ 48 && c.toNat ≤ 57 then some (c.toNat - 48)
  else (unicodeZeros.find? (fun z => c.toNat ≥ z && c.toNat ≤ z + 9)).map (fun z => c.toNat - z)

/-- Digits with single underscores between them; `prev`: the previous character
was a digit. -/
def digitsAux : Bool → Nat → Str → Option Nat
  | prev, acc, [] => if prev then some acc else none
  | prev, acc, c :: cs =>
    match digitVal c with
    | some d => digitsAux true (acc * 10 + d) cs
    | none => if c = '_' && prev then digitsAux false acc cs else none

/-- `int(s)` for a string: `none` is `ValueError`.
Simplification: CPython's limit on the number of digits (4300 by default since
3.11) is not modelled. -/
def int? (s : Str) : Option Int :=
  match strip isIntSpace s with
  | '+' :: cs => (digitsAux false 0 cs).map Int.ofNat
  | '-' :: cs => (digitsAux false 0 cs).map (fun n => -(n : Int))
  | cs => (digitsAux false 0 cs).map Int.ofNat

/-- The ASCII digit for `d < 10`. -/
def digitChar (d : Nat) : Char := Char.ofNat (48 + d)

/-- Decimal digits of `n`, most significant first, prepended to `acc`. -/
def natStrAux : Nat → Nat → Str → Str
  | 0, _, acc => acc
  | fuel + 1, n, acc =>
    if n < 10 then digitChar n :: acc
    else natStrAux fuel (n / 10) (digitChar (n % 10) :: acc)

/-- `str(n)` for a non-negative integer. -/
def natStr (n : Nat) : Str := natStrAux (n + 1) n []

/-- `str(i)` for an integer. -/
def intStr (i : Int) : Str :=
  if i < 0 then '-' :: natStr i.natAbs else natStr i.natAbs

/-- `c.lower()`.  Exact for ASCII results: the only non-ASCII code points whose
lower case contains ASCII characters are U+0130 and U+212A.  Simplification:
other non-ASCII upper-case letters are left alone. -/
def lowerChar (c : Char) : Str :=
  if c.toNat ≥ 65 && c.toNat ≤ 90 then [Char.ofNat (c.toNat + 32)]
  else if c.toNat == 0x130 then ['i', Char.ofNat 0x307]
  else if c.toNat == 0x212a then ['k']
  else [c]

/-- `s.lower()` (see `lowerChar`). -/
def lower (s : Str) : Str := s.flatMap lowerChar

/-- `s.split()`: split on runs of whitespace, dropping empty pieces. -/
def words (s : Str) : List Str :=
  let rec go (cur : Str) : Str → List Str
    | [] => if cur.isEmpty then [] else [cur.reverse]
    | c :: cs =>
      if isSpace c then (if cur.isEmpty then go [] cs else cur.reverse :: go [] cs)
      else go (c :: cur) cs
  go [] s

/-- Python truth value of a string. -/
def truthy (s : Str) : Bool := !s.isEmpty

end Py

/-! ### Ordered dictionaries -/

namespace Dict

variable {κ : Type} {α : Type}

/-- `d.get(k)` for a dict in insertion order. -/
def get [DecidableEq κ] (d : List (κ × α)) (k : κ) : Option α :=
  (d.find? (fun e => e.1 = k)).map (·.2)

/-- `d[k] = v`: an existing key keeps its place, a new key goes to the end. -/
def set [DecidableEq κ] : List (κ × α) → κ → α → List (κ × α)
  | [], k, v => [(k, v)]
  | (k', v') :: r, k, v => if k' = k then (k', v) :: r else (k', v') :: set r k v

/-- `k in d`. -/
def has [DecidableEq κ] (d : List (κ × α)) (k : κ) : Bool := (get d k).isSome

/-- `d.update(e)`. -/
def update [DecidableEq κ] (d e : List (κ × α)) : List (κ × α) :=
  e.foldl (fun acc kv => set acc kv.1 kv.2) d

/-- `list(d.keys())`. -/
def keys (d : List (κ × α)) : List κ := d.map (·.1)

end Dict
end Verif

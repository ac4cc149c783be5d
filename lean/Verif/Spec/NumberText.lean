import Verif.Py.Val
import Verif.Spec.List
/-! Specification vocabulary: which texts are numbers. -/
namespace Verif.Spec

/-- A decimal digit (of any script) and its value. -/
def DigitOf (c : Char) (d : Nat) : Prop := d ≤ 9 ∧ ∃ zero, (zero = 48 ∨ zero ∈ Py.unicodeZeros) ∧ c.toNat = zero + d

/-- DigitsOf in a row, and the number they write; no digits are 0. -/
inductive DigitsOf : Str → Nat → Prop
  | nil : DigitsOf [] 0
  | snoc {s v c d} : DigitsOf s v → DigitOf c d → DigitsOf (s ++ [c]) (10 * v + d)

/-- At least one digit, with single underscores between digits where one likes. -/
inductive Grouped : Str → Nat → Prop
  | one {c d} : DigitOf c d → Grouped [c] d
  | more {s v c d} : Grouped s v → DigitOf c d → Grouped (s ++ [c]) (10 * v + d)
  | group {s v c d} : Grouped s v → DigitOf c d → Grouped (s ++ ['_', c]) (10 * v + d)

/-- A sign, and whether it is a minus. -/
inductive Sign : Str → Bool → Prop
  | none : Sign [] false
  | plus : Sign ['+'] false
  | minus : Sign ['-'] true

/-- The text of a whole number: spaces, a sign, grouped digits, spaces. -/
def IntText (s : Str) (i : Int) : Prop :=
  ∃ before sign body after neg v, s = before ++ (sign ++ (body ++ after)) ∧ (∀ c ∈ before, Py.isIntSpace c = true) ∧ (∀ c ∈ after, Py.isIntSpace c = true) ∧
    Sign sign neg ∧ Grouped body v ∧ i = if neg then -(v : Int) else v

/-- The exponent of a number: nothing, or `e`, a sign and digits. -/
inductive Exponent : Str → Int → Prop
  | none : Exponent [] 0
  | some {e sign neg ds v} : e = 'e' ∨ e = 'E' → Sign sign neg → DigitsOf ds v → ds ≠ [] → Exponent (e :: (sign ++ ds)) (if neg then -(v : Int) else v)

/-- The (small) letter, or its capital. -/
def SameLetter (c small : Char) : Prop := c = small ∨ (65 ≤ c.toNat ∧ c.toNat ≤ 90 ∧ small.toNat = c.toNat + 32)

/-- The word, in any mixture of small and capital letters. -/
def Spelled (t word : Str) : Prop := All₂ SameLetter t word

/-- A number without its sign: digits with a point before, between or after them and an exponent; or infinity; or not a number. -/
inductive Unsigned (neg : Bool) : Str → Dec → Prop
  | whole {ip ex c e} : DigitsOf ip c → ip ≠ [] → Exponent ex e → Unsigned neg (ip ++ ex) (.fin neg c e)
  | point {ip fp ex c e} : DigitsOf (ip ++ fp) c → ip ++ fp ≠ [] → Exponent ex e → Unsigned neg (ip ++ '.' :: (fp ++ ex)) (.fin neg c (e - fp.length))
  | inf {t} : Spelled t s%"inf" ∨ Spelled t s%"infinity" → Unsigned neg t (.inf neg)
  | nan {t ds p} : Spelled t s%"nan" → DigitsOf ds p → Unsigned neg (t ++ ds) (.nan neg false p)
  | snan {t ds p} : Spelled t s%"snan" → DigitsOf ds p → Unsigned neg (t ++ ds) (.nan neg true p)

/-- The text of a number: spaces around, a sign, and underscores anywhere between. -/
def DecText (s : Str) (d : Dec) : Prop :=
  ∃ before body after sign neg t, s = before ++ (body ++ after) ∧ (∀ c ∈ before, Py.isSpace c = true) ∧ (∀ c ∈ after, Py.isSpace c = true) ∧
    body.filter (· ≠ '_') = sign ++ t ∧ Sign sign neg ∧ Unsigned neg t d

/-- The pieces of a text between separators. -/
def Pieces (sep : Char) (s : Str) (l : List Str) : Prop := l ≠ [] ∧ (∀ p ∈ l, sep ∉ p) ∧ s = Py.join [sep] l

end Verif.Spec

import Verif.Spec.Double
import Verif.Spec.Number
import Verif.Py.Val
/-!
Specification: JSON texts (RFC 8259) and what they denote.  Nothing here refers to the model of the
encoder.
-/
namespace Verif.Spec

/-- What a JSON text denotes.  Numbers are rationals; members of objects are in the order of the text. -/
inductive JVal where
  | null
  | bool (b : Bool)
  | num (q : ℚ)
  | str (s : Str)
  | arr (l : List JVal)
  | obj (l : List (Str × JVal))

/-- Insignificant white space. -/
def Ws (w : Str) : Prop := ∀ c ∈ w, c = ' ' ∨ c = '\n' ∨ c = '\r' ∨ c = '\t'

/-- ASCII digits and their value. -/
inductive Digit : Char → Nat → Prop
  | mk (n : Nat) (h : n < 10) : Digit (Char.ofNat (48 + n)) n

/-- `ds` is a sequence of digits; `n` is the number they write. -/
inductive Digits : Str → Nat → Prop
  | nil : Digits [] 0
  | snoc {ds c n d} : Digits ds n → Digit c d → Digits (ds ++ [c]) (10 * n + d)

/-- `int = zero / ( digit1-9 *DIGIT )` -/
def IntPart (ds : Str) (n : Nat) : Prop :=
  Digits ds n ∧ ds ≠ [] ∧ (ds = s%"0" ∨ ds.head? ≠ some '0')

/-- `[ frac ]`, `frac = decimal-point 1*DIGIT`: the digits after the point. -/
def FracPart (t ds : Str) : Prop := (t = [] ∧ ds = []) ∨ (t = '.' :: ds ∧ ds ≠ [])

/-- `[ exp ]`, `exp = e [ minus / plus ] 1*DIGIT` -/
inductive ExpPart : Str → Int → Prop
  | none : ExpPart [] 0
  | plain {l ds n} : (l = 'e' ∨ l = 'E') → Digits ds n → ds ≠ [] → ExpPart (l :: ds) n
  | plus {l ds n} : (l = 'e' ∨ l = 'E') → Digits ds n → ds ≠ [] → ExpPart (l :: '+' :: ds) n
  | minus {l ds n} : (l = 'e' ∨ l = 'E') → Digits ds n → ds ≠ [] → ExpPart (l :: '-' :: ds) (-n)

/-- `number = [ minus ] int [ frac ] [ exp ]`: the digits before and after the point write the
coefficient. -/
def NumText (t : Str) (q : ℚ) : Prop :=
  ∃ (neg : Bool) (ip ft fp ex : Str) (i c : Nat) (e : Int),
    t = (if neg then s%"-" else []) ++ (ip ++ (ft ++ ex)) ∧
    IntPart ip i ∧ FracPart ft fp ∧ Digits (ip ++ fp) c ∧ ExpPart ex e ∧
    q = decQ neg c (e - fp.length)

/-- Two-character escapes. -/
def ShortEscape (l c : Char) : Prop :=
  (l, c) ∈ [('"', '"'), ('\\', '\\'), ('/', '/'), ('b', '\x08'), ('f', '\x0c'), ('n', '\n'), ('r', '\r'), ('t', '\t')]

/-- Hexadecimal digits. -/
def hexVal (c : Char) : Option Nat :=
  if '0' ≤ c ∧ c ≤ '9' then some (c.toNat - 48)
  else if 'a' ≤ c ∧ c ≤ 'f' then some (c.toNat - 87)
  else if 'A' ≤ c ∧ c ≤ 'F' then some (c.toNat - 55)
  else none

/-- The four hexadecimal digits write the code unit `n`. -/
def Hex4 (a b c d : Char) (n : Nat) : Prop :=
  ∃ x y z w, hexVal a = some x ∧ hexVal b = some y ∧ hexVal c = some z ∧ hexVal d = some w ∧
    n = ((x * 16 + y) * 16 + z) * 16 + w

/-- The characters between the quotation marks, and the string they denote. -/
inductive Chars : Str → Str → Prop
  | nil : Chars [] []
  | plain {c t s} : 32 ≤ c.toNat → c ≠ '"' → c ≠ '\\' → Chars t s → Chars (c :: t) (c :: s)
  | short {l c t s} : ShortEscape l c → Chars t s → Chars ('\\' :: l :: t) (c :: s)
  | unit {a b c d n t s} : Hex4 a b c d n → n < 0xd800 ∨ 0xe000 ≤ n → Chars t s →
      Chars ('\\' :: 'u' :: a :: b :: c :: d :: t) (Char.ofNat n :: s)
  | pair {a b c d a' b' c' d' h l t s} : Hex4 a b c d h → 0xd800 ≤ h ∧ h < 0xdc00 →
      Hex4 a' b' c' d' l → 0xdc00 ≤ l ∧ l < 0xe000 → Chars t s →
      Chars ('\\' :: 'u' :: a :: b :: c :: d :: '\\' :: 'u' :: a' :: b' :: c' :: d' :: t)
        (Char.ofNat (0x10000 + (h - 0xd800) * 0x400 + (l - 0xdc00)) :: s)

/-- A string in quotation marks. -/
def StrText (t s : Str) : Prop := ∃ b, t = '"' :: (b ++ s%"\"") ∧ Chars b s

mutual
/-- A JSON value. -/
inductive ValueText : Str → JVal → Prop
  | null : ValueText s%"null" .null
  | true : ValueText s%"true" (.bool true)
  | false : ValueText s%"false" (.bool false)
  | num {t q} : NumText t q → ValueText t (.num q)
  | str {t s} : StrText t s → ValueText t (.str s)
  | arr0 {w} : Ws w → ValueText ('[' :: (w ++ s%"]")) (.arr [])
  | arr {t l} : ItemsText t l → ValueText ('[' :: (t ++ s%"]")) (.arr l)
  | obj0 {w} : Ws w → ValueText ('{' :: (w ++ s%"}")) (.obj [])
  | obj {t l} : MembersText t l → ValueText ('{' :: (t ++ s%"}")) (.obj l)
/-- One or more values with commas between them. -/
inductive ItemsText : Str → List JVal → Prop
  | one {w t v w'} : Ws w → ValueText t v → Ws w' → ItemsText (w ++ (t ++ w')) [v]
  | cons {w t v w' r l} : Ws w → ValueText t v → Ws w' → ItemsText r l →
      ItemsText (w ++ (t ++ (w' ++ ',' :: r))) (v :: l)
/-- One or more members with commas between them. -/
inductive MembersText : Str → List (Str × JVal) → Prop
  | one {w k s w1 w2 t v w3} : Ws w → StrText k s → Ws w1 → Ws w2 → ValueText t v → Ws w3 →
      MembersText (w ++ (k ++ (w1 ++ ':' :: (w2 ++ (t ++ w3))))) [(s, v)]
  | cons {w k s w1 w2 t v w3 r l} : Ws w → StrText k s → Ws w1 → Ws w2 → ValueText t v → Ws w3 → MembersText r l →
      MembersText (w ++ (k ++ (w1 ++ ':' :: (w2 ++ (t ++ (w3 ++ ',' :: r)))))) ((s, v) :: l)
end

/-- `JSON-text = ws value ws` -/
def JsonText (t : Str) (v : JVal) : Prop := ∃ w s w', t = w ++ (s ++ w') ∧ Ws w ∧ ValueText s v ∧ Ws w'

/-- What becomes of a decimal number in JSON: itself if it is integral, otherwise the shortest decimal
of its double (which must be finite). -/
def WrittenNumber (x y : ℚ) : Prop :=
  ((∃ i : ℤ, x = i) ∧ y = x) ∨
  ((¬ ∃ i : ℤ, x = i) ∧ ∃ d, RoundsTo x d ∧ |d| < 2 ^ 1024 ∧ Shortest d y)

/-- The scalar is written as the JSON value.  (A float is known by its text.) -/
inductive AtomDenotes : Atom → JVal → Prop
  | none : AtomDenotes .none .null
  | bool {b} : AtomDenotes (.bool b) (.bool b)
  | str {s} : AtomDenotes (.str s) (.str s)
  | int {i : Int} : AtomDenotes (.int i) (.num i)
  | dec {neg c e y} : WrittenNumber (decQ neg c e) y → AtomDenotes (.dec (.fin neg c e)) (.num y)
  | float {r n c e y} : NumText r y → AtomDenotes (.float ⟨r, .fin n c e⟩) (.num y)
  | datetime {d} : AtomDenotes (.datetime d) (.str d.text)

mutual
/-- The document, as a JSON value: same structure, same order. -/
inductive Denotes : Json → JVal → Prop
  | leaf {a v} : AtomDenotes a v → Denotes (.leaf a) v
  | arr {l l'} : AllDenote l l' → Denotes (.arr l) (.arr l')
  | obj {l l'} : FieldsDenote l l' → Denotes (.obj l) (.obj l')
inductive AllDenote : List Json → List JVal → Prop
  | nil : AllDenote [] []
  | cons {x v l l'} : Denotes x v → AllDenote l l' → AllDenote (x :: l) (v :: l')
inductive FieldsDenote : List (Str × Json) → List (Str × JVal) → Prop
  | nil : FieldsDenote [] []
  | cons {k x v l l'} : Denotes x v → FieldsDenote l l' → FieldsDenote ((k, x) :: l) ((k, v) :: l')
end

/-- The scalar occurs in the document. -/
inductive HasLeaf : Json → Atom → Prop
  | leaf {a} : HasLeaf (.leaf a) a
  | arr {x l a} : x ∈ l → HasLeaf x a → HasLeaf (.arr l) a
  | obj {k x l a} : (k, x) ∈ l → HasLeaf x a → HasLeaf (.obj l) a

/-- Scalars that have a place in JSON: nothing, texts, integers, truth values, dates, finite decimals that
are integral or at most `2^1023` in size, finite floats whose text is a JSON number. -/
def WritableAtom : Atom → Prop
  | .dec (.fin neg c e) => Integral neg c e ∨ |decQ neg c e| ≤ 2 ^ 1023
  | .dec _ => False
  | .float ⟨r, .fin _ _ _⟩ => ∃ y, NumText r y
  | .float _ => False
  | .other _ => False
  | _ => True

/-- Scalars `unflatten` cannot write at all. -/
def RefusedAtom : Atom → Prop
  | .dec (.inf _) => True
  | .dec (.nan _ _ _) => True
  | .other _ => True
  | _ => False

end Verif.Spec

import Verif.Py.Val
import Verif.Model.Convert
/-! Specification vocabulary for the conversion of cell texts. -/
namespace Verif.Spec

/-- The upper case variant of an ASCII lower case letter (other characters have none). -/
def upperOf (c : Char) : Char :=
  if 97 ≤ c.toNat ∧ c.toNat ≤ 122 then Char.ofNat (c.toNat - 32) else c

/-- `s` is `w` up to the case of ASCII letters (`w` in lower case). -/
def SameIgnoringCase : Str → Str → Prop
  | [], [] => True
  | a :: s, b :: w => (a = b ∨ a = upperOf b) ∧ SameIgnoringCase s w
  | _, _ => False

/-- The value is a number / an integer / a boolean. -/
def OfType : CType → Val → Prop
  | .number, .atom (.dec _) => True
  | .integer, .atom (.int _) => True
  | .boolean, .atom (.bool _) => True
  | _, _ => False

/-- The warning that reports a text not fitting the type. -/
def misfit (ty : CType) (s : Str) : Warn :=
  match ty with
  | .number => .nonNumeric s
  | .integer => .nonInteger s
  | _ => .badBoolean s

/-- A finite decimal number as a cell value. -/
def isFinite : Dec → Prop
  | .fin _ _ _ => True
  | _ => False

end Verif.Spec

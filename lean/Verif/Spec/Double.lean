import Mathlib.Data.Rat.Floor
import Mathlib.Algebra.Order.Archimedean.Basic
import Mathlib.Tactic.Linarith
import Mathlib.Tactic.Positivity
import Mathlib.Tactic.NormNum
/-!
Specification: double precision numbers (IEEE 754 binary64) as rationals.  Nothing here refers to the
model.
-/
namespace Verif.Spec

/-- `d` is `m * 2^k` with at most 53 binary digits and a smallest exponent of `-1074`.  (No largest
exponent: numbers from `2^1024` on are "infinite" floats.) -/
def IsDouble (d : ℚ) : Prop := ∃ m k : ℤ, |m| < 2 ^ 53 ∧ -1074 ≤ k ∧ d = m * 2 ^ k

/-- A double whose last binary digit is 0. -/
def EvenDouble (d : ℚ) : Prop := ∃ m k : ℤ, |2 * m| < 2 ^ 53 ∧ -1074 ≤ k ∧ d = (2 * m : ℤ) * 2 ^ k

/-- `d` is what the number `x` becomes in double precision: the nearest double, ties to even. -/
def RoundsTo (x d : ℚ) : Prop :=
  IsDouble d ∧ ∀ d', IsDouble d' → d' ≠ d → |x - d| < |x - d'| ∨ (|x - d| = |x - d'| ∧ EvenDouble d)

/-- `y` is the shortest decimal that becomes `d`: `y = c * 10^q`, no decimal with fewer digits
(`c' * 10^q'`, `q' > q`) becomes `d`, and none with as many is nearer to `d`. -/
def Shortest (d y : ℚ) : Prop :=
  (d = 0 ∧ y = 0) ∨
  (d ≠ 0 ∧ RoundsTo y d ∧ ∃ c q : ℤ, y = c * 10 ^ q ∧
    (∀ c' q' : ℤ, RoundsTo (c' * 10 ^ q') d → q' ≤ q) ∧
    ∀ c' : ℤ, RoundsTo (c' * 10 ^ q) d → |d - y| ≤ |d - c' * 10 ^ q|)

/-- The number `± c * 10^e`. -/
def decQ (neg : Bool) (c : Nat) (e : Int) : ℚ := (if neg then -1 else 1) * (c * 10 ^ e)

end Verif.Spec

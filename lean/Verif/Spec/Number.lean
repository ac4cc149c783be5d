import Verif.Py.Val
/-!
Specification: what it means for two decimals to denote the same number.
Independent of the canonical forms used by the model of Python's `==`.
-/
namespace Verif.Spec

/-- The integer `±c * 10^k`. -/
def scaled (neg : Bool) (c k : Nat) : Int := if neg then -((c * 10 ^ k : Nat) : Int) else ((c * 10 ^ k : Nat) : Int)

/-- `(-1)^n1 * c1 * 10^e1 = (-1)^n2 * c2 * 10^e2`: both sides multiplied by
`10^(-min e1 e2)`, so that they are integers. -/
def SameNumber (n1 : Bool) (c1 : Nat) (e1 : Int) (n2 : Bool) (c2 : Nat) (e2 : Int) : Prop :=
  scaled n1 c1 (e1 - min e1 e2).toNat = scaled n2 c2 (e2 - min e1 e2).toNat

/-- `(-1)^neg * c * 10^e` is the integer `i`. -/
def EqInt (neg : Bool) (c : Nat) (e : Int) (i : Int) : Prop :=
  if 0 ≤ e then scaled neg c e.toNat = i else scaled neg c 0 = i * 10 ^ (-e).toNat

instance (n1 : Bool) (c1 : Nat) (e1 : Int) (n2 : Bool) (c2 : Nat) (e2 : Int) :
    Decidable (SameNumber n1 c1 e1 n2 c2 e2) := by unfold SameNumber; infer_instance
instance (neg : Bool) (c : Nat) (e i : Int) : Decidable (EqInt neg c e i) := by
  unfold EqInt; infer_instance

/-- The number is integral. -/
def Integral (neg : Bool) (c : Nat) (e : Int) : Prop := ∃ i, EqInt neg c e i

end Verif.Spec

import Verif.Proofs.DecEq
import Verif.Model.Main
/-! Decidable equality of XML documents, for evaluating concrete cases in the kernel. -/
namespace Verif

mutual
def Xml.Elem.eqb : Xml.Elem → Xml.Elem → Bool
  | .mk t a x c, .mk t' a' x' c' => t == t' && a == a' && x == x' && Xml.Elem.eqbList c c'
def Xml.Elem.eqbList : List Xml.Elem → List Xml.Elem → Bool
  | [], [] => true
  | a :: r, b :: s => Xml.Elem.eqb a b && Xml.Elem.eqbList r s
  | _, _ => false
end

mutual
theorem Xml.Elem.eqb_iff : ∀ (a b : Xml.Elem), a.eqb b = true ↔ a = b
  | .mk t a x c, .mk t' a' x' c' => by
    simp [Xml.Elem.eqb, Xml.Elem.eqbList_iff c c', and_assoc]
theorem Xml.Elem.eqbList_iff : ∀ (a b : List Xml.Elem), Xml.Elem.eqbList a b = true ↔ a = b
  | [], b => by cases b <;> simp [Xml.Elem.eqbList]
  | v :: r, b => by
    cases b with
    | nil => simp [Xml.Elem.eqbList]
    | cons e s => simp [Xml.Elem.eqbList, Xml.Elem.eqb_iff v e, Xml.Elem.eqbList_iff r s]
end

instance : DecidableEq Xml.Elem := fun a b => decidable_of_iff _ (Xml.Elem.eqb_iff a b)
deriving instance DecidableEq for Api.Document

end Verif

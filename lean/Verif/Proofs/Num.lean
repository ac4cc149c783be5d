import Verif.Spec.Number
import Verif.Py.Dec
/-! Canonical numbers are equal iff the numbers are. -/
namespace Verif
open Spec

theorem stripZeros_spec (fuel c : Nat) (e : Int) (hc : c ≠ 0) (hf : c ≤ fuel) :
    ∃ a : Nat, (stripZeros fuel c e).2 = e + a ∧ c = (stripZeros fuel c e).1 * 10 ^ a ∧
      (stripZeros fuel c e).1 % 10 ≠ 0 := by
  induction fuel generalizing c e with
  | zero => omega
  | succ n ih =>
    unfold stripZeros
    split
    · next h =>
      obtain ⟨a, h1, h2, h3⟩ := ih (c / 10) (e + 1) (by omega) (by omega)
      refine ⟨a + 1, by rw [h1]; omega, ?_, h3⟩
      rw [Nat.pow_succ, ← Nat.mul_assoc, ← h2]; omega
    · next h => exact ⟨0, by simp, by simp, h⟩

theorem normDec_spec (c : Nat) (e : Int) (hc : c ≠ 0) :
    ∃ a : Nat, (normDec c e).2 = e + a ∧ c = (normDec c e).1 * 10 ^ a ∧ (normDec c e).1 % 10 ≠ 0 := by
  unfold normDec; rw [if_neg hc]; exact stripZeros_spec c c e hc (Nat.le_refl _)

theorem pow10_cancel {c1 c2 k1 k2 : Nat} (h1 : c1 % 10 ≠ 0) (h2 : c2 % 10 ≠ 0)
    (h : c1 * 10 ^ k1 = c2 * 10 ^ k2) : k1 = k2 ∧ c1 = c2 := by
  have key : ∀ {c1 c2 k1 k2 : Nat}, c2 % 10 ≠ 0 → c1 * 10 ^ k1 = c2 * 10 ^ k2 → k1 ≤ k2 := by
    intro c1 c2 k1 k2 h2 h
    rcases Nat.lt_or_ge k2 k1 with hlt | hge
    · exfalso
      obtain ⟨d, rfl⟩ := Nat.exists_eq_add_of_lt hlt
      have h10 : 0 < 10 ^ k2 := Nat.pow_pos (by omega)
      have : c1 * 10 ^ (d + 1) * 10 ^ k2 = c2 * 10 ^ k2 := by
        rw [← h, Nat.mul_assoc, ← Nat.pow_add]; congr 2; omega
      have := Nat.eq_of_mul_eq_mul_right h10 this
      apply h2; rw [← this, Nat.pow_succ, ← Nat.mul_assoc]; omega
    · exact hge
  have hk : k1 = k2 := Nat.le_antisymm (key h2 h) (key h1 h.symm)
  subst hk
  exact ⟨rfl, Nat.eq_of_mul_eq_mul_right (Nat.pow_pos (by omega)) h⟩

theorem scaled_eq {n1 n2 : Bool} {c1 k1 c2 k2 : Nat} :
    scaled n1 c1 k1 = scaled n2 c2 k2 ↔
      c1 * 10 ^ k1 = c2 * 10 ^ k2 ∧ (c1 = 0 ∨ n1 = n2) := by
  unfold scaled
  have hp : 0 < 10 ^ k1 := Nat.pow_pos (by omega)
  have h0 : c1 * 10 ^ k1 = 0 ↔ c1 = 0 := by
    rw [Nat.mul_eq_zero]; omega
  cases n1 <;> cases n2 <;> simp only [if_true, Bool.false_eq_true, if_false] <;>
    generalize c1 * 10 ^ k1 = x at * <;> generalize c2 * 10 ^ k2 = y at * <;> (try simp) <;> omega

theorem canonNum_eq_iff (n1 : Bool) (c1 : Nat) (e1 : Int) (n2 : Bool) (c2 : Nat) (e2 : Int) :
    canonNum n1 c1 e1 = canonNum n2 c2 e2 ↔ SameNumber n1 c1 e1 n2 c2 e2 := by
  unfold SameNumber
  rw [scaled_eq]
  by_cases z1 : c1 = 0
  · subst z1
    by_cases z2 : c2 = 0
    · subst z2; simp [canonNum]
    · have hp : 0 < 10 ^ (e2 - min e1 e2).toNat := Nat.pow_pos (by omega)
      obtain ⟨a, h1, h2, h3⟩ := normDec_spec c2 e2 z2
      simp only [canonNum, if_true, z2, if_false, Nat.zero_mul, true_or, and_true]
      constructor
      · intro h; injection h with _ hc _; rw [← hc] at h3; simp at h3
      · intro h; exfalso
        have := Nat.mul_pos (Nat.pos_of_ne_zero z2) hp
        omega
  · by_cases z2 : c2 = 0
    · subst z2
      have hp : 0 < 10 ^ (e1 - min e1 e2).toNat := Nat.pow_pos (by omega)
      obtain ⟨a, h1, h2, h3⟩ := normDec_spec c1 e1 z1
      simp only [canonNum, if_true, z1, if_false, Nat.zero_mul]
      constructor
      · intro h; injection h with _ hc _; rw [hc] at h3; simp at h3
      · intro h; exfalso
        have := Nat.mul_pos (Nat.pos_of_ne_zero z1) hp
        omega
    · obtain ⟨a1, h1, h2, h3⟩ := normDec_spec c1 e1 z1
      obtain ⟨a2, g1, g2, g3⟩ := normDec_spec c2 e2 z2
      simp only [canonNum, z1, z2, if_false, false_or, Canon.num.injEq]
      generalize (normDec c1 e1).1 = d1 at *
      generalize (normDec c2 e2).1 = d2 at *
      rw [h1, g1, h2, g2, Nat.mul_assoc, Nat.mul_assoc, ← Nat.pow_add, ← Nat.pow_add]
      constructor
      · rintro ⟨hn, hc, he⟩
        refine ⟨?_, hn⟩
        rw [hc]; congr 2; omega
      · rintro ⟨h, hn⟩
        obtain ⟨hk, hc⟩ := pow10_cancel h3 g3 h
        exact ⟨hn, hc, by omega⟩

theorem sameNumber_int_iff (neg : Bool) (c : Nat) (e i : Int) :
    SameNumber neg c e (decide (i < 0)) i.natAbs 0 ↔ EqInt neg c e i := by
  unfold SameNumber EqInt
  have hi : ∀ k, scaled (decide (i < 0)) i.natAbs k = i * 10 ^ k := by
    intro k; unfold scaled
    by_cases h : i < 0
    · simp only [h, decide_true, if_true]
      have : i = -(i.natAbs : Int) := by omega
      rw [Int.natCast_mul, ← Int.neg_mul, ← this]; simp
    · simp only [h, decide_false, Bool.false_eq_true, if_false]
      have : i = (i.natAbs : Int) := by omega
      rw [Int.natCast_mul, ← this]; simp
  by_cases h : 0 ≤ e
  · rw [if_pos h]
    have : min e 0 = 0 := by omega
    rw [this, hi]; simp
  · rw [if_neg h]
    have : min e 0 = e := by omega
    rw [this, hi]; simp

/-- `int(d)` is the number itself when it is integral. -/
theorem truncDec_of_eqInt {neg : Bool} {c : Nat} {e i : Int} (h : EqInt neg c e i) :
    Py.truncDec neg c e = i := by
  unfold EqInt at h; unfold Py.truncDec
  by_cases he : 0 ≤ e
  · rw [if_pos he] at h
    simp only [ge_iff_le, he, if_true]
    rw [← h]; unfold scaled; cases neg <;> simp
  · rw [if_neg he] at h
    simp only [ge_iff_le, he, if_false]
    have hp : 0 < 10 ^ (-e).toNat := Nat.pow_pos (n := (-e).toNat) (by omega : 0 < 10)
    unfold scaled at h
    have hi : (10 : Int) ^ (-e).toNat = ((10 ^ (-e).toNat : Nat) : Int) := by simp
    rw [hi] at h
    generalize 10 ^ (-e).toNat = p at *
    have hpp : (p : Int) ≠ 0 := by omega
    cases neg with
    | true =>
      simp only [if_true, Nat.pow_zero, Nat.mul_one] at h ⊢
      have hc : (c : Int) = (-i) * p := by rw [Int.neg_mul]; omega
      have hni : 0 ≤ -i := by
        rcases Int.lt_or_le (-i) 0 with h' | h'
        · have := Int.mul_neg_of_neg_of_pos h' (by omega : (0:Int) < p); omega
        · exact h'
      obtain ⟨k, hk⟩ := Int.eq_ofNat_of_zero_le hni
      rw [hk] at hc
      have hc' : c = k * p := by exact_mod_cast hc
      rw [hc', Nat.mul_div_cancel _ hp]; omega
    | false =>
      simp only [Bool.false_eq_true, if_false, Nat.pow_zero, Nat.mul_one] at h ⊢
      have hni : 0 ≤ i := by
        rcases Int.lt_or_le i 0 with h' | h'
        · have := Int.mul_neg_of_neg_of_pos h' (by omega : (0:Int) < p); omega
        · exact h'
      obtain ⟨k, hk⟩ := Int.eq_ofNat_of_zero_le hni
      rw [hk] at h
      have hc' : c = k * p := by exact_mod_cast h
      rw [hc', Nat.mul_div_cancel _ hp]; omega

/-- `int(d) == d` exactly when `d` is integral. -/
theorem trunc_canon_iff (neg : Bool) (c : Nat) (e : Int) :
    (Atom.int (Py.truncDec neg c e)).canon = (Dec.fin neg c e).canon ↔ Integral neg c e := by
  simp only [Atom.canon, Dec.canon, Option.some.injEq]
  rw [eq_comm, canonNum_eq_iff, sameNumber_int_iff]
  constructor
  · intro h; exact ⟨_, h⟩
  · rintro ⟨i, h⟩; rw [truncDec_of_eqInt h]; exact h

end Verif

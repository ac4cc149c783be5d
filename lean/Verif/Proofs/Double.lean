import Verif.Spec.Double
import Verif.Py.Float
import Mathlib.Tactic.FieldSimp
import Mathlib.Tactic.Ring
import Mathlib.Tactic.GCongr
import Mathlib.Algebra.Order.Field.Power
/-! The model of `float()` rounds to the nearest double and finds its shortest decimal. -/
namespace Verif.Spec
open Verif.Py

/-! ### Doubles in general -/

theorem zpow2_pos (k : ℤ) : (0 : ℚ) < 2 ^ k := by positivity
theorem zpow10_pos (k : ℤ) : (0 : ℚ) < 10 ^ k := by positivity

theorem isDouble_zero : IsDouble 0 := ⟨0, 0, by norm_num, by norm_num, by norm_num⟩

theorem roundsTo_near {x d d' : ℚ} (h : RoundsTo x d) (h' : IsDouble d') : |x - d| ≤ |x - d'| := by
  by_cases e : d' = d
  · rw [e]
  · rcases h.2 d' h' e with h | h
    · exact le_of_lt h
    · exact le_of_eq h.1

theorem isDouble_neg {d : ℚ} (h : IsDouble d) : IsDouble (-d) := by
  obtain ⟨m, k, h1, h2, h3⟩ := h
  exact ⟨-m, k, by simpa using h1, h2, by rw [h3]; push_cast; ring⟩

theorem evenDouble_neg {d : ℚ} (h : EvenDouble d) : EvenDouble (-d) := by
  obtain ⟨m, k, h1, h2, h3⟩ := h
  refine ⟨-m, k, ?_, h2, by rw [h3]; push_cast; ring⟩
  rw [show 2 * -m = -(2 * m) by ring, abs_neg]; exact h1

theorem roundsTo_neg {x d : ℚ} (h : RoundsTo x d) : RoundsTo (-x) (-d) := by
  refine ⟨isDouble_neg h.1, fun d' h' hn => ?_⟩
  have h1 : |-x - -d| = |x - d| := by rw [show -x - -d = -(x - d) by ring, abs_neg]
  have h2 : |-x - d'| = |x - -d'| := by rw [show -x - d' = -(x - -d') by ring, abs_neg]
  have := h.2 (-d') (isDouble_neg h') (fun e => hn (by rw [← e]; ring))
  rw [h1, h2]
  exact this.imp id (fun ⟨a, b⟩ => ⟨a, evenDouble_neg b⟩)

/-- Two even doubles with no double strictly nearer to `x` are the same. -/
theorem even_unique_aux {x : ℚ} {m k m' k' : ℤ} (hm : |2 * m| < 2 ^ 53) (hk : -1074 ≤ k) (hkk : k ≤ k')
    (hne : ((2 * m : ℤ) : ℚ) * 2 ^ k ≠ ((2 * m' : ℤ) : ℚ) * 2 ^ k')
    (heq : |x - ((2 * m : ℤ) : ℚ) * 2 ^ k| = |x - ((2 * m' : ℤ) : ℚ) * 2 ^ k'|)
    (hnear : ∀ d', IsDouble d' → |x - ((2 * m : ℤ) : ℚ) * 2 ^ k| ≤ |x - d'|) : False := by
  obtain ⟨j, rfl⟩ : ∃ j : ℕ, k' = k + j := ⟨(k' - k).toNat, by omega⟩
  have hp := zpow2_pos k
  have e1 : ((2 * m' : ℤ) : ℚ) * 2 ^ (k + (j : ℤ)) = ((2 * (m' * 2 ^ j) : ℤ) : ℚ) * 2 ^ k := by
    rw [zpow_add₀ (by norm_num)]; push_cast; rw [zpow_natCast]; ring
  rw [e1] at hne heq
  generalize m' * 2 ^ j = M at *
  have hmM : m ≠ M := fun h => hne (by rw [h])
  have hb := abs_lt.1 hm
  have d1 : IsDouble (((2 * m + 1 : ℤ) : ℚ) * 2 ^ k) := ⟨2 * m + 1, k, by rw [abs_lt]; omega, hk, rfl⟩
  have d2 : IsDouble (((2 * m - 1 : ℤ) : ℚ) * 2 ^ k) := ⟨2 * m - 1, k, by rw [abs_lt]; omega, hk, rfl⟩
  have n1 := hnear _ d1
  have n2 := hnear _ d2
  push_cast at *
  rcases lt_or_gt_of_ne hmM with h | h
  · have h' : (m : ℚ) + 1 ≤ M := by exact_mod_cast h
    have h2 : (2 * (m : ℚ)) * 2 ^ k + 2 * 2 ^ k ≤ 2 * (M : ℚ) * 2 ^ k := by nlinarith
    have h3 : (2 * (m : ℚ) + 1) * 2 ^ k = 2 * (m : ℚ) * 2 ^ k + 2 ^ k := by ring
    rw [h3] at n1
    generalize (2 * (m : ℚ)) * 2 ^ k = A at *
    generalize (2 * (M : ℚ)) * 2 ^ k = B at *
    generalize (2 : ℚ) ^ k = P at *
    rcases abs_cases (x - A) with ⟨e, _⟩ | ⟨e, _⟩ <;> rcases abs_cases (x - B) with ⟨e', _⟩ | ⟨e', _⟩ <;>
      rcases abs_cases (x - (A + P)) with ⟨e'', _⟩ | ⟨e'', _⟩ <;> rw [e] at heq n1 <;> rw [e'] at heq <;>
      rw [e''] at n1 <;> linarith
  · have h' : (M : ℚ) + 1 ≤ m := by exact_mod_cast h
    have h2 : (2 * (M : ℚ)) * 2 ^ k + 2 * 2 ^ k ≤ 2 * (m : ℚ) * 2 ^ k := by nlinarith
    have h3 : (2 * (m : ℚ) - 1) * 2 ^ k = 2 * (m : ℚ) * 2 ^ k - 2 ^ k := by ring
    rw [h3] at n2
    generalize (2 * (m : ℚ)) * 2 ^ k = A at *
    generalize (2 * (M : ℚ)) * 2 ^ k = B at *
    generalize (2 : ℚ) ^ k = P at *
    rcases abs_cases (x - A) with ⟨e, _⟩ | ⟨e, _⟩ <;> rcases abs_cases (x - B) with ⟨e', _⟩ | ⟨e', _⟩ <;>
      rcases abs_cases (x - (A - P)) with ⟨e'', _⟩ | ⟨e'', _⟩ <;> rw [e] at heq n2 <;> rw [e'] at heq <;>
      rw [e''] at n2 <;> linarith

/-- A number becomes at most one double. -/
theorem roundsTo_unique {x d d' : ℚ} (h : RoundsTo x d) (h' : RoundsTo x d') : d = d' := by
  by_contra hne
  rcases h.2 d' h'.1 (fun e => hne e.symm) with h1 | ⟨h1, e1⟩
  · have := roundsTo_near h' h.1; linarith
  · rcases h'.2 d h.1 hne with h2 | ⟨h2, e2⟩
    · linarith
    · obtain ⟨m, k, a1, a2, a3⟩ := e1
      obtain ⟨m', k', b1, b2, b3⟩ := e2
      rcases le_total k k' with hk | hk
      · refine even_unique_aux (x := x) (m := m) (k := k) (m' := m') (k' := k') a1 a2 hk ?_ ?_ ?_
        · rw [← a3, ← b3]; exact hne
        · rw [← a3, ← b3]; exact h1
        · rw [← a3]; exact fun d' hd => roundsTo_near h hd
      · refine even_unique_aux (x := x) (m := m') (k := k') (m' := m) (k' := k) b1 b2 hk ?_ ?_ ?_
        · rw [← a3, ← b3]; exact fun e => hne e.symm
        · rw [← a3, ← b3]; exact h1.symm
        · rw [← b3]; exact fun d' hd => roundsTo_near h' hd

/-- A double is its own double. -/
theorem roundsTo_self {d : ℚ} (h : IsDouble d) : RoundsTo d d := by
  refine ⟨h, fun d' _ hn => Or.inl ?_⟩
  rw [sub_self, abs_zero]
  exact abs_pos.2 (sub_ne_zero.2 (fun e => hn e.symm))

/-- What lies between a number and its double becomes the same double. -/
theorem roundsTo_between {z w d : ℚ} (h : RoundsTo z d) (hw : (z ≤ w ∧ w ≤ d) ∨ (d ≤ w ∧ w ≤ z)) :
    RoundsTo w d := by
  by_cases hz : w = z
  · rw [hz]; exact h
  refine ⟨h.1, fun d' h' hn => Or.inl ?_⟩
  have hnear := roundsTo_near h h'
  rcases hw with ⟨h1, h2⟩ | ⟨h1, h2⟩
  · have h1' : z < w := lt_of_le_of_ne h1 (fun e => hz e.symm)
    rw [abs_of_nonpos (by linarith : w - d ≤ 0)]
    rw [abs_of_nonpos (by linarith : z - d ≤ 0)] at hnear
    rcases lt_or_gt_of_ne hn with hd | hd
    · rcases abs_cases (z - d') with ⟨e, _⟩ | ⟨e, _⟩ <;> rw [e] at hnear <;>
        rcases abs_cases (w - d') with ⟨e', _⟩ | ⟨e', _⟩ <;> rw [e'] <;> linarith
    · rw [abs_of_nonpos (by linarith : w - d' ≤ 0)]; linarith
  · have h2' : w < z := lt_of_le_of_ne h2 hz
    rw [abs_of_nonneg (by linarith : 0 ≤ w - d)]
    rw [abs_of_nonneg (by linarith : 0 ≤ z - d)] at hnear
    rcases lt_or_gt_of_ne hn with hd | hd
    · rw [abs_of_nonneg (by linarith : 0 ≤ w - d')]; linarith
    · rcases abs_cases (z - d') with ⟨e, _⟩ | ⟨e, _⟩ <;> rw [e] at hnear <;>
        rcases abs_cases (w - d') with ⟨e', _⟩ | ⟨e', _⟩ <;> rw [e'] <;> linarith

/-! ### The model's rounding -/

/-- The nearest integer, ties to even. -/
theorem roundHalfEven_spec (a b : ℕ) (hb : 0 < b) (j : ℤ) (hj : j ≠ roundHalfEven a b) :
    |(a : ℚ) / b - (roundHalfEven a b : ℕ)| < |(a : ℚ) / b - j| ∨
      (|(a : ℚ) / b - (roundHalfEven a b : ℕ)| = |(a : ℚ) / b - j| ∧ roundHalfEven a b % 2 = 0) := by
  have hb' : (0 : ℚ) < b := by exact_mod_cast hb
  have hr : a % b < b := Nat.mod_lt _ hb
  have hs : (a : ℚ) / b = (a / b : ℕ) + ((a % b : ℕ) : ℚ) / b := by
    have : (a : ℚ) = b * (a / b : ℕ) + (a % b : ℕ) := by exact_mod_cast (Nat.div_add_mod a b).symm
    field_simp; linarith
  have hf0 : (0 : ℚ) ≤ ((a % b : ℕ) : ℚ) / b := by positivity
  have hf1 : ((a % b : ℕ) : ℚ) / b < 1 := by rw [div_lt_one hb']; exact_mod_cast hr
  have hlt : 2 * (a % b) < b → ((a % b : ℕ) : ℚ) / b < 1 / 2 := by
    intro h
    rw [div_lt_div_iff₀ hb' (by norm_num)]
    have : (2 : ℚ) * (a % b : ℕ) < b := by exact_mod_cast h
    linarith
  have hgt : b < 2 * (a % b) → (1 : ℚ) / 2 < ((a % b : ℕ) : ℚ) / b := by
    intro h
    rw [div_lt_div_iff₀ (by norm_num) hb']
    have : (b : ℚ) < 2 * (a % b : ℕ) := by exact_mod_cast h
    linarith
  have heq : 2 * (a % b) = b → ((a % b : ℕ) : ℚ) / b = 1 / 2 := by
    intro h
    rw [div_eq_div_iff (by positivity) (by norm_num)]
    have : (2 : ℚ) * (a % b : ℕ) = b := by exact_mod_cast h
    linarith
  unfold roundHalfEven at hj ⊢
  rw [hs]
  generalize ((a % b : ℕ) : ℚ) / b = f at *
  generalize a / b = q at *
  split_ifs at hj ⊢ with c1 c2 c3
  · have hlt := hlt c1
    left
    rw [show (q : ℚ) + f - q = f by ring, abs_of_nonneg hf0]
    rcases lt_or_gt_of_ne hj with h | h
    · have : (j : ℚ) + 1 ≤ q := by exact_mod_cast h
      rw [abs_of_nonneg (by linarith)]; linarith
    · have : (q : ℚ) + 1 ≤ j := by exact_mod_cast h
      rw [abs_of_nonpos (by linarith)]; linarith
  · have hgt := hgt c2
    left
    push_cast at hj ⊢
    rw [show (q : ℚ) + f - (q + 1) = -(1 - f) by ring, abs_neg, abs_of_nonneg (by linarith)]
    rcases lt_or_gt_of_ne hj with h | h
    · have : (j : ℚ) ≤ q := by exact_mod_cast (by omega : j ≤ q)
      rw [abs_of_nonneg (by linarith)]; linarith
    · have : (q : ℚ) + 1 + 1 ≤ j := by exact_mod_cast (by omega : (q : ℤ) + 1 + 1 ≤ j)
      rw [abs_of_nonpos (by linarith)]; linarith
  · have heq := heq (by omega)
    rw [show (q : ℚ) + f - q = f by ring, abs_of_nonneg hf0]
    rcases lt_or_gt_of_ne hj with h | h
    · have : (j : ℚ) + 1 ≤ q := by exact_mod_cast h
      left; rw [abs_of_nonneg (by linarith)]; linarith
    · have : (q : ℚ) + 1 ≤ j := by exact_mod_cast h
      rw [abs_of_nonpos (by linarith)]
      rcases lt_or_eq_of_le this with h' | h'
      · left; linarith
      · right; exact ⟨by linarith, c3⟩
  · have heq := heq (by omega)
    push_cast at hj ⊢
    rw [show (q : ℚ) + f - (q + 1) = -(1 - f) by ring, abs_neg, abs_of_nonneg (by linarith)]
    rcases lt_or_gt_of_ne hj with h | h
    · have : (j : ℚ) ≤ q := by exact_mod_cast (by omega : j ≤ q)
      rw [abs_of_nonneg (by linarith)]
      rcases lt_or_eq_of_le this with h' | h'
      · left; linarith
      · right; exact ⟨by linarith, by omega⟩
    · have : (q : ℚ) + 1 + 1 ≤ j := by exact_mod_cast (by omega : (q : ℤ) + 1 + 1 ≤ j)
      left; rw [abs_of_nonpos (by linarith)]; linarith

theorem roundHalfEven_near (a b : ℕ) (hb : 0 < b) (j : ℤ) :
    |(a : ℚ) / b - (roundHalfEven a b : ℕ)| ≤ |(a : ℚ) / b - j| := by
  by_cases h : j = roundHalfEven a b
  · rw [h]; simp
  · rcases roundHalfEven_spec a b hb j h with h | h
    · exact le_of_lt h
    · exact le_of_eq h.1

/-- The value of a model double. -/
def dval (D : ℕ × ℤ) : ℚ := D.1 * 2 ^ D.2

/-- The form of a model double. -/
def Canonical (D : ℕ × ℤ) : Prop := D.1 < 2 ^ 53 ∧ -1074 ≤ D.2 ∧ (2 ^ 52 ≤ D.1 ∨ D.2 = -1074)

theorem canonical_isDouble {D : ℕ × ℤ} (h : Canonical D) : IsDouble (dval D) :=
  ⟨D.1, D.2, by rw [abs_of_nonneg (by omega)]; exact_mod_cast h.1, h.2.1, rfl⟩

theorem dval_pos {D : ℕ × ℤ} (h : D.1 ≠ 0) : 0 < dval D := by
  unfold dval
  have : (0 : ℚ) < D.1 := by exact_mod_cast Nat.pos_of_ne_zero h
  positivity

theorem canonical_le {D E : ℕ × ℤ} (hD : Canonical D) (hE : Canonical E) (h : dval D = dval E) :
    D.2 ≤ E.2 := by
  by_contra hlt
  push Not at hlt
  have hD52 : 2 ^ 52 ≤ D.1 := hD.2.2.resolve_right (by have := hE.2.1; omega)
  obtain ⟨j, hj⟩ : ∃ j : ℕ, D.2 = E.2 + 1 + j := ⟨(D.2 - E.2 - 1).toNat, by omega⟩
  unfold dval at h
  rw [hj, zpow_add₀ (by norm_num), zpow_add₀ (by norm_num)] at h
  have hp := zpow2_pos E.2
  have h' : (D.1 : ℚ) * 2 * 2 ^ j = E.1 := by
    have : ((D.1 : ℚ) * 2 * 2 ^ j) * 2 ^ E.2 = E.1 * 2 ^ E.2 := by
      rw [← h, zpow_natCast]; simp; ring
    exact mul_right_cancel₀ (ne_of_gt hp) this
  have h'' : D.1 * 2 * 2 ^ j = E.1 := by exact_mod_cast h'
  have hj1 : 1 ≤ 2 ^ j := Nat.one_le_two_pow
  have : D.1 * 2 * 1 ≤ D.1 * 2 * 2 ^ j := Nat.mul_le_mul_left _ hj1
  have := hE.1
  omega

/-- The form is unique. -/
theorem canonical_inj {D E : ℕ × ℤ} (hD : Canonical D) (hE : Canonical E) (h : dval D = dval E) : D = E := by
  have h1 := canonical_le hD hE h
  have h2 := canonical_le hE hD h.symm
  have h3 : D.2 = E.2 := le_antisymm h1 h2
  have hp := zpow2_pos E.2
  unfold dval at h
  rw [h3] at h
  have h4 : (D.1 : ℚ) = E.1 := mul_right_cancel₀ (ne_of_gt hp) h
  have h5 : D.1 = E.1 := by exact_mod_cast h4
  exact Prod.ext h5 h3

theorem scaleDen_pos {d : ℕ} (hd : 0 < d) (k : ℤ) : 0 < scaleDen d k := by
  unfold scaleDen; positivity

theorem zpow_split (a : ℚ) (ha : a ≠ 0) (k : ℤ) : a ^ k * a ^ (-k).toNat = a ^ k.toNat := by
  rcases le_total 0 k with h | h
  · obtain ⟨n, rfl⟩ := Int.eq_ofNat_of_zero_le h
    simp
  · obtain ⟨n, hn⟩ := Int.eq_ofNat_of_zero_le (show 0 ≤ -k by omega)
    obtain rfl : k = -(n : ℤ) := by omega
    simp [ha]

theorem scale_eq (n d : ℕ) (hd : 0 < d) (k : ℤ) :
    (scaleNum n k : ℚ) / scaleDen d k = (n : ℚ) / d / 2 ^ k := by
  unfold scaleNum scaleDen
  have hd' : (d : ℚ) ≠ 0 := by exact_mod_cast (ne_of_gt hd)
  have hk := ne_of_gt (zpow2_pos k)
  have h := zpow_split 2 (by norm_num) k
  push_cast
  rw [← h]
  have h2 : ((2 : ℚ) ^ (-k).toNat) ≠ 0 := by positivity
  field_simp

theorem log2_bounds (n : ℕ) (hn : 0 < n) : (2 : ℚ) ^ (Nat.log2 n : ℤ) ≤ n ∧ (n : ℚ) < 2 ^ ((Nat.log2 n : ℤ) + 1) := by
  constructor
  · rw [zpow_natCast]; exact_mod_cast Nat.log2_self_le (by omega)
  · have := @Nat.lt_log2_self n
    rw [show ((Nat.log2 n : ℤ) + 1) = ((Nat.log2 n + 1 : ℕ) : ℤ) by push_cast; rfl, zpow_natCast]
    exact_mod_cast this

/-- Where the exponent puts the number. -/
theorem doubleExp_spec (n d : ℕ) (hn : 0 < n) (hd : 0 < d) :
    -1074 ≤ doubleExp n d ∧ (n : ℚ) / d / 2 ^ doubleExp n d < 2 ^ 53 ∧
      ((2 : ℚ) ^ 52 ≤ (n : ℚ) / d / 2 ^ doubleExp n d ∨ doubleExp n d = -1074) := by
  have hd' : (0 : ℚ) < d := by exact_mod_cast hd
  have hn' : (0 : ℚ) < n := by exact_mod_cast hn
  obtain ⟨n1, n2⟩ := log2_bounds n hn
  obtain ⟨d1, d2⟩ := log2_bounds d hd
  unfold doubleExp
  simp only
  generalize hk0 : (Nat.log2 n : ℤ) - (Nat.log2 d : ℤ) - 53 = k0
  have hx1 : (2 : ℚ) ^ 52 < (n : ℚ) / d / 2 ^ k0 := by
    rw [lt_div_iff₀ (zpow2_pos _), lt_div_iff₀ hd']
    have : (2 : ℚ) ^ 52 * 2 ^ k0 * 2 ^ ((Nat.log2 d : ℤ) + 1) = 2 ^ (Nat.log2 n : ℤ) := by
      rw [← zpow_natCast, ← zpow_add₀ (by norm_num), ← zpow_add₀ (by norm_num)]; congr 1; push_cast; omega
    have hp : (0 : ℚ) < 2 ^ 52 * 2 ^ k0 := by positivity
    nlinarith
  have hx2 : (n : ℚ) / d / 2 ^ k0 < 2 ^ 54 := by
    rw [div_lt_iff₀ (zpow2_pos _), div_lt_iff₀ hd']
    have : (2 : ℚ) ^ 54 * 2 ^ k0 * 2 ^ (Nat.log2 d : ℤ) = 2 ^ ((Nat.log2 n : ℤ) + 1) := by
      rw [← zpow_natCast, ← zpow_add₀ (by norm_num), ← zpow_add₀ (by norm_num)]; congr 1; push_cast; omega
    have hp : (0 : ℚ) < 2 ^ 54 * 2 ^ k0 := by positivity
    nlinarith
  have hiff : (scaleNum n k0 < 2 ^ 53 * scaleDen d k0) ↔ (n : ℚ) / d / 2 ^ k0 < 2 ^ 53 := by
    rw [← scale_eq n d hd, div_lt_iff₀ (by exact_mod_cast scaleDen_pos hd k0)]
    exact_mod_cast Iff.rfl
  have key : ∀ k1 : ℤ, (2 : ℚ) ^ 52 ≤ (n : ℚ) / d / 2 ^ k1 → (n : ℚ) / d / 2 ^ k1 < 2 ^ 53 →
      -1074 ≤ max k1 (-1074) ∧ (n : ℚ) / d / 2 ^ max k1 (-1074) < 2 ^ 53 ∧
      ((2 : ℚ) ^ 52 ≤ (n : ℚ) / d / 2 ^ max k1 (-1074) ∨ max k1 (-1074) = -1074) := by
    intro k1 h1 h2
    rcases le_total (-1074) k1 with h | h
    · rw [max_eq_left h]; exact ⟨h, h2, Or.inl h1⟩
    · rw [max_eq_right h]
      refine ⟨le_refl _, lt_of_le_of_lt ?_ h2, Or.inr rfl⟩
      exact div_le_div_of_nonneg_left (by positivity) (zpow2_pos _) (zpow_le_zpow_right₀ (by norm_num) h)
  split_ifs with c
  · exact key _ (le_of_lt hx1) (hiff.1 c)
  · have hge : (2 : ℚ) ^ 53 ≤ (n : ℚ) / d / 2 ^ k0 := not_lt.1 (fun h => c (hiff.2 h))
    have e : (n : ℚ) / d / 2 ^ (k0 + 1) = (n : ℚ) / d / 2 ^ k0 / 2 := by
      rw [zpow_add₀ (by norm_num), zpow_one, div_div _ _ (2 : ℚ)]
    refine key _ ?_ ?_ <;> rw [e]
    · rw [le_div_iff₀ (by norm_num)]; norm_num at hge ⊢; linarith
    · rw [div_lt_iff₀ (by norm_num)]; norm_num at hx2 ⊢; linarith

/-- The rounded mantissa. -/
theorem toDouble_mant (n d : ℕ) (hn : 0 < n) (hd : 0 < d) :
    let k := doubleExp n d
    let m := roundHalfEven (scaleNum n k) (scaleDen d k)
    m ≤ 2 ^ 53 ∧ (2 ^ 52 ≤ m ∨ k = -1074) := by
  obtain ⟨h1, h2, h3⟩ := doubleExp_spec n d hn hd
  simp only
  generalize doubleExp n d = k at *
  have hb := scaleDen_pos hd k
  have e := scale_eq n d hd k
  rw [← e] at h2 h3
  constructor
  · by_contra hlt
    push Not at hlt
    have := roundHalfEven_near (scaleNum n k) (scaleDen d k) hb (2 ^ 53)
    have hm : (2 : ℚ) ^ 53 + 1 ≤ (roundHalfEven (scaleNum n k) (scaleDen d k) : ℕ) := by exact_mod_cast hlt
    rw [abs_of_nonpos (by linarith), abs_of_nonpos (by push_cast; linarith)] at this
    push_cast at this
    linarith
  · refine h3.imp (fun h3 => ?_) id
    by_contra hlt
    push Not at hlt
    have := roundHalfEven_near (scaleNum n k) (scaleDen d k) hb (2 ^ 52)
    have hm : ((roundHalfEven (scaleNum n k) (scaleDen d k) : ℕ) : ℚ) + 1 ≤ 2 ^ 52 := by exact_mod_cast hlt
    rw [abs_of_nonneg (by linarith), abs_of_nonneg (by push_cast; linarith)] at this
    push_cast at this
    linarith

theorem toDouble_canonical (n d : ℕ) (hn : 0 < n) (hd : 0 < d) : Canonical (toDouble n d) := by
  obtain ⟨h1, _, _⟩ := doubleExp_spec n d hn hd
  obtain ⟨h2, h3⟩ := toDouble_mant n d hn hd
  unfold toDouble Canonical
  simp only
  split_ifs with c
  · exact ⟨by norm_num, by simp only; omega, Or.inl (le_refl _)⟩
  · exact ⟨by simp only; omega, h1, h3⟩

theorem toDouble_val (n d : ℕ) :
    dval (toDouble n d) = (roundHalfEven (scaleNum n (doubleExp n d)) (scaleDen d (doubleExp n d)) : ℕ) *
      2 ^ doubleExp n d := by
  unfold toDouble dval
  simp only
  split_ifs with c
  · rw [c]
    simp only
    rw [zpow_add₀ (by norm_num)]; push_cast; ring
  · rfl

/-- The model rounds to the nearest double, ties to even. -/
theorem toDouble_rounds (n d : ℕ) (hn : 0 < n) (hd : 0 < d) : RoundsTo ((n : ℚ) / d) (dval (toDouble n d)) := by
  refine ⟨canonical_isDouble (toDouble_canonical n d hn hd), fun d' hd' hne => ?_⟩
  obtain ⟨h1, h2, h3⟩ := doubleExp_spec n d hn hd
  obtain ⟨m1, m2⟩ := toDouble_mant n d hn hd
  rw [toDouble_val] at hne ⊢
  have hspec := roundHalfEven_spec (scaleNum n (doubleExp n d)) (scaleDen d (doubleExp n d)) (scaleDen_pos hd _)
  have hnear := roundHalfEven_near (scaleNum n (doubleExp n d)) (scaleDen d (doubleExp n d)) (scaleDen_pos hd _)
  rw [scale_eq n d hd] at hspec hnear
  generalize doubleExp n d = k at *
  generalize roundHalfEven (scaleNum n k) (scaleDen d k) = m at *
  have hp := zpow2_pos k
  -- everything in units of `2^k`
  have hx : (n : ℚ) / d = ((n : ℚ) / d / 2 ^ k) * 2 ^ k := by field_simp
  generalize hs : (n : ℚ) / d / 2 ^ k = s at *
  have habs : ∀ y : ℚ, |(n : ℚ) / d - y * 2 ^ k| = |s - y| * 2 ^ k := by
    intro y
    rw [hx, ← sub_mul, abs_mul, abs_of_pos hp]
  obtain ⟨m', k', b1, b2, rfl⟩ := hd'
  have hb1 := abs_lt.1 b1
  rcases le_or_gt k k' with hk | hk
  · obtain ⟨j, rfl⟩ : ∃ j : ℕ, k' = k + j := ⟨(k' - k).toNat, by omega⟩
    have e : (m' : ℚ) * 2 ^ (k + (j : ℤ)) = ((m' * 2 ^ j : ℤ) : ℚ) * 2 ^ k := by
      rw [zpow_add₀ (by norm_num)]; push_cast; rw [zpow_natCast]; ring
    rw [e] at hne ⊢
    rw [habs, habs]
    have hj : (m' * 2 ^ j : ℤ) ≠ m := by
      intro h
      apply hne
      rw [h]; push_cast; rfl
    rcases hspec _ hj with h | ⟨h, h'⟩
    · left; exact mul_lt_mul_of_pos_right h hp
    · right
      refine ⟨by rw [h], ?_⟩
      by_cases hm : m = 2 ^ 53
      · refine ⟨2 ^ 51, k + 1, by norm_num, by omega, ?_⟩
        rw [hm, zpow_add₀ (by norm_num)]; push_cast; ring
      · refine ⟨(m / 2 : ℕ), k, ?_, h1, ?_⟩
        · rw [abs_of_nonneg (by positivity)]; omega
        · have : ((2 * (m / 2 : ℕ) : ℤ)) = m := by omega
          rw [this]; push_cast; rfl
  · -- a smaller exponent: the number is at least `2^52 * 2^k`, the other double below that
    have hs52 : (2 : ℚ) ^ 52 ≤ s := h3.resolve_right (by omega)
    left
    have hlt : (m' : ℚ) * 2 ^ k' < 2 ^ 52 * 2 ^ k := by
      have e : (2 : ℚ) ^ k' ≤ 2 ^ (k - 1) := zpow_le_zpow_right₀ (by norm_num) (by omega)
      have e2 : (2 : ℚ) ^ (k - 1) * 2 = 2 ^ k := by rw [zpow_sub₀ (by norm_num)]; field_simp
      have hm' : (m' : ℚ) + 1 ≤ 2 ^ 53 := by exact_mod_cast hb1.2
      have hp' := zpow2_pos k'
      by_cases hneg : (m' : ℚ) ≤ 0
      · have : (m' : ℚ) * 2 ^ k' ≤ 0 := mul_nonpos_of_nonpos_of_nonneg hneg (le_of_lt hp')
        have : (0 : ℚ) < 2 ^ 52 * 2 ^ k := by positivity
        linarith
      · push Not at hneg
        calc (m' : ℚ) * 2 ^ k' ≤ m' * 2 ^ (k - 1) := by gcongr
          _ < 2 ^ 53 * 2 ^ (k - 1) := by
            have := zpow2_pos (k - 1)
            apply mul_lt_mul_of_pos_right _ this; linarith
          _ = 2 ^ 52 * 2 ^ k := by rw [← e2]; ring
    have hn52 : |s - m| ≤ |s - 2 ^ 52| := by
      have := hnear (2 ^ 52)
      rwa [show (((2 ^ 52 : ℤ)) : ℚ) = 2 ^ 52 by norm_num] at this
    rw [abs_of_nonneg (by linarith : 0 ≤ s - 2 ^ 52)] at hn52
    rw [habs]
    have hge : 2 ^ 52 * 2 ^ k ≤ (n : ℚ) / d := by rw [hx]; gcongr
    rw [abs_of_nonneg (by linarith : 0 ≤ (n : ℚ) / d - m' * 2 ^ k')]
    calc |s - m| * 2 ^ k ≤ (s - 2 ^ 52) * 2 ^ k := by gcongr
      _ = (n : ℚ) / d - 2 ^ 52 * 2 ^ k := by rw [hx]; ring
      _ < _ := by linarith

/-! ### Decimals -/

theorem dec_eq (c : ℕ) (e : ℤ) : (decNum c e : ℚ) / decDen e = c * 10 ^ e := by
  unfold decNum decDen
  have h := zpow_split 10 (by norm_num) e
  push_cast
  rw [← h]
  have h2 : ((10 : ℚ) ^ (-e).toNat) ≠ 0 := by positivity
  field_simp

theorem decNum_pos {c : ℕ} (hc : 0 < c) (e : ℤ) : 0 < decNum c e := by unfold decNum; positivity
theorem decDen_pos (e : ℤ) : 0 < decDen e := by unfold decDen; positivity

theorem decDouble_canonical {c : ℕ} (hc : 0 < c) (e : ℤ) : Canonical (decDouble c e) :=
  toDouble_canonical _ _ (decNum_pos hc e) (decDen_pos e)

theorem decDouble_rounds {c : ℕ} (hc : 0 < c) (e : ℤ) : RoundsTo (c * 10 ^ e) (dval (decDouble c e)) := by
  have := toDouble_rounds _ _ (decNum_pos hc e) (decDen_pos e)
  rwa [dec_eq] at this

/-- The check made in the search. -/
theorem decDouble_iff {c : ℕ} (hc : 0 < c) (q : ℤ) {D : ℕ × ℤ} (hD : Canonical D) :
    decDouble c q = D ↔ RoundsTo (c * 10 ^ q) (dval D) := by
  constructor
  · rintro rfl; exact decDouble_rounds hc q
  · intro h
    exact canonical_inj (decDouble_canonical hc q) hD (roundsTo_unique (decDouble_rounds hc q) h)

theorem shortAt_frac (D : ℕ × ℤ) (q : ℤ) :
    ((D.1 * 2 ^ D.2.toNat * 10 ^ (-q).toNat : ℕ) : ℚ) / (2 ^ (-D.2).toNat * 10 ^ q.toNat : ℕ) = dval D / 10 ^ q := by
  unfold dval
  push_cast
  rw [← zpow_split 2 (by norm_num) D.2, ← zpow_split 10 (by norm_num) q]
  have h2 : ((2 : ℚ) ^ (-D.2).toNat) ≠ 0 := by positivity
  have h3 : ((10 : ℚ) ^ (-q).toNat) ≠ 0 := by positivity
  have h4 := ne_of_gt (zpow10_pos q)
  field_simp

theorem roundHalfEven_cases (a b : ℕ) : roundHalfEven a b = a / b ∨ roundHalfEven a b = a / b + 1 := by
  unfold roundHalfEven; split_ifs <;> simp

/-- The neighbours of the double among the multiples of `10^q`, and what they decide. -/
theorem neighbours {D : ℕ × ℤ} {q : ℤ} (hD : Canonical D) (h0 : D.1 ≠ 0) {a b : ℕ}
    (ha : D.1 * 2 ^ D.2.toNat * 10 ^ (-q).toNat = a) (hb : 2 ^ (-D.2).toNat * 10 ^ q.toNat = b) :
    0 < b ∧ (a : ℚ) / b * 10 ^ q = dval D ∧
    ((a / b : ℕ) : ℚ) * 10 ^ q ≤ dval D ∧ dval D ≤ ((a / b + 1 : ℕ) : ℚ) * 10 ^ q ∧
    ∀ c : ℤ, RoundsTo (c * 10 ^ q) (dval D) →
      (c ≤ (a / b : ℕ) ∧ (a / b ≠ 0 ∧ decDouble (a / b) q = D)) ∨
      (((a / b + 1 : ℕ) : ℤ) ≤ c ∧ decDouble (a / b + 1) q = D) := by
  have hv := dval_pos h0
  have hq := zpow10_pos q
  have hfrac := shortAt_frac D q
  rw [ha, hb] at hfrac
  have hbpos : 0 < b := by rw [← hb]; positivity
  have hb' : (0 : ℚ) < b := by exact_mod_cast hbpos
  have hdiv : (a : ℚ) / b * 10 ^ q = dval D := by rw [hfrac]; field_simp
  have hlo : ((a / b : ℕ) : ℚ) * 10 ^ q ≤ dval D := by
    rw [← hdiv]
    apply mul_le_mul_of_nonneg_right _ (le_of_lt hq)
    rw [le_div_iff₀ hb']
    exact_mod_cast Nat.div_mul_le_self a b
  have hhi : dval D ≤ ((a / b + 1 : ℕ) : ℚ) * 10 ^ q := by
    rw [← hdiv]
    apply mul_le_mul_of_nonneg_right _ (le_of_lt hq)
    rw [div_le_iff₀ hb']
    have := Nat.lt_div_mul_add hbpos (a := a)
    have h' : a ≤ (a / b + 1) * b := by rw [Nat.add_mul, Nat.one_mul]; omega
    exact_mod_cast h'
  refine ⟨hbpos, hdiv, hlo, hhi, fun c hc => ?_⟩
  have hcpos : 0 < c := by
    by_contra hle
    push Not at hle
    have hle' : (c : ℚ) ≤ 0 := by exact_mod_cast hle
    have hz : (c : ℚ) * 10 ^ q ≤ 0 := mul_nonpos_of_nonpos_of_nonneg hle' (le_of_lt hq)
    have := roundsTo_near hc isDouble_zero
    rw [abs_of_nonpos (by linarith), abs_of_nonpos (by linarith)] at this
    linarith
  by_cases hcl : c ≤ (a / b : ℕ)
  · have hl0 : 0 < a / b := by have : (0 : ℤ) < (a / b : ℕ) := lt_of_lt_of_le hcpos hcl; exact_mod_cast this
    left
    refine ⟨hcl, by omega, (decDouble_iff hl0 q hD).2 (roundsTo_between hc (Or.inl ⟨?_, hlo⟩))⟩
    apply mul_le_mul_of_nonneg_right _ (le_of_lt hq)
    have : (c : ℚ) ≤ ((a / b : ℕ) : ℤ) := Int.cast_le.2 hcl
    rwa [Int.cast_natCast] at this
  · right
    have hcl' : ((a / b + 1 : ℕ) : ℤ) ≤ c := by push Not at hcl; push_cast; exact hcl
    refine ⟨hcl', (decDouble_iff (Nat.succ_pos _) q hD).2 (roundsTo_between hc (Or.inr ⟨hhi, ?_⟩))⟩
    apply mul_le_mul_of_nonneg_right _ (le_of_lt hq)
    have : (((a / b + 1 : ℕ) : ℤ) : ℚ) ≤ c := Int.cast_le.2 hcl'
    rwa [Int.cast_natCast] at this

theorem shortAt_some {D : ℕ × ℤ} {q : ℤ} {c : ℕ} (h : shortAt D q = some c) : 0 < c ∧ decDouble c q = D := by
  unfold shortAt at h
  simp only at h
  split_ifs at h with c1 c2 c3
  · rw [Option.some.injEq] at h
    rcases roundHalfEven_cases (D.1 * 2 ^ D.2.toNat * 10 ^ (-q).toNat) (2 ^ (-D.2).toNat * 10 ^ q.toNat) with e | e <;>
      rw [e] at h <;> subst h
    · exact ⟨Nat.pos_of_ne_zero c1.1.1, c1.1.2⟩
    · exact ⟨Nat.succ_pos _, c1.2⟩
  · rw [Option.some.injEq] at h; subst h; exact ⟨Nat.pos_of_ne_zero c2.1, c2.2⟩
  · rw [Option.some.injEq] at h; subst h; exact ⟨Nat.succ_pos _, c3⟩

/-- The one chosen is the nearest. -/
theorem shortAt_near {D : ℕ × ℤ} {q : ℤ} {c : ℕ} (hD : Canonical D) (h0 : D.1 ≠ 0) (h : shortAt D q = some c) (c' : ℤ)
    (hc' : RoundsTo (c' * 10 ^ q) (dval D)) : |dval D - c * 10 ^ q| ≤ |dval D - c' * 10 ^ q| := by
  have hq := zpow10_pos q
  unfold shortAt at h
  simp only at h
  generalize ha : D.1 * 2 ^ D.2.toNat * 10 ^ (-q).toNat = a at *
  generalize hb : 2 ^ (-D.2).toNat * 10 ^ q.toNat = b at *
  obtain ⟨hbpos, hdiv, hlo, hhi, hval⟩ := neighbours hD h0 ha hb
  have hv := hval c' hc'
  split_ifs at h with c1 c2 c3
  · rw [Option.some.injEq] at h; subst h
    have := roundHalfEven_near a b hbpos c'
    have := mul_le_mul_of_nonneg_right this hq.le
    rw [← abs_of_pos hq, ← abs_mul, ← abs_mul, sub_mul, sub_mul, hdiv] at this
    exact this
  · rw [Option.some.injEq] at h; subst h
    rcases hv with ⟨h1, _⟩ | ⟨_, h2⟩
    · have h1' : (c' : ℚ) ≤ ((a / b : ℕ) : ℤ) := Int.cast_le.2 h1
      rw [Int.cast_natCast] at h1'
      have := mul_le_mul_of_nonneg_right h1' hq.le
      rw [abs_of_nonneg (by linarith), abs_of_nonneg (by linarith)]
      linarith
    · exact absurd ⟨c2, h2⟩ c1
  · rw [Option.some.injEq] at h; subst h
    rcases hv with ⟨_, h2⟩ | ⟨h1, _⟩
    · exact absurd h2 c2
    · have h1' : (((a / b + 1 : ℕ) : ℤ) : ℚ) ≤ c' := Int.cast_le.2 h1
      rw [Int.cast_natCast] at h1'
      have := mul_le_mul_of_nonneg_right h1' hq.le
      rw [abs_of_nonpos (by linarith), abs_of_nonpos (by linarith)]
      linarith

/-- If neither neighbour will do, no multiple of `10^q` will. -/
theorem shortAt_none {D : ℕ × ℤ} {q : ℤ} (hD : Canonical D) (h0 : D.1 ≠ 0) (h : shortAt D q = none) (c : ℤ) :
    ¬ RoundsTo (c * 10 ^ q) (dval D) := by
  intro hc
  unfold shortAt at h
  simp only at h
  generalize ha : D.1 * 2 ^ D.2.toNat * 10 ^ (-q).toNat = a at *
  generalize hb : 2 ^ (-D.2).toNat * 10 ^ q.toNat = b at *
  obtain ⟨_, _, _, _, hval⟩ := neighbours hD h0 ha hb
  split_ifs at h with c1 c2 c3
  rcases hval c hc with ⟨_, h2⟩ | ⟨_, h2⟩
  · exact c2 h2
  · exact c3 h2

theorem shortFrom_some {D : ℕ × ℤ} {c : ℕ} {q : ℤ} : ∀ {fuel : ℕ} {start : ℤ}, shortFrom D fuel start = some (c, q) →
    shortAt D q = some c ∧ ∀ q', q < q' → q' ≤ start → shortAt D q' = none := by
  intro fuel
  induction fuel with
  | zero => intro start h; simp [shortFrom] at h
  | succ f ih =>
    intro start h
    unfold shortFrom at h
    split at h
    · next c' hc' =>
      simp only [Option.some.injEq, Prod.mk.injEq] at h
      obtain ⟨rfl, rfl⟩ := h
      exact ⟨hc', fun q' h1 h2 => by omega⟩
    · next hn =>
      obtain ⟨h1, h2⟩ := ih h
      refine ⟨h1, fun q' h3 h4 => ?_⟩
      by_cases e : q' = start
      · rw [e]; exact hn
      · exact h2 q' h3 (by omega)

theorem shortFrom_ne_none {D : ℕ × ℤ} {q : ℤ} (hq : shortAt D q ≠ none) : ∀ {fuel : ℕ} {start : ℤ},
    q ≤ start → start < q + fuel → ∃ p, shortFrom D fuel start = some p := by
  intro fuel
  induction fuel with
  | zero => intro start h1 h2; simp at h2; omega
  | succ f ih =>
    intro start h1 h2
    unfold shortFrom
    split
    · exact ⟨_, rfl⟩
    · next hn =>
      have hne : q ≠ start := fun e => hq (by rw [e]; exact hn)
      push_cast at h2
      exact ih (by omega) (by omega)

/-- At exponent `min k 0` the double itself is found. -/
theorem shortAt_exact {D : ℕ × ℤ} (hD : Canonical D) (h0 : D.1 ≠ 0) : shortAt D (min D.2 0) ≠ none := by
  intro h
  have key : ∃ c : ℤ, dval D = c * 10 ^ (min D.2 0) := by
    unfold dval
    rcases le_total D.2 0 with hk | hk
    · obtain ⟨j, hj⟩ := Int.eq_ofNat_of_zero_le (show 0 ≤ -D.2 by omega)
      obtain hj' : D.2 = -(j : ℤ) := by omega
      refine ⟨D.1 * 5 ^ j, ?_⟩
      rw [min_eq_left hk, hj', zpow_neg, zpow_neg, zpow_natCast, zpow_natCast]
      push_cast
      rw [show (10 : ℚ) = 2 * 5 by norm_num, mul_pow]
      field_simp
    · obtain ⟨j, hj⟩ := Int.eq_ofNat_of_zero_le hk
      refine ⟨D.1 * 2 ^ j, ?_⟩
      rw [min_eq_right hk, hj, zpow_natCast]
      push_cast
      simp
  obtain ⟨c, hc⟩ := key
  exact shortAt_none hD h0 h c (by rw [← hc]; exact roundsTo_self (canonical_isDouble hD))

theorem zpow_le_of_scaled {a b : ℚ} (ha : 0 < a) (hab : a ≤ b) {n : ℤ} (hn : 0 ≤ n) : a ^ n ≤ b ^ n := by
  obtain ⟨j, rfl⟩ := Int.eq_ofNat_of_zero_le hn
  simp only [Int.ofNat_eq_natCast, zpow_natCast]
  exact pow_le_pow_left₀ (le_of_lt ha) hab j

/-- Beyond the start of the search the powers of ten are too large. -/
theorem shortStart_spec {D : ℕ × ℤ} {q : ℤ} (hq : shortStart D < q) : (2 : ℚ) ^ (54 + D.2) ≤ 10 ^ q := by
  unfold shortStart at hq
  split_ifs at hq with h
  · have h3 : 54 + D.2 ≤ 3 * q := by omega
    have hq0 : 0 ≤ q := by omega
    calc (2 : ℚ) ^ (54 + D.2) ≤ 2 ^ (3 * q) := zpow_le_zpow_right₀ (by norm_num) h3
      _ = 8 ^ q := by rw [zpow_mul]; norm_num
      _ ≤ 10 ^ q := zpow_le_of_scaled (by norm_num) (by norm_num) hq0
  · by_cases hq0 : 0 ≤ q
    · calc (2 : ℚ) ^ (54 + D.2) ≤ 2 ^ (0 : ℤ) := zpow_le_zpow_right₀ (by norm_num) (by omega)
        _ = 10 ^ (0 : ℤ) := by norm_num
        _ ≤ 10 ^ q := zpow_le_zpow_right₀ (by norm_num) hq0
    · have h4 : 54 + D.2 ≤ 4 * q := by omega
      calc (2 : ℚ) ^ (54 + D.2) ≤ 2 ^ (4 * q) := zpow_le_zpow_right₀ (by norm_num) h4
        _ = 16 ^ q := by rw [zpow_mul]; norm_num
        _ ≤ 10 ^ q := by
          obtain ⟨j, hj⟩ := Int.eq_ofNat_of_zero_le (show 0 ≤ -q by omega)
          obtain rfl : q = -(j : ℤ) := by omega
          rw [zpow_neg, zpow_neg, zpow_natCast, zpow_natCast]
          gcongr
          norm_num

theorem no_larger {D : ℕ × ℤ} (hD : Canonical D) (h0 : D.1 ≠ 0) {q : ℤ} (hq : shortStart D < q) (c : ℤ) :
    ¬ RoundsTo (c * 10 ^ q) (dval D) := by
  intro hc
  have hv := dval_pos h0
  have hq' := zpow10_pos q
  have hcpos : 0 < c := by
    by_contra hle
    push Not at hle
    have hle' : (c : ℚ) ≤ 0 := by exact_mod_cast hle
    have hz : (c : ℚ) * 10 ^ q ≤ 0 := mul_nonpos_of_nonpos_of_nonneg hle' (le_of_lt hq')
    have := roundsTo_near hc isDouble_zero
    rw [abs_of_nonpos (by linarith), abs_of_nonpos (by linarith)] at this
    linarith
  have hc1 : (1 : ℚ) ≤ c := by exact_mod_cast hcpos
  have hbig : 2 * dval D < c * 10 ^ q := by
    have h1 := shortStart_spec hq
    have h2 : 2 * dval D < 2 ^ (54 + D.2) := by
      unfold dval
      have e : (2 : ℚ) ^ (54 + D.2) = 2 * 2 ^ 53 * 2 ^ D.2 := by rw [zpow_add₀ (by norm_num)]; norm_num
      rw [e]
      have : (D.1 : ℚ) < 2 ^ 53 := by exact_mod_cast hD.1
      have hp := zpow2_pos D.2
      nlinarith
    nlinarith
  have hd2 : IsDouble (2 * dval D) := by
    refine ⟨D.1, D.2 + 1, by rw [abs_of_nonneg (by omega)]; exact_mod_cast hD.1, by have := hD.2.1; omega, ?_⟩
    unfold dval; rw [zpow_add₀ (by norm_num)]; push_cast; ring
  have := roundsTo_near hc hd2
  rw [abs_of_nonneg (by linarith), abs_of_nonneg (by linarith)] at this
  linarith

/-- The search finds the shortest decimal. -/
theorem shortest_spec {D : ℕ × ℤ} (hD : Canonical D) (h0 : D.1 ≠ 0) :
    ∃ c q, shortest D = some (c, q) ∧ 0 < c ∧ decDouble c q = D ∧
      (∀ c' q' : ℤ, RoundsTo (c' * 10 ^ q') (dval D) → q' ≤ q) ∧
      ∀ c' : ℤ, RoundsTo (c' * 10 ^ q) (dval D) → |dval D - c * 10 ^ q| ≤ |dval D - c' * 10 ^ q| := by
  have hex := shortAt_exact hD h0
  have hle : min D.2 0 ≤ shortStart D := by
    by_contra hlt
    push Not at hlt
    obtain ⟨c, hc⟩ := Option.ne_none_iff_exists.1 hex
    obtain ⟨h1, h2⟩ := shortAt_some hc.symm
    have := decDouble_rounds h1 (min D.2 0)
    rw [h2] at this
    exact no_larger hD h0 hlt (c : ℤ) (by push_cast; exact this)
  obtain ⟨p, hp⟩ := shortFrom_ne_none hex (fuel := (shortStart D - min D.2 0 + 1).toNat) hle (by omega)
  obtain ⟨c, q⟩ := p
  obtain ⟨h1, h2⟩ := shortFrom_some hp
  obtain ⟨h3, h4⟩ := shortAt_some h1
  refine ⟨c, q, hp, h3, h4, fun c' q' h => ?_, shortAt_near hD h0 h1⟩
  by_contra hlt
  push Not at hlt
  rcases le_or_gt q' (shortStart D) with h5 | h5
  · exact shortAt_none hD h0 (h2 q' hlt h5) c' h
  · exact no_larger hD h0 h5 c' h

/-- **The model of `float()` and its shortest decimal**, for a positive decimal. -/
theorem floatOf_spec (c : ℕ) (e : ℤ) (hc : 0 < c) :
    ∃ d : ℚ, 0 ≤ d ∧ RoundsTo (c * 10 ^ e) d ∧
      ((d < 2 ^ 1024 ∧ ∃ c' q, floatOf c e = some (c', q) ∧ Shortest d (c' * 10 ^ q)) ∨
       (2 ^ 1024 ≤ d ∧ floatOf c e = none)) := by
  have hcan := decDouble_canonical hc e
  refine ⟨dval (decDouble c e), ?_, decDouble_rounds hc e, ?_⟩
  · unfold dval; positivity
  unfold floatOf
  rw [if_neg (by omega)]
  simp only
  generalize decDouble c e = D at *
  split_ifs with h1 h2
  · right
    refine ⟨?_, rfl⟩
    have h52 : 2 ^ 52 ≤ D.1 := hcan.2.2.resolve_right (by omega)
    unfold dval
    have h52' : (2 : ℚ) ^ 52 ≤ D.1 := by exact_mod_cast h52
    have e : (2 : ℚ) ^ 1024 = (2 : ℚ) ^ 52 * (2 : ℚ) ^ (972 : ℤ) := by rw [zpow_ofNat, ← pow_add]
    have h2 : (2 : ℚ) ^ (972 : ℤ) ≤ (2 : ℚ) ^ D.2 := zpow_le_zpow_right₀ (by norm_num) (by omega)
    have hp := zpow2_pos 972
    rw [e]
    calc (2 : ℚ) ^ 52 * (2 : ℚ) ^ (972 : ℤ) ≤ (D.1 : ℚ) * (2 : ℚ) ^ (972 : ℤ) := mul_le_mul_of_nonneg_right h52' hp.le
      _ ≤ (D.1 : ℚ) * (2 : ℚ) ^ D.2 := mul_le_mul_of_nonneg_left h2 (Nat.cast_nonneg _)
  · left
    refine ⟨?_, 0, 0, rfl, Or.inl ⟨?_, ?_⟩⟩ <;> simp [dval, h2]
  · left
    refine ⟨?_, ?_⟩
    · unfold dval
      have h53 : (D.1 : ℚ) < 2 ^ 53 := by exact_mod_cast hcan.1
      have hp := zpow2_pos D.2
      have h2 : (2 : ℚ) ^ D.2 ≤ (2 : ℚ) ^ (971 : ℤ) := zpow_le_zpow_right₀ (by norm_num) (by omega)
      have e : (2 : ℚ) ^ 1024 = (2 : ℚ) ^ 53 * (2 : ℚ) ^ (971 : ℤ) := by rw [zpow_ofNat, ← pow_add]
      rw [e]
      calc (D.1 : ℚ) * (2 : ℚ) ^ D.2 < (2 : ℚ) ^ 53 * (2 : ℚ) ^ D.2 := mul_lt_mul_of_pos_right h53 hp
        _ ≤ (2 : ℚ) ^ 53 * (2 : ℚ) ^ (971 : ℤ) := mul_le_mul_of_nonneg_left h2 (by positivity)
    · obtain ⟨c', q, hs, h3, h4, h5, h6⟩ := shortest_spec hcan h2
      refine ⟨c', q, hs, Or.inr ⟨ne_of_gt (dval_pos h2), ?_, c', q, by push_cast; rfl, h5, h6⟩⟩
      rw [← h4]; exact decDouble_rounds h3 q

end Verif.Spec

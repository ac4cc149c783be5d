import Verif.Proofs.Double
/-! How near a double is, and decimals of at most 15 digits. -/
namespace Verif.Spec

theorem isDouble_step {m k : ℤ} (hm : 0 ≤ m) (hm' : m ≤ 2 ^ 53) (hk : -1074 ≤ k) : IsDouble (m * 2 ^ k) := by
  rcases lt_or_eq_of_le hm' with h | h
  · exact ⟨m, k, by rw [abs_of_nonneg hm]; exact h, hk, rfl⟩
  · refine ⟨2 ^ 52, k + 1, by norm_num, by omega, ?_⟩
    rw [h, zpow_add₀ (by norm_num)]; push_cast; ring

/-- In the normal range a double is within a relative `2^-53`. -/
theorem roundsTo_close {x d : ℚ} (h : RoundsTo x d) (hx : (2 : ℚ) ^ (-1022 : ℤ) ≤ x) :
    |x - d| ≤ x / 2 ^ 53 := by
  have hx0 : 0 < x := lt_of_lt_of_le (zpow2_pos _) hx
  obtain ⟨n, hn1, hn2⟩ := exists_mem_Ico_zpow hx0 (by norm_num : (1 : ℚ) < 2)
  have hn : -1022 ≤ n := by
    by_contra hlt
    push Not at hlt
    have : (2 : ℚ) ^ (n + 1) ≤ 2 ^ (-1022 : ℤ) := zpow_le_zpow_right₀ (by norm_num) (by omega)
    linarith
  have hp := zpow2_pos (n - 52)
  have e1 : (2 : ℚ) ^ n = 2 ^ 52 * 2 ^ (n - 52) := by
    rw [zpow_sub₀ (by norm_num)]; field_simp
  have e2 : (2 : ℚ) ^ (n + 1) = 2 ^ 53 * 2 ^ (n - 52) := by
    rw [zpow_add₀ (by norm_num), e1]; ring
  rw [e1] at hn1
  rw [e2] at hn2
  generalize hk : n - 52 = k at *
  have hx' : x = x / 2 ^ k * 2 ^ k := by field_simp
  generalize hs : x / 2 ^ k = s at *
  have hs1 : (2 : ℚ) ^ 52 ≤ s := by
    by_contra hlt; push Not at hlt
    have := mul_lt_mul_of_pos_right hlt hp; linarith
  have hs2 : s < 2 ^ 53 := by
    by_contra hlt; push Not at hlt
    have := mul_le_mul_of_nonneg_right hlt hp.le; linarith
  have hf1 := Int.floor_le s
  have hf2 := Int.lt_floor_add_one s
  have hm0 : 0 ≤ ⌊s⌋ := Int.floor_nonneg.2 (by linarith [show (0 : ℚ) ≤ 2 ^ 52 by positivity])
  have hm1 : ⌊s⌋ < 2 ^ 53 := by
    have : (⌊s⌋ : ℚ) < ((2 ^ 53 : ℤ) : ℚ) := by push_cast; norm_num at hs2 ⊢; linarith
    exact_mod_cast this
  have d1 := isDouble_step (k := k) hm0 hm1.le (by omega)
  have d2 := isDouble_step (k := k) (m := ⌊s⌋ + 1) (by omega) (by omega) (by omega)
  have n1 := roundsTo_near h d1
  have n2 := roundsTo_near h d2
  have a1 : |x - ⌊s⌋ * 2 ^ k| = (s - ⌊s⌋) * 2 ^ k := by
    rw [hx', ← sub_mul, abs_mul, abs_of_pos hp, abs_of_nonneg (by linarith)]
  have a2 : |x - ((⌊s⌋ + 1 : ℤ) : ℚ) * 2 ^ k| = (⌊s⌋ + 1 - s) * 2 ^ k := by
    rw [hx', ← sub_mul, abs_mul, abs_of_pos hp, abs_of_nonpos (by push_cast; linarith)]; push_cast; ring
  rw [a1] at n1
  rw [a2] at n2
  have hhalf : |x - d| ≤ 2 ^ k / 2 := by
    have : |x - d| + |x - d| ≤ 2 ^ k := by
      calc |x - d| + |x - d| ≤ (s - ⌊s⌋) * 2 ^ k + (⌊s⌋ + 1 - s) * 2 ^ k := add_le_add n1 n2
        _ = 2 ^ k := by ring
    linarith
  have h52 : 2 ^ k / 2 ≤ x / 2 ^ 53 := by
    rw [div_le_div_iff₀ (by norm_num) (by positivity)]
    norm_num at hn1 ⊢
    linarith
  linarith

/-- Two decimals of the same double, in the normal range. -/
theorem shortest_close {x d y : ℚ} (hx : (10 : ℚ) ^ (-307 : ℤ) ≤ x) (h : RoundsTo x d) (hy : RoundsTo y d) :
    |y - x| ≤ x / 2 ^ 51 := by
  have hbase : (2 : ℚ) ^ (-1020 : ℤ) ≤ 10 ^ (-307 : ℤ) := by
    rw [zpow_neg, zpow_neg, zpow_ofNat, zpow_ofNat]
    gcongr
    have : (10 : ℕ) ^ 307 ≤ 2 ^ 1020 := by decide +kernel
    exact_mod_cast this
  have e1020 : (2 : ℚ) ^ (-1020 : ℤ) = 4 * 2 ^ (-1022 : ℤ) := by
    rw [show (-1020 : ℤ) = 2 + (-1022) by norm_num, zpow_add₀ (by norm_num)]; norm_num
  have hp := zpow2_pos (-1022)
  have hx0 : (2 : ℚ) ^ (-1022 : ℤ) ≤ x := by linarith
  have hxpos : 0 < x := by linarith
  have c1 := roundsTo_close h hx0
  have c1' := abs_le.1 c1
  have hd : 2 * (2 : ℚ) ^ (-1022 : ℤ) ≤ d := by
    have : x / 2 ^ 53 ≤ x / 2 := by
      rw [div_le_div_iff₀ (by positivity) (by norm_num)]; norm_num; linarith
    linarith
  have hy0 : (2 : ℚ) ^ (-1022 : ℤ) ≤ y := by
    by_contra hlt
    push Not at hlt
    have hD : IsDouble ((2 : ℚ) ^ (-1022 : ℤ)) :=
      ⟨1, -1022, by norm_num, by norm_num, by push_cast; rw [one_mul]⟩
    have := roundsTo_near hy hD
    rw [abs_of_nonpos (by linarith), abs_of_nonpos (by linarith)] at this
    linarith
  have c2 := abs_le.1 (roundsTo_close hy hy0)
  have hypos : 0 < y := by linarith
  -- `y ≤ 2 x`
  have hp53 : (0 : ℚ) < 2 ^ 53 := by positivity
  have e51 : x / 2 ^ 51 = 4 * (x / 2 ^ 53) := by norm_num; ring
  have hy2 : y / 2 ^ 53 ≤ 2 * (x / 2 ^ 53) := by
    have hyx : y ≤ 2 * x := by
      have h1 : x / 2 ^ 53 ≤ x / 8 := by
        rw [div_le_div_iff₀ (by positivity) (by norm_num)]; norm_num; linarith
      have h2 : y / 2 ^ 53 ≤ y / 8 := by
        rw [div_le_div_iff₀ (by positivity) (by norm_num)]; norm_num; linarith
      linarith
    calc y / 2 ^ 53 ≤ 2 * x / 2 ^ 53 := by gcongr
      _ = 2 * (x / 2 ^ 53) := by ring
  have hxp : 0 < x / 2 ^ 53 := by positivity
  rw [abs_le, e51]
  constructor <;> linarith

theorem shortest_rounds {d y : ℚ} (h : Shortest d y) : RoundsTo y d := by
  rcases h with ⟨rfl, rfl⟩ | h
  · exact roundsTo_self isDouble_zero
  · exact h.2.1

/-- A decimal of at most 15 digits, in the normal range, is the shortest decimal of its double. -/
theorem fifteen_digits {c : ℕ} {e : ℤ} {d y : ℚ} (hc : c < 10 ^ 15) (hx : (10 : ℚ) ^ (-307 : ℤ) ≤ c * 10 ^ e)
    (h : RoundsTo (c * 10 ^ e) d) (hy : Shortest d y) : y = c * 10 ^ e := by
  have hclose := shortest_close hx h (shortest_rounds hy)
  have hx0 : (0 : ℚ) < c * 10 ^ e := lt_of_lt_of_le (by positivity) hx
  have hq := zpow10_pos e
  rcases hy with ⟨rfl, rfl⟩ | ⟨_, _, c', q, rfl, hs, _⟩
  · exfalso
    rw [abs_of_nonpos (by linarith)] at hclose
    have : (c : ℚ) * 10 ^ e / 2 ^ 51 < c * 10 ^ e := by
      rw [div_lt_iff₀ (by positivity)]; norm_num; nlinarith
    linarith
  · have hle : e ≤ q := hs c e (by push_cast; exact h)
    obtain ⟨j, rfl⟩ : ∃ j : ℕ, q = e + j := ⟨(q - e).toNat, by omega⟩
    have e1 : (c' : ℚ) * 10 ^ (e + (j : ℤ)) = ((c' * 10 ^ j : ℤ) : ℚ) * 10 ^ e := by
      rw [zpow_add₀ (by norm_num), zpow_natCast]; push_cast; ring
    rw [e1] at hclose ⊢
    generalize c' * 10 ^ j = M at *
    have hMc : M = c := by
      rw [← sub_mul, abs_mul, abs_of_pos hq] at hclose
      have hlt : (c : ℚ) * 10 ^ e / 2 ^ 51 < 1 * 10 ^ e := by
        rw [div_lt_iff₀ (by positivity)]
        have h15 : (c : ℚ) < 2 ^ 51 := lt_trans (show (c : ℚ) < 10 ^ 15 by exact_mod_cast hc) (by norm_num)
        have := mul_lt_mul_of_pos_right h15 hq
        linarith
      have h1 : |(M : ℚ) - c| < 1 := by
        by_contra hge; push Not at hge
        have := mul_le_mul_of_nonneg_right hge hq.le
        linarith
      have h2 : |M - (c : ℤ)| < 1 := by exact_mod_cast h1
      rw [abs_lt] at h2
      omega
    rw [hMc]; push_cast; rfl

end Verif.Spec

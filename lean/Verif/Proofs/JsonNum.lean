import Verif.Spec.JsonText
import Verif.Model.JsonText
import Verif.Proofs.Dec
import Verif.Proofs.Num
import Verif.Proofs.Double
import Mathlib.Data.List.Induction
import Mathlib.Tactic.IntervalCases
/-! The texts of numbers are JSON numbers. -/
namespace Verif.Spec
open Verif.Py

theorem digits_of {s : Str} (h : ∀ c ∈ s, IsDigit c) : Digits s (digitsVal 0 s) := by
  induction s using List.reverseRecOn with
  | nil => exact .nil
  | append_singleton s c ih =>
    obtain ⟨d, hd, rfl⟩ := h c (by simp)
    have : digitsVal 0 (s ++ [digitChar d]) = 10 * digitsVal 0 s + d := by
      simp only [digitsVal, List.foldl_append, List.foldl_cons, List.foldl_nil]
      have : (digitChar d).toNat = 48 + d := digitChar_toNat hd
      rw [this]; omega
    rw [this]
    exact .snoc (ih (fun c hc => h c (by simp [hc]))) (.mk d hd)

theorem digits_natStr (n : ℕ) : Digits (natStr n) n := by
  have := digits_of (natStr_isDigit n)
  rwa [natStr_val] at this

theorem natStrAux_head (fuel n : ℕ) (acc : Str) (h : n < fuel) (h0 : 0 < n) :
    ∃ d r, 0 < d ∧ d < 10 ∧ natStrAux fuel n acc = digitChar d :: r := by
  induction fuel generalizing n acc with
  | zero => omega
  | succ f ih =>
    unfold natStrAux
    split
    · next h => exact ⟨n, acc, h0, h, rfl⟩
    · exact ih (n / 10) _ (by omega) (by omega)

theorem natStr_head {n : ℕ} (h : 0 < n) : ∃ d r, 0 < d ∧ d < 10 ∧ natStr n = digitChar d :: r :=
  natStrAux_head _ _ _ (by omega) h

theorem intPart_natStr (n : ℕ) : IntPart (natStr n) n := by
  refine ⟨digits_natStr n, natStr_ne_nil n, ?_⟩
  rcases Nat.eq_zero_or_pos n with rfl | h
  · left; rfl
  · right
    obtain ⟨d, r, h1, h2, e⟩ := natStr_head h
    rw [e]
    simp only [List.head?_cons, ne_eq, Option.some.injEq]
    interval_cases d <;> decide

/-- An integer's text. -/
theorem numText_int (i : ℤ) : NumText (intStr i) i := by
  refine ⟨decide (i < 0), natStr i.natAbs, [], [], [], i.natAbs, i.natAbs, 0, ?_, intPart_natStr _, Or.inl ⟨rfl, rfl⟩, ?_,
    .none, ?_⟩
  · unfold intStr; by_cases h : i < 0 <;> simp [h]
  · simpa using digits_natStr _
  · unfold decQ
    by_cases h : i < 0
    · have : (i.natAbs : ℤ) = -i := by omega
      have h' : ((i.natAbs : ℕ) : ℚ) = -(i : ℚ) := by
        have := congrArg (fun z : ℤ => (z : ℚ)) this
        simpa only [Int.cast_natCast, Int.cast_neg] using this
      simp [h, h']
    · have : (i.natAbs : ℤ) = i := by omega
      have h' : ((i.natAbs : ℕ) : ℚ) = (i : ℚ) := by
        have := congrArg (fun z : ℤ => (z : ℚ)) this
        simpa only [Int.cast_natCast] using this
      simp [h, h']

theorem decQ_norm (neg : Bool) (c : ℕ) (q : ℤ) : decQ neg (normDec c q).1 (normDec c q).2 = decQ neg c q := by
  by_cases hc : c = 0
  · subst hc; simp [normDec, decQ]
  · obtain ⟨a, h1, h2, _⟩ := normDec_spec c q hc
    unfold decQ
    rw [h1]
    generalize (normDec c q).1 = x at *
    subst h2
    rw [zpow_add₀ (by norm_num), zpow_natCast]; push_cast; ring

theorem expDigits (n : ℕ) : let t := if n < 10 then '0' :: natStr n else natStr n
    Digits t n ∧ t ≠ [] := by
  simp only
  split_ifs with h
  · have : ∀ c ∈ '0' :: natStr n, IsDigit c := by
      intro c hc
      rcases List.mem_cons.1 hc with rfl | hc
      · exact isDigit_zero
      · exact natStr_isDigit n c hc
    have h2 := digits_of this
    have e : digitsVal 0 ('0' :: natStr n) = n := by
      have := natStr_val n
      simpa [digitsVal] using this
    rw [e] at h2
    exact ⟨h2, by simp⟩
  · exact ⟨digits_natStr n, natStr_ne_nil n⟩

theorem digits_zeros (k : ℕ) (ds : Str) (n : ℕ) (hd : ∀ c ∈ ds, IsDigit c) (hv : digitsVal 0 ds = n) :
    (∀ c ∈ List.replicate k '0' ++ ds, IsDigit c) ∧ digitsVal 0 (List.replicate k '0' ++ ds) = n := by
  constructor
  · intro c hc
    rcases List.mem_append.1 hc with hc | hc
    · rw [List.eq_of_mem_replicate hc]; exact isDigit_zero
    · exact hd c hc
  · rw [digitsVal_append, digitsVal_zeros]; exact hv

theorem digitsVal_replicate (acc k : ℕ) : digitsVal acc (List.replicate k '0') = acc * 10 ^ k := by
  induction k generalizing acc with
  | zero => simp [digitsVal]
  | succ k ih =>
    rw [List.replicate_succ, show '0' :: List.replicate k '0' = ['0'] ++ List.replicate k '0' from rfl,
      digitsVal_append, ih]
    simp [digitsVal]; ring

theorem head_append {a b : Str} (h : a ≠ []) : (a ++ b).head? = a.head? := by
  cases a with
  | nil => exact absurd rfl h
  | cons x r => rfl

theorem numText_shape (neg : Bool) {ip ft fp ex : Str} {k : ℤ} {v : ℕ} (hd : ∀ c ∈ ip ++ fp, IsDigit c)
    (hv : digitsVal 0 (ip ++ fp) = v) (hip : ip ≠ []) (h0 : ip = s%"0" ∨ ip.head? ≠ some '0') (hft : FracPart ft fp)
    (hex : ExpPart ex k) :
    NumText ((if neg then s%"-" else []) ++ (ip ++ (ft ++ ex))) (decQ neg v (k - fp.length)) := by
  refine ⟨neg, ip, ft, fp, ex, digitsVal 0 ip, v, k, rfl, ⟨digits_of (fun c hc => hd c (by simp [hc])), hip, h0⟩, hft, ?_, hex, rfl⟩
  have := digits_of hd
  rwa [hv] at this

theorem expPart_of (k : ℤ) : ExpPart ('e' :: (if k < 0 then '-' else '+') ::
    (if k.natAbs < 10 then '0' :: natStr k.natAbs else natStr k.natAbs)) k := by
  obtain ⟨hx1, hx2⟩ := expDigits k.natAbs
  by_cases h : k < 0
  · have e : k = -(k.natAbs : ℤ) := by omega
    rw [if_pos h]
    have := ExpPart.minus (l := 'e') (Or.inl rfl) hx1 hx2
    rwa [← e] at this
  · have e : k = (k.natAbs : ℤ) := by omega
    rw [if_neg h]
    have := ExpPart.plus (l := 'e') (Or.inl rfl) hx1 hx2
    rwa [← e] at this

/-- A float's text is a JSON number that writes its shortest decimal. -/
theorem numText_float (neg : Bool) (c : ℕ) (q : ℤ) : NumText (floatText neg c q) (decQ neg c q) := by
  rw [← decQ_norm]
  unfold floatText
  simp only
  generalize (normDec c q).1 = c'
  generalize (normDec c q).2 = q'
  rcases Nat.eq_zero_or_pos c' with rfl | hc
  · have hz : ∀ c ∈ s%"00", IsDigit c := by intro c hc; simp at hc; subst hc; exact isDigit_zero
    have := numText_shape neg (ip := s%"0") (ft := s%".0") (fp := s%"0") (ex := []) (k := 0) (v := 0) hz rfl
      (by simp) (Or.inl rfl) (Or.inr ⟨rfl, by simp⟩) .none
    rw [show decQ neg 0 (0 - (s%"0" : Str).length) = decQ neg 0 q' by simp [decQ]] at this
    simpa using this
  have hc0 : c' ≠ 0 := by omega
  simp only [hc0, if_false]
  have hdig := natStr_isDigit c'
  have hval := natStr_val c'
  have hne := natStr_ne_nil c'
  have hhead : (natStr c').head? ≠ some '0' := by
    rcases (intPart_natStr c').2.2 with h | h
    · rw [h] at hval; simp [digitsVal] at hval; omega
    · exact h
  generalize natStr c' = ds at *
  have hlen : 0 < ds.length := List.length_pos_iff.2 hne
  by_cases h1 : (ds.length : ℤ) + q' ≤ -4 ∨ 16 < (ds.length : ℤ) + q'
  · simp only [h1, if_true]
    have hex := expPart_of ((ds.length : ℤ) + q' - 1)
    generalize ('e' :: (if (ds.length : ℤ) + q' - 1 < 0 then '-' else '+') ::
      (if ((ds.length : ℤ) + q' - 1).natAbs < 10 then '0' :: natStr ((ds.length : ℤ) + q' - 1).natAbs
        else natStr ((ds.length : ℤ) + q' - 1).natAbs)) = ex at *
    have htd : ds.take 1 ++ ds.drop 1 = ds := List.take_append_drop 1 ds
    have hth : ds.take 1 ≠ [] := by
      intro h; have := congrArg List.length h; rw [List.length_take, List.length_nil] at this; omega
    have hh : (ds.take 1).head? ≠ some '0' := by
      rw [← htd, head_append hth] at hhead; exact hhead
    by_cases h2 : (ds.length : ℤ) = 1
    · have hd1 : ds.drop 1 = [] := List.drop_of_length_le (by omega)
      have ht1 : ds.take 1 = ds := List.take_of_length_le (by omega)
      have := numText_shape neg (ip := ds) (ft := []) (fp := []) (ex := ex) (k := (ds.length : ℤ) + q' - 1) (v := c')
        (by simpa using hdig) (by simpa using hval) hne (Or.inr hhead) (Or.inl ⟨rfl, rfl⟩) hex
      rw [show (ds.length : ℤ) + q' - 1 - ([] : Str).length = q' by simp; omega] at this
      simp only [h2, if_true, ht1]
      simpa using this
    · have := numText_shape neg (ip := ds.take 1) (ft := '.' :: ds.drop 1) (fp := ds.drop 1) (ex := ex)
        (k := (ds.length : ℤ) + q' - 1) (v := c')
        (by rw [htd]; exact hdig) (by rw [htd]; exact hval) hth (Or.inr hh)
        (Or.inr ⟨rfl, by intro h; have := congrArg List.length h; rw [List.length_drop, List.length_nil] at this; omega⟩) hex
      rw [show (ds.length : ℤ) + q' - 1 - (ds.drop 1).length = q' by rw [List.length_drop]; omega] at this
      simp only [h2, if_false]
      simpa using this
  simp only [h1, if_false]
  by_cases h2 : (ds.length : ℤ) + q' ≤ 0
  · simp only [h2, if_true]
    obtain ⟨hz1, hz2⟩ := digits_zeros (-((ds.length : ℤ) + q')).toNat ds c' hdig hval
    have := numText_shape neg (ip := s%"0") (ft := '.' :: (List.replicate (-((ds.length : ℤ) + q')).toNat '0' ++ ds))
      (fp := List.replicate (-((ds.length : ℤ) + q')).toNat '0' ++ ds) (ex := []) (k := 0) (v := c')
      (by intro c hc
          rcases List.mem_append.1 hc with hc | hc
          · simp at hc; subst hc; exact isDigit_zero
          · exact hz1 c hc)
      (by simpa [digitsVal] using hz2) (by simp) (Or.inl rfl) (Or.inr ⟨rfl, by simp [hne]⟩) .none
    rw [show (0 : ℤ) - (List.replicate (-((ds.length : ℤ) + q')).toNat '0' ++ ds).length = q' by
      rw [List.length_append, List.length_replicate]; omega] at this
    simpa using this
  simp only [h2, if_false]
  by_cases h3 : (ds.length : ℤ) + q' ≥ ds.length
  · simp only [h3, if_true]
    generalize hj : ((ds.length : ℤ) + q' - ds.length).toNat = j
    have hq : q' = j := by omega
    have := numText_shape neg (ip := ds ++ List.replicate j '0') (ft := s%".0") (fp := s%"0") (ex := []) (k := 0)
      (v := c' * 10 ^ (j + 1))
      (by intro c hc
          rw [List.append_assoc, List.mem_append, List.mem_append] at hc
          rcases hc with hc | hc | hc
          · exact hdig c hc
          · rw [List.eq_of_mem_replicate hc]; exact isDigit_zero
          · simp at hc; subst hc; exact isDigit_zero)
      (by rw [List.append_assoc, show List.replicate j '0' ++ (s%"0" : Str) = List.replicate (j + 1) '0' from
            List.replicate_succ'.symm, digitsVal_append, hval, digitsVal_replicate])
      (by simp [hne]) (Or.inr (by rw [head_append hne]; exact hhead)) (Or.inr ⟨rfl, by simp⟩) .none
    rw [show decQ neg (c' * 10 ^ (j + 1)) (0 - (s%"0" : Str).length) = decQ neg c' q' by
      unfold decQ; rw [hq, zpow_natCast]; push_cast; simp; ring_nf] at this
    simpa using this
  · simp only [h3, if_false]
    generalize hj : ((ds.length : ℤ) + q').toNat = j
    have htd : ds.take j ++ ds.drop j = ds := List.take_append_drop j ds
    have hth : ds.take j ≠ [] := by
      intro h; have := congrArg List.length h; rw [List.length_take, List.length_nil] at this; omega
    have hh : (ds.take j).head? ≠ some '0' := by
      rw [← htd, head_append hth] at hhead; exact hhead
    have := numText_shape neg (ip := ds.take j) (ft := '.' :: ds.drop j) (fp := ds.drop j) (ex := [])
      (k := 0) (v := c')
      (by rw [htd]; exact hdig) (by rw [htd]; exact hval) hth (Or.inr hh)
      (Or.inr ⟨rfl, by intro h; have := congrArg List.length h; rw [List.length_drop, List.length_nil] at this; omega⟩) .none
    rw [show (0 : ℤ) - (ds.drop j).length = q' by rw [List.length_drop]; omega] at this
    simpa using this

end Verif.Spec

import Verif.Proofs.JsonUnique
import Verif.Proofs.DoubleFacts
import Verif.Spec.List
/-!
C19 (numbers in JSON output) and C64 (the JSON text).
-/
namespace Verif
open Spec Py

/-! ### Numbers -/

theorem eqInt_iff (neg : Bool) (c : ℕ) (e i : ℤ) : EqInt neg c e i ↔ decQ neg c e = i := by
  have hs : ∀ k : ℕ, (scaled neg c k : ℚ) = (if neg then -1 else 1) * (c * 10 ^ k) := by
    intro k; unfold scaled; cases neg <;> simp
  unfold EqInt
  split_ifs with h
  · obtain ⟨k, rfl⟩ := Int.eq_ofNat_of_zero_le h
    rw [← Int.cast_inj (α := ℚ), hs]
    simp [decQ]
  · obtain ⟨k, hk⟩ := Int.eq_ofNat_of_zero_le (show 0 ≤ -e by omega)
    obtain rfl : e = -(k : ℤ) := by omega
    have h10 : (10 : ℚ) ^ k ≠ 0 := by positivity
    rw [← Int.cast_inj (α := ℚ), hs]
    simp only [neg_neg, Int.toNat_natCast, pow_zero, mul_one, Int.cast_mul, Int.cast_pow, Int.cast_ofNat, decQ, zpow_neg,
      zpow_natCast]
    constructor
    · intro h; rw [← mul_assoc, h]; field_simp
    · intro h; rw [← h]; field_simp

theorem integral_iff (neg : Bool) (c : ℕ) (e : ℤ) : Integral neg c e ↔ ∃ i : ℤ, decQ neg c e = i := by
  unfold Integral; simp only [eqInt_iff]

theorem shortest_neg {d y : ℚ} (h : Shortest d y) : Shortest (-d) (-y) := by
  rcases h with ⟨rfl, rfl⟩ | ⟨h1, h2, c, q, rfl, h3, h4⟩
  · left; simp
  · refine Or.inr ⟨by simpa using h1, roundsTo_neg h2, -c, q, by push_cast; ring, fun c' q' h => ?_, fun c' h => ?_⟩
    · have := roundsTo_neg h
      rw [neg_neg, show -((c' : ℚ) * 10 ^ q') = ((-c' : ℤ) : ℚ) * 10 ^ q' by push_cast; ring] at this
      exact h3 _ _ this
    · have := roundsTo_neg h
      rw [neg_neg, show -((c' : ℚ) * 10 ^ q) = ((-c' : ℤ) : ℚ) * 10 ^ q by push_cast; ring] at this
      have := h4 _ this
      rw [show -d - -((c : ℚ) * 10 ^ q) = -(d - c * 10 ^ q) by ring, abs_neg,
        show -d - (c' : ℚ) * 10 ^ q = -(d - ((-c' : ℤ) : ℚ) * 10 ^ q) by push_cast; ring, abs_neg]
      exact this

theorem decQ_false (c : ℕ) (e : ℤ) : decQ false c e = c * 10 ^ e := by simp [decQ]
theorem decQ_true (c : ℕ) (e : ℤ) : decQ true c e = -(c * 10 ^ e) := by simp [decQ]

theorem abs_decQ (neg : Bool) (c : ℕ) (e : ℤ) : |decQ neg c e| = c * 10 ^ e := by
  cases neg
  · rw [decQ_false, abs_of_nonneg (by positivity)]
  · rw [decQ_true, abs_neg, abs_of_nonneg (by positivity)]

theorem err_nonneg (c : ℕ) (e : ℤ) : (0 : ℚ) ≤ c * 10 ^ e / 2 ^ 51 := by positivity

/-- The float of a decimal, with its sign. -/
theorem float_signed (neg : Bool) (c : ℕ) (e : ℤ) (hc : 0 < c) :
    ∃ d : ℚ, RoundsTo (decQ neg c e) d ∧
      ((|d| < 2 ^ 1024 ∧ ∃ c' q, floatOf c e = some (c', q) ∧ Shortest d (decQ neg c' q)) ∨
       (2 ^ 1024 ≤ |d| ∧ floatOf c e = none)) := by
  obtain ⟨d, h0, h1, h2⟩ := floatOf_spec c e hc
  cases neg
  · refine ⟨d, by rw [decQ_false]; exact h1, ?_⟩
    rw [abs_of_nonneg h0]
    simpa only [decQ_false] using h2
  · refine ⟨-d, by rw [decQ_true]; exact roundsTo_neg h1, ?_⟩
    rw [abs_neg, abs_of_nonneg h0]
    rcases h2 with ⟨h2, c', q, h3, h4⟩ | h2
    · exact Or.inl ⟨h2, c', q, h3, by rw [decQ_true]; exact shortest_neg h4⟩
    · exact Or.inr h2

theorem not_integral_pos {neg : Bool} {c : ℕ} {e : ℤ} (h : ¬ Integral neg c e) : 0 < c := by
  rcases Nat.eq_zero_or_pos c with rfl | hc
  · exact absurd ((integral_iff _ _ _).2 ⟨0, by simp [decQ]⟩) h
  · exact hc

/-- What `decimal_datetime_default` returns. -/
theorem decimalDefault_cases (neg : Bool) (c : ℕ) (e : ℤ) :
    (∃ i, EqInt neg c e i ∧ Api.decimalDefault (.fin neg c e) = .ok (.int i)) ∨
    (¬ Integral neg c e ∧ ∃ d, RoundsTo (decQ neg c e) d ∧
      ((|d| < 2 ^ 1024 ∧ ∃ c' q, Api.decimalDefault (.fin neg c e) = .ok (.float neg c' q) ∧ Shortest d (decQ neg c' q)) ∨
       (2 ^ 1024 ≤ |d| ∧ Api.decimalDefault (.fin neg c e) = .ok (.infinite neg)))) := by
  simp only [Api.decimalDefault]
  by_cases h : Integral neg c e
  · left
    refine ⟨Py.truncDec neg c e, ?_, ?_⟩
    · obtain ⟨i, hi⟩ := h
      rw [truncDec_of_eqInt hi]; exact hi
    · rw [if_pos ((trunc_canon_iff _ _ _).2 h)]
  · right
    refine ⟨h, ?_⟩
    rw [if_neg (fun h' => h ((trunc_canon_iff _ _ _).1 h'))]
    obtain ⟨d, h1, h2⟩ := float_signed neg c e (not_integral_pos h)
    refine ⟨d, h1, ?_⟩
    rcases h2 with ⟨h2, c', q, h3, h4⟩ | ⟨h2, h3⟩
    · left; rw [h3]; exact ⟨h2, c', q, rfl, h4⟩
    · right; rw [h3]; exact ⟨h2, rfl⟩

theorem finite_of_small {x d : ℚ} (hx : |x| ≤ 2 ^ 1023) (h : RoundsTo x d) : |d| < 2 ^ 1024 := by
  have hD : IsDouble ((2 : ℚ) ^ 1023) := ⟨1, 1023, by norm_num, by norm_num, by push_cast; rw [one_mul, zpow_ofNat]⟩
  have e : (2 : ℚ) ^ 1024 = 2 * 2 ^ 1023 := by rw [pow_succ]; ring
  have hp : (0 : ℚ) < 2 ^ 1023 := by positivity
  rw [e]
  clear e
  generalize (2 : ℚ) ^ 1023 = P at *
  have n1 := roundsTo_near h hD
  have n2 := roundsTo_near h (isDouble_neg hD)
  rw [abs_le] at hx
  rw [abs_of_nonpos (by linarith : x - P ≤ 0)] at n1
  rw [abs_of_nonneg (by linarith : 0 ≤ x - -P)] at n2
  rw [abs_lt]
  rcases abs_cases (x - d) with ⟨e, _⟩ | ⟨e, _⟩ <;> rw [e] at n1 n2 <;> constructor <;> linarith

theorem not_mem_intStr (i : ℤ) : '.' ∉ intStr i ∧ 'e' ∉ intStr i := by
  have hd : ¬ IsDigit '.' := not_isDigit (by decide)
  have he : ¬ IsDigit 'e' := not_isDigit (by decide)
  have h := natStr_isDigit i.natAbs
  unfold intStr
  split <;> constructor <;> intro hm <;>
    first
      | (rcases List.mem_cons.1 hm with h1 | h1
         · exact absurd h1 (by decide)
         · first | exact hd (h _ h1) | exact he (h _ h1))
      | first | exact hd (h _ hm) | exact he (h _ hm)

theorem mem_floatText (neg : Bool) (c : ℕ) (q : ℤ) : '.' ∈ floatText neg c q ∨ 'e' ∈ floatText neg c q := by
  unfold floatText
  simp only
  generalize natStr (normDec c q).1 = ds
  split_ifs <;> simp

/-- **C19.** What is written for a finite decimal is a JSON number: the number itself if it is integral,
otherwise the shortest decimal of the double next to it (if that is finite: always up to `2^1023`).  It is
written as a plain integer exactly when it is integral. -/
theorem C19_json_number (neg : Bool) (c : ℕ) (e : ℤ) (h : Integral neg c e ∨ |decQ neg c e| ≤ 2 ^ 1023) :
    ∃ t y, Api.dumpAtom (.dec (.fin neg c e)) = .ok t ∧ NumText t y ∧ WrittenNumber (decQ neg c e) y ∧
      ((∃ i, t = Py.intStr i) ↔ Integral neg c e) := by
  simp only [Api.dumpAtom]
  rcases decimalDefault_cases neg c e with ⟨i, hi, hd⟩ | ⟨hn, d, hr, hd⟩
  · rw [hd]
    have hint : Integral neg c e := ⟨i, hi⟩
    rw [eqInt_iff] at hi
    refine ⟨_, i, rfl, numText_int i, Or.inl ⟨⟨i, hi⟩, hi.symm⟩, fun _ => hint, fun _ => ⟨i, rfl⟩⟩
  · have hfin : |d| < 2 ^ 1024 := finite_of_small (h.resolve_left hn) hr
    rcases hd with ⟨_, c', q, hd, hs⟩ | ⟨h2, _⟩
    · rw [hd]
      refine ⟨_, _, rfl, numText_float neg c' q, Or.inr ⟨fun h => hn ((integral_iff _ _ _).2 h), d, hr, hfin, hs⟩, ?_,
        fun h => absurd h hn⟩
      rintro ⟨i, hi⟩
      exfalso
      have hm := mem_floatText neg c' q
      simp only [Api.numText] at hi
      rw [hi] at hm
      rcases hm with hm | hm
      · exact (not_mem_intStr i).1 hm
      · exact (not_mem_intStr i).2 hm
    · linarith

theorem written_abs {neg : Bool} {c : ℕ} {e : ℤ} {y : ℚ} (h : WrittenNumber (decQ neg c e) y) :
    WrittenNumber (c * 10 ^ e) (if neg then -y else y) := by
  cases neg
  · simpa [decQ_false] using h
  · rw [decQ_true] at h
    simp only [if_true]
    rcases h with ⟨⟨i, hi⟩, rfl⟩ | ⟨h1, d, h2, h3, h4⟩
    · refine Or.inl ⟨⟨-i, by push_cast; rw [← hi]; ring⟩, by ring⟩
    · refine Or.inr ⟨?_, -d, ?_, by rw [abs_neg]; exact h3, shortest_neg h4⟩
      · rintro ⟨i, hi⟩; exact h1 ⟨-i, by push_cast; rw [← hi]⟩
      · have := roundsTo_neg h2; rwa [neg_neg] at this

/-- **C19.** Integral numbers of any size, and numbers of at most 15 significant digits (down to
`10^-307`), are written as an equal number. -/
theorem C19_json_exact (neg : Bool) (c : ℕ) (e : ℤ)
    (h : Integral neg c e ∨ (c < 10 ^ 15 ∧ (10 : ℚ) ^ (-307 : ℤ) ≤ |decQ neg c e|)) :
    ∃ t, Api.dumpAtom (.dec (.fin neg c e)) = .ok t ∧ NumText t (decQ neg c e) := by
  by_cases hn : Integral neg c e
  · obtain ⟨t, y, h1, h2, h3, _⟩ := C19_json_number neg c e (Or.inl hn)
    rcases h3 with ⟨_, rfl⟩ | ⟨h3, _⟩
    · exact ⟨t, h1, h2⟩
    · exact absurd ((integral_iff _ _ _).1 hn) h3
  · obtain ⟨hc, hx⟩ := h.resolve_left hn
    have he : e < 0 := by
      by_contra hge
      push Not at hge
      obtain ⟨k, rfl⟩ := Int.eq_ofNat_of_zero_le hge
      apply hn
      rw [integral_iff]
      cases neg
      · exact ⟨c * 10 ^ k, by rw [decQ_false]; push_cast; simp⟩
      · exact ⟨-(c * 10 ^ k), by rw [decQ_true]; push_cast; simp⟩
    have habs := abs_decQ neg c e
    have hsmall : |decQ neg c e| ≤ 2 ^ 1023 := by
      rw [habs]
      have h1 : (10 : ℚ) ^ e ≤ 10 ^ (0 : ℤ) := zpow_le_zpow_right₀ (by norm_num) he.le
      have h2 : (c : ℚ) ≤ 10 ^ 15 := by exact_mod_cast hc.le
      have h3 : (10 : ℚ) ^ 15 ≤ 2 ^ 1023 :=
        le_trans (show (10 : ℚ) ^ 15 ≤ 2 ^ 50 by norm_num) (pow_le_pow_right₀ (by norm_num) (by norm_num))
      have hq := zpow10_pos e
      calc (c : ℚ) * 10 ^ e ≤ 10 ^ 15 * 1 := by
            apply mul_le_mul h2 (by simpa using h1) hq.le (by positivity)
        _ ≤ 2 ^ 1023 := by rw [mul_one]; exact h3
    obtain ⟨t, y, h1, h2, h3, _⟩ := C19_json_number neg c e (Or.inr hsmall)
    refine ⟨t, h1, ?_⟩
    have h4 := written_abs h3
    rw [habs] at hx
    have hy : (if neg then -y else y) = c * 10 ^ e := by
      rcases h4 with ⟨_, h4⟩ | ⟨_, d, h5, _, h6⟩
      · exact h4
      · exact fifteen_digits hc hx h5 h6
    have : y = decQ neg c e := by
      cases neg
      · rw [decQ_false]; simpa using hy
      · rw [decQ_true, ← hy]; simp
    rw [← this]; exact h2

/-- **C19.** In the normal range of doubles the relative error is at most `2^-51`. -/
theorem C19_json_precision (neg : Bool) (c : ℕ) (e : ℤ) (h1 : (10 : ℚ) ^ (-307 : ℤ) ≤ |decQ neg c e|)
    (h2 : |decQ neg c e| ≤ 2 ^ 1023) :
    ∃ t y, Api.dumpAtom (.dec (.fin neg c e)) = .ok t ∧ NumText t y ∧
      |y - decQ neg c e| ≤ |decQ neg c e| / 2 ^ 51 := by
  obtain ⟨t, y, h3, h4, h5, _⟩ := C19_json_number neg c e (Or.inr h2)
  refine ⟨t, y, h3, h4, ?_⟩
  have h6 := written_abs h5
  have habs := abs_decQ neg c e
  have hd : |y - decQ neg c e| = |(if neg then -y else y) - c * 10 ^ e| := by
    cases neg
    · simp [decQ_false]
    · rw [decQ_true]
      simp only [if_true]
      rw [show -y - (c : ℚ) * 10 ^ e = -(y - -(c * 10 ^ e)) by ring, abs_neg]
  rw [hd, habs]
  rw [habs] at h1
  rcases h6 with ⟨_, h6⟩ | ⟨_, d, h7, _, h8⟩
  · rw [h6, sub_self, abs_zero]; exact err_nonneg c e
  · exact shortest_close h1 h7 (shortest_rounds h8)

example : Api.dumpAtom (.dec (.fin false 1200 (-2))) = .ok s%"12" := by decide +kernel
example : Api.dumpAtom (.dec (.fin true 1205 (-2))) = .ok s%"-12.05" := by decide +kernel
example : Api.dumpAtom (.dec (.fin false 10 22)) = .ok s%"100000000000000000000000" := by decide +kernel

/-- Beyond 15 digits non-integral numbers are rounded: different numbers get the same text. -/
theorem json_rounds :
    Api.dumpAtom (.dec (.fin false 12345678901234567890123 (-23))) = .ok s%"0.12345678901234568" ∧
    Api.dumpAtom (.dec (.fin false 90071992547409925 (-1))) = Api.dumpAtom (.dec (.fin false 900719925474099225 (-2))) ∧
    Api.dumpAtom (.dec (.fin false 1 (-400))) = .ok s%"0.0" := by decide +kernel

/-! ### C64: the text -/

theorem hex2 {n : ℕ} (h : n < 32) : Hex4 '0' '0' (Api.hexDigit (n / 16)) (Api.hexDigit (n % 16)) n := by
  interval_cases n <;> exact ⟨0, 0, _, _, rfl, rfl, rfl, rfl, rfl⟩

theorem chars_escape (c : Char) {t s : Str} (h : Chars t s) : Chars (Api.escapeChar c ++ t) (c :: s) := by
  unfold Api.escapeChar
  split_ifs with h1 h2 h3 h4 h5 h6 h7 h8
  · subst h1; exact .short (by simp [ShortEscape]) h
  · subst h2; exact .short (by simp [ShortEscape]) h
  · subst h3; exact .short (by simp [ShortEscape]) h
  · subst h4; exact .short (by simp [ShortEscape]) h
  · subst h5; exact .short (by simp [ShortEscape]) h
  · subst h6; exact .short (by simp [ShortEscape]) h
  · subst h7; exact .short (by simp [ShortEscape]) h
  · have := Chars.unit (hex2 h8) (Or.inl (by omega)) h
    rw [Char.ofNat_toNat] at this
    exact this
  · exact .plain (by omega) h2 h1 h

theorem chars_flatMap (s : Str) : Chars (s.flatMap Api.escapeChar) s := by
  induction s with
  | nil => exact .nil
  | cons c s ih => rw [List.flatMap_cons]; exact chars_escape c ih

theorem strText_jsonString (s : Str) : StrText (Api.jsonString s) s := ⟨_, rfl, chars_flatMap s⟩

theorem ws_newline (n : ℕ) : Ws (Api.newline n) := by
  intro c hc
  unfold Api.newline at hc
  rcases List.mem_cons.1 hc with rfl | hc
  · simp
  · rw [List.eq_of_mem_replicate hc]; simp

theorem ws_nil : Ws [] := by intro c hc; simp at hc

/-- A scalar that can be written. -/
theorem dumpAtom_denotes {a : Atom} (h : ∃ v, AtomDenotes a v) :
    ∃ t v, Api.dumpAtom a = .ok t ∧ ValueText t v ∧ AtomDenotes a v := by
  obtain ⟨v, h⟩ := h
  cases h with
  | none => exact ⟨_, _, rfl, .null, .none⟩
  | @bool b => cases b
               · exact ⟨_, _, rfl, .false, .bool⟩
               · exact ⟨_, _, rfl, .true, .bool⟩
  | @str s => exact ⟨_, _, rfl, .str (strText_jsonString s), .str⟩
  | @int i => exact ⟨_, _, rfl, .num (numText_int i), .int⟩
  | @datetime d => exact ⟨_, _, rfl, .str (strText_jsonString _), .datetime⟩
  | float h => exact ⟨_, _, rfl, .num h, .float h⟩
  | @dec neg c e y h =>
    simp only [Api.dumpAtom]
    rcases decimalDefault_cases neg c e with ⟨i, hi, hd⟩ | ⟨hn, d, hr, hd⟩
    · rw [hd]
      rw [eqInt_iff] at hi
      exact ⟨_, _, rfl, .num (numText_int i), .dec (Or.inl ⟨⟨i, hi⟩, hi.symm⟩)⟩
    · rcases h with ⟨h, _⟩ | ⟨h, d', h1, h2, _⟩
      · exact absurd ((integral_iff _ _ _).2 h) hn
      · obtain rfl := roundsTo_unique hr h1
        rcases hd with ⟨_, c', q, hd, hs⟩ | ⟨h3, _⟩
        · rw [hd]
          exact ⟨_, _, rfl, .num (numText_float neg c' q), .dec (Or.inr ⟨h, d, hr, h2, hs⟩)⟩
        · exact absurd h3 (not_le.2 h2)

theorem items_join {level : ℕ} : ∀ {ts : List Str} {vs : List JVal}, All₂ ValueText ts vs → ts ≠ [] →
    ItemsText (Api.newline (level + 1) ++ (Py.join (',' :: Api.newline (level + 1)) ts ++ Api.newline level)) vs := by
  intro ts vs h
  induction h with
  | nil => intro hne; exact absurd rfl hne
  | @cons t v l m h1 h2 ih =>
    intro _
    cases h2 with
    | nil => exact .one (ws_newline _) h1 (ws_newline _)
    | @cons t2 v2 l m h2 h3 =>
      have := ItemsText.cons (ws_newline (level + 1)) h1 ws_nil (ih (by simp))
      simpa [Py.join] using this

/-- A member as the encoder writes it. -/
def MemberOf (t : Str) (kv : Str × JVal) : Prop := ∃ tv, t = Api.jsonString kv.1 ++ (s%": " ++ tv) ∧ ValueText tv kv.2

theorem ws_space : Ws s%" " := by intro c hc; simp at hc; simp [hc]

theorem members_join {level : ℕ} : ∀ {ts : List Str} {vs : List (Str × JVal)}, All₂ MemberOf ts vs → ts ≠ [] →
    MembersText (Api.newline (level + 1) ++ (Py.join (',' :: Api.newline (level + 1)) ts ++ Api.newline level)) vs := by
  intro ts vs h
  induction h with
  | nil => intro hne; exact absurd rfl hne
  | @cons t v l m h1 h2 ih =>
    intro _
    obtain ⟨tv, rfl, hv⟩ := h1
    obtain ⟨k, x⟩ := v
    cases h2 with
    | nil =>
      have := MembersText.one (ws_newline (level + 1)) (strText_jsonString k) ws_nil ws_space hv (ws_newline level)
      simpa [Py.join] using this
    | @cons t2 v2 l m h2 h3 =>
      have := MembersText.cons (ws_newline (level + 1)) (strText_jsonString k) ws_nil ws_space hv ws_nil (ih (by simp))
      simpa [Py.join] using this

mutual
theorem dump_denotes {x : Json} {v : JVal} (h : Denotes x v) (level : ℕ) :
    ∃ t v', Api.dump level x = .ok t ∧ ValueText t v' ∧ Denotes x v' := by
  match h with
  | .leaf h =>
    obtain ⟨t, v', h1, h2, h3⟩ := dumpAtom_denotes ⟨_, h⟩
    exact ⟨t, v', by rw [Api.dump]; exact h1, h2, .leaf h3⟩
  | @Denotes.arr l l' h =>
    obtain ⟨ts, vs, h1, h2, h3⟩ := dumpItems_denotes h (level + 1)
    cases l with
    | nil =>
      cases h3
      exact ⟨_, _, by rw [Api.dump]; rfl, .arr0 ws_nil, .arr .nil⟩
    | cons y ys =>
      refine ⟨_, _, by rw [Api.dump, h1], ?_, .arr h3⟩
      have hne : ts ≠ [] := by rintro rfl; cases h2; cases h3
      have := ValueText.arr (items_join (level := level) h2 hne)
      simpa using this
  | @Denotes.obj l l' h =>
    obtain ⟨ts, vs, h1, h2, h3⟩ := dumpFields_denotes h (level + 1)
    cases l with
    | nil =>
      cases h3
      exact ⟨_, _, by rw [Api.dump]; rfl, .obj0 ws_nil, .obj .nil⟩
    | cons y ys =>
      refine ⟨_, _, by rw [Api.dump, h1], ?_, .obj h3⟩
      have hne : ts ≠ [] := by rintro rfl; cases h2; cases h3
      have := ValueText.obj (members_join (level := level) h2 hne)
      simpa using this

theorem dumpItems_denotes {l : List Json} {l' : List JVal} (h : AllDenote l l') (level : ℕ) :
    ∃ ts vs, Api.dumpItems level l = .ok ts ∧ All₂ ValueText ts vs ∧ AllDenote l vs := by
  match h with
  | .nil => exact ⟨[], [], by rw [Api.dumpItems], .nil, .nil⟩
  | .cons h hs =>
    obtain ⟨t, v, h1, h2, h3⟩ := dump_denotes h level
    obtain ⟨ts, vs, h4, h5, h6⟩ := dumpItems_denotes hs level
    exact ⟨t :: ts, v :: vs, by rw [Api.dumpItems, h1]; simp only [h4], .cons h2 h5, .cons h3 h6⟩

theorem dumpFields_denotes {l : List (Str × Json)} {l' : List (Str × JVal)} (h : FieldsDenote l l') (level : ℕ) :
    ∃ ts vs, Api.dumpFields level l = .ok ts ∧ All₂ MemberOf ts vs ∧ FieldsDenote l vs := by
  match h with
  | .nil => exact ⟨[], [], by rw [Api.dumpFields], .nil, .nil⟩
  | @FieldsDenote.cons k x v l l' h hs =>
    obtain ⟨t, v, h1, h2, h3⟩ := dump_denotes h level
    obtain ⟨ts, vs, h4, h5, h6⟩ := dumpFields_denotes hs level
    exact ⟨_ :: ts, (k, v) :: vs, by rw [Api.dumpFields, h1]; simp only [h4], .cons ⟨t, rfl, h2⟩ h5, .cons h3 h6⟩
end

/-- **C64.** A document that has a meaning in JSON is written as a JSON text that denotes it and nothing
else: same structure, same order of members, same texts, numbers as in C19. -/
theorem C64_json_text (doc : Json) (h : ∃ v, Denotes doc v) :
    ∃ t v, Api.dumpJson doc = .ok t ∧ Denotes doc v ∧ ∀ v', JsonText t v' ↔ v' = v := by
  obtain ⟨v, h⟩ := h
  obtain ⟨t, v', h1, h2, h3⟩ := dump_denotes h 0
  have hj : JsonText t v' := ⟨[], t, [], by simp, ws_nil, h2, ws_nil⟩
  exact ⟨t, v', h1, h3, fun v'' => ⟨fun h => jsonText_unique h hj, by rintro rfl; exact hj⟩⟩

theorem denotes_atom {a : Atom} (h : WritableAtom a) : ∃ v, AtomDenotes a v := by
  match a with
  | .none => exact ⟨_, .none⟩
  | .str _ => exact ⟨_, .str⟩
  | .int _ => exact ⟨_, .int⟩
  | .bool _ => exact ⟨_, .bool⟩
  | .datetime _ => exact ⟨_, .datetime⟩
  | .dec (.fin neg c e) =>
    obtain ⟨t, y, _, _, h3, _⟩ := C19_json_number neg c e h
    exact ⟨_, .dec h3⟩
  | .float ⟨r, .fin _ _ _⟩ => obtain ⟨y, h⟩ := h; exact ⟨_, .float h⟩

mutual
theorem denotes_exists : (doc : Json) → (∀ a, HasLeaf doc a → WritableAtom a) → ∃ v, Denotes doc v
  | .leaf a, h => by obtain ⟨v, hv⟩ := denotes_atom (h a .leaf); exact ⟨v, .leaf hv⟩
  | .arr l, h => by
    obtain ⟨vs, hv⟩ := allDenote_exists l (fun x hx a ha => h a (.arr hx ha)); exact ⟨_, .arr hv⟩
  | .obj l, h => by
    obtain ⟨vs, hv⟩ := fieldsDenote_exists l (fun k x hx a ha => h a (.obj hx ha)); exact ⟨_, .obj hv⟩
theorem allDenote_exists : (l : List Json) → (∀ x ∈ l, ∀ a, HasLeaf x a → WritableAtom a) → ∃ vs, AllDenote l vs
  | [], _ => ⟨_, .nil⟩
  | x :: l, h => by
    obtain ⟨v, hv⟩ := denotes_exists x (h x (by simp))
    obtain ⟨vs, hvs⟩ := allDenote_exists l (fun y hy => h y (by simp [hy]))
    exact ⟨_, .cons hv hvs⟩
theorem fieldsDenote_exists : (l : List (Str × Json)) → (∀ k x, (k, x) ∈ l → ∀ a, HasLeaf x a → WritableAtom a) →
    ∃ vs, FieldsDenote l vs
  | [], _ => ⟨_, .nil⟩
  | (k, x) :: l, h => by
    obtain ⟨v, hv⟩ := denotes_exists x (h k x (by simp))
    obtain ⟨vs, hvs⟩ := fieldsDenote_exists l (fun k' y hy => h k' y (by simp [hy]))
    exact ⟨_, .cons hv hvs⟩
end

/-- **C64.** Every document whose scalars have a place in JSON has a meaning in JSON. -/
theorem C64_writable (doc : Json) (h : ∀ a, HasLeaf doc a → WritableAtom a) :
    ∃ t v, Api.dumpJson doc = .ok t ∧ Denotes doc v ∧ ∀ v', JsonText t v' ↔ v' = v :=
  C64_json_text doc (denotes_exists doc h)

theorem dumpAtom_error (a : Atom) : (∃ e, Api.dumpAtom a = .error e) ↔ RefusedAtom a := by
  cases a with
  | dec d =>
    cases d with
    | fin neg c e =>
      simp only [Api.dumpAtom, RefusedAtom, iff_false]
      rcases decimalDefault_cases neg c e with ⟨i, _, hd⟩ | ⟨_, d, _, ⟨_, c', q, hd, _⟩ | ⟨_, hd⟩⟩ <;> rw [hd] <;> simp
    | inf n => simp [Api.dumpAtom, RefusedAtom, Api.decimalDefault]
    | nan n s p => simp [Api.dumpAtom, RefusedAtom, Api.decimalDefault]
  | float f => obtain ⟨r, d⟩ := f; cases d <;> simp [Api.dumpAtom, RefusedAtom]
  | _ => simp [Api.dumpAtom, RefusedAtom]

mutual
theorem dump_error (level : ℕ) : (x : Json) → ((∃ e, Api.dump level x = .error e) ↔ ∃ a, HasLeaf x a ∧ RefusedAtom a)
  | .leaf a => by
    rw [Api.dump, dumpAtom_error]
    exact ⟨fun h => ⟨a, .leaf, h⟩, by rintro ⟨b, ⟨⟩, h⟩; exact h⟩
  | .arr [] => by
    rw [Api.dump]
    exact ⟨by simp, by rintro ⟨a, h, _⟩; cases h; simp at *⟩
  | .arr (x :: l) => by
    have h := dumpItems_error (level + 1) (x :: l)
    have h2 : (∃ a, HasLeaf (.arr (x :: l)) a ∧ RefusedAtom a) ↔ ∃ y ∈ x :: l, ∃ a, HasLeaf y a ∧ RefusedAtom a := by
      constructor
      · rintro ⟨a, h, ha⟩; cases h with | arr hm h => exact ⟨_, hm, a, h, ha⟩
      · rintro ⟨y, hy, a, h, ha⟩; exact ⟨a, .arr hy h, ha⟩
    rw [h2, ← h, Api.dump]
    cases Api.dumpItems (level + 1) (x :: l) <;> simp
  | .obj [] => by
    rw [Api.dump]
    exact ⟨by simp, by rintro ⟨a, h, _⟩; cases h; simp at *⟩
  | .obj (x :: l) => by
    have h := dumpFields_error (level + 1) (x :: l)
    have h2 : (∃ a, HasLeaf (.obj (x :: l)) a ∧ RefusedAtom a) ↔
        ∃ k y, (k, y) ∈ x :: l ∧ ∃ a, HasLeaf y a ∧ RefusedAtom a := by
      constructor
      · rintro ⟨a, h, ha⟩; cases h with | obj hm h => exact ⟨_, _, hm, a, h, ha⟩
      · rintro ⟨k, y, hy, a, h, ha⟩; exact ⟨a, .obj hy h, ha⟩
    rw [h2, ← h, Api.dump]
    cases Api.dumpFields (level + 1) (x :: l) <;> simp
theorem dumpItems_error (level : ℕ) : (l : List Json) →
    ((∃ e, Api.dumpItems level l = .error e) ↔ ∃ x ∈ l, ∃ a, HasLeaf x a ∧ RefusedAtom a)
  | [] => by rw [Api.dumpItems]; simp
  | x :: l => by
    have h1 := dump_error level x
    have h2 := dumpItems_error level l
    simp only [List.mem_cons, exists_eq_or_imp]
    rw [← h1, ← h2, Api.dumpItems]
    cases Api.dump level x with
    | error e => simp
    | ok t => cases Api.dumpItems level l <;> simp
theorem dumpFields_error (level : ℕ) : (l : List (Str × Json)) →
    ((∃ e, Api.dumpFields level l = .error e) ↔ ∃ k x, (k, x) ∈ l ∧ ∃ a, HasLeaf x a ∧ RefusedAtom a)
  | [] => by rw [Api.dumpFields]; simp
  | (k, x) :: l => by
    have h1 := dump_error level x
    have h2 := dumpFields_error level l
    have h3 : (∃ k' y, (k', y) ∈ (k, x) :: l ∧ ∃ a, HasLeaf y a ∧ RefusedAtom a) ↔
        (∃ a, HasLeaf x a ∧ RefusedAtom a) ∨ ∃ k' y, (k', y) ∈ l ∧ ∃ a, HasLeaf y a ∧ RefusedAtom a := by
      constructor
      · rintro ⟨k', y, hm, h⟩
        rcases List.mem_cons.1 hm with hm | hm
        · simp only [Prod.mk.injEq] at hm; rw [hm.2] at h; exact Or.inl h
        · exact Or.inr ⟨k', y, hm, h⟩
      · rintro (h | ⟨k', y, hm, h⟩)
        · exact ⟨k, x, by simp, h⟩
        · exact ⟨k', y, by simp [hm], h⟩
    rw [h3, ← h1, ← h2, Api.dumpFields]
    cases Api.dump level x with
    | error e => simp
    | ok t => cases Api.dumpFields level l <;> simp
end

/-- **C64.** Writing fails exactly when the document contains an infinite or NaN decimal or an object
that is no scalar. -/
theorem C64_refused (doc : Json) : (∃ e, Api.dumpJson doc = .error e) ↔ ∃ a, HasLeaf doc a ∧ RefusedAtom a :=
  dump_error 0 doc

/-- A document, its text, and its meaning. -/
def jsonExample : Json :=
  .obj [(s%"a", .leaf (.str s%"x\"\n")), (s%"b", .arr [.leaf (.int 1), .leaf (.dec (.fin false 25 (-1))), .arr [], .leaf .none])]

example : Api.dumpJson jsonExample =
    .ok s%"{\n    \"a\": \"x\\\"\\n\",\n    \"b\": [\n        1,\n        2.5,\n        [],\n        null\n    ]\n}" := by
  decide +kernel

example : ∀ a, HasLeaf jsonExample a → WritableAtom a := by
  intro a h
  cases h with
  | obj hm h =>
    simp only [List.mem_cons, Prod.mk.injEq, List.not_mem_nil, or_false] at hm
    rcases hm with ⟨_, rfl⟩ | ⟨_, rfl⟩
    · cases h; trivial
    · cases h with
      | arr hm h =>
        simp only [List.mem_cons, List.not_mem_nil, or_false] at hm
        rcases hm with rfl | rfl | rfl | rfl
        · cases h; trivial
        · cases h
          right
          rw [abs_decQ]
          have h1 : ((25 : ℕ) : ℚ) * 10 ^ (-1 : ℤ) ≤ 2 ^ 2 := by norm_num
          exact h1.trans (pow_le_pow_right₀ (by norm_num) (by norm_num))
        · cases h with | arr hm _ => simp at hm
        · cases h; trivial

/-- A decimal beyond the largest double that is not integral is written as `Infinity`, which is not JSON. -/
theorem json_infinity : Api.dumpAtom (.dec (.fin true (10 ^ 400 + 1) (-1))) = .ok s%"-Infinity" ∧
    ∀ v, ¬ JsonText s%"-Infinity" v := by
  refine ⟨by decide +kernel, ?_⟩
  rintro v ⟨w, s, w', e, h1, h2, h3⟩
  have hw : w = [] := by
    cases w with
    | nil => rfl
    | cons c w =>
      have := h1 c (by simp)
      simp only [List.cons_append, List.cons.injEq] at e
      rw [← e.1] at this
      exact absurd this (by decide)
  subst hw
  have hI : 'I' ∈ s ++ w' := by rw [← List.nil_append (s ++ w'), ← e]; decide
  rcases List.mem_append.1 hI with hI | hI
  · cases h2 with
    | num h =>
      rcases (numText_chars h).1 _ hI with h | h | h | h | h | h
      · exact not_isDigit (by decide) h
      all_goals exact absurd h (by decide)
    | str h => obtain ⟨b, rfl, _⟩ := h; simp at e
    | _ => simp at e
  · exact absurd (h3 _ hI) (by decide)

end Verif

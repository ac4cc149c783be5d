import Verif.Py.Str
/-! Lemmas on strings: `split`/`join`, `strip`, decimal digits. -/
namespace Verif.Py

theorem split_ne_nil (sep : Char) (s : Str) : split sep s ≠ [] := by
  induction s with
  | nil => simp [split]
  | cons c cs ih =>
    simp only [split]; split
    · simp
    · split <;> simp

/-- A string without the separator is one piece. -/
theorem split_no_sep {sep : Char} {s : Str} (h : sep ∉ s) : split sep s = [s] := by
  induction s with
  | nil => rfl
  | cons c cs ih =>
    simp only [List.mem_cons, not_or] at h
    simp [split, Ne.symm h.1, ih h.2]

theorem split_append {sep : Char} {a : Str} (b : Str) (h : sep ∉ a) :
    split sep (a ++ sep :: b) = a :: split sep b := by
  induction a with
  | nil => simp [split]
  | cons c cs ih =>
    simp only [List.mem_cons, not_or] at h
    simp [split, Ne.symm h.1, ih h.2]

/-- `sep.join(parts).split(sep) == parts`. -/
theorem split_join {sep : Char} {parts : List Str} (hne : parts ≠ []) (h : ∀ p ∈ parts, sep ∉ p) :
    split sep (join [sep] parts) = parts := by
  induction parts with
  | nil => exact absurd rfl hne
  | cons x r ih =>
    cases r with
    | nil => simp [join, split_no_sep (h x (by simp))]
    | cons y r =>
      simp only [join, List.singleton_append]
      rw [split_append _ (h x (by simp)), ih (by simp) (fun p hp => h p (by simp [hp]))]

/-- `sep.join(s.split(sep)) == s`. -/
theorem join_split (sep : Char) (s : Str) : join [sep] (split sep s) = s := by
  induction s with
  | nil => rfl
  | cons c cs ih =>
    simp only [split]; split
    · next h =>
      subst h
      cases hs : split c cs with
      | nil => exact absurd hs (split_ne_nil _ _)
      | cons w ws => rw [hs] at ih; simp [join, ih]
    · next h =>
      cases hs : split sep cs with
      | nil => exact absurd hs (split_ne_nil _ _)
      | cons w ws =>
        rw [hs] at ih
        cases ws with
        | nil => simp only [join] at ih ⊢; rw [ih]
        | cons v vs => simp only [join] at ih ⊢; simp [← ih]

/-- No piece of `split` contains the separator. -/
theorem not_mem_split (sep : Char) (s : Str) : ∀ p ∈ split sep s, sep ∉ p := by
  induction s with
  | nil => simp [split]
  | cons c cs ih =>
    simp only [split]; split
    · intro p hp; simp only [List.mem_cons] at hp
      rcases hp with rfl | hp
      · simp
      · exact ih p hp
    · next h =>
      cases hs : split sep cs with
      | nil => exact absurd hs (split_ne_nil _ _)
      | cons w ws =>
        rw [hs] at ih
        intro p hp; simp only [List.mem_cons] at hp
        rcases hp with rfl | hp
        · simp only [List.mem_cons, not_or]; exact ⟨fun e => h e.symm, ih w (by simp)⟩
        · exact ih p (by simp [hp])

/-- Joining is injective on lists of pieces without the separator. -/
theorem join_inj {sep : Char} {a b : List Str} (ha : a ≠ []) (hb : b ≠ [])
    (hsa : ∀ p ∈ a, sep ∉ p) (hsb : ∀ p ∈ b, sep ∉ p) (h : join [sep] a = join [sep] b) : a = b := by
  rw [← split_join ha hsa, ← split_join hb hsb, h]

/-! #### strip -/

theorem rstrip_of_not {p : Char → Bool} {s : Str} (h : s.getLast?.all (fun c => !p c)) :
    rstrip p s = s := by
  induction s with
  | nil => rfl
  | cons c cs ih =>
    cases cs with
    | nil => simp [rstrip]; simpa using h
    | cons d ds =>
      have := ih (by simpa [List.getLast?_cons_cons] using h)
      unfold rstrip; rw [this]

theorem rstrip_all {p : Char → Bool} {s : Str} (h : ∀ c ∈ s, p c = false) : rstrip p s = s := by
  induction s with
  | nil => rfl
  | cons c cs ih =>
    unfold rstrip
    rw [ih (fun d hd => h d (by simp [hd]))]
    cases cs with
    | nil => simp [h c]
    | cons => rfl

theorem lstrip_of_head {p : Char → Bool} {s : Str} (h : s.head?.all (fun c => !p c)) :
    lstrip p s = s := by
  cases s with
  | nil => rfl
  | cons c cs => simp at h; simp [lstrip, h]

theorem strip_all {p : Char → Bool} {s : Str} (h : ∀ c ∈ s, p c = false) : strip p s = s := by
  unfold strip
  rw [lstrip_of_head, rstrip_all h]
  cases s with
  | nil => rfl
  | cons c cs => simp [h c]

theorem mem_rstrip {p : Char → Bool} {s : Str} {c : Char} (h : c ∈ rstrip p s) : c ∈ s := by
  induction s with
  | nil => simp [rstrip] at h
  | cons d cs ih =>
    unfold rstrip at h
    cases hr : rstrip p cs with
    | nil =>
      rw [hr] at h ih
      simp only at h
      split at h
      · simp at h
      · simp at h; simp [h]
    | cons e es =>
      rw [hr] at h ih
      simp only [List.mem_cons] at h ih ⊢
      rcases h with h | h
      · exact Or.inl h
      · exact Or.inr (ih h)

/-! #### digits -/

theorem digitChar_toNat {d : Nat} (h : d < 10) : (digitChar d).toNat = 48 + d := by
  have : d = 0 ∨ d = 1 ∨ d = 2 ∨ d = 3 ∨ d = 4 ∨ d = 5 ∨ d = 6 ∨ d = 7 ∨ d = 8 ∨ d = 9 := by omega
  rcases this with h | h | h | h | h | h | h | h | h | h <;> subst h <;> rfl

theorem digitVal_digitChar {d : Nat} (h : d < 10) : digitVal (digitChar d) = some d := by
  unfold digitVal; rw [digitChar_toNat h]
  have : 48 + d ≥ 48 ∧ 48 + d ≤ 57 := by omega
  simp [this]

/-- An ASCII digit. -/
def IsDigit (c : Char) : Prop := ∃ d, d < 10 ∧ c = digitChar d

/-- Folding the digits of a string. -/
def digitsVal (acc : Nat) (s : Str) : Nat := s.foldl (fun a c => a * 10 + (c.toNat - 48)) acc

theorem natStrAux_isDigit (fuel n : Nat) (acc : Str) (h : ∀ c ∈ acc, IsDigit c) :
    ∀ c ∈ natStrAux fuel n acc, IsDigit c := by
  induction fuel generalizing n acc with
  | zero => simpa [natStrAux] using h
  | succ f ih =>
    unfold natStrAux; split
    · next hn =>
      intro c hc; simp only [List.mem_cons] at hc
      rcases hc with rfl | hc
      · exact ⟨n, hn, rfl⟩
      · exact h c hc
    · apply ih
      intro c hc; simp only [List.mem_cons] at hc
      rcases hc with rfl | hc
      · exact ⟨n % 10, Nat.mod_lt _ (by omega), rfl⟩
      · exact h c hc

theorem natStr_isDigit (n : Nat) : ∀ c ∈ natStr n, IsDigit c :=
  natStrAux_isDigit _ _ _ (by simp)

theorem natStrAux_ne_nil (fuel n : Nat) (acc : Str) (h : acc ≠ [] ∨ fuel ≠ 0) :
    natStrAux fuel n acc ≠ [] := by
  induction fuel generalizing n acc with
  | zero => simpa [natStrAux] using h
  | succ f ih =>
    unfold natStrAux; split
    · simp
    · exact ih _ _ (Or.inl (by simp))

theorem natStr_ne_nil (n : Nat) : natStr n ≠ [] := natStrAux_ne_nil _ _ _ (Or.inr (by omega))

theorem digitsVal_cons {d : Nat} (h : d < 10) (acc : Nat) (s : Str) :
    digitsVal acc (digitChar d :: s) = digitsVal (acc * 10 + d) s := by
  unfold digitsVal; rw [List.foldl_cons, digitChar_toNat h]; congr 2; omega

theorem natStrAux_val (fuel n : Nat) (acc : Str) (h : n < fuel) :
    ∀ a, a = 0 → digitsVal a (natStrAux fuel n acc) = digitsVal n acc := by
  induction fuel generalizing n acc with
  | zero => omega
  | succ f ih =>
    intro a ha; subst ha
    unfold natStrAux; split
    · next hn => rw [digitsVal_cons hn]; simp
    · next hn =>
      rw [ih (n / 10) _ (by omega) 0 rfl, digitsVal_cons (Nat.mod_lt _ (by omega))]
      congr 1; omega

theorem natStr_val (n : Nat) : digitsVal 0 (natStr n) = n :=
  natStrAux_val (n + 1) n [] (by omega) 0 rfl

theorem digitVal_of_isDigit {c : Char} (h : IsDigit c) : digitVal c = some (c.toNat - 48) := by
  obtain ⟨d, hd, rfl⟩ := h
  rw [digitVal_digitChar hd, digitChar_toNat hd]; congr 1; omega

theorem digitsAux_digits (s : Str) (hs : ∀ c ∈ s, IsDigit c) (prev : Bool) (acc : Nat)
    (h : prev = true ∨ s ≠ []) : digitsAux prev acc s = some (digitsVal acc s) := by
  induction s generalizing prev acc with
  | nil => rcases h with h | h <;> simp_all [digitsAux, digitsVal]
  | cons c cs ih =>
    simp only [digitsAux, digitVal_of_isDigit (hs c (by simp))]
    rw [ih (fun d hd => hs d (by simp [hd])) true _ (Or.inl rfl)]; rfl

theorem isDigit_toNat {c : Char} (h : IsDigit c) : 48 ≤ c.toNat ∧ c.toNat ≤ 57 := by
  obtain ⟨d, hd, rfl⟩ := h; rw [digitChar_toNat hd]; omega

theorem isDigit_not_space {c : Char} (h : IsDigit c) : isIntSpace c = false := by
  have := isDigit_toNat h
  unfold isIntSpace
  simp only [Bool.or_eq_false_iff, Bool.and_eq_false_iff, decide_eq_false_iff_not, beq_eq_false_iff_ne]
  omega

theorem isDigit_not_isSpace {c : Char} (h : IsDigit c) : isSpace c = false := by
  have := isDigit_toNat h
  unfold isSpace
  rw [isDigit_not_space h]
  simp only [Bool.false_or, Bool.and_eq_false_iff, decide_eq_false_iff_not]
  omega

theorem isDigit_ne {c d : Char} (h : IsDigit c) (hd : ¬ (48 ≤ d.toNat ∧ d.toNat ≤ 57)) : c ≠ d := by
  rintro rfl; exact hd (isDigit_toNat h)

/-- Decimal digits only, at least one, no sign: read as that number. -/
theorem int?_digits {s : Str} (hs : ∀ c ∈ s, IsDigit c) (hne : s ≠ []) :
    int? s = some (Int.ofNat (digitsVal 0 s)) := by
  unfold int?
  rw [strip_all (fun c hc => isDigit_not_space (hs c hc))]
  cases s with
  | nil => exact absurd rfl hne
  | cons c cs =>
    have hc := hs c (by simp)
    have h1 : c ≠ '+' := isDigit_ne hc (by decide)
    have h2 : c ≠ '-' := isDigit_ne hc (by decide)
    split
    · next h => cases h; exact absurd rfl h1
    · next h => cases h; exact absurd rfl h2
    · rw [digitsAux_digits _ hs _ _ (Or.inr hne)]; rfl

theorem int?_neg_digits {s : Str} (hs : ∀ c ∈ s, IsDigit c) (hne : s ≠ []) :
    int? ('-' :: s) = some (-(digitsVal 0 s : Int)) := by
  unfold int?
  rw [strip_all]
  · simp only [digitsAux_digits _ hs _ _ (Or.inr hne)]; rfl
  · intro c hc; simp only [List.mem_cons] at hc
    rcases hc with rfl | hc
    · decide
    · exact isDigit_not_space (hs c hc)

/-- `int(str(n)) == n` for every integer. -/
theorem int?_intStr (i : Int) : int? (intStr i) = some i := by
  unfold intStr; split
  · rw [int?_neg_digits (natStr_isDigit _) (natStr_ne_nil _), natStr_val]; congr 1; omega
  · rw [int?_digits (natStr_isDigit _) (natStr_ne_nil _), natStr_val]; congr 1; simp; omega

end Verif.Py

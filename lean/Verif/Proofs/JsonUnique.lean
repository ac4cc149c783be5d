import Verif.Proofs.JsonNum
/-! A JSON text denotes at most one value. -/
namespace Verif.Spec
open Verif.Py

/-- Does not begin with a character of the class. -/
def NoHead (p : Char → Prop) (r : Str) : Prop := ∀ c r', r = c :: r' → ¬ p c

theorem span_unique {p : Char → Prop} {a b r r' : Str} (ha : ∀ c ∈ a, p c) (hb : ∀ c ∈ b, p c)
    (hr : NoHead p r) (hr' : NoHead p r') (h : a ++ r = b ++ r') : a = b ∧ r = r' := by
  induction a generalizing b with
  | nil =>
    cases b with
    | nil => exact ⟨rfl, h⟩
    | cons y b => exact absurd (hb y (by simp)) (hr y (b ++ r') h)
  | cons x a ih =>
    cases b with
    | nil => exact absurd (ha x (by simp)) (hr' x (a ++ r) h.symm)
    | cons y b =>
      simp only [List.cons_append, List.cons.injEq] at h
      obtain ⟨h1, h2⟩ := h
      obtain ⟨h3, h4⟩ := ih (fun c hc => ha c (by simp [hc])) (fun c hc => hb c (by simp [hc])) h2
      exact ⟨by rw [h1, h3], h4⟩

def IsWs (c : Char) : Prop := c = ' ' ∨ c = '\n' ∨ c = '\r' ∨ c = '\t'
def NumChar (c : Char) : Prop := IsDigit c ∨ c = '-' ∨ c = '+' ∨ c = '.' ∨ c = 'e' ∨ c = 'E'

theorem noHead_nil (p : Char → Prop) : NoHead p [] := fun _ _ h => by simp at h
theorem noHead_cons {p : Char → Prop} {c : Char} {r : Str} (h : ¬ p c) : NoHead p (c :: r) := by
  intro c' r' e; simp only [List.cons.injEq] at e; rw [← e.1]; exact h

theorem digitChar_ne {d : ℕ} (h : d < 10) (c : Char) (hc : c.toNat < 48 ∨ 57 < c.toNat) : digitChar d ≠ c := by
  intro e
  have := digitChar_toNat h
  rw [e] at this
  omega

theorem not_isDigit {c : Char} (hc : c.toNat < 48 ∨ 57 < c.toNat) : ¬ IsDigit c := by
  rintro ⟨d, hd, rfl⟩; exact digitChar_ne hd _ hc rfl

theorem digits_val {s : Str} {n : ℕ} (h : Digits s n) : (∀ c ∈ s, IsDigit c) ∧ n = digitsVal 0 s := by
  induction h with
  | nil => simp [digitsVal]
  | snoc h1 h2 ih =>
    obtain ⟨n, hn⟩ := h2
    refine ⟨?_, ?_⟩
    · intro c hc
      rcases List.mem_append.1 hc with hc | hc
      · exact ih.1 c hc
      · simp at hc; subst hc; exact ⟨_, hn, rfl⟩
    · rw [digitsVal_append, ← ih.2]
      simp only [digitsVal, List.foldl_cons, List.foldl_nil]
      have := digitChar_toNat hn
      unfold digitChar at this
      rw [this]; omega

theorem digits_unique {s : Str} {n m : ℕ} (h : Digits s n) (h' : Digits s m) : n = m := by
  rw [(digits_val h).2, (digits_val h').2]

theorem expPart_head {ex : Str} {k : ℤ} (h : ExpPart ex k) : NoHead IsDigit ex ∧ NoHead (· = '.') ex := by
  have e1 : ¬ IsDigit 'e' := not_isDigit (by decide)
  have e2 : ¬ IsDigit 'E' := not_isDigit (by decide)
  cases h with
  | none => exact ⟨noHead_nil _, noHead_nil _⟩
  | plain h _ _ => rcases h with rfl | rfl <;> exact ⟨noHead_cons (by assumption), noHead_cons (by decide)⟩
  | plus h _ _ => rcases h with rfl | rfl <;> exact ⟨noHead_cons (by assumption), noHead_cons (by decide)⟩
  | minus h _ _ => rcases h with rfl | rfl <;> exact ⟨noHead_cons (by assumption), noHead_cons (by decide)⟩

theorem digits_noSign {ds : Str} {n : ℕ} (h : Digits ds n) : ds.head? ≠ some '+' ∧ ds.head? ≠ some '-' := by
  have := (digits_val h).1
  cases ds with
  | nil => simp
  | cons c r =>
    have hc := this c (by simp)
    have e1 : ¬ IsDigit '+' := not_isDigit (by decide)
    have e2 : ¬ IsDigit '-' := not_isDigit (by decide)
    constructor <;> simp only [List.head?_cons, ne_eq, Option.some.injEq] <;> rintro rfl <;> contradiction

theorem expPart_unique {ex : Str} {k k' : ℤ} (h : ExpPart ex k) (h' : ExpPart ex k') : k = k' := by
  cases h with
  | none => cases h'; rfl
  | plain _ h2 _ =>
    cases h' with
    | plain _ h2' _ => rw [digits_unique h2 h2']
    | plus _ h2' _ => exact absurd rfl (digits_noSign h2).1
    | minus _ h2' _ => exact absurd rfl (digits_noSign h2).2
  | plus _ h2 _ =>
    cases h' with
    | plain _ h2' _ => exact absurd rfl (digits_noSign h2').1
    | plus _ h2' _ => rw [digits_unique h2 h2']
  | minus _ h2 _ =>
    cases h' with
    | plain _ h2' _ => exact absurd rfl (digits_noSign h2').2
    | minus _ h2' _ => rw [digits_unique h2 h2']

theorem fracPart_head {ft fp ex : Str} {k : ℤ} (h : FracPart ft fp) (hx : ExpPart ex k) : NoHead IsDigit (ft ++ ex) := by
  rcases h with ⟨rfl, rfl⟩ | ⟨rfl, _⟩
  · exact (expPart_head hx).1
  · exact noHead_cons (not_isDigit (by decide))

theorem numText_unique {t : Str} {q q' : ℚ} (h : NumText t q) (h' : NumText t q') : q = q' := by
  obtain ⟨neg, ip, ft, fp, ex, i, c, e, ht, hi, hf, hd, hx, rfl⟩ := h
  obtain ⟨neg', ip', ft', fp', ex', i', c', e', ht', hi', hf', hd', hx', rfl⟩ := h'
  have hall := (digits_val hd).1
  have hall' := (digits_val hd').1
  have hip : ∀ c ∈ ip, IsDigit c := (digits_val hi.1).1
  have hip' : ∀ c ∈ ip', IsDigit c := (digits_val hi'.1).1
  have hm : ¬ IsDigit '-' := not_isDigit (by decide)
  have hneg : neg = neg' := by
    rw [ht] at ht'
    cases ip with
    | nil => exact absurd rfl hi.2.1
    | cons x r =>
      cases ip' with
      | nil => exact absurd rfl hi'.2.1
      | cons y r' =>
        have hx := hip x (by simp)
        have hy := hip' y (by simp)
        cases neg <;> cases neg' <;> simp at ht' ⊢
        · rw [ht'.1] at hx; exact hm hx
        · rw [← ht'.1] at hy; exact hm hy
  subst hneg
  rw [ht] at ht'
  have h1 := List.append_cancel_left ht'
  obtain ⟨rfl, h2⟩ := span_unique hip hip' (fracPart_head hf hx) (fracPart_head hf' hx') h1
  have hfp : ft = ft' ∧ fp = fp' ∧ ex = ex' := by
    rcases hf with ⟨rfl, rfl⟩ | ⟨rfl, hn⟩ <;> rcases hf' with ⟨rfl, rfl⟩ | ⟨rfl, hn'⟩
    · exact ⟨rfl, rfl, by simpa using h2⟩
    · simp only [List.nil_append, List.cons_append] at h2
      exact absurd rfl ((expPart_head hx).2 _ _ h2)
    · simp only [List.nil_append, List.cons_append] at h2
      exact absurd rfl ((expPart_head hx').2 _ _ h2.symm)
    · simp only [List.cons_append, List.cons.injEq, true_and] at h2
      obtain ⟨rfl, rfl⟩ := span_unique (fun c hc => hall c (by simp [hc])) (fun c hc => hall' c (by simp [hc]))
        (expPart_head hx).1 (expPart_head hx').1 h2
      exact ⟨rfl, rfl, rfl⟩
  obtain ⟨rfl, rfl, rfl⟩ := hfp
  rw [digits_unique hd hd', expPart_unique hx hx']

theorem expPart_chars {ex : Str} {k : ℤ} (h : ExpPart ex k) : ∀ c ∈ ex, NumChar c := by
  intro c hc
  unfold NumChar
  cases h with
  | none => simp at hc
  | plain h1 h2 _ =>
    rcases List.mem_cons.1 hc with rfl | hc
    · rcases h1 with rfl | rfl <;> simp
    · exact Or.inl ((digits_val h2).1 c hc)
  | plus h1 h2 _ =>
    rcases List.mem_cons.1 hc with rfl | hc
    · rcases h1 with rfl | rfl <;> simp
    · rcases List.mem_cons.1 hc with rfl | hc
      · simp
      · exact Or.inl ((digits_val h2).1 c hc)
  | minus h1 h2 _ =>
    rcases List.mem_cons.1 hc with rfl | hc
    · rcases h1 with rfl | rfl <;> simp
    · rcases List.mem_cons.1 hc with rfl | hc
      · simp
      · exact Or.inl ((digits_val h2).1 c hc)

theorem numText_chars {t : Str} {q : ℚ} (h : NumText t q) : (∀ c ∈ t, NumChar c) ∧ ∃ c r, t = c :: r ∧ (IsDigit c ∨ c = '-') := by
  obtain ⟨neg, ip, ft, fp, ex, i, c, e, rfl, hi, hf, hd, hx, rfl⟩ := h
  have hall := (digits_val hd).1
  have hip : ∀ c ∈ ip, IsDigit c := (digits_val hi.1).1
  constructor
  · intro c hc
    rcases List.mem_append.1 hc with hc | hc
    · cases neg <;> simp at hc; subst hc; simp [NumChar]
    rcases List.mem_append.1 hc with hc | hc
    · exact Or.inl (hip c hc)
    rcases List.mem_append.1 hc with hc | hc
    · rcases hf with ⟨rfl, rfl⟩ | ⟨rfl, _⟩
      · simp at hc
      · rcases List.mem_cons.1 hc with rfl | hc
        · simp [NumChar]
        · exact Or.inl (hall c (by simp [hc]))
    · exact expPart_chars hx c hc
  · cases neg
    · cases ip with
      | nil => exact absurd rfl hi.2.1
      | cons x r => exact ⟨x, _, rfl, Or.inl (hip x (by simp))⟩
    · exact ⟨'-', _, rfl, Or.inr rfl⟩

/-! Strings -/

theorem hex4_unique {a b c d : Char} {n m : ℕ} (h : Hex4 a b c d n) (h' : Hex4 a b c d m) : n = m := by
  obtain ⟨x, y, z, w, h1, h2, h3, h4, rfl⟩ := h
  obtain ⟨x', y', z', w', h1', h2', h3', h4', rfl⟩ := h'
  rw [h1] at h1'; rw [h2] at h2'; rw [h3] at h3'; rw [h4] at h4'
  simp only [Option.some.injEq] at h1' h2' h3' h4'
  rw [h1', h2', h3', h4']

theorem shortEscape_unique {l c c' : Char} (h : ShortEscape l c) (h' : ShortEscape l c') : c = c' := by
  unfold ShortEscape at h h'
  simp only [List.mem_cons, Prod.mk.injEq, List.not_mem_nil, or_false] at h h'
  rcases h with ⟨rfl, rfl⟩ | ⟨rfl, rfl⟩ | ⟨rfl, rfl⟩ | ⟨rfl, rfl⟩ | ⟨rfl, rfl⟩ | ⟨rfl, rfl⟩ | ⟨rfl, rfl⟩ | ⟨rfl, rfl⟩ <;>
    (simp at h'; exact h'.symm)

theorem shortEscape_ne_u {c : Char} : ¬ ShortEscape 'u' c := by
  intro h; unfold ShortEscape at h; simp at h

theorem chars_unique {b s b' s' r r' : Str} (h : Chars b s) (h' : Chars b' s') (e : b ++ '"' :: r = b' ++ '"' :: r') :
    b = b' ∧ s = s' ∧ r = r' := by
  induction h generalizing b' s' with
  | nil =>
    cases h' with
    | nil => exact ⟨rfl, rfl, by simpa using e⟩
    | plain _ h _ _ => simp at e; exact absurd e.1.symm h
    | short _ _ => simp at e
    | unit _ _ _ => simp at e
    | pair _ _ _ _ _ => simp at e
  | plain h1 h2 h3 _ ih =>
    cases h' with
    | nil => simp at e; exact absurd e.1 h2
    | plain _ _ _ h4 =>
      simp only [List.cons_append, List.cons.injEq] at e
      obtain ⟨rfl, e⟩ := e
      obtain ⟨rfl, rfl, rfl⟩ := ih h4 e
      exact ⟨rfl, rfl, rfl⟩
    | short _ _ => simp at e; exact absurd e.1 h3
    | unit _ _ _ => simp at e; exact absurd e.1 h3
    | pair _ _ _ _ _ => simp at e; exact absurd e.1 h3
  | short h1 _ ih =>
    cases h' with
    | nil => simp at e
    | plain _ _ h4 _ => simp at e; exact absurd e.1.symm h4
    | short h1' h4 =>
      simp only [List.cons_append, List.cons.injEq, true_and] at e
      obtain ⟨rfl, e⟩ := e
      obtain ⟨rfl, rfl, rfl⟩ := ih h4 e
      rw [shortEscape_unique h1 h1']
      exact ⟨rfl, rfl, rfl⟩
    | unit _ _ _ => simp only [List.cons_append, List.cons.injEq, true_and] at e; rw [e.1] at h1; exact absurd h1 shortEscape_ne_u
    | pair _ _ _ _ _ => simp only [List.cons_append, List.cons.injEq, true_and] at e; rw [e.1] at h1; exact absurd h1 shortEscape_ne_u
  | unit h1 h2 _ ih =>
    cases h' with
    | nil => simp at e
    | plain _ _ h4 _ => simp at e; exact absurd e.1.symm h4
    | short h1' h4 => simp only [List.cons_append, List.cons.injEq, true_and] at e; rw [← e.1] at h1'; exact absurd h1' shortEscape_ne_u
    | unit h1' h2' h4 =>
      simp only [List.cons_append, List.cons.injEq, true_and] at e
      obtain ⟨rfl, rfl, rfl, rfl, e⟩ := e
      obtain ⟨rfl, rfl, rfl⟩ := ih h4 e
      rw [hex4_unique h1 h1']
      exact ⟨rfl, rfl, rfl⟩
    | pair h1' h2' _ _ _ =>
      simp only [List.cons_append, List.cons.injEq, true_and] at e
      obtain ⟨rfl, rfl, rfl, rfl, e⟩ := e
      rw [hex4_unique h1 h1'] at h2
      omega
  | pair h1 h2 h3 h4 _ ih =>
    cases h' with
    | nil => simp at e
    | plain _ _ h4 _ => simp at e; exact absurd e.1.symm h4
    | short h1' h4 => simp only [List.cons_append, List.cons.injEq, true_and] at e; rw [← e.1] at h1'; exact absurd h1' shortEscape_ne_u
    | unit h1' h2' _ =>
      simp only [List.cons_append, List.cons.injEq, true_and] at e
      obtain ⟨rfl, rfl, rfl, rfl, e⟩ := e
      rw [hex4_unique h1' h1] at h2'
      omega
    | pair h1' h2' h3' h4' h5 =>
      simp only [List.cons_append, List.cons.injEq, true_and] at e
      obtain ⟨rfl, rfl, rfl, rfl, rfl, rfl, rfl, rfl, e⟩ := e
      obtain ⟨rfl, rfl, rfl⟩ := ih h5 e
      rw [hex4_unique h1 h1', hex4_unique h3 h3']
      exact ⟨rfl, rfl, rfl⟩

theorem strText_unique {t s t' s' r r' : Str} (h : StrText t s) (h' : StrText t' s') (e : t ++ r = t' ++ r') :
    t = t' ∧ s = s' ∧ r = r' := by
  obtain ⟨b, rfl, hb⟩ := h
  obtain ⟨b', rfl, hb'⟩ := h'
  simp only [List.cons_append, List.cons.injEq, true_and, List.append_assoc] at e
  obtain ⟨rfl, rfl, rfl⟩ := chars_unique hb hb' e
  exact ⟨rfl, rfl, rfl⟩

/-! Values -/

theorem valueText_head {t : Str} {v : JVal} (h : ValueText t v) : ∃ c r, t = c :: r ∧ ¬ IsWs c ∧ c ≠ ']' ∧ c ≠ '}' := by
  cases h with
  | num h =>
    obtain ⟨_, c, r, rfl, hcc⟩ := numText_chars h
    refine ⟨c, r, rfl, ?_⟩
    rcases hcc with ⟨d, hd, rfl⟩ | rfl
    · refine ⟨?_, digitChar_ne hd _ (by decide), digitChar_ne hd _ (by decide)⟩
      rintro (e | e | e | e) <;> exact digitChar_ne hd _ (by decide) e
    · unfold IsWs; decide
  | str h => obtain ⟨b, rfl, _⟩ := h; exact ⟨'"', _, rfl, by unfold IsWs; decide⟩
  | _ => exact ⟨_, _, rfl, by unfold IsWs; decide⟩

theorem noWs_of_value {t r : Str} {v : JVal} (h : ValueText t v) : NoHead IsWs (t ++ r) := by
  obtain ⟨c, s, rfl, h, _⟩ := valueText_head h
  exact noHead_cons h

theorem noWs_of_str {t s r : Str} (h : StrText t s) : NoHead IsWs (t ++ r) := noWs_of_value (.str h)

/-- What may follow a value. -/
def Stop (r : Str) : Prop := NoHead NumChar r

theorem stop_delim {c : Char} {r : Str} (h : IsWs c ∨ c = ',' ∨ c = ']' ∨ c = '}') : Stop (c :: r) := by
  apply noHead_cons
  unfold IsWs at h
  rcases h with (rfl | rfl | rfl | rfl) | rfl | rfl | rfl <;>
    (rintro (h | h | h | h | h | h) <;> first | exact not_isDigit (by decide) h | exact absurd h (by decide))

theorem stop_ws {w r : Str} (hw : Ws w) (h : Stop r) : Stop (w ++ r) := by
  cases w with
  | nil => exact h
  | cons c w => exact stop_delim (Or.inl (hw c (by simp)))

theorem not_ws_of {c : Char} (h : c = ',' ∨ c = ']' ∨ c = '}' ∨ c = ':' ∨ c = '"') : ¬ IsWs c := by
  unfold IsWs; rcases h with rfl | rfl | rfl | rfl | rfl <;> decide

theorem value_kind_num {t : Str} {q : ℚ} (h : NumText t q) {t' : Str} {v' : JVal} (h' : ValueText t' v') {r r' : Str}
    (e : t ++ r = t' ++ r') : ∃ q', v' = .num q' ∧ NumText t' q' := by
  obtain ⟨_, c, s, rfl, hc⟩ := numText_chars h
  have hn : ∀ x : Char, (x.toNat < 48 ∨ 57 < x.toNat) → x ≠ '-' → c ≠ x := by
    intro x h1 h2
    rcases hc with ⟨d, hd, rfl⟩ | rfl
    · exact digitChar_ne hd _ h1
    · exact h2.symm
  cases h' with
  | num h => exact ⟨_, rfl, h⟩
  | str h => obtain ⟨b, rfl, _⟩ := h; simp at e; exact absurd e.1 (hn _ (by decide) (by decide))
  | null => simp at e; exact absurd e.1 (hn _ (by decide) (by decide))
  | true => simp at e; exact absurd e.1 (hn _ (by decide) (by decide))
  | false => simp at e; exact absurd e.1 (hn _ (by decide) (by decide))
  | _ => simp at e; exact absurd e.1 (hn _ (by decide) (by decide))

theorem num_unique {t t' r r' : Str} {q q' : ℚ} (h : NumText t q) (h' : NumText t' q') (e : t ++ r = t' ++ r')
    (hr : Stop r) (hr' : Stop r') : t = t' ∧ q = q' ∧ r = r' := by
  obtain ⟨rfl, rfl⟩ := span_unique (numText_chars h).1 (numText_chars h').1 hr hr' e
  exact ⟨rfl, numText_unique h h', rfl⟩

theorem itemsText_head {t : Str} {l : List JVal} (h : ItemsText t l) :
    ∃ w c r, t = w ++ c :: r ∧ Ws w ∧ ¬ IsWs c ∧ c ≠ ']' := by
  cases h with
  | one hw hv _ =>
    obtain ⟨c, r, rfl, h1, h2, _⟩ := valueText_head hv
    exact ⟨_, c, _, rfl, hw, h1, h2⟩
  | cons hw hv _ _ =>
    obtain ⟨c, r, rfl, h1, h2, _⟩ := valueText_head hv
    exact ⟨_, c, _, rfl, hw, h1, h2⟩

theorem membersText_head {t : Str} {l : List (Str × JVal)} (h : MembersText t l) :
    ∃ w c r, t = w ++ c :: r ∧ Ws w ∧ ¬ IsWs c ∧ c ≠ '}' := by
  cases h with
  | one hw hk _ _ _ _ =>
    obtain ⟨c, r, rfl, h1, _, h2⟩ := valueText_head (.str hk)
    exact ⟨_, c, _, rfl, hw, h1, h2⟩
  | cons hw hk _ _ _ _ _ =>
    obtain ⟨c, r, rfl, h1, _, h2⟩ := valueText_head (.str hk)
    exact ⟨_, c, _, rfl, hw, h1, h2⟩

theorem ws_span {w w' r r' : Str} (hw : Ws w) (hw' : Ws w') (hr : NoHead IsWs r) (hr' : NoHead IsWs r')
    (e : w ++ r = w' ++ r') : w = w' ∧ r = r' := span_unique hw hw' hr hr' e

mutual
theorem value_unique {t : Str} {v : JVal} (h : ValueText t v) : ∀ {t' r r' : Str} {v' : JVal}, ValueText t' v' →
    t ++ r = t' ++ r' → Stop r → Stop r' → t = t' ∧ v = v' ∧ r = r' := by
  intro t' r r' v' h' e hr hr'
  match h with
  | .num hn =>
    obtain ⟨q', rfl, hn'⟩ := value_kind_num hn h' e
    obtain ⟨rfl, rfl, rfl⟩ := num_unique hn hn' e hr hr'
    exact ⟨rfl, rfl, rfl⟩
  | .null =>
    cases h' with
    | num hn => obtain ⟨q', h, _⟩ := value_kind_num hn ValueText.null e.symm; cases h
    | str hs => obtain ⟨b, rfl, _⟩ := hs; simp at e
    | null => exact ⟨rfl, rfl, by simpa using e⟩
    | _ => simp at e
  | .true =>
    cases h' with
    | num hn => obtain ⟨q', h, _⟩ := value_kind_num hn ValueText.true e.symm; cases h
    | str hs => obtain ⟨b, rfl, _⟩ := hs; simp at e
    | true => exact ⟨rfl, rfl, by simpa using e⟩
    | _ => simp at e
  | .false =>
    cases h' with
    | num hn => obtain ⟨q', h, _⟩ := value_kind_num hn ValueText.false e.symm; cases h
    | str hs => obtain ⟨b, rfl, _⟩ := hs; simp at e
    | false => exact ⟨rfl, rfl, by simpa using e⟩
    | _ => simp at e
  | .str hs =>
    cases h' with
    | num hn => obtain ⟨q', h, _⟩ := value_kind_num hn (ValueText.str hs) e.symm; cases h
    | str hs' => obtain ⟨rfl, rfl, rfl⟩ := strText_unique hs hs' e; exact ⟨rfl, rfl, rfl⟩
    | _ => obtain ⟨b, rfl, _⟩ := hs; simp at e
  | .arr0 hw =>
    cases h' with
    | num hn => obtain ⟨q', h, _⟩ := value_kind_num hn (ValueText.arr0 hw) e.symm; cases h
    | str hs => obtain ⟨b, rfl, _⟩ := hs; simp at e
    | arr0 hw' =>
      simp only [List.cons_append, List.append_assoc, List.cons.injEq, true_and, List.nil_append] at e
      obtain ⟨rfl, e2⟩ := ws_span hw hw' (noHead_cons (not_ws_of (by simp))) (noHead_cons (not_ws_of (by simp))) e
      exact ⟨rfl, rfl, by simpa using e2⟩
    | arr hi =>
      exfalso
      obtain ⟨w', c, s, rfl, hw', h1, h2⟩ := itemsText_head hi
      simp only [List.cons_append, List.append_assoc, List.cons.injEq, true_and, List.nil_append] at e
      obtain ⟨rfl, e2⟩ := ws_span hw hw' (noHead_cons (not_ws_of (by simp))) (noHead_cons h1) e
      simp at e2; exact h2 e2.1.symm
    | _ => simp at e
  | .arr hi =>
    cases h' with
    | num hn => obtain ⟨q', h, _⟩ := value_kind_num hn (ValueText.arr hi) e.symm; cases h
    | str hs => obtain ⟨b, rfl, _⟩ := hs; simp at e
    | arr0 hw' =>
      exfalso
      obtain ⟨w', c, s, rfl, hw, h1, h2⟩ := itemsText_head hi
      simp only [List.cons_append, List.append_assoc, List.cons.injEq, true_and, List.nil_append] at e
      obtain ⟨rfl, e2⟩ := ws_span hw hw' (noHead_cons h1) (noHead_cons (not_ws_of (by simp))) e
      simp at e2; exact h2 e2.1
    | arr hi' =>
      simp only [List.cons_append, List.append_assoc, List.cons.injEq, true_and, List.nil_append] at e
      obtain ⟨rfl, rfl, rfl⟩ := items_unique hi hi' e
      exact ⟨rfl, rfl, rfl⟩
    | _ => simp at e
  | .obj0 hw =>
    cases h' with
    | num hn => obtain ⟨q', h, _⟩ := value_kind_num hn (ValueText.obj0 hw) e.symm; cases h
    | str hs => obtain ⟨b, rfl, _⟩ := hs; simp at e
    | obj0 hw' =>
      simp only [List.cons_append, List.append_assoc, List.cons.injEq, true_and, List.nil_append] at e
      obtain ⟨rfl, e2⟩ := ws_span hw hw' (noHead_cons (not_ws_of (by simp))) (noHead_cons (not_ws_of (by simp))) e
      exact ⟨rfl, rfl, by simpa using e2⟩
    | obj hi =>
      exfalso
      obtain ⟨w', c, s, rfl, hw', h1, h2⟩ := membersText_head hi
      simp only [List.cons_append, List.append_assoc, List.cons.injEq, true_and, List.nil_append] at e
      obtain ⟨rfl, e2⟩ := ws_span hw hw' (noHead_cons (not_ws_of (by simp))) (noHead_cons h1) e
      simp at e2; exact h2 e2.1.symm
    | _ => simp at e
  | .obj hi =>
    cases h' with
    | num hn => obtain ⟨q', h, _⟩ := value_kind_num hn (ValueText.obj hi) e.symm; cases h
    | str hs => obtain ⟨b, rfl, _⟩ := hs; simp at e
    | obj0 hw' =>
      exfalso
      obtain ⟨w', c, s, rfl, hw, h1, h2⟩ := membersText_head hi
      simp only [List.cons_append, List.append_assoc, List.cons.injEq, true_and, List.nil_append] at e
      obtain ⟨rfl, e2⟩ := ws_span hw hw' (noHead_cons h1) (noHead_cons (not_ws_of (by simp))) e
      simp at e2; exact h2 e2.1
    | obj hi' =>
      simp only [List.cons_append, List.append_assoc, List.cons.injEq, true_and, List.nil_append] at e
      obtain ⟨rfl, rfl, rfl⟩ := members_unique hi hi' e
      exact ⟨rfl, rfl, rfl⟩
    | _ => simp at e

theorem items_unique {t : Str} {l : List JVal} (h : ItemsText t l) : ∀ {t' r r' : Str} {l' : List JVal}, ItemsText t' l' →
    t ++ ']' :: r = t' ++ ']' :: r' → t = t' ∧ l = l' ∧ r = r' := by
  intro t' r r' l' h' e
  match h with
  | .one hw hv hw2 =>
    cases h' with
    | one hw' hv' hw2' =>
      simp only [List.append_assoc] at e
      obtain ⟨rfl, e1⟩ := ws_span hw hw' (noWs_of_value hv) (noWs_of_value hv') e
      obtain ⟨rfl, rfl, e2⟩ := value_unique hv hv' e1 (stop_ws hw2 (stop_delim (by simp))) (stop_ws hw2' (stop_delim (by simp)))
      obtain ⟨rfl, e3⟩ := ws_span hw2 hw2' (noHead_cons (not_ws_of (by simp))) (noHead_cons (not_ws_of (by simp))) e2
      exact ⟨rfl, rfl, by simpa using e3⟩
    | cons hw' hv' hw2' hi' =>
      simp only [List.append_assoc, List.cons_append] at e
      obtain ⟨rfl, e1⟩ := ws_span hw hw' (noWs_of_value hv) (noWs_of_value hv') e
      obtain ⟨rfl, rfl, e2⟩ := value_unique hv hv' e1 (stop_ws hw2 (stop_delim (by simp))) (stop_ws hw2' (stop_delim (by simp)))
      obtain ⟨rfl, e3⟩ := ws_span hw2 hw2' (noHead_cons (not_ws_of (by simp))) (noHead_cons (not_ws_of (by simp))) e2
      simp at e3
  | .cons hw hv hw2 hi =>
    cases h' with
    | one hw' hv' hw2' =>
      simp only [List.append_assoc, List.cons_append] at e
      obtain ⟨rfl, e1⟩ := ws_span hw hw' (noWs_of_value hv) (noWs_of_value hv') e
      obtain ⟨rfl, rfl, e2⟩ := value_unique hv hv' e1 (stop_ws hw2 (stop_delim (by simp))) (stop_ws hw2' (stop_delim (by simp)))
      obtain ⟨rfl, e3⟩ := ws_span hw2 hw2' (noHead_cons (not_ws_of (by simp))) (noHead_cons (not_ws_of (by simp))) e2
      simp at e3
    | cons hw' hv' hw2' hi' =>
      simp only [List.append_assoc, List.cons_append] at e
      obtain ⟨rfl, e1⟩ := ws_span hw hw' (noWs_of_value hv) (noWs_of_value hv') e
      obtain ⟨rfl, rfl, e2⟩ := value_unique hv hv' e1 (stop_ws hw2 (stop_delim (by simp))) (stop_ws hw2' (stop_delim (by simp)))
      obtain ⟨rfl, e3⟩ := ws_span hw2 hw2' (noHead_cons (not_ws_of (by simp))) (noHead_cons (not_ws_of (by simp))) e2
      simp only [List.cons.injEq, true_and] at e3
      obtain ⟨rfl, rfl, rfl⟩ := items_unique hi hi' e3
      exact ⟨rfl, rfl, rfl⟩

theorem members_unique {t : Str} {l : List (Str × JVal)} (h : MembersText t l) :
    ∀ {t' r r' : Str} {l' : List (Str × JVal)}, MembersText t' l' →
    t ++ '}' :: r = t' ++ '}' :: r' → t = t' ∧ l = l' ∧ r = r' := by
  intro t' r r' l' h' e
  match h with
  | .one hw hk h1 h2 hv h3 =>
    cases h' with
    | one hw' hk' h1' h2' hv' h3' =>
      simp only [List.append_assoc, List.cons_append] at e
      obtain ⟨rfl, e1⟩ := ws_span hw hw' (noWs_of_str hk) (noWs_of_str hk') e
      obtain ⟨rfl, rfl, e2⟩ := strText_unique hk hk' e1
      obtain ⟨rfl, e3⟩ := ws_span h1 h1' (noHead_cons (not_ws_of (by simp))) (noHead_cons (not_ws_of (by simp))) e2
      simp only [List.cons.injEq, true_and] at e3
      obtain ⟨rfl, e4⟩ := ws_span h2 h2' (noWs_of_value hv) (noWs_of_value hv') e3
      obtain ⟨rfl, rfl, e5⟩ := value_unique hv hv' e4 (stop_ws h3 (stop_delim (by simp))) (stop_ws h3' (stop_delim (by simp)))
      obtain ⟨rfl, e6⟩ := ws_span h3 h3' (noHead_cons (not_ws_of (by simp))) (noHead_cons (not_ws_of (by simp))) e5
      exact ⟨rfl, rfl, by simpa using e6⟩
    | cons hw' hk' h1' h2' hv' h3' hi' =>
      simp only [List.append_assoc, List.cons_append] at e
      obtain ⟨rfl, e1⟩ := ws_span hw hw' (noWs_of_str hk) (noWs_of_str hk') e
      obtain ⟨rfl, rfl, e2⟩ := strText_unique hk hk' e1
      obtain ⟨rfl, e3⟩ := ws_span h1 h1' (noHead_cons (not_ws_of (by simp))) (noHead_cons (not_ws_of (by simp))) e2
      simp only [List.cons.injEq, true_and] at e3
      obtain ⟨rfl, e4⟩ := ws_span h2 h2' (noWs_of_value hv) (noWs_of_value hv') e3
      obtain ⟨rfl, rfl, e5⟩ := value_unique hv hv' e4 (stop_ws h3 (stop_delim (by simp))) (stop_ws h3' (stop_delim (by simp)))
      obtain ⟨rfl, e6⟩ := ws_span h3 h3' (noHead_cons (not_ws_of (by simp))) (noHead_cons (not_ws_of (by simp))) e5
      simp at e6
  | .cons hw hk h1 h2 hv h3 hi =>
    cases h' with
    | one hw' hk' h1' h2' hv' h3' =>
      simp only [List.append_assoc, List.cons_append] at e
      obtain ⟨rfl, e1⟩ := ws_span hw hw' (noWs_of_str hk) (noWs_of_str hk') e
      obtain ⟨rfl, rfl, e2⟩ := strText_unique hk hk' e1
      obtain ⟨rfl, e3⟩ := ws_span h1 h1' (noHead_cons (not_ws_of (by simp))) (noHead_cons (not_ws_of (by simp))) e2
      simp only [List.cons.injEq, true_and] at e3
      obtain ⟨rfl, e4⟩ := ws_span h2 h2' (noWs_of_value hv) (noWs_of_value hv') e3
      obtain ⟨rfl, rfl, e5⟩ := value_unique hv hv' e4 (stop_ws h3 (stop_delim (by simp))) (stop_ws h3' (stop_delim (by simp)))
      obtain ⟨rfl, e6⟩ := ws_span h3 h3' (noHead_cons (not_ws_of (by simp))) (noHead_cons (not_ws_of (by simp))) e5
      simp at e6
    | cons hw' hk' h1' h2' hv' h3' hi' =>
      simp only [List.append_assoc, List.cons_append] at e
      obtain ⟨rfl, e1⟩ := ws_span hw hw' (noWs_of_str hk) (noWs_of_str hk') e
      obtain ⟨rfl, rfl, e2⟩ := strText_unique hk hk' e1
      obtain ⟨rfl, e3⟩ := ws_span h1 h1' (noHead_cons (not_ws_of (by simp))) (noHead_cons (not_ws_of (by simp))) e2
      simp only [List.cons.injEq, true_and] at e3
      obtain ⟨rfl, e4⟩ := ws_span h2 h2' (noWs_of_value hv) (noWs_of_value hv') e3
      obtain ⟨rfl, rfl, e5⟩ := value_unique hv hv' e4 (stop_ws h3 (stop_delim (by simp))) (stop_ws h3' (stop_delim (by simp)))
      obtain ⟨rfl, e6⟩ := ws_span h3 h3' (noHead_cons (not_ws_of (by simp))) (noHead_cons (not_ws_of (by simp))) e5
      simp only [List.cons.injEq, true_and] at e6
      obtain ⟨rfl, rfl, rfl⟩ := members_unique hi hi' e6
      exact ⟨rfl, rfl, rfl⟩
end

/-- **A JSON text denotes at most one value.** -/
theorem jsonText_unique {t : Str} {v v' : JVal} (h : JsonText t v) (h' : JsonText t v') : v = v' := by
  obtain ⟨w, s, w2, rfl, h1, h2, h3⟩ := h
  obtain ⟨w', s', w2', e, h1', h2', h3'⟩ := h'
  obtain ⟨rfl, e1⟩ := ws_span h1 h1' (noWs_of_value h2) (noWs_of_value h2') e
  have st : ∀ {w : Str}, Ws w → Stop w := fun {w} hw => by
    have := stop_ws hw (noHead_nil NumChar)
    simpa using this
  exact (value_unique h2 h2' e1 (st h3) (st h3')).2.1

end Verif.Spec

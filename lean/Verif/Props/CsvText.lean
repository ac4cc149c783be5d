import Verif.Model.CsvText
import Verif.Spec.CsvText
import Verif.Spec.List
/-! C66: the text of a CSV file says what the rows are. -/
namespace Verif
open Spec Csv

/-! ### Newlines -/

theorem un_cr_nl (r : Str) : universalNewlines ('\r' :: '\n' :: r) = '\n' :: universalNewlines r := by
  rw [universalNewlines]

theorem un_cr {r : Str} (h : r.head? ≠ some '\n') : universalNewlines ('\r' :: r) = '\n' :: universalNewlines r := by
  cases r with
  | nil => rfl
  | cons a r =>
    have : a ≠ '\n' := by simpa using h
    rw [universalNewlines]
    intro r' h'
    injection h' with h' _
    exact this h'

theorem un_other {c : Char} (h : c ≠ '\r') (r : Str) : universalNewlines (c :: r) = c :: universalNewlines r := by
  rw [universalNewlines]
  · intro r' h' _; exact h h'
  · intro h'; exact h h'

theorem un_append : ∀ (a b : Str), a.getLast? ≠ some '\r' → universalNewlines (a ++ b) = universalNewlines a ++ universalNewlines b
  | [], b, _ => rfl
  | [c], b, h => by
    have hc : c ≠ '\r' := by simpa using h
    simp only [List.cons_append, List.nil_append, un_other hc, universalNewlines]
  | c :: d :: r, b, h => by
    have h' : (d :: r).getLast? ≠ some '\r' := by simpa [List.getLast?_cons_cons] using h
    by_cases hc : c = '\r'
    · subst hc
      by_cases hd : d = '\n'
      · subst hd
        cases r with
        | nil => simp only [List.cons_append, List.nil_append, un_cr_nl, universalNewlines]
        | cons e r =>
          have h'' : (e :: r).getLast? ≠ some '\r' := by simpa [List.getLast?_cons_cons] using h'
          have := un_append (e :: r) b h''
          simp only [List.cons_append] at this ⊢
          rw [un_cr_nl, un_cr_nl, this, List.cons_append]
      · have ih := un_append (d :: r) b h'
        simp only [List.cons_append] at ih ⊢
        rw [un_cr (by simpa using hd), un_cr (by simpa using hd), ih, List.cons_append]
    · have ih := un_append (d :: r) b h'
      simp only [List.cons_append] at ih ⊢
      rw [un_other hc, un_other hc, ih, List.cons_append]

/-- What is left of a text after reading. -/
def clean (s : Str) : Str := dropNulls (universalNewlines s)

theorem dropNulls_append (a b : Str) : dropNulls (a ++ b) = dropNulls a ++ dropNulls b := List.filter_append ..

theorem clean_append {a : Str} (b : Str) (h : a.getLast? ≠ some '\r') : clean (a ++ b) = clean a ++ clean b := by
  unfold clean; rw [un_append a b h, dropNulls_append]

theorem clean_asRead : ∀ s : Str, clean s = asRead s
  | [] => rfl
  | c :: r => by
    by_cases hc : c = '\r'
    · subst hc
      cases r with
      | nil => rfl
      | cons d r =>
        by_cases hd : d = '\n'
        · subst hd
          have ih := clean_asRead r
          unfold clean at ih ⊢
          rw [un_cr_nl, asRead, ← ih]
          rfl
        · have ih := clean_asRead (d :: r)
          unfold clean at ih ⊢
          rw [un_cr (by simpa using hd)]
          rw [asRead]
          · rw [← ih]; rfl
          · intro r' h'; injection h' with h' _; exact hd h'
    · have ih := clean_asRead r
      unfold clean at ih ⊢
      rw [un_other hc, asRead]
      · rw [← ih]
        unfold dropNulls
        by_cases h0 : c = Char.ofNat 0
        · rw [List.filter_cons_of_neg (by simp [h0]), if_pos h0]
        · rw [List.filter_cons_of_pos (by simpa using h0), if_neg h0]
      · intro r' h' _; exact hc h'
      · intro h'; exact hc h'

theorem clean_cons {c : Char} (h : c ≠ '\r') (h0 : c ≠ Char.ofNat 0) (r : Str) : clean (c :: r) = c :: clean r := by
  unfold clean
  rw [un_other h]
  unfold dropNulls
  rw [List.filter_cons_of_pos (by simpa using h0)]

/-- A line break before a quote. -/
theorem clean_before_quote : ∀ (a : Str) (b : Str), b.head? ≠ some '\n' → clean (a ++ b) = clean a ++ clean b
  | [], b, _ => rfl
  | [c], b, hb => by
    by_cases hc : c = '\r'
    · subst hc
      unfold clean
      rw [List.cons_append, List.nil_append, un_cr hb]
      rfl
    · exact clean_append b (by simpa using hc)
  | c :: d :: r, b, hb => by
    by_cases hc : c = '\r'
    · subst hc
      by_cases hd : d = '\n'
      · subst hd
        have ih := clean_before_quote r b hb
        unfold clean at ih ⊢
        have e2 : ∀ t, dropNulls ('\n' :: t) = '\n' :: dropNulls t := fun _ => rfl
        rw [List.cons_append, List.cons_append, un_cr_nl, un_cr_nl, e2, e2, ih, List.cons_append]
      · have ih := clean_before_quote (d :: r) b hb
        unfold clean at ih ⊢
        have e2 : ∀ t, dropNulls ('\n' :: t) = '\n' :: dropNulls t := fun _ => rfl
        rw [List.cons_append, un_cr (by simpa using hd), un_cr (by simpa using hd), e2, e2, ih, List.cons_append]
    · have ih := clean_before_quote (d :: r) b hb
      unfold clean at ih ⊢
      rw [List.cons_append, un_other hc, un_other hc]
      rw [dropNulls_append [c] (universalNewlines (d :: r ++ b)) |> (fun h => (h : dropNulls (c :: universalNewlines (d :: r ++ b)) = _)),
        dropNulls_append [c] (universalNewlines (d :: r)) |> (fun h => (h : dropNulls (c :: universalNewlines (d :: r)) = _)), ih, List.append_assoc]

/-! ### Lines -/

/-- The reader on a text whose lines all end with a newline. -/
def chars : Str → Reader → Option (List (List Str))
  | [], p => some (if p.field ≠ [] ∨ p.state = .inQuoted then [p.fields ++ [p.field]] else [])
  | c :: r, p =>
    match p.step (some c) with
    | none => none
    | some p' =>
      if c = '\n' then
        match p'.step none with
        | none => none
        | some q =>
          if q.state = .startRecord then
            match chars r {} with
            | none => none
            | some rs => some (q.fields :: rs)
          else chars r q
      else chars r p'

theorem lines_ne {r : Str} (h : r ≠ []) : ∃ l ls, lines r = l :: ls := by
  cases r with
  | nil => exact absurd rfl h
  | cons c r =>
    unfold lines
    split
    · exact ⟨_, _, rfl⟩
    · split
      · exact ⟨_, _, rfl⟩
      · exact ⟨_, _, rfl⟩

theorem records_cons (l : Str) (r : List Str) (p : Reader) : records (l :: r) p =
    (match p.line l with
    | none => none
    | some p' =>
      if p'.state = .startRecord then
        match records r {} with
        | none => none
        | some rs => some (p'.fields :: rs)
      else records r p') := rfl

theorem records_chars : ∀ (t : Str) (p : Reader), (t ≠ [] → t.getLast? = some '\n') → records ((lines t).map dropNulls) p = chars (dropNulls t) p
  | [], p, _ => rfl
  | c :: r, p, h => by
    have hr : r ≠ [] → r.getLast? = some '\n' := by
      intro hne
      have := h (by simp)
      cases r with
      | nil => exact absurd rfl hne
      | cons d r => rwa [List.getLast?_cons_cons] at this
    by_cases hc : c = '\n'
    · subst hc
      have e1 : dropNulls ('\n' :: r) = '\n' :: dropNulls r := rfl
      have e2 : (lines ('\n' :: r)).map dropNulls = ['\n'] :: (lines r).map dropNulls := rfl
      rw [e1, e2, records_cons, chars]
      simp only [Reader.line, Reader.feed]
      cases p.step (some '\n') with
      | none => rfl
      | some p' =>
        simp only [if_true]
        cases p'.step none with
        | none => rfl
        | some q =>
          simp only
          rw [records_chars r q hr, records_chars r {} hr]
    · have hne : r ≠ [] := by
        rintro rfl
        have := h (by simp)
        simp at this
        exact hc this
      obtain ⟨l, ls, hl⟩ := lines_ne hne
      have e : lines (c :: r) = (c :: l) :: ls := by
        unfold lines
        rw [if_neg hc, hl]
      have ih : ∀ q, records (dropNulls l :: ls.map dropNulls) q = chars (dropNulls r) q := by
        intro q
        have := records_chars r q hr
        rwa [hl, List.map_cons] at this
      rw [e, List.map_cons]
      by_cases h0 : c = Char.ofNat 0
      · have e1 : dropNulls (c :: l) = dropNulls l := by unfold dropNulls; rw [List.filter_cons_of_neg (by simp [h0])]
        have e2 : dropNulls (c :: r) = dropNulls r := by unfold dropNulls; rw [List.filter_cons_of_neg (by simp [h0])]
        rw [e1, e2]
        exact ih p
      · have e1 : dropNulls (c :: l) = c :: dropNulls l := by unfold dropNulls; rw [List.filter_cons_of_pos (by simpa using h0)]
        have e2 : dropNulls (c :: r) = c :: dropNulls r := by unfold dropNulls; rw [List.filter_cons_of_pos (by simpa using h0)]
        rw [e1, e2, records_cons, chars]
        simp only [if_neg hc]
        unfold Reader.line
        rw [Reader.feed]
        cases hs : p.step (some c) with
        | none => rfl
        | some p' =>
          simp only
          rw [← ih p', records_cons]
          rfl

/-! ### Fields -/

theorem chars_plain (g : Str) : ∀ (u rest : Str) (fs : List Str), (∀ c ∈ g, special c = false) → u.length + g.length ≤ fieldLimit →
    chars (g ++ rest) { state := .inField, field := u, fields := fs } = chars rest { state := .inField, field := u ++ g, fields := fs } := by
  induction g with
  | nil => intro u rest fs _ _; simp
  | cons c g ih =>
    intro u rest fs hs hl
    have hc := hs c (by simp)
    simp only [special, Bool.or_eq_false_iff, decide_eq_false_iff_not] at hc
    obtain ⟨⟨⟨h1, h2⟩, h3⟩, h4⟩ := hc
    simp only [List.length_cons] at hl
    rw [List.cons_append, chars]
    have : ¬ (u.length ≥ fieldLimit) := by omega
    simp only [Reader.step, h1, h3, h4, or_self, if_false, Reader.add, this]
    rw [ih _ _ _ (fun d hd => hs d (by simp [hd])) (by simp only [List.length_append, List.length_cons, List.length_nil]; omega), List.append_assoc]
    rfl

theorem chars_quoted (g : Str) : ∀ (u rest : Str) (fs : List Str), u.length + g.length ≤ fieldLimit →
    chars (escape g ++ rest) { state := .inQuoted, field := u, fields := fs } = chars rest { state := .inQuoted, field := u ++ g, fields := fs } := by
  induction g with
  | nil => intro u rest fs _; simp [escape]
  | cons c g ih =>
    intro u rest fs hl
    simp only [List.length_cons] at hl
    have hu : ¬ (u.length ≥ fieldLimit) := by omega
    have hih : ∀ rest, chars (escape g ++ rest) { state := .inQuoted, field := u ++ [c], fields := fs } =
        chars rest { state := .inQuoted, field := u ++ c :: g, fields := fs } := by
      intro rest
      rw [ih _ _ _ (by simp only [List.length_append, List.length_cons, List.length_nil]; omega), List.append_assoc]
      rfl
    by_cases hq : c = '"'
    · subst hq
      have e : escape ('"' :: g) = '"' :: '"' :: escape g := rfl
      rw [e, List.cons_append, List.cons_append, chars]
      simp only [Reader.step, if_true]
      rw [if_neg (by decide), chars]
      simp only [Reader.step, if_true, Reader.add, hu, if_false]
      rw [if_neg (by decide)]
      exact hih rest
    · have e : escape (c :: g) = c :: escape g := by simp [escape, hq]
      rw [e, List.cons_append, chars]
      simp only [Reader.step, hq, if_false, Reader.add, hu]
      by_cases hn : c = '\n'
      · subst hn
        simp only [if_true, reduceCtorEq, if_false]
        exact hih rest
      · simp only [if_neg hn]
        exact hih rest

/-- The field is finished. -/
def Ended (p : Reader) (g : Str) (fs : List Str) : Prop :=
  (p.state = .startField ∨ p.state = .inField ∨ p.state = .quoteInQuoted) ∧ p.field = g ∧ p.fields = fs

theorem ended_comma {p : Reader} {g : Str} {fs : List Str} (h : Ended p g fs) (rest : Str) :
    chars (',' :: rest) p = chars rest { state := .startField, field := [], fields := fs ++ [g] } := by
  obtain ⟨h1, rfl, rfl⟩ := h
  rw [chars]
  rcases h1 with h | h | h <;> simp [Reader.step, h, Reader.atField, Reader.save]

theorem ended_newline {p : Reader} {g : Str} {fs : List Str} (h : Ended p g fs) (rest : Str) :
    chars ('\n' :: rest) p = (match chars rest {} with | none => none | some rs => some ((fs ++ [g]) :: rs)) := by
  obtain ⟨h1, rfl, rfl⟩ := h
  rw [chars]
  rcases h1 with h | h | h <;> simp [Reader.step, h, Reader.atField, Reader.save]

/-- A field as it is in the text. -/
inductive Encoded : Str → Str → Prop
  | plain (g : Str) : (∀ c ∈ g, special c = false) → Encoded g g
  | quoted (g : Str) : Encoded ('"' :: (escape g ++ ['"'])) g

theorem chars_field {e g : Str} (h : Encoded e g) (hl : g.length ≤ fieldLimit) (fs : List Str) :
    ∃ p, Ended p g fs ∧ ∀ rest, chars (e ++ rest) { state := .startField, field := [], fields := fs } = chars rest p := by
  cases h with
  | plain _ hs =>
    cases e with
    | nil => exact ⟨{ state := .startField, field := [], fields := fs }, ⟨Or.inl rfl, rfl, rfl⟩, fun _ => rfl⟩
    | cons c g =>
      refine ⟨{ state := .inField, field := c :: g, fields := fs }, ⟨Or.inr (Or.inl rfl), rfl, rfl⟩, fun rest => ?_⟩
      have hc := hs c (by simp)
      simp only [special, Bool.or_eq_false_iff, decide_eq_false_iff_not] at hc
      obtain ⟨⟨⟨h1, h2⟩, h3⟩, h4⟩ := hc
      rw [List.cons_append, chars]
      have h0 : ¬ (([] : Str).length ≥ fieldLimit) := by decide
      simp only [Reader.step, Reader.atField, h1, h2, h3, h4, or_self, if_false, Reader.add, h0]
      rw [chars_plain g _ _ _ (fun d hd => hs d (by simp [hd])) (by simp only [List.length_append, List.length_cons, List.length_nil] at hl ⊢; omega)]
      rfl
  | quoted =>
    refine ⟨{ state := .quoteInQuoted, field := g, fields := fs }, ⟨Or.inr (Or.inr rfl), rfl, rfl⟩, fun rest => ?_⟩
    rw [List.cons_append, chars]
    have hq : ¬ ('"' = '\n' ∨ '"' = '\r') := by decide
    simp only [Reader.step, Reader.atField, hq, if_false, if_true]
    rw [if_neg (by decide), List.append_assoc, chars_quoted g [] _ fs (by simpa using hl)]
    rw [List.nil_append, List.cons_append, List.nil_append, chars]
    simp only [Reader.step, if_true]
    rw [if_neg (by decide)]

theorem chars_fields : ∀ (es gs fs : List Str) (rest : Str), es ≠ [] → All₂ Encoded es gs → (∀ g ∈ gs, g.length ≤ fieldLimit) →
    chars (joinFields es ++ '\n' :: rest) { state := .startField, field := [], fields := fs } =
      (match chars rest {} with | none => none | some rs => some ((fs ++ gs) :: rs))
  | [], _, _, _, h, _, _ => absurd rfl h
  | [e], _, fs, rest, _, .cons (b := g) he .nil, hl => by
    obtain ⟨p, hp, h⟩ := chars_field he (hl g (by simp)) fs
    rw [joinFields, h, ended_newline hp]
  | e :: e' :: es, _, fs, rest, _, .cons (b := g) he (.cons (b := g') (m := gs) he' hr), hl => by
    obtain ⟨p, hp, h⟩ := chars_field he (hl g (by simp)) fs
    have ih := chars_fields (e' :: es) (g' :: gs) (fs ++ [g]) rest (by simp) (.cons he' hr) (fun x hx => hl x (by simp only [List.mem_cons] at hx ⊢; exact Or.inr hx))
    rw [joinFields, List.append_assoc, h, List.cons_append, ended_comma hp, ih]
    · simp only [List.append_assoc, List.cons_append, List.nil_append]
    · simp

theorem joinFields_ne {es : List Str} (h : es ≠ []) (h1 : es ≠ [[]]) : joinFields es ≠ [] := by
  match es, h, h1 with
  | [e], _, h1 => rw [joinFields]; rintro rfl; exact h1 rfl
  | e :: e' :: r, _, _ => rw [joinFields]; simp; simp

theorem encoded_head {e g : Str} (h : Encoded e g) {c : Char} {r : Str} (he : e = c :: r) : c ≠ '\n' ∧ c ≠ '\r' := by
  cases h with
  | plain _ hs =>
    subst he
    have hc := hs c (by simp)
    simp only [special, Bool.or_eq_false_iff, decide_eq_false_iff_not] at hc
    exact ⟨hc.1.2, hc.2⟩
  | quoted =>
    injection he with he _
    subst he
    decide

/-- One record. -/
theorem chars_record {es gs : List Str} (h : All₂ Encoded es gs) (h1 : es ≠ [[]]) (hl : ∀ g ∈ gs, g.length ≤ fieldLimit) (rest : Str) :
    chars (joinFields es ++ '\n' :: rest) {} = (match chars rest {} with | none => none | some rs => some (gs :: rs)) := by
  cases es with
  | nil =>
    cases h
    rw [joinFields, List.nil_append, chars]
    simp [Reader.step]
  | cons e es =>
    have hne := joinFields_ne (List.cons_ne_nil e es) h1
    have key := chars_fields (e :: es) gs [] rest (by simp) h hl
    rw [List.nil_append] at key
    rw [← key]
    have hhead : ∀ c r, joinFields (e :: es) = c :: r → c ≠ '\n' ∧ c ≠ '\r' := by
      intro c r hj
      cases h with
      | cons he hr =>
        cases es with
        | nil => rw [joinFields] at hj; exact encoded_head he hj
        | cons e' es =>
          rw [joinFields] at hj
          · cases e with
            | nil =>
              rw [List.nil_append] at hj
              injection hj with hj _
              subst hj
              decide
            | cons a e =>
              rw [List.cons_append] at hj
              injection hj with hj _
              subst hj
              exact encoded_head he rfl
          · simp
    cases hj : joinFields (e :: es) with
    | nil => exact absurd hj hne
    | cons c r =>
      obtain ⟨hn, hr⟩ := hhead c r hj
      rw [List.cons_append, chars, chars]
      have : ¬ (c = '\n' ∨ c = '\r') := by rintro (h | h); exact hn h; exact hr h
      simp only [Reader.step, this, if_false]

/-! ### What the writer writes -/

theorem escape_append (a b : Str) : escape (a ++ b) = escape a ++ escape b := List.flatMap_append ..

theorem clean_escape : ∀ s : Str, clean (escape s) = escape (clean s)
  | [] => rfl
  | c :: r => by
    have ih := clean_escape r
    by_cases hq : c = '"'
    · subst hq
      have e : escape ('"' :: r) = '"' :: '"' :: escape r := rfl
      rw [e, clean_cons (by decide) (by decide), clean_cons (by decide) (by decide), clean_cons (by decide) (by decide), ih]
      rfl
    · have e : ∀ t, escape (c :: t) = c :: escape t := fun t => by simp [escape, hq]
      rw [e]
      by_cases hr : c = '\r'
      · subst hr
        cases r with
        | nil => rfl
        | cons d r =>
          by_cases hd : d = '\n'
          · subst hd
            have ih' := clean_escape r
            have e1 : escape ('\n' :: r) = '\n' :: escape r := rfl
            unfold clean at ih' ⊢
            rw [e1, un_cr_nl, un_cr_nl]
            have e2 : ∀ t, dropNulls ('\n' :: t) = '\n' :: dropNulls t := fun _ => rfl
            rw [e2, e2, ih']
            rfl
          · have hh : (escape (d :: r)).head? ≠ some '\n' := by
              by_cases hq : d = '"'
              · subst hq; simp [escape]
              · simp [escape, hq, hd]
            unfold clean at ih ⊢
            rw [un_cr hh, un_cr (by simpa using hd)]
            have e2 : ∀ t, dropNulls ('\n' :: t) = '\n' :: dropNulls t := fun _ => rfl
            rw [e2, e2, ih]
            rfl
      · by_cases h0 : c = Char.ofNat 0
        · have e3 : ∀ t, clean (c :: t) = clean t := by
            intro t
            unfold clean
            rw [un_other hr]
            unfold dropNulls
            rw [List.filter_cons_of_neg (by simp [h0])]
          rw [e3, e3, ih]
        · rw [clean_cons hr h0, clean_cons hr h0, e, ih]

theorem clean_plain : ∀ {s : Str}, (∀ c ∈ s, special c = false) → ∀ c ∈ clean s, special c = false
  | [], _, c, hc => by cases hc
  | a :: r, h, c, hc => by
    have ha := h a (by simp)
    have hr : a ≠ '\r' := by
      rintro rfl
      revert ha
      decide
    unfold clean at hc
    rw [un_other hr] at hc
    simp only [dropNulls, List.mem_filter, List.mem_cons] at hc
    rcases hc with ⟨rfl | hc, h0⟩
    · exact ha
    · exact clean_plain (fun d hd => h d (by simp [hd])) c (List.mem_filter.2 ⟨hc, h0⟩)

theorem any_special {s : Str} : s.any special = false ↔ ∀ c ∈ s, special c = false := by
  rw [List.any_eq_false]
  constructor
  · intro h c hc; simpa using h c hc
  · intro h c hc; simpa using h c hc

theorem writeField_last (s : Str) : (writeField s).getLast? ≠ some '\r' := by
  unfold writeField
  split
  · have e : '"' :: (escape s ++ ['"']) = ('"' :: escape s) ++ ['"'] := rfl
    rw [e, List.getLast?_append]
    simp
  · next h =>
    have h := any_special.1 (by simpa using h)
    intro hl
    have := h '\r' (List.mem_of_getLast? hl)
    revert this
    decide

theorem writeField_encoded (s : Str) : Encoded (clean (writeField s)) (clean s) := by
  unfold writeField
  split
  · rw [clean_cons (by decide) (by decide)]
    have : clean (escape s ++ ['"']) = escape (clean s) ++ ['"'] := by
      rw [clean_before_quote _ _ (by decide), clean_escape]
      rfl
    rw [this]
    exact .quoted _
  · next h => exact .plain _ (clean_plain (any_special.1 (by simpa using h)))

theorem join_last : ∀ (row : List Str), (joinFields (row.map writeField)).getLast? ≠ some '\r'
  | [] => by simp [joinFields]
  | [f] => writeField_last f
  | f :: g :: r => by
    have ih := join_last (g :: r)
    simp only [List.map_cons] at ih ⊢
    rw [joinFields]
    · rw [List.getLast?_append]
      rw [List.getLast?_cons]
      cases h : (joinFields (writeField g :: List.map writeField r)).getLast? with
      | none => simp
      | some c => rw [h] at ih; simpa using ih
    · simp

theorem clean_join : ∀ (row : List Str), clean (joinFields (row.map writeField)) = joinFields (row.map (fun f => clean (writeField f)))
  | [] => rfl
  | [f] => rfl
  | f :: g :: r => by
    have ih := clean_join (g :: r)
    simp only [List.map_cons] at ih ⊢
    have j : ∀ (a b : Str) (t : List Str), joinFields (a :: b :: t) = a ++ ',' :: joinFields (b :: t) := fun _ _ _ => rfl
    rw [j, j, clean_before_quote _ _ (by simp), clean_cons (by decide) (by decide), ih]

theorem clean_terminator {lt : Str} (h : lt = s%"\n" ∨ lt = s%"\r\n") : clean lt = ['\n'] := by
  rcases h with rfl | rfl <;> rfl

theorem clean_row {lt : Str} (h : lt = s%"\n" ∨ lt = s%"\r\n") (row : List Str) : clean (writeRow lt row) =
    (if row = [[]] then ['"', '"'] else joinFields (row.map (fun f => clean (writeField f)))) ++ ['\n'] := by
  unfold writeRow
  split
  · rw [clean_append _ (by decide), clean_terminator h]
    rfl
  · rw [clean_append _ (join_last row), clean_terminator h, clean_join]

theorem writeRow_last {lt : Str} (h : lt = s%"\n" ∨ lt = s%"\r\n") (row : List Str) : (writeRow lt row).getLast? = some '\n' := by
  unfold writeRow
  split <;> (rw [List.getLast?_append]; rcases h with rfl | rfl <;> rfl)

theorem csv_all₂_map {α β γ : Type} {R : β → γ → Prop} {f : α → β} {g : α → γ} (h : ∀ a, R (f a) (g a)) : ∀ l : List α, All₂ R (l.map f) (l.map g)
  | [] => .nil
  | a :: r => .cons (h a) (csv_all₂_map h r)

theorem chars_row {row : List Str} (h : CsvRow row) (rest : Str) :
    chars ((if row = [[]] then ['"', '"'] else joinFields (row.map (fun f => clean (writeField f)))) ++ '\n' :: rest) {} =
      (match chars rest {} with | none => none | some rs => some (row.map asRead :: rs)) := by
  have hl : ∀ g ∈ row.map asRead, g.length ≤ fieldLimit := by
    intro g hg
    obtain ⟨f, hf, rfl⟩ := List.mem_map.1 hg
    exact h.short f hf
  have hmap : row.map clean = row.map asRead := List.map_congr_left (fun f _ => clean_asRead f)
  split
  · next he =>
    subst he
    have := chars_record (es := [['"', '"']]) (gs := [[]]) (.cons (.quoted []) .nil) (by decide) (by simp) rest
    exact this
  · next he =>
    apply chars_record
    · rw [← hmap]
      exact csv_all₂_map writeField_encoded row
    · intro hone
      match row, h, he, hone with
      | [], _, _, hone => cases hone
      | _ :: _ :: _, _, _, hone => simp at hone
      | [f], h, he, hone =>
        simp only [List.map_cons, List.map_nil, List.cons.injEq, and_true] at hone
        have henc := writeField_encoded f
        rw [hone] at henc
        have hnil : clean f = [] := by
          generalize hg : clean f = g at henc
          cases henc with
          | plain => rfl
        rw [clean_asRead] at hnil
        exact h.single f rfl (by rintro rfl; exact he rfl) hnil
    · exact hl

theorem chars_rows {lt : Str} (hlt : lt = s%"\n" ∨ lt = s%"\r\n") : ∀ (rows : List (List Str)), (∀ row ∈ rows, CsvRow row) →
    chars (clean (writeText lt rows)) {} = some (rows.map (·.map asRead))
  | [], _ => rfl
  | row :: rows, h => by
    have ih := chars_rows hlt rows (fun r hr => h r (by simp [hr]))
    have e : writeText lt (row :: rows) = writeRow lt row ++ writeText lt rows := rfl
    rw [e, clean_append _ (by rw [writeRow_last hlt]; decide), clean_row hlt, List.append_assoc, List.cons_append, List.nil_append, chars_row (h row (by simp)), ih]
    rfl

theorem un_last {s : Str} (h : s.getLast? = some '\n') : (universalNewlines s).getLast? = some '\n' := by
  obtain ⟨t, rfl⟩ : ∃ t, s = t ++ ['\n'] := by
    have hne : s ≠ [] := by rintro rfl; cases h
    refine ⟨s.dropLast, ?_⟩
    have h2 := List.dropLast_concat_getLast hne
    rw [List.getLast?_eq_some_getLast hne] at h
    injection h with h
    rw [h] at h2
    exact h2.symm
  clear h
  induction t using universalNewlines.induct with
  | case1 => rfl
  | case2 r ih => rw [List.cons_append, List.cons_append, un_cr_nl, List.getLast?_cons, ih]; rfl
  | case3 r hr ih =>
    cases r with
    | nil => rfl
    | cons a r =>
      have ha : a ≠ '\n' := by rintro rfl; exact hr r rfl
      rw [List.cons_append, un_cr (by simpa using ha), List.getLast?_cons, ih]; rfl
  | case4 c r h1 h2 ih =>
    have hc : c ≠ '\r' := fun h => h2 h
    rw [List.cons_append, un_other hc, List.getLast?_cons, ih]; rfl

theorem writeText_last {lt : Str} (hlt : lt = s%"\n" ∨ lt = s%"\r\n") : ∀ (rows : List (List Str)), rows ≠ [] → (writeText lt rows).getLast? = some '\n'
  | [], h => absurd rfl h
  | [row], _ => by
    have : writeText lt [row] = writeRow lt row := by simp [writeText]
    rw [this, writeRow_last hlt]
  | row :: r :: rows, _ => by
    have e : writeText lt (row :: r :: rows) = writeRow lt row ++ writeText lt (r :: rows) := rfl
    rw [e, List.getLast?_append, writeText_last hlt (r :: rows) (by simp)]
    rfl

/-- C66.  The text of a CSV file, with either line terminator, read back as `unflatten` reads it, gives the rows that were written: every field is the text that was
written, with line breaks as `\n` and without null characters. -/
theorem C66_csv_text (lineTerminator : Str) (hlt : lineTerminator = s%"\n" ∨ lineTerminator = s%"\r\n") (rows : List (List Str)) (h : ∀ row ∈ rows, CsvRow row) :
    readText (writeText lineTerminator rows) = some (rows.map (·.map asRead)) := by
  unfold readText
  rw [records_chars]
  · exact chars_rows hlt rows h
  · intro hne
    apply un_last
    apply writeText_last hlt
    rintro rfl
    exact hne rfl

theorem asRead_exact : ∀ {s : Str}, '\r' ∉ s → Char.ofNat 0 ∉ s → asRead s = s
  | [], _, _ => rfl
  | c :: r, h, h0 => by
    have hc : c ≠ '\r' := by rintro rfl; exact h (by simp)
    have hc0 : c ≠ Char.ofNat 0 := by rintro rfl; exact h0 (by simp)
    rw [← clean_asRead, clean_cons hc hc0, clean_asRead, asRead_exact (fun hm => h (by simp [hm])) (fun hm => h0 (by simp [hm]))]

/-- C66.  Rows of texts without carriage returns and null characters, none longer than 131072 characters, come back exactly. -/
theorem C66_csv_exact (lineTerminator : Str) (hlt : lineTerminator = s%"\n" ∨ lineTerminator = s%"\r\n") (rows : List (List Str)) (h : ∀ row ∈ rows, CsvExact row) :
    readText (writeText lineTerminator rows) = some rows := by
  have e : ∀ row ∈ rows, ∀ f ∈ row, asRead f = f := fun row hr f hf => asRead_exact (h row hr f hf).2.1 (h row hr f hf).2.2
  rw [C66_csv_text lineTerminator hlt rows]
  · congr 1
    have : ∀ row ∈ rows, row.map asRead = row := fun row hr => by
      have := List.map_congr_left (g := id) (e row hr)
      rwa [List.map_id] at this
    have := List.map_congr_left (g := id) this
    rwa [List.map_id] at this
  · intro row hr
    refine ⟨fun f hf => by rw [e row hr f hf]; exact (h row hr f hf).1, fun f hrow hne => ?_⟩
    rw [e row hr f (by rw [hrow]; simp)]
    exact hne

/-- C66.  So the text determines the rows. -/
theorem C66_csv_injective (lt lt' : Str) (hlt : lt = s%"\n" ∨ lt = s%"\r\n") (hlt' : lt' = s%"\n" ∨ lt' = s%"\r\n") (rows rows' : List (List Str))
    (h : ∀ row ∈ rows, CsvExact row) (h' : ∀ row ∈ rows', CsvExact row) (he : writeText lt rows = writeText lt' rows') : rows = rows' := by
  have h1 := C66_csv_exact lt hlt rows h
  have h2 := C66_csv_exact lt' hlt' rows' h'
  rw [he, h2] at h1
  injection h1 with h1
  exact h1.symm

end Verif

import Verif.Proofs.NumberText
import Verif.Model.Convert
/-! C79: what the text in a cell means, for each type of column. -/
namespace Verif
open Spec

theorem text_not_blank {s : Str} (h : s ≠ []) : (Atom.str s).blank = false := by
  cases s with
  | nil => exact absurd rfl h
  | cons c r => rfl

/-- C79: a number column reads the texts of numbers, and no others, as numbers; any other text is kept and reported. -/
theorem C79_number (env : ConvEnv) (s : Str) (hs : s ≠ []) :
    (∀ d, convertType env .number (.str s) = .ok (.atom (.dec d), []) ↔ DecText s d) ∧
    ((∀ d, ¬ DecText s d) → convertType env .number (.str s) = .ok (.atom (.str s), [.nonNumeric s])) := by
  have hb := text_not_blank hs
  simp only [convertType, hb, Bool.false_eq_true, if_false, toDecimal, Py.str]
  constructor
  · intro d
    rw [← Py.dec?_iff]
    cases Py.dec? s <;> simp
  · intro h
    cases hd : Py.dec? s with
    | none => rfl
    | some d => exact absurd ((Py.dec?_iff s d).1 hd) (h d)

/-- C79: an integer column reads the texts of whole numbers, and no others, as such; any other text is kept and reported. -/
theorem C79_integer (env : ConvEnv) (s : Str) (hs : s ≠ []) :
    (∀ i, convertType env .integer (.str s) = .ok (.atom (.int i), []) ↔ IntText s i) ∧
    ((∀ i, ¬ IntText s i) → convertType env .integer (.str s) = .ok (.atom (.str s), [.nonInteger s])) := by
  have hb := text_not_blank hs
  simp only [convertType, hb, Bool.false_eq_true, if_false, toInteger, Py.str]
  constructor
  · intro d
    rw [← Py.int?_iff]
    cases Py.int? s <;> simp
  · intro h
    cases hd : Py.int? s with
    | none => rfl
    | some d => exact absurd ((Py.int?_iff s d).1 hd) (h d)

theorem lower_digit {s : Str} {c : Char} {d : Nat} (hc : DigitOf c d) : Py.lower s = [c] ↔ s = [c] := by
  constructor
  · intro h
    exact Py.digits_lower h (by intro x hx; simp only [List.mem_singleton] at hx; subst hx; exact ⟨d, hc⟩)
  · rintro rfl
    exact Py.lower_digits (by intro x hx; simp only [List.mem_singleton] at hx; subst hx; exact ⟨d, hc⟩)

/-- C79: a boolean column reads `true` and `1` as true, `false` and `0` as false (in any mixture of small and capital letters), and nothing else. -/
theorem C79_boolean (env : ConvEnv) (s : Str) (hs : s ≠ []) :
    (convertType env .boolean (.str s) = .ok (.atom (.bool true), []) ↔ Spelled s s%"true" ∨ s = s%"1") ∧
    (convertType env .boolean (.str s) = .ok (.atom (.bool false), []) ↔ Spelled s s%"false" ∨ s = s%"0") ∧
    (¬ Spelled s s%"true" → s ≠ s%"1" → ¬ Spelled s s%"false" → s ≠ s%"0" →
      convertType env .boolean (.str s) = .ok (.atom (.str s), [.badBoolean s])) := by
  have hb := text_not_blank hs
  have h1 : Py.lower s = s%"1" ↔ s = s%"1" := lower_digit (d := 1) ⟨by decide, 48, .inl rfl, rfl⟩
  have h0 : Py.lower s = s%"0" ↔ s = s%"0" := lower_digit (d := 0) ⟨by decide, 48, .inl rfl, rfl⟩
  have ht := Py.lower_iff_spelled (t := s) Py.small_lit.2.2.2.2.1
  have hf := Py.lower_iff_spelled (t := s) Py.small_lit.2.2.2.2.2
  have hconv : convertType env .boolean (.str s) = if Py.lower s = s%"true" ∨ Py.lower s = s%"1" then .ok (.atom (.bool true), []) else
      if Py.lower s = s%"false" ∨ Py.lower s = s%"0" then .ok (.atom (.bool false), []) else .ok (.atom (.str s), [.badBoolean s]) := by
    unfold convertType
    rw [if_neg (by simp [hb])]
    rfl
  rw [hconv]
  simp only [← h1, ← h0, ← ht, ← hf, ne_eq]
  generalize Py.lower s = x
  by_cases hT : x = s%"true" ∨ x = s%"1"
  · rw [if_pos hT]
    refine ⟨by simp [hT], ?_, fun h h' => absurd hT (by simp [h, h'])⟩
    rcases hT with rfl | rfl <;> simp
  · rw [if_neg hT]
    by_cases hF : x = s%"false" ∨ x = s%"0"
    · rw [if_pos hF]
      refine ⟨by simp [hT], by simp [hF], fun _ _ h h' => absurd hF (by simp [h, h'])⟩
    · rw [if_neg hF]
      exact ⟨by simp [hT], by simp [hF], fun _ _ _ _ => rfl⟩

theorem split_pieces {sep : Char} {s : Str} {l : List Str} (h : Pieces sep s l) : Py.split sep s = l := by
  obtain ⟨h1, h2, rfl⟩ := h
  exact Py.split_join h1 h2

theorem pieces_split (sep : Char) (s : Str) : Pieces sep s (Py.split sep s) :=
  ⟨Py.split_ne_nil sep s, Py.not_mem_split sep s, (Py.join_split sep s).symm⟩

/-- C79: every text has exactly one list of pieces, so the next theorems speak about every text. -/
theorem C79_pieces (sep : Char) (s : Str) : ∃ l, Pieces sep s l ∧ ∀ l', Pieces sep s l' → l' = l :=
  ⟨_, pieces_split sep s, fun _ h => (split_pieces h).symm⟩

/-- C79: the list columns read a text without commas as the list of its pieces between semicolons, and a text with commas as the list of the lists of the pieces between
commas. -/
theorem C79_list (env : ConvEnv) (ty : CType) (hty : ty = .array ∨ ty = .arrayArray ∨ ty = .stringArray) (s : Str) (hs : s ≠ []) (l : List Str) (hl : Pieces ';' s l) :
    (',' ∉ s → convertType env ty (.str s) = .ok (.arr (l.map Atom.str), [])) ∧
    (',' ∈ s → ∀ rows, All₂ (fun piece row => Pieces ',' piece row) l rows →
      convertType env ty (.str s) = .ok (.arr2 (rows.map (fun r => r.map Atom.str)), [])) := by
  have hb := text_not_blank hs
  have hc : convertType env ty (.str s) = .ok (stringArray s, []) := by
    rcases hty with rfl | rfl | rfl <;> simp [convertType, hb, Py.str]
  rw [hc]
  constructor
  · intro h; simp [stringArray, h, split_pieces hl]
  · intro h rows hr
    simp only [stringArray, h, if_true, split_pieces hl, Except.ok.injEq, Prod.mk.injEq, Val.arr2.injEq, and_true]
    clear hl hc
    induction hr with
    | nil => rfl
    | cons h1 _ ih => simp [split_pieces h1, ih]

theorem mapM_all₂ {α β : Type} {f : α → Option β} {R : α → β → Prop} (h : ∀ a b, f a = some b ↔ R a b) : ∀ (l : List α) (m : List β), l.mapM f = some m ↔ All₂ R l m
  | [], m => by
    simp only [List.mapM_nil]
    exact ⟨fun e => by cases e; exact .nil, fun e => by cases e; rfl⟩
  | a :: l, m => by
    rw [List.mapM_cons]
    constructor
    · intro e
      cases hf : f a with
      | none => rw [hf] at e; cases e
      | some b =>
        rw [hf] at e
        cases hm : l.mapM f with
        | none => rw [hm] at e; cases e
        | some m' =>
          rw [hm] at e
          cases e
          exact .cons ((h a b).1 hf) ((mapM_all₂ h l m').1 hm)
    · intro e
      cases e with
      | cons h1 h2 =>
        rw [(h _ _).2 h1, (mapM_all₂ h _ _).2 h2]; rfl

/-- C79: a number list column reads the same, if all pieces are texts of numbers, as lists of numbers; otherwise as lists of texts, and reports it. -/
theorem C79_number_list (env : ConvEnv) (s : Str) (hs : s ≠ []) (l : List Str) (hl : Pieces ';' s l) :
    (',' ∉ s →
      (∀ ds, All₂ DecText l ds → convertType env .numberArray (.str s) = .ok (.arr (ds.map Atom.dec), [])) ∧
      ((¬ ∃ ds, All₂ DecText l ds) → convertType env .numberArray (.str s) = .ok (.arr (l.map Atom.str), [.nonNumericArray s]))) ∧
    (',' ∈ s → ∀ rows, All₂ (fun piece row => Pieces ',' piece row) l rows →
      (∀ dss, All₂ (All₂ DecText) rows dss → convertType env .numberArray (.str s) = .ok (.arr2 (dss.map (fun r => r.map Atom.dec)), [])) ∧
      ((¬ ∃ dss, All₂ (All₂ DecText) rows dss) →
        convertType env .numberArray (.str s) = .ok (.arr2 (rows.map (fun r => r.map Atom.str)), [.nonNumericArray s]))) := by
  have hb := text_not_blank hs
  have hstr := C79_list env .stringArray (.inr (.inr rfl)) s hs l hl
  have hc : convertType env .stringArray (.str s) = .ok (stringArray s, []) := by simp [convertType, hb, Py.str]
  rw [hc] at hstr
  simp only [Except.ok.injEq, Prod.mk.injEq, and_true] at hstr
  have hn : convertType env .numberArray (.str s) = match numberArray s with
      | some r => .ok (r, [])
      | none => .ok (stringArray s, [.nonNumericArray s]) := by
    unfold convertType
    rw [if_neg (by simp [hb])]
    rfl
  rw [hn]
  constructor
  · intro h
    have hm := mapM_all₂ Py.dec?_iff l
    have hna : numberArray s = (l.mapM Py.dec?).map (fun l => Val.arr (l.map Atom.dec)) := by simp [numberArray, h, split_pieces hl]
    rw [hna]
    constructor
    · intro ds hds
      rw [(hm ds).2 hds]; rfl
    · intro hno
      cases hd : l.mapM Py.dec? with
      | some ds => exact absurd ⟨ds, (hm ds).1 hd⟩ hno
      | none => simp [hstr.1 h]
  · intro h rows hr
    have hsp : l.map (Py.split ',') = rows := by
      clear hl hstr
      induction hr with
      | nil => rfl
      | cons h1 _ ih => simp [split_pieces h1, ih]
    have hm := mapM_all₂ (mapM_all₂ Py.dec?_iff) rows
    have hna : numberArray s = (rows.mapM (List.mapM Py.dec?)).map (fun l => Val.arr2 (l.map (fun r => r.map Atom.dec))) := by
      simp only [numberArray, h, if_true, split_pieces hl, ← hsp, List.mapM_map]
      rfl
    rw [hna]
    constructor
    · intro ds hds
      rw [(hm ds).2 hds]; rfl
    · intro hno
      cases hd : rows.mapM (List.mapM Py.dec?) with
      | some ds => exact absurd ⟨ds, (hm ds).1 hd⟩ hno
      | none => simp [hstr.2 h rows hr]

/-- C79: text, date and untyped columns keep the text; an empty cell has no value in any column. -/
theorem C79_text (env : ConvEnv) (ty : CType) (s : Str) :
    (ty = .string ∨ ty = .date ∨ ty = .untyped → s ≠ [] → convertType env ty (.str s) = .ok (.atom (.str s), [])) ∧
    convertType env ty (.str []) = .ok (.atom .none, []) ∧ convertType env ty .none = .ok (.atom .none, []) := by
  refine ⟨?_, by simp [convertType, Atom.blank], by simp [convertType, Atom.blank]⟩
  intro hty hs
  have hb := text_not_blank hs
  rcases hty with rfl | rfl | rfl <;> simp [convertType, hb, Py.str]

/-! ### Concrete texts -/

/-- ` -1_200.50e+3 ` is the number -1200500. -/
example : DecText s%" -1_200.50e+3 " (.fin true 120050 1) := (Py.dec?_iff _ _).1 (by decide +kernel)
/-- Texts that are not numbers for the tool. -/
example : (∀ d, ¬ DecText s%"1,200" d) ∧ (∀ d, ¬ DecText s%"12 000" d) ∧ (∀ d, ¬ DecText s%"£5" d) ∧ (∀ d, ¬ DecText s%"." d) := by
  refine ⟨?_, ?_, ?_, ?_⟩ <;> intro d h <;> rw [← Py.dec?_iff] at h <;> revert h
  · rw [show Py.dec? s%"1,200" = none from by decide +kernel]; simp
  · rw [show Py.dec? s%"12 000" = none from by decide +kernel]; simp
  · rw [show Py.dec? s%"£5" = none from by decide +kernel]; simp
  · rw [show Py.dec? s%"." = none from by decide +kernel]; simp
/-- Whole numbers may have signs, spaces around and single underscores; `1.0`, `1__0` and `_1` are none. -/
example : IntText s%" +1_000\n" 1000 ∧ (∀ i, ¬ IntText s%"1.0" i) ∧ (∀ i, ¬ IntText s%"1__0" i) ∧ (∀ i, ¬ IntText s%"_1" i) := by
  refine ⟨(Py.int?_iff _ _).1 (by decide +kernel), ?_, ?_, ?_⟩ <;> intro d h <;> rw [← Py.int?_iff] at h <;> revert h
  · rw [show Py.int? s%"1.0" = none from by decide +kernel]; simp
  · rw [show Py.int? s%"1__0" = none from by decide +kernel]; simp
  · rw [show Py.int? s%"_1" = none from by decide +kernel]; simp
example : Spelled s%"TrUe" s%"true" := (Py.lower_iff_spelled Py.small_lit.2.2.2.2.1).1 (by decide +kernel)
/-- A list of lists. -/
example : convertType {} .array (.str s%"a,b;c") = .ok (.arr2 [[.str s%"a", .str s%"b"], [.str s%"c"]], []) :=
  (C79_list {} .array (.inl rfl) s%"a,b;c" (by decide) [s%"a,b", s%"c"] ⟨by decide, by decide, rfl⟩).2 (by decide) [[s%"a", s%"b"], [s%"c"]]
    (.cons ⟨by decide, by decide, rfl⟩ (.cons ⟨by decide, by decide, rfl⟩ .nil))
/-- A list of numbers with one that is none. -/
example : convertType {} .numberArray (.str s%"1;x") = .ok (.arr [.str s%"1", .str s%"x"], [.nonNumericArray s%"1;x"]) := by
  refine ((C79_number_list {} s%"1;x" (by decide) [s%"1", s%"x"] ⟨by decide, by decide, rfl⟩).1 (by decide)).2 ?_
  rintro ⟨ds, h⟩
  cases h with
  | cons _ h =>
    cases h with
    | cons h _ =>
      rw [← Py.dec?_iff, show Py.dec? s%"x" = none from by decide +kernel] at h
      cases h

end Verif

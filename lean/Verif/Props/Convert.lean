import Verif.Spec.Text
import Verif.Spec.Number
import Verif.Proofs.Dec
import Verif.Proofs.Num
import Verif.Proofs.Lower
import Verif.Model.Flatten
/-! C17–C22: conversion between texts and typed values. -/
namespace Verif
open Spec

/-! ### C17 -/

/-- **C17.** A non-empty text in a number, integer or boolean column becomes a value of that type
without a warning, or stays the text itself with exactly one warning, naming the text. -/
theorem C17_value_of_type_or_text_reported (env : ConvEnv) (ty : CType) (s : Str)
    (hty : ty = .number ∨ ty = .integer ∨ ty = .boolean) (hs : s ≠ []) :
    ∃ v w, convertType env ty (.str s) = .ok (v, w) ∧
      ((OfType ty v ∧ w = []) ∨ (v = .atom (.str s) ∧ w = [misfit ty s])) := by
  have hb : (Atom.str s).blank = false := by cases s <;> simp_all [Atom.blank]
  rcases hty with rfl | rfl | rfl
  · simp only [convertType, hb, toDecimal, Py.str, Bool.false_eq_true, if_false]
    cases Py.dec? s
    · exact ⟨_, _, rfl, Or.inr ⟨rfl, rfl⟩⟩
    · exact ⟨_, _, rfl, Or.inl ⟨trivial, rfl⟩⟩
  · simp only [convertType, hb, toInteger, Py.str, Bool.false_eq_true, if_false]
    cases Py.int? s
    · exact ⟨_, _, rfl, Or.inr ⟨rfl, rfl⟩⟩
    · exact ⟨_, _, rfl, Or.inl ⟨trivial, rfl⟩⟩
  · simp only [convertType, hb, Bool.false_eq_true, if_false]
    split
    · exact ⟨_, _, rfl, Or.inl ⟨trivial, rfl⟩⟩
    · split
      · exact ⟨_, _, rfl, Or.inl ⟨trivial, rfl⟩⟩
      · exact ⟨_, _, rfl, Or.inr ⟨rfl, rfl⟩⟩

example : convertType {} .integer (.str s%"abc") = .ok (.atom (.str s%"abc"), [.nonInteger s%"abc"]) := rfl
example : convertType {} .integer (.str s%" 12 ") = .ok (.atom (.int 12), []) := rfl

/-- **C17.** Converting a text never raises for any type a schema field can have (an object
field is not a cell type; GeoJSON fields only exist in WKT mode). -/
theorem C17_text_never_raises (env : ConvEnv) (ty : CType) (s : Str) (hobj : ty ≠ .object)
    (hgeo : ty = .geojson → env.wkt = true) :
    ∃ v w, convertType env ty (.str s) = .ok (v, w) ∧ w.length ≤ 1 := by
  have fin : ∀ (x : Except Err (Val × List Warn)) r, x = .ok r → r.2.length ≤ 1 →
      ∃ v w, x = .ok (v, w) ∧ w.length ≤ 1 := fun x r h hl => ⟨r.1, r.2, h, hl⟩
  unfold convertType
  by_cases hb : (Atom.str s).blank
  · rw [if_pos hb]; exact fin _ _ rfl (by simp)
  · rw [if_neg hb]
    cases ty with
    | number => simp only; split <;> exact fin _ _ rfl (by simp)
    | integer => simp only [toInteger]; cases Py.int? s <;> exact fin _ _ rfl (by simp)
    | boolean =>
      simp only
      split
      · exact fin _ _ rfl (by simp)
      · split <;> exact fin _ _ rfl (by simp)
    | numberArray => simp only; split <;> exact fin _ _ rfl (by simp)
    | geojson =>
      simp only [hgeo rfl, if_true]
      split
      · split <;> exact fin _ _ rfl (by simp)
      · exact fin _ _ rfl (by simp)
    | object => exact absurd rfl hobj
    | _ => exact fin _ _ rfl (by simp)

example : convertType {} .numberArray (.str s%"1;x") =
    .ok (.arr [.str s%"1", .str s%"x"], [.nonNumericArray s%"1;x"]) := rfl

/-! ### C18 -/

/-- The text of an integer is its usual decimal notation. -/
theorem intText_nat (n : Nat) : Py.natStr n = Nat.toDigits 10 n := by
  have key : ∀ fuel n acc, n < fuel → Py.natStrAux fuel n acc = Nat.toDigitsCore 10 fuel n acc := by
    intro fuel
    induction fuel with
    | zero => intro n acc h; omega
    | succ f ih =>
      intro n acc h
      have hd : ∀ d, d < 10 → Py.digitChar d = Nat.digitChar d := by decide
      unfold Py.natStrAux Nat.toDigitsCore
      by_cases h10 : n < 10
      · have : n / 10 = 0 := by omega
        have h2 : n % 10 = n := by omega
        simp [h10, this, h2, hd n h10]
      · have : n / 10 ≠ 0 := by omega
        simp only [h10, if_false, this, hd (n % 10) (by omega)]
        exact ih _ _ (by omega)
  exact key _ _ _ (by omega)

/-- **C18.** The text of an integer, in an integer column, is that integer. -/
theorem C18_integer_column (env : ConvEnv) (n : Int) :
    convertType env .integer (.str (Py.intStr n)) = .ok (.atom (.int n), []) := by
  have hb : (Atom.str (Py.intStr n)).blank = false := by
    unfold Py.intStr; split
    · rfl
    · cases h : Py.natStr n.natAbs with
      | nil => exact absurd h (Py.natStr_ne_nil _)
      | cons => rfl
  simp only [convertType, hb, toInteger, Py.int?_intStr]; rfl

theorem intStr_eq_decStr (n : Int) : Py.intStr n = Py.decStr (.fin (decide (n < 0)) n.natAbs 0) := by
  have hl : 0 < (Py.natStr n.natAbs).length := by
    cases h : Py.natStr n.natAbs with
    | nil => exact absurd h (Py.natStr_ne_nil _)
    | cons => simp
  unfold Py.decStr Py.intStr
  simp only
  generalize Py.natStr n.natAbs = ds at *
  have h1 : (0 : Int) ≤ 0 ∧ (0 : Int) + (ds.length : Int) > -6 := by omega
  have h2 : ¬ ((0 : Int) + (ds.length : Int) ≤ 0) := by omega
  have h3 : (0 : Int) + (ds.length : Int) ≥ (ds.length : Int) := by omega
  have h4 : ((0 : Int) + (ds.length : Int) - (ds.length : Int)).toNat = 0 := by omega
  simp only [h1, and_self, if_true, h2, if_false, h3, h4, List.replicate_zero, List.append_nil]
  by_cases h : n < 0 <;> simp [h]

/-- **C18.** The text of an integer, in a number column, is a number equal to that integer. -/
theorem C18_number_column (env : ConvEnv) (n : Int) :
    ∃ neg c e, convertType env .number (.str (Py.intStr n)) = .ok (.atom (.dec (.fin neg c e)), []) ∧
      EqInt neg c e n := by
  refine ⟨decide (n < 0), n.natAbs, 0, ?_, ?_⟩
  · have hb : (Atom.str (Py.intStr n)).blank = false := by
      unfold Py.intStr; split
      · rfl
      · cases h : Py.natStr n.natAbs with
        | nil => exact absurd h (Py.natStr_ne_nil _)
        | cons => rfl
    have := Py.dec?_decStr (decide (n < 0)) n.natAbs 0
    rw [← intStr_eq_decStr] at this
    simp only [convertType, hb, toDecimal, this]; rfl
  · unfold EqInt scaled
    simp
    by_cases h : n < 0 <;> simp [h] <;> omega

/-- **C18.** An integer as a heading component is recognised, with its value. -/
theorem C18_heading_index (n : Int) : Py.int? (Py.intStr n) = some n ∧ isint (Py.intStr n) = true := by
  simp [isint, Py.int?_intStr]

example : Py.intStr (-10000000000000000000001) = s%"-10000000000000000000001" := by decide +kernel

/-! ### C19 -/

/-- **C19.** The text of a finite decimal, read in a number column, is the same decimal: same
sign, digits and exponent. -/
theorem C19_decimal_text_round_trip (env : ConvEnv) (neg : Bool) (c : Nat) (e : Int) :
    convertType env .number (.str (Py.str (.dec (.fin neg c e)))) =
      .ok (.atom (.dec (.fin neg c e)), []) := by
  have h := Py.dec?_decStr neg c e
  have hb : (Atom.str (Py.decStr (.fin neg c e))).blank = false := by
    cases h' : Py.decStr (.fin neg c e) with
    | nil => rw [h', show Py.dec? [] = none from by decide] at h; exact absurd h (by simp)
    | cons => rfl
  simp only [convertType, Py.str, hb, toDecimal, h]; rfl

example : Py.str (.dec (.fin true 120 (-9))) = s%"-1.20E-7" := by decide +kernel

/-- **C19.** Numbers compare equal (Python `==`) exactly when they are the same number, whatever
their representations; used wherever values meet in a merge. -/
theorem C19_equality_is_numeric (n1 : Bool) (c1 : Nat) (e1 : Int) (n2 : Bool) (c2 : Nat) (e2 : Int) :
    Val.pyEq (.atom (.dec (.fin n1 c1 e1))) (.atom (.dec (.fin n2 c2 e2))) = true ↔
      SameNumber n1 c1 e1 n2 c2 e2 := by
  rw [← canonNum_eq_iff]
  simp [Val.pyEq, Val.canon, Atom.canon, Dec.canon]

example : SameNumber false 12 0 false 1200 (-2) := by decide +kernel

/-! ### C20 -/

theorem mem_join_of_mem {c : Char} {sep x : Str} {l : List Str} (hx : x ∈ l) (hc : c ∈ x) :
    c ∈ Py.join sep l := by
  induction l with
  | nil => simp at hx
  | cons y r ih =>
    cases r with
    | nil => simp at hx; subst hx; simpa [Py.join] using hc
    | cons z r =>
      simp only [Py.join, List.mem_append]
      rcases List.mem_cons.1 hx with rfl | hx
      · exact Or.inl hc
      · exact Or.inr (Or.inr (ih hx))

theorem mem_join {c : Char} {sep : Str} {l : List Str} (h : c ∈ Py.join sep l) :
    c ∈ sep ∨ ∃ x ∈ l, c ∈ x := by
  induction l with
  | nil => simp [Py.join] at h
  | cons y r ih =>
    cases r with
    | nil => exact Or.inr ⟨y, by simp, by simpa [Py.join] using h⟩
    | cons z r =>
      simp only [Py.join, List.mem_append] at h
      rcases h with h | h | h
      · exact Or.inr ⟨y, by simp, h⟩
      · exact Or.inl h
      · rcases ih h with h | ⟨x, hx, hc⟩
        · exact Or.inl h
        · exact Or.inr ⟨x, by simp [hx], hc⟩

theorem join_nonempty {sep : Str} {l : List Str} (hsep : sep ≠ []) (h0 : l ≠ []) (h1 : l ≠ [[]]) :
    Py.join sep l ≠ [] := by
  cases l with
  | nil => exact absurd rfl h0
  | cons x r =>
    cases r with
    | nil => simpa [Py.join] using h1
    | cons y r => simp [Py.join, hsep]

theorem mapM_some_map {α β γ : Type} (f : β → Option γ) (g : α → β) (k : α → γ) (l : List α)
    (h : ∀ a ∈ l, f (g a) = some (k a)) : (l.map g).mapM f = some (l.map k) := by
  induction l with
  | nil => rfl
  | cons a r ih =>
    simp only [List.map_cons, List.mapM_cons, h a (by simp), ih (fun b hb => h b (by simp [hb]))]
    rfl

/-- The cell flatten writes for a list of strings. -/
theorem joinArray_strings (l : List Str) :
    joinArray (l.map (fun s => .leaf (.str s))) = some (Py.join s%";" l) := by
  unfold joinArray
  rw [mapM_some_map basicStr _ id l (by intro a _; rfl)]
  simp

/-- **C20.** A list of strings survives flattening into one cell and reading it in a string-array
column exactly when it is non-empty, is not `[""]`, and no element contains `;` or `,`. -/
theorem C20_string_list_iff (env : ConvEnv) (l : List Str) :
    (∃ t, joinArray (l.map (fun s => .leaf (.str s))) = some t ∧
      convertType env .stringArray (.str t) = .ok (.arr (l.map Atom.str), [])) ↔
    (l ≠ [] ∧ l ≠ [[]] ∧ ∀ s ∈ l, ';' ∉ s ∧ ',' ∉ s) := by
  rw [joinArray_strings]
  simp only [Option.some.injEq, exists_eq_left']
  constructor
  · intro h
    have h0 : Py.join s%";" l ≠ [] := by
      intro e; rw [e] at h; simp [convertType, Atom.blank] at h
    have hb : (Atom.str (Py.join s%";" l)).blank = false := by
      cases hj : Py.join s%";" l <;> simp_all [Atom.blank]
    simp only [convertType, hb, Py.str, stringArray] at h
    by_cases hc : ',' ∈ Py.join s%";" l
    · simp [hc] at h
    · simp only [hc, Bool.false_eq_true, if_false, Except.ok.injEq, Prod.mk.injEq, Val.arr.injEq, and_true] at h
      have h := List.map_inj_right (fun a b (e : Atom.str a = Atom.str b) => by injection e) |>.1 h
      refine ⟨?_, ?_, ?_⟩
      · rintro rfl; exact h0 rfl
      · rintro rfl; exact h0 rfl
      · intro s hs
        refine ⟨?_, fun hcs => hc (mem_join_of_mem hs hcs)⟩
        rw [← h] at hs
        exact Py.not_mem_split ';' _ s hs
  · rintro ⟨h0, h1, h2⟩
    have hne : Py.join s%";" l ≠ [] := join_nonempty (by simp) h0 h1
    have hb : (Atom.str (Py.join s%";" l)).blank = false := by
      cases hj : Py.join s%";" l <;> simp_all [Atom.blank]
    have hc : ',' ∉ Py.join s%";" l := by
      intro h
      rcases mem_join h with h | ⟨x, hx, h⟩
      · simp at h
      · exact (h2 x hx).2 h
    simp only [convertType, hb, Py.str, stringArray, hc]
    rw [Py.split_join h0 (fun p hp => (h2 p hp).1)]
    simp

example : joinArray [.leaf (.str s%"a b"), .leaf (.str [])] = some s%"a b;" := rfl
example : convertType {} .stringArray (.str s%"a b;") = .ok (.arr [.str s%"a b", .str []], []) := rfl

theorem joinArray_lists (l : List (List Str)) (hl : l ≠ []) :
    joinArray (l.map (fun r => .arr (r.map (fun s => .leaf (.str s))))) =
      some (Py.join s%";" (l.map (Py.join s%","))) := by
  unfold joinArray
  have h1 : (l.map (fun r => Json.arr (r.map (fun s => .leaf (.str s))))).mapM basicStr = none := by
    cases l with
    | nil => exact absurd rfl hl
    | cons a r => simp [List.mapM_cons, basicStr]
  rw [h1]
  rw [mapM_some_map innerJoin _ (Py.join s%",") l
    (by intro a _; simp only [innerJoin]
        rw [mapM_some_map basicStr _ id a (by intro b _; rfl)]; simp)]
  simp

/-- **C20.** A list of lists of strings, of which at least one has two elements or more, survives
flattening into one cell and reading it in an array column if no inner list is empty and no
string contains `;` or `,`. -/
theorem C20_list_of_lists (env : ConvEnv) (ty : CType) (hty : ty = .array ∨ ty = .arrayArray ∨ ty = .stringArray)
    (l : List (List Str)) (h0 : ∀ r ∈ l, r ≠ []) (h1 : ∃ r ∈ l, 2 ≤ r.length)
    (h2 : ∀ r ∈ l, ∀ s ∈ r, ';' ∉ s ∧ ',' ∉ s) :
    ∃ t, joinArray (l.map (fun r => .arr (r.map (fun s => .leaf (.str s))))) = some t ∧
      convertType env ty (.str t) = .ok (.arr2 (l.map (fun r => r.map Atom.str)), []) := by
  have hl : l ≠ [] := by rintro rfl; simp at h1
  refine ⟨_, joinArray_lists l hl, ?_⟩
  have hc : ',' ∈ Py.join s%";" (l.map (Py.join s%",")) := by
    obtain ⟨r, hr, hlen⟩ := h1
    refine mem_join_of_mem (List.mem_map_of_mem hr) ?_
    match r, hlen with
    | a :: b :: r, _ => simp [Py.join]
  have hb : (Atom.str (Py.join s%";" (l.map (Py.join s%",")))).blank = false := by
    cases hj : Py.join s%";" (l.map (Py.join s%",")) <;> simp_all [Atom.blank]
  have hs : Py.split ';' (Py.join s%";" (l.map (Py.join s%","))) = l.map (Py.join s%",") := by
    apply Py.split_join (by simpa using hl)
    intro p hp
    obtain ⟨r, hr, rfl⟩ := List.mem_map.1 hp
    intro h
    rcases mem_join h with h | ⟨x, hx, h⟩
    · simp at h
    · exact (h2 r hr x hx).1 h
  have : convertType env ty (.str (Py.join s%";" (l.map (Py.join s%",")))) =
      .ok (stringArray (Py.join s%";" (l.map (Py.join s%","))), []) := by
    rcases hty with rfl | rfl | rfl <;> simp [convertType, hb, Py.str]
  rw [this]
  simp only [stringArray, hc, if_true, hs, List.map_map]
  congr 3
  apply List.map_congr_left
  intro r hr
  simp only [Function.comp]
  rw [Py.split_join (h0 r hr) (fun p hp => (h2 r hr p hp).2)]

example : joinArray [.arr [.leaf (.str s%"a"), .leaf (.str s%"b")], .arr [.leaf (.str s%"c")]] = some s%"a,b;c" := rfl
/-- Without an inner list of two the nesting is lost (a finding). -/
example : (joinArray [.arr [.leaf (.str s%"a")], .arr [.leaf (.str s%"b")]]).map
    (fun t => convertType {} .arrayArray (.str t)) = some (.ok (.arr [.str s%"a", .str s%"b"], [])) := rfl

theorem mapM_map_some {α β γ : Type} (f : β → Option γ) (g : α → β) (k : α → γ) (l : List α)
    (h : ∀ a ∈ l, f (g a) = some (k a)) : (l.map g).mapM f = some (l.map k) :=
  mapM_some_map f g k l h

/-- **C20.** Every non-empty list of finite decimals survives flattening into one cell and
reading it in a number-array column, exactly. -/
theorem C20_number_list (env : ConvEnv) (l : List Dec) (h0 : l ≠ []) (hf : ∀ d ∈ l, isFinite d) :
    ∃ t, joinArray (l.map (fun d => .leaf (.dec d))) = some t ∧
      convertType env .numberArray (.str t) = .ok (.arr (l.map Atom.dec), []) := by
  have hj : joinArray (l.map (fun d => .leaf (.dec d))) = some (Py.join s%";" (l.map Py.decStr)) := by
    unfold joinArray
    rw [mapM_some_map basicStr _ Py.decStr l (by intro a _; rfl)]
  refine ⟨_, hj, ?_⟩
  have hchars : ∀ d ∈ l, ∀ c ∈ Py.decStr d, Py.DecChar c := by
    intro d hd c hc
    match d, hf d hd with
    | .fin neg k e, _ => exact Py.decStr_chars neg k e c hc
  have hno : ∀ d ∈ l, ∀ c, (c = ';' ∨ c = ',') → c ∉ Py.decStr d := by
    intro d hd c hcc hc
    have := hchars d hd c hc
    rcases this with h | h | h | h | h
    · have := Py.isDigit_toNat h
      rcases hcc with rfl | rfl <;> exact absurd this (by decide)
    all_goals (subst h; rcases hcc with h | h <;> exact absurd h (by decide))
  have hdec : ∀ d ∈ l, Py.dec? (Py.decStr d) = some d := by
    intro d hd
    match d, hf d hd with
    | .fin neg k e, _ => exact Py.dec?_decStr neg k e
  have hsplit : Py.split ';' (Py.join s%";" (l.map Py.decStr)) = l.map Py.decStr := by
    apply Py.split_join (by simpa using h0)
    intro p hp
    obtain ⟨d, hd, rfl⟩ := List.mem_map.1 hp
    exact hno d hd ';' (Or.inl rfl)
  have hc : ',' ∉ Py.join s%";" (l.map Py.decStr) := by
    intro h
    rcases mem_join h with h | ⟨x, hx, h⟩
    · simp at h
    · obtain ⟨d, hd, rfl⟩ := List.mem_map.1 hx
      exact hno d hd ',' (Or.inr rfl) h
  have hne : Py.join s%";" (l.map Py.decStr) ≠ [] := by
    apply join_nonempty (by simp) (by simpa using h0)
    intro e
    cases l with
    | nil => exact h0 rfl
    | cons d r =>
      simp only [List.map_cons, List.cons.injEq] at e
      have := hdec d (by simp)
      rw [e.1] at this; exact absurd this (by simp [show Py.dec? [] = none from by decide])
  have hb : (Atom.str (Py.join s%";" (l.map Py.decStr))).blank = false := by
    cases hj : Py.join s%";" (l.map Py.decStr) <;> simp_all [Atom.blank]
  simp only [convertType, hb, Py.str, numberArray, hc, hsplit]
  rw [mapM_some_map Py.dec? Py.decStr id l (by intro a ha; exact hdec a ha)]
  simp

example : joinArray [.leaf (.dec (.fin false 15 (-1))), .leaf (.dec (.fin true 2 0))] = some s%"1.5;-2" := by decide +kernel

/-! ### C21 -/

/-- **C21.** The texts written for booleans convert back to them. -/
theorem C21_bool_round_trip (env : ConvEnv) (b : Bool) :
    convertType env .boolean (.str (Py.str (.bool b))) = .ok (.atom (.bool b), []) := by
  cases b <;> rfl

theorem lower_eq_digit (s : Str) (d : Char) (hd : d = '0' ∨ d = '1') : Py.lower s = [d] ↔ s = [d] := by
  have hlen : ∀ c, 1 ≤ (Py.lowerChar c).length := by
    intro c; unfold Py.lowerChar; split
    · simp
    · split
      · simp
      · split <;> simp
  constructor
  · intro h
    cases s with
    | nil => simp [Py.lower] at h
    | cons a s =>
      have hcons : Py.lower (a :: s) = Py.lowerChar a ++ Py.lower s := by simp [Py.lower]
      rw [hcons] at h
      have hs : s = [] := by
        cases s with
        | nil => rfl
        | cons b s =>
          have hl := congrArg List.length h
          have : Py.lower (b :: s) = Py.lowerChar b ++ Py.lower s := by simp [Py.lower]
          rw [this] at hl
          have h1 := hlen a; have h2 := hlen b
          simp at hl; omega
      subst hs
      simp only [Py.lower, List.flatMap_nil, List.append_nil] at h
      unfold Py.lowerChar at h
      split at h
      · next h1 =>
        simp at h1
        injection h with h _
        have hv : (Char.ofNat (a.toNat + 32)).toNat = a.toNat + 32 := by
          exact ofNat_toNat (by omega)
        rw [h] at hv
        rcases hd with rfl | rfl
        · have : '0'.toNat = 48 := rfl
          omega
        · have : '1'.toNat = 49 := rfl
          omega
      · split at h
        · simp at h
        · split at h
          · rcases hd with rfl | rfl <;> simp at h
          · exact h
  · rintro rfl
    rcases hd with rfl | rfl <;> rfl

/-- **C21.** A text becomes `true` exactly when it is `true` up to case or `1`, `false` exactly
when it is `false` up to case or `0`, and otherwise stays a text. -/
theorem C21_only_boolean_texts (env : ConvEnv) (s : Str) (b : Bool) :
    (∃ w, convertType env .boolean (.str s) = .ok (.atom (.bool b), w)) ↔
      (if b then SameIgnoringCase s s%"true" ∨ s = s%"1" else SameIgnoringCase s s%"false" ∨ s = s%"0") := by
  have ht := lower_eq_iff s s%"true" (by decide)
  have hf := lower_eq_iff s s%"false" (by decide)
  have h1 := lower_eq_digit s '1' (Or.inr rfl)
  have h0 := lower_eq_digit s '0' (Or.inl rfl)
  rw [← ht, ← hf, ← h1, ← h0]
  cases s with
  | nil => cases b <;> simp [convertType, Atom.blank, Py.lower]
  | cons a s =>
    have hb : (Atom.str (a :: s)).blank = false := rfl
    have hconv : convertType env .boolean (.str (a :: s)) =
        (if Py.lower (a :: s) = s%"true" ∨ Py.lower (a :: s) = s%"1" then .ok (.atom (.bool true), [])
         else if Py.lower (a :: s) = s%"false" ∨ Py.lower (a :: s) = s%"0" then .ok (.atom (.bool false), [])
         else .ok (.atom (.str (a :: s)), [.badBoolean (a :: s)])) := rfl
    rw [hconv]
    clear ht hf h1 h0 hconv
    generalize hx : Py.lower (a :: s) = x
    clear hx
    by_cases c1 : x = s%"true" ∨ x = s%"1"
    · rcases c1 with rfl | rfl <;> cases b <;> simp
    · by_cases c2 : x = s%"false" ∨ x = s%"0"
      · rcases c2 with rfl | rfl <;> cases b <;> simp
      · cases b <;> simp [c1, c2]

example : convertType {} .boolean (.str s%"tRuE") = .ok (.atom (.bool true), []) := rfl

/-! ### C22 -/

/-- **C22.** Without type information: a text is kept verbatim, an integer is kept, a float that
is integral becomes that integer and otherwise its text. -/
theorem C22_untyped_verbatim (env : ConvEnv) :
    (∀ s, s ≠ [] → convertType env .untyped (.str s) = .ok (.atom (.str s), [])) ∧
    (∀ i, convertType env .untyped (.int i) = .ok (.atom (.int i), [])) ∧
    (∀ r neg c e i, EqInt neg c e i →
      convertType env .untyped (.float ⟨r, .fin neg c e⟩) = .ok (.atom (.int i), [])) ∧
    (∀ r neg c e, ¬ Integral neg c e →
      convertType env .untyped (.float ⟨r, .fin neg c e⟩) = .ok (.atom (.str r), [])) := by
  refine ⟨?_, ?_, ?_, ?_⟩
  · intro s hs; cases s
    · exact absurd rfl hs
    · rfl
  · intro i; rfl
  · intro r neg c e i h
    have := (trunc_canon_iff neg c e).2 ⟨i, h⟩
    rw [truncDec_of_eqInt h] at this
    simp only [convertType, Atom.blank, truncDec_of_eqInt h, this, if_true]; rfl
  · intro r neg c e h
    have : ¬ ((Dec.fin neg c e).canon = (Atom.int (Py.truncDec neg c e)).canon) :=
      fun h' => h ((trunc_canon_iff neg c e).1 h'.symm)
    simp only [convertType, Atom.blank, this]; rfl

example : EqInt false 30 (-1) 3 := by decide +kernel
example : convertType {} .untyped (.float ⟨s%"3.0", .fin false 30 (-1)⟩) = .ok (.atom (.int 3), []) := by rfl

end Verif

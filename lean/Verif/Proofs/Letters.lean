import Verif.Model.Letters
import Verif.Proofs.Dict
/-! Columns that have letters. -/
namespace Verif

theorem columnLetter_ok {n : Nat} (h1 : 0 < n) (h2 : n ≤ 18278) : columnLetter n = .ok (columnLetters n []) := by
  unfold columnLetter
  rw [if_neg (by omega)]

theorem columnLetter_error {n : Nat} (h : n = 0 ∨ 18278 < n) : columnLetter n = .error .value := by
  unfold columnLetter
  rw [if_pos h]

theorem lettersMissing_iff (n : Nat) : lettersMissing n = decide (18278 < n) := by
  unfold lettersMissing
  by_cases h : 18278 < n
  · simp only [h, decide_true, List.any_eq_true, List.mem_range]
    refine ⟨18278, h, ?_⟩
    rw [columnLetter_error (.inr (by omega))]
  · simp only [h, decide_false, List.any_eq_false, List.mem_range]
    intro k hk
    rw [columnLetter_ok (by omega) (by omega)]
    simp

theorem findHeadings_bound (n : Nat) : ∀ (l : List (Option Str)) (i : Nat) (f : List (Str × List Nat)),
    (∀ e ∈ f, ∀ x ∈ e.2.tail, x ≤ n - 1) → ∀ e ∈ findHeadings n i l f, ∀ x ∈ e.2.tail, x ≤ n - 1
  | [], _, f, h => h
  | none :: r, i, f, h => by rw [findHeadings]; exact findHeadings_bound n r _ f h
  | some a :: r, i, f, h => by
    rw [findHeadings]
    cases hg : Dict.get f a with
    | none =>
      apply findHeadings_bound n r
      intro e he
      rcases Dict.mem_set he with ⟨-, h'⟩ | h'
      · rw [h']; simp
      · exact h e h'
    | some l =>
      apply findHeadings_bound n r
      intro e he
      rcases Dict.mem_set he with ⟨-, h'⟩ | h'
      case inr => exact h e h'
      · rw [h']
        intro x hx
        have h0 := h _ (Dict.get_eq_some_mem hg)
        cases l with
        | nil => simp at hx
        | cons y t =>
          simp only [List.cons_append, List.tail_cons, List.mem_append, List.mem_singleton] at hx h0
          rcases hx with hx | rfl
          · exact h0 x hx
          · omega

/-- Reading a sheet that is not wider than the last column with letters. -/
theorem lettersFail_false {v : Bool} {s : SheetIn} (h1 : ∀ hs, s.headings = some hs → hs.length ≤ 18278)
    (h2 : v = false → ∀ l ∈ s.lines, blankLine l = false → l.length ≤ 18278) : lettersFail v s = false := by
  unfold lettersFail
  split
  · rfl
  · rw [Bool.or_eq_false_iff]
    constructor
    · split
      · next hs he =>
        have hle := h1 hs he
        simp only [List.any_eq_false]
        intro w hw
        unfold headingWarns at hw
        obtain ⟨e, he', hw⟩ := List.mem_filterMap.1 hw
        split at hw
        · injection hw with hw; subst hw
          simp only [List.any_eq_true, not_exists, not_and]
          intro x hx
          have hb := findHeadings_bound hs.length hs.reverse 0 [] (by simp) e (by simpa using he') x (by simpa using hx)
          have : hs ≠ [] := by
            rintro rfl
            simp [findHeadings] at he'
          have : 0 < hs.length := List.length_pos_iff.2 this
          rw [columnLetter_ok (by omega) (by omega)]
          simp
        · cases hw
      · rfl
    · cases v with
      | true => rfl
      | false =>
        simp only [Bool.not_false, Bool.true_and, List.any_eq_false]
        intro l hl
        rw [lettersMissing_iff]
        cases hb : blankLine l with
        | true => simp
        | false =>
          have := h2 rfl l hl hb
          simp; omega

theorem letters_none {v : Bool} {ss : List SheetIn} (h : ∀ s ∈ ss, (∀ hs, s.headings = some hs → hs.length ≤ 18278) ∧
    (v = false → ∀ l ∈ s.lines, blankLine l = false → l.length ≤ 18278)) : ss.any (lettersFail v) = false := by
  rw [List.any_eq_false]
  intro s hs
  rw [lettersFail_false (h s hs).1 (h s hs).2]
  simp

end Verif

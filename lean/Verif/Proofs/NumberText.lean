import Verif.Spec.NumberText
import Verif.Spec.List
import Verif.Proofs.Str
import Verif.Proofs.Dec
/-! Which texts `int()` and `Decimal()` accept. -/
namespace Verif
open Spec
namespace Py

theorem zeros_apart : ∀ z ∈ unicodeZeros, 57 < z ∧ ∀ z' ∈ unicodeZeros, z = z' ∨ z + 9 < z' ∨ z' + 9 < z := by decide +kernel

theorem digitVal_iff (c : Char) (d : Nat) : digitVal c = some d ↔ DigitOf c d := by
  unfold digitVal DigitOf
  by_cases h : (c.toNat ≥ 48 && c.toNat ≤ 57) = true
  · rw [if_pos h]
    simp only [Bool.and_eq_true, decide_eq_true_eq] at h
    constructor
    · intro e
      simp only [Option.some.injEq] at e
      exact ⟨by omega, 48, .inl rfl, by omega⟩
    · rintro ⟨hd, z, rfl | hz, e⟩
      · congr 1; omega
      · have := (zeros_apart z hz).1; omega
  · rw [if_neg h]
    simp only [Bool.and_eq_true, decide_eq_true_eq] at h
    constructor
    · intro e
      obtain ⟨z, hz, rfl⟩ := Option.map_eq_some_iff.1 e
      have h1 := List.find?_some hz
      simp only [Bool.and_eq_true, decide_eq_true_eq] at h1
      exact ⟨by omega, z, .inr (List.mem_of_find?_eq_some hz), by omega⟩
    · rintro ⟨hd, z, rfl | hz, e⟩
      · omega
      · cases hf : unicodeZeros.find? (fun z => decide (c.toNat ≥ z) && decide (c.toNat ≤ z + 9)) with
        | none =>
          have := List.find?_eq_none.1 hf z hz
          simp only [Bool.and_eq_true, decide_eq_true_eq] at this
          omega
        | some z' =>
          have h1 := List.find?_some hf
          simp only [Bool.and_eq_true, decide_eq_true_eq] at h1
          have := (zeros_apart z hz).2 z' (List.mem_of_find?_eq_some hf)
          simp only [Option.map_some, Option.some.injEq]
          omega

theorem digit_fun {c : Char} {d d' : Nat} (h : DigitOf c d) (h' : DigitOf c d') : d = d' := by
  rw [← digitVal_iff] at h h'
  rw [h] at h'; exact Option.some.inj h'

theorem digit_facts {c : Char} {d : Nat} (h : DigitOf c d) : isSpace c = false ∧ c ≠ '_' ∧ c ≠ '+' ∧ c ≠ '-' ∧ c ≠ '.' ∧ c ≠ 'e' ∧ c ≠ 'E' := by
  obtain ⟨hd, z, hz, e⟩ := h
  have hr : isSpace c = false := by
    have hs : ∀ z, (z = 48 ∨ z ∈ unicodeZeros) → ∀ d ≤ 9, (let n := z + d
      (((decide (n ≥ 0x9) && decide (n ≤ 0xd)) || n == 0x20 || n == 0x85 || n == 0xa0 ||
        n == 0x1680 || (decide (n ≥ 0x2000) && decide (n ≤ 0x200a)) || n == 0x2028 ||
        n == 0x2029 || n == 0x202f || n == 0x205f || n == 0x3000) || (decide (n ≥ 0x1c) && decide (n ≤ 0x1f)))) = false := by
      have : ∀ z ∈ 48 :: unicodeZeros, ∀ d ≤ 9, (let n := z + d
        (((decide (n ≥ 0x9) && decide (n ≤ 0xd)) || n == 0x20 || n == 0x85 || n == 0xa0 ||
          n == 0x1680 || (decide (n ≥ 0x2000) && decide (n ≤ 0x200a)) || n == 0x2028 ||
          n == 0x2029 || n == 0x202f || n == 0x205f || n == 0x3000) || (decide (n ≥ 0x1c) && decide (n ≤ 0x1f)))) = false := by
        decide +kernel
      intro z hz; exact this z (List.mem_cons.2 hz)
    unfold isSpace isIntSpace
    rw [e]
    exact hs z hz d hd
  refine ⟨hr, ?_⟩
  have hne : ∀ x : Char, (x.toNat < 48 ∨ 57 < x.toNat ∧ x.toNat < 0x660) → c ≠ x := by
    rintro x hx rfl
    rcases hz with rfl | hz
    · omega
    · have : ∀ z ∈ unicodeZeros, 0x660 ≤ z := by decide +kernel
      have := this z hz
      omega
  exact ⟨hne _ (by decide), hne _ (by decide), hne _ (by decide), hne _ (by decide), hne _ (by decide), hne _ (by decide)⟩

/-! ### Runs of digits -/

/-- DigitsOf that continue a number. -/
inductive From : Nat → Str → Nat → Prop
  | nil {a} : From a [] a
  | cons {a c d s v} : DigitOf c d → From (10 * a + d) s v → From a (c :: s) v

theorem from_snoc {a : Nat} {s : Str} {v : Nat} (h : From a s v) {c : Char} {d : Nat} (hc : DigitOf c d) : From a (s ++ [c]) (10 * v + d) := by
  induction h with
  | nil => exact .cons hc .nil
  | cons h1 _ ih => exact .cons h1 ih

theorem from_append {a : Nat} {s : Str} {v : Nat} (h : From a s v) {t : Str} {w : Nat} (h' : From v t w) : From a (s ++ t) w := by
  induction h with
  | nil => exact h'
  | cons h1 _ ih => exact .cons h1 (ih h')

theorem from_split : ∀ {s : Str} {a : Nat} {t : Str} {w : Nat}, From a (s ++ t) w → ∃ v, From a s v ∧ From v t w
  | [], a, t, w, h => ⟨a, .nil, h⟩
  | c :: s, a, t, w, h => by
    cases h with
    | cons h1 h2 =>
      obtain ⟨v, h3, h4⟩ := from_split h2
      exact ⟨v, .cons h1 h3, h4⟩

theorem digits_from {s : Str} {v : Nat} : DigitsOf s v ↔ From 0 s v := by
  constructor
  · intro h
    induction h with
    | nil => exact .nil
    | snoc _ hc ih => exact from_snoc ih hc
  · intro h
    suffices hh : ∀ a s v, From a s v → ∀ t, DigitsOf t a → DigitsOf (t ++ s) v from hh 0 s v h [] .nil
    intro a s v h
    induction h with
    | nil => intro t ht; rwa [List.append_nil]
    | @cons a c d s v h1 _ ih =>
      intro t ht
      have := ih _ (.snoc ht h1)
      rwa [List.append_assoc] at this

theorem takeDigits_spec : ∀ (s : Str) (a n : Nat), ∃ ds rest v, s = ds ++ rest ∧ From a ds v ∧ takeDigits a n s = (v, n + ds.length, rest) ∧
    ∀ c, rest.head? = some c → digitVal c = none
  | [], a, n => ⟨[], [], a, rfl, .nil, rfl, by simp⟩
  | c :: s, a, n => by
    cases h : digitVal c with
    | none => exact ⟨[], c :: s, a, rfl, .nil, by simp [takeDigits, h], by simp [h]⟩
    | some d =>
      obtain ⟨ds, rest, v, h1, h2, h3, h4⟩ := takeDigits_spec s (a * 10 + d) (n + 1)
      refine ⟨c :: ds, rest, v, by rw [h1]; rfl, .cons ((digitVal_iff c d).1 h) (by rwa [Nat.mul_comm] at h2), ?_, h4⟩
      simp only [takeDigits, h, h3, List.length_cons, Prod.mk.injEq, true_and, and_true]
      omega

theorem takeDigits_from {a : Nat} {ds : Str} {v : Nat} (h : From a ds v) : ∀ (n : Nat) (rest : Str), (∀ c, rest.head? = some c → digitVal c = none) →
    takeDigits a n (ds ++ rest) = (v, n + ds.length, rest) := by
  induction h with
  | nil =>
    intro n rest hr
    cases rest with
    | nil => rfl
    | cons c r => simp [takeDigits, hr c rfl]
  | @cons a c d s v h1 h2 ih =>
    intro n rest hr
    rw [← digitVal_iff] at h1
    simp only [List.cons_append, takeDigits, h1]
    rw [Nat.mul_comm a 10, ih (n + 1) rest hr]
    simp only [List.length_cons, Prod.mk.injEq, true_and, and_true]
    omega

theorem from_facts {a : Nat} {ds : Str} {v : Nat} (h : From a ds v) : ∀ c ∈ ds, ∃ d, DigitOf c d := by
  induction h with
  | nil => simp
  | cons h1 _ ih =>
    intro c hc
    rcases List.mem_cons.1 hc with rfl | hc
    · exact ⟨_, h1⟩
    · exact ih c hc

/-! ### Whole numbers -/

/-- Grouped digits that continue a number; the flag tells whether a digit is before them. -/
inductive GFrom : Bool → Nat → Str → Nat → Prop
  | nil {a} : GFrom true a [] a
  | cons {b a c d s v} : DigitOf c d → GFrom true (10 * a + d) s v → GFrom b a (c :: s) v
  | under {a c d s v} : DigitOf c d → GFrom true (10 * a + d) s v → GFrom true a ('_' :: c :: s) v

theorem gfrom_append {b : Bool} {a : Nat} {s : Str} {v : Nat} (h : GFrom b a s v) {t : Str} {w : Nat} (h' : GFrom true v t w) : GFrom b a (s ++ t) w := by
  induction h with
  | nil => exact h'
  | cons h1 _ ih => exact .cons h1 (ih h')
  | under h1 _ ih => exact .under h1 (ih h')

theorem grouped_gfrom {s : Str} {v : Nat} : Grouped s v ↔ GFrom false 0 s v := by
  constructor
  · intro h
    induction h with
    | @one c d hc => exact .cons hc (by rw [Nat.mul_zero, Nat.zero_add]; exact .nil)
    | more _ hc ih => exact gfrom_append ih (.cons hc .nil)
    | group _ hc ih => exact gfrom_append ih (.under hc .nil)
  · have key : ∀ b a s v, GFrom b a s v → b = true → ∀ t, Grouped t a → Grouped (t ++ s) v := by
      intro b a s v h
      induction h with
      | nil => intro _ t ht; rwa [List.append_nil]
      | @cons b a c d s v h1 _ ih =>
        intro _ t ht
        have := ih rfl _ (.more ht h1)
        rwa [List.append_assoc] at this
      | @under a c d s v h1 _ ih =>
        intro _ t ht
        have := ih rfl _ (.group ht h1)
        rwa [List.append_assoc] at this
    intro h
    cases h with
    | @cons _ _ c d s _ h1 h2 =>
      rw [Nat.mul_zero, Nat.zero_add] at h2
      exact key _ _ _ _ h2 rfl [c] (.one h1)

theorem digitsAux_iff : ∀ (s : Str) (b : Bool) (a v : Nat), digitsAux b a s = some v ↔ GFrom b a s v
  | [], b, a, v => by
    cases b
    · simp only [digitsAux, Bool.false_eq_true, if_false, reduceCtorEq, false_iff]; intro h; cases h
    · simp only [digitsAux, if_true, Option.some.injEq]
      exact ⟨fun e => by subst e; exact .nil, fun h => by cases h; rfl⟩
  | c :: s, b, a, v => by
    cases hc : digitVal c with
    | some d =>
      have hd := (digitVal_iff c d).1 hc
      simp only [digitsAux, hc]
      rw [digitsAux_iff s true _ v, Nat.mul_comm]
      constructor
      · exact .cons hd
      · intro h
        cases h with
        | cons h1 h2 => rw [digit_fun hd h1]; exact h2
        | under h1 h2 => exact absurd rfl (digit_facts hd).2.1
    | none =>
      have hno : ∀ d, ¬ DigitOf c d := fun d h => by rw [← digitVal_iff, hc] at h; cases h
      simp only [digitsAux, hc]
      by_cases hu : (decide (c = '_') && b) = true
      · rw [if_pos hu]
        simp only [Bool.and_eq_true, decide_eq_true_eq] at hu
        obtain ⟨rfl, rfl⟩ := hu
        rw [digitsAux_iff s false a v]
        constructor
        · intro h
          cases h with
          | cons h1 h2 => exact .under h1 h2
        · intro h
          cases h with
          | cons h1 h2 => exact absurd h1 (hno _)
          | under h1 h2 => exact .cons h1 h2
      · rw [if_neg hu]
        simp only [reduceCtorEq, false_iff]
        intro h
        cases h with
        | cons h1 h2 => exact hno _ h1
        | under h1 h2 => exact hu rfl

/-! ### Spaces around -/

theorem takeWhile_all (p : Char → Bool) : ∀ s : Str, ∀ c ∈ s.takeWhile p, p c = true
  | [], c, h => by cases h
  | d :: s, c, h => by
    rw [List.takeWhile_cons] at h
    split at h
    · rename_i hd
      rcases List.mem_cons.1 h with rfl | h
      · exact hd
      · exact takeWhile_all p s c h
    · cases h

theorem dropWhile_all {p : Char → Bool} : ∀ {s : Str}, (∀ c ∈ s, p c = true) → s.dropWhile p = []
  | [], _ => rfl
  | d :: s, h => by
    rw [List.dropWhile_cons_of_pos (h d (by simp))]
    exact dropWhile_all (fun c hc => h c (by simp [hc]))

theorem strip_spec (p : Char → Bool) (s : Str) : ∃ before after, s = before ++ (strip p s ++ after) ∧ (∀ c ∈ before, p c = true) ∧ (∀ c ∈ after, p c = true) := by
  have hl : ∀ s : Str, ∃ before, s = before ++ lstrip p s ∧ ∀ c ∈ before, p c = true := by
    intro s
    refine ⟨s.takeWhile p, (List.takeWhile_append_dropWhile).symm, fun c hc => ?_⟩
    exact takeWhile_all p s c hc
  have hr : ∀ s : Str, ∃ after, s = rstrip p s ++ after ∧ ∀ c ∈ after, p c = true := by
    intro s
    induction s with
    | nil => exact ⟨[], rfl, by simp⟩
    | cons c s ih =>
      obtain ⟨after, h1, h2⟩ := ih
      unfold rstrip
      cases hs : rstrip p s with
      | nil =>
        rw [hs] at h1
        simp only
        by_cases hc : p c = true
        · rw [if_pos hc]
          refine ⟨c :: s, rfl, ?_⟩
          intro d hd
          rcases List.mem_cons.1 hd with rfl | hd
          · exact hc
          · rw [h1] at hd; exact h2 d hd
        · rw [if_neg hc]
          exact ⟨s, rfl, by intro d hd; rw [h1] at hd; exact h2 d hd⟩
      | cons e es =>
        rw [hs] at h1
        exact ⟨after, by rw [List.cons_append, ← h1], h2⟩
  obtain ⟨before, h1, h2⟩ := hl s
  obtain ⟨after, h3, h4⟩ := hr (lstrip p s)
  exact ⟨before, after, by rw [show strip p s = rstrip p (lstrip p s) from rfl, ← h3, ← h1], h2, h4⟩

theorem rstrip_append {p : Char → Bool} {after : Str} (h : ∀ c ∈ after, p c = true) : ∀ s : Str, rstrip p (s ++ after) = rstrip p s
  | [] => by
    induction after with
    | nil => rfl
    | cons c r ih =>
      have := ih (fun c hc => h c (by simp [hc]))
      simp only [List.nil_append] at this ⊢
      unfold rstrip
      rw [this]
      simp [rstrip, h c (by simp)]
  | c :: s => by
    rw [List.cons_append]
    unfold rstrip
    rw [rstrip_append h s]

theorem strip_of {p : Char → Bool} {before body after : Str} (h1 : ∀ c ∈ before, p c = true) (h2 : ∀ c ∈ after, p c = true)
    (hb : body.head?.all (fun c => !p c)) (hl : body.getLast?.all (fun c => !p c)) : strip p (before ++ (body ++ after)) = body := by
  have : lstrip p (before ++ (body ++ after)) = body ++ after ∨ body = [] ∧ lstrip p (before ++ (body ++ after)) = [] := by
    unfold lstrip
    rw [List.dropWhile_append_of_pos h1]
    cases body with
    | nil =>
      right
      refine ⟨rfl, ?_⟩
      rw [List.nil_append]
      exact dropWhile_all h2
    | cons c r =>
      left
      simp only [List.head?_cons, Option.all_some, Bool.not_eq_true'] at hb
      rw [List.cons_append, List.dropWhile_cons_of_neg (by simp [hb])]
  unfold strip
  rcases this with h | ⟨rfl, h⟩
  · rw [h, rstrip_append h2, rstrip_of_not hl]
  · rw [h]; rfl

/-! ### `int()` -/

theorem intSpace_space {c : Char} (h : isSpace c = false) : isIntSpace c = false := by
  unfold isSpace at h
  simp only [Bool.or_eq_false_iff] at h
  exact h.1

theorem gfrom_ne {a : Nat} {s : Str} {v : Nat} (h : GFrom false a s v) : ∃ c d r, s = c :: r ∧ DigitOf c d := by
  cases h with
  | cons h1 _ => exact ⟨_, _, _, rfl, h1⟩

theorem gfrom_last {b : Bool} {a : Nat} {s : Str} {v : Nat} (h : GFrom b a s v) : ∀ c, s.getLast? = some c → ∃ d, DigitOf c d := by
  induction h with
  | nil => intro c hc; cases hc
  | @cons b a c d s v h1 h2 ih =>
    intro x hx
    cases s with
    | nil => simp only [List.getLast?_singleton, Option.some.injEq] at hx; subst hx; exact ⟨_, h1⟩
    | cons e s => rw [List.getLast?_cons_cons] at hx; exact ih x hx
  | @under a c d s v h1 h2 ih =>
    intro x hx
    rw [List.getLast?_cons_cons] at hx
    cases s with
    | nil => simp only [List.getLast?_singleton, Option.some.injEq] at hx; subst hx; exact ⟨_, h1⟩
    | cons e s => rw [List.getLast?_cons_cons] at hx; exact ih x hx

/-- The part of `int()` after stripping. -/
def intBody (t : Str) : Option Int :=
  match t with
  | '+' :: cs => (digitsAux false 0 cs).map Int.ofNat
  | '-' :: cs => (digitsAux false 0 cs).map (fun n => -(n : Int))
  | cs => (digitsAux false 0 cs).map Int.ofNat

theorem intBody_iff (t : Str) (i : Int) : intBody t = some i ↔
    ∃ sign body neg v, t = sign ++ body ∧ Sign sign neg ∧ Grouped body v ∧ i = if neg then -(v : Int) else v := by
  constructor
  · intro h
    unfold intBody at h
    split at h
    · rename_i cs
      obtain ⟨v, hv, rfl⟩ := Option.map_eq_some_iff.1 h
      exact ⟨['+'], cs, false, v, rfl, .plus, grouped_gfrom.2 ((digitsAux_iff _ _ _ _).1 hv), rfl⟩
    · rename_i cs
      obtain ⟨z, hz, rfl⟩ := Option.map_eq_some_iff.1 h
      obtain ⟨v, hv, rfl⟩ : ∃ v, digitsAux false 0 cs = some v ∧ z = v := by
        cases hd : digitsAux false 0 cs with
        | none => rw [hd] at hz; cases hz
        | some v => rw [hd] at hz; cases hz; exact ⟨v, rfl, rfl⟩
      exact ⟨['-'], cs, true, v, rfl, .minus, grouped_gfrom.2 ((digitsAux_iff _ _ _ _).1 hv), rfl⟩
    · obtain ⟨v, hv, rfl⟩ := Option.map_eq_some_iff.1 h
      exact ⟨[], t, false, v, rfl, .none, grouped_gfrom.2 ((digitsAux_iff _ _ _ _).1 hv), rfl⟩
  · rintro ⟨sign, body, neg, v, rfl, hs, hg, rfl⟩
    have hb := (digitsAux_iff _ _ _ _).2 (grouped_gfrom.1 hg)
    obtain ⟨c, d, r, rfl, hd⟩ := gfrom_ne (grouped_gfrom.1 hg)
    have hf := digit_facts hd
    cases hs with
    | plus => simp [intBody, hb]
    | minus => simp [intBody, hb]
    | none =>
      unfold intBody
      split
      · rename_i heq; simp only [List.nil_append, List.cons.injEq] at heq; exact absurd heq.1 hf.2.2.1
      · rename_i heq; simp only [List.nil_append, List.cons.injEq] at heq; exact absurd heq.1 hf.2.2.2.1
      · simp only [List.nil_append, hb]; rfl

/-- `int(s)` succeeds exactly on the texts of whole numbers, and gives the number. -/
theorem int?_iff (s : Str) (i : Int) : int? s = some i ↔ IntText s i := by
  have he : int? s = intBody (strip isIntSpace s) := rfl
  rw [he]
  constructor
  · intro h
    obtain ⟨sign, body, neg, v, h1, h2, h3, h4⟩ := (intBody_iff _ _).1 h
    obtain ⟨before, after, e1, e2, e3⟩ := strip_spec isIntSpace s
    refine ⟨before, sign, body, after, neg, v, ?_, e2, e3, h2, h3, h4⟩
    rw [h1, List.append_assoc] at e1
    exact e1
  · rintro ⟨before, sign, body, after, neg, v, rfl, e2, e3, h2, h3, h4⟩
    rw [intBody_iff]
    refine ⟨sign, body, neg, v, ?_, h2, h3, h4⟩
    obtain ⟨c, d, r, hr, hd⟩ := gfrom_ne (grouped_gfrom.1 h3)
    rw [← List.append_assoc sign]
    refine strip_of e2 e3 ?_ ?_
    · have hsp := intSpace_space (digit_facts hd).1
      subst hr
      cases h2 <;> simp [hsp] <;> decide
    · have : (sign ++ body).getLast? = body.getLast? := by
        rw [List.getLast?_append, hr]
        simp [List.getLast?_cons]
      rw [this]
      cases hl : body.getLast? with
      | none => rfl
      | some x =>
        obtain ⟨d', hd'⟩ := gfrom_last (grouped_gfrom.1 h3) x hl
        simp [intSpace_space (digit_facts hd').1]

/-! ### `Decimal()` -/

theorem expPart_iff (t : Str) (e : Int) : expPart t = some e ↔ Exponent t e := by
  cases t with
  | nil =>
    simp only [expPart, Option.some.injEq]
    exact ⟨fun h => by subst h; exact .none, fun h => by cases h; rfl⟩
  | cons c cs =>
    by_cases hc : c = 'e' ∨ c = 'E'
    · simp only [expPart, hc, if_true]
      have key : ∀ (neg : Bool) (ds : Str) (e : Int), (if (takeDigits 0 0 ds).2.1 = 0 ∨ (takeDigits 0 0 ds).2.2 ≠ [] then none else
          some (if neg then -((takeDigits 0 0 ds).1 : Int) else ((takeDigits 0 0 ds).1 : Int))) = some e ↔
          ∃ v, DigitsOf ds v ∧ ds ≠ [] ∧ e = if neg then -(v : Int) else v := by
        intro neg ds e
        obtain ⟨xs, rest, v, h1, h2, h3, h4⟩ := takeDigits_spec ds 0 0
        rw [h3]
        simp only [Nat.zero_add]
        constructor
        · intro h
          split at h
          · cases h
          · rename_i hn
            have hr : rest = [] := Classical.byContradiction fun hh => hn (.inr hh)
            have hx : xs ≠ [] := fun hh => hn (.inl (by rw [hh]; rfl))
            subst hr
            rw [List.append_nil] at h1
            subst h1
            exact ⟨v, digits_from.2 h2, hx, (Option.some.inj h).symm⟩
        · rintro ⟨w, hw, hne, rfl⟩
          have := takeDigits_from (digits_from.1 hw) 0 [] (by simp)
          rw [List.append_nil, h3] at this
          simp only [Prod.mk.injEq, Nat.zero_add] at this
          obtain ⟨rfl, hl, rfl⟩ := this
          rw [if_neg]
          rw [hl]
          simp [hne]
      have hex : Exponent (c :: cs) e ↔ ∃ sign ds neg, cs = sign ++ ds ∧ Sign sign neg ∧ ∃ v, DigitsOf ds v ∧ ds ≠ [] ∧ e = if neg then -(v : Int) else v := by
        constructor
        · intro h
          generalize hx : c :: cs = x at h
          cases h with
          | none => cases hx
          | some h1 h2 h3 h4 =>
            simp only [List.cons.injEq] at hx
            exact ⟨_, _, _, hx.2, h2, _, h3, h4, rfl⟩
        · rintro ⟨sign, ds, neg, rfl, h2, v, h3, h4, rfl⟩
          exact .some hc h2 h3 h4
      rw [hex]
      split
      · rename_i r
        refine (key false r e).trans ?_
        constructor
        · rintro ⟨v, hv⟩; exact ⟨['+'], r, false, rfl, .plus, v, hv⟩
        · rintro ⟨sign, ds, neg, h1, h2, v, h3, h4, h5⟩
          cases h2 with
          | plus => simp only [List.cons_append, List.nil_append, List.cons.injEq, true_and] at h1; subst h1; exact ⟨v, h3, h4, h5⟩
          | minus => simp at h1
          | none =>
            simp only [List.nil_append] at h1
            subst h1
            obtain ⟨d, hd⟩ := from_facts (digits_from.1 h3) '+' (by simp)
            exact absurd rfl (digit_facts hd).2.2.1
      · rename_i r
        refine (key true r e).trans ?_
        constructor
        · rintro ⟨v, hv⟩; exact ⟨['-'], r, true, rfl, .minus, v, hv⟩
        · rintro ⟨sign, ds, neg, h1, h2, v, h3, h4, h5⟩
          cases h2 with
          | minus => simp only [List.cons_append, List.nil_append, List.cons.injEq, true_and] at h1; subst h1; exact ⟨v, h3, h4, h5⟩
          | plus => simp at h1
          | none =>
            simp only [List.nil_append] at h1
            subst h1
            obtain ⟨d, hd⟩ := from_facts (digits_from.1 h3) '-' (by simp)
            exact absurd rfl (digit_facts hd).2.2.2.1
      · rename_i hp hm
        refine (key false cs e).trans ?_
        constructor
        · rintro ⟨v, hv⟩; exact ⟨[], cs, false, rfl, .none, v, hv⟩
        · rintro ⟨sign, ds, neg, h1, h2, v, h3, h4, h5⟩
          cases h2 with
          | none => simp only [List.nil_append] at h1; subst h1; exact ⟨v, h3, h4, h5⟩
          | plus => exact absurd h1 (hp _)
          | minus => exact absurd h1 (hm _)
    · simp only [expPart, hc, if_false, reduceCtorEq, false_iff]
      intro h
      generalize hx : c :: cs = x at h
      cases h with
      | none => cases hx
      | some h1 _ _ _ => simp only [List.cons.injEq] at hx; rw [← hx.1] at h1; exact hc h1

/-! ### Words -/

def Small (w : Str) : Prop := ∀ c ∈ w, 97 ≤ c.toNat ∧ c.toNat ≤ 122 ∧ c ≠ 'k'

theorem ofNat_small {n : Nat} (h : n < 0xd800) : (Char.ofNat n).toNat = n := by
  unfold Char.ofNat
  rw [dif_pos (Or.inl h)]
  rfl

theorem char_eq {c d : Char} (h : c.toNat = d.toNat) : c = d := Char.ext (UInt32.toNat.inj h)

theorem lowerChar_letter {c l : Char} (hl : 97 ≤ l.toNat ∧ l.toNat ≤ 122 ∧ l ≠ 'k') (h : SameLetter c l) : lowerChar c = [l] := by
  unfold lowerChar
  rcases h with rfl | ⟨h1, h2, h3⟩
  · rw [if_neg (by simp; omega), if_neg (by simp; omega), if_neg (by simp; omega)]
  · rw [if_pos (by simp; omega)]
    congr 1
    refine char_eq ?_
    rw [ofNat_small (by omega), h3]

theorem letter_lowerChar {c : Char} {x w : Str} (hw : Small w) : ∀ {rest : Str}, w ≠ [] → (∀ c ∈ rest, c.toNat ≠ 0x307) → lowerChar c ++ x = w ++ rest →
    ∃ l w', w = l :: w' ∧ SameLetter c l ∧ x = w' ++ rest := by
  intro rest hne hrest h
  cases w with
  | nil => exact absurd rfl hne
  | cons l w =>
    have hl := hw l (by simp)
    unfold lowerChar at h
    split at h
    · rename_i hc
      simp only [Bool.and_eq_true, decide_eq_true_eq] at hc
      simp only [List.cons_append, List.nil_append, List.cons.injEq] at h
      refine ⟨l, w, rfl, .inr ⟨hc.1, hc.2, ?_⟩, h.2⟩
      rw [← h.1, ofNat_small (by omega)]
    · split at h
      · simp only [List.cons_append, List.nil_append, List.cons.injEq] at h
        cases w with
        | nil =>
          exfalso
          simp only [List.nil_append] at h
          have := hrest (Char.ofNat 0x307) (by rw [← h.2]; simp)
          exact this (by decide)
        | cons l' w =>
          exfalso
          simp only [List.cons_append, List.cons.injEq] at h
          have := hw l' (by simp)
          rw [← h.2.1] at this
          exact absurd this.2.1 (by decide)
      · split at h
        · simp only [List.cons_append, List.nil_append, List.cons.injEq] at h
          exact absurd h.1.symm hl.2.2
        · simp only [List.cons_append, List.nil_append, List.cons.injEq] at h
          exact ⟨l, w, rfl, .inl h.1, h.2⟩

theorem spelled_of_lower : ∀ (t w rest : Str), Small w → (∀ c ∈ rest, c.toNat ≠ 0x307) → lower t = w ++ rest → ∃ a b, t = a ++ b ∧ Spelled a w ∧ lower b = rest
  | t, [], rest, _, _, h => ⟨[], t, rfl, .nil, h⟩
  | [], l :: w, rest, _, _, h => by cases h
  | c :: t, l :: w, rest, hw, hr, h => by
    have h' : lowerChar c ++ lower t = (l :: w) ++ rest := h
    obtain ⟨l', w', e, hl, hx⟩ := letter_lowerChar hw (by simp) hr h'
    cases e
    obtain ⟨a, b, rfl, h2, h3⟩ := spelled_of_lower t w rest (fun c hc => hw c (by simp [hc])) hr hx
    exact ⟨c :: a, b, rfl, .cons hl h2, h3⟩

theorem lower_append (a b : Str) : lower (a ++ b) = lower a ++ lower b := by simp [lower]

theorem lower_of_spelled {t w : Str} (hw : Small w) (h : Spelled t w) : lower t = w := by
  unfold Spelled at h
  induction h with
  | nil => rfl
  | @cons c l t w h1 _ ih =>
    have : lower (c :: t) = lowerChar c ++ lower t := rfl
    rw [this, lowerChar_letter (hw l (by simp)) h1, ih (fun c hc => hw c (by simp [hc]))]
    rfl

theorem lower_iff_spelled {t w : Str} (hw : Small w) : lower t = w ↔ Spelled t w := by
  constructor
  · intro h
    obtain ⟨a, b, rfl, h2, h3⟩ := spelled_of_lower t w [] hw (by simp) (by simpa using h)
    have hb : b = [] := by
      cases b with
      | nil => rfl
      | cons c b =>
        have h3' : lowerChar c ++ lower b = [] := h3
        rw [List.append_eq_nil_iff] at h3'
        unfold lowerChar at h3'
        split at h3'
        · cases h3'.1
        · split at h3'
          · cases h3'.1
          · split at h3' <;> cases h3'.1
    rw [hb, List.append_nil]; exact h2
  · exact lower_of_spelled hw

theorem digit_range {c : Char} {d : Nat} (h : DigitOf c d) : (48 ≤ c.toNat ∧ c.toNat ≤ 57) ∨ (0x660 ≤ c.toNat ∧ c.toNat ≠ 0x212a) := by
  obtain ⟨hd, z, hz, e⟩ := h
  rcases hz with rfl | hz
  · left; omega
  · right
    have : ∀ z ∈ unicodeZeros, 0x660 ≤ z ∧ (z + 9 < 0x212a ∨ 0x212a < z) := by decide +kernel
    have := this z hz
    omega

theorem lowerChar_digit {c : Char} {d : Nat} (h : DigitOf c d) : lowerChar c = [c] := by
  have := digit_range h
  unfold lowerChar
  rw [if_neg (by simp; omega), if_neg (by simp; omega), if_neg (by simp; omega)]

theorem lower_digits : ∀ {s : Str}, (∀ c ∈ s, ∃ d, DigitOf c d) → lower s = s
  | [], _ => rfl
  | c :: s, h => by
    obtain ⟨d, hd⟩ := h c (by simp)
    have : lower (c :: s) = lowerChar c ++ lower s := rfl
    rw [this, lowerChar_digit hd, lower_digits (fun c hc => h c (by simp [hc]))]; rfl

theorem digits_lower : ∀ {s x : Str}, lower s = x → (∀ c ∈ x, ∃ d, DigitOf c d) → s = x
  | [], x, h, _ => h
  | c :: s, x, h, hx => by
    have h' : lowerChar c ++ lower s = x := h
    have hc : lowerChar c = [c] := by
      have hmem : ∀ y ∈ lowerChar c, ∃ d, DigitOf y d := fun y hy => hx y (by rw [← h']; simp [hy])
      unfold lowerChar at hmem ⊢
      split
      · rename_i h1
        rw [if_pos h1] at hmem
        obtain ⟨d, hd⟩ := hmem _ (List.mem_singleton.2 rfl)
        have := digit_range hd
        simp only [Bool.and_eq_true, decide_eq_true_eq] at h1
        rw [ofNat_small (by omega)] at this
        omega
      · rename_i h1
        rw [if_neg h1] at hmem
        split
        · rename_i h2
          rw [if_pos h2] at hmem
          obtain ⟨d, hd⟩ := hmem 'i' (by simp)
          have := digit_range hd
          simp at this
        · rename_i h2
          rw [if_neg h2] at hmem
          split
          · rename_i h3
            rw [if_pos h3] at hmem
            obtain ⟨d, hd⟩ := hmem 'k' (by simp)
            have := digit_range hd
            simp at this
          · rfl
    rw [hc] at h'
    have := digits_lower (s := s) (x := lower s) rfl (fun y hy => hx y (by rw [← h']; simp [hy]))
    rw [← this] at h'
    exact h'

theorem small_lit : Small s%"inf" ∧ Small s%"infinity" ∧ Small s%"nan" ∧ Small s%"snan" ∧ Small s%"true" ∧ Small s%"false" := by
  unfold Small; decide

theorem digits_iff_take (ds : Str) (p : Nat) : ((takeDigits 0 0 ds).2.2 = [] ∧ (takeDigits 0 0 ds).1 = p) ↔ DigitsOf ds p := by
  constructor
  · rintro ⟨h1, h2⟩
    obtain ⟨xs, rest, v, e1, e2, e3, _⟩ := takeDigits_spec ds 0 0
    rw [e3] at h1 h2
    simp only at h1 h2
    subst h1 h2
    rw [List.append_nil] at e1
    subst e1
    exact digits_from.2 e2
  · intro h
    have := takeDigits_from (digits_from.1 h) 0 [] (by simp)
    rw [List.append_nil] at this
    rw [this]; exact ⟨rfl, rfl⟩

/-- The words for what is not a finite number. -/
inductive Special (neg : Bool) : Str → Dec → Prop
  | inf {t} : Spelled t s%"inf" ∨ Spelled t s%"infinity" → Special neg t (.inf neg)
  | nan {t ds p} : Spelled t s%"nan" → DigitsOf ds p → Special neg (t ++ ds) (.nan neg false p)
  | snan {t ds p} : Spelled t s%"snan" → DigitsOf ds p → Special neg (t ++ ds) (.nan neg true p)

theorem nanPart_iff (neg sig : Bool) (r : Str) (d : Dec) :
    (match r with
      | 'n' :: 'a' :: 'n' :: ds =>
        let (v, _, rest) := takeDigits 0 0 ds
        if rest = [] then some (Dec.nan neg sig v) else none
      | _ => none) = some d ↔ ∃ ds p, r = s%"nan" ++ ds ∧ DigitsOf ds p ∧ d = .nan neg sig p := by
  constructor
  · intro h
    split at h
    · rename_i ds
      simp only at h
      split at h
      · rename_i hr
        exact ⟨ds, _, rfl, (digits_iff_take ds _).1 ⟨hr, rfl⟩, (Option.some.inj h).symm⟩
      · cases h
    · cases h
  · rintro ⟨ds, p, rfl, hd, rfl⟩
    have := (digits_iff_take ds p).2 hd
    simp [this.1, this.2]

theorem specialDec_iff (neg : Bool) (s : Str) (d : Dec) : specialDec neg (lower s) = some d ↔ Special neg s d := by
  have hsm := small_lit
  have hdig : ∀ {ds : Str} {p : Nat}, DigitsOf ds p → ∀ c ∈ ds, ∃ d, DigitOf c d := fun h => from_facts (digits_from.1 h)
  have h307 : ∀ {ds : Str} {p : Nat}, DigitsOf ds p → ∀ c ∈ ds, c.toNat ≠ 0x307 := by
    intro ds p h c hc
    obtain ⟨d, hd⟩ := hdig h c hc
    have := digit_range hd
    omega
  unfold specialDec
  by_cases hi : lower s = s%"inf" ∨ lower s = s%"infinity"
  · rw [if_pos hi]
    constructor
    · intro h
      rw [← Option.some.inj h]
      exact .inf (hi.imp (lower_iff_spelled hsm.1).1 (lower_iff_spelled hsm.2.1).1)
    · intro h
      cases h with
      | inf _ => rfl
      | nan h1 h2 =>
        rw [lower_append, lower_of_spelled hsm.2.2.1 h1] at hi
        rcases hi with h | h <;> cases h
      | snan h1 h2 =>
        rw [lower_append, lower_of_spelled hsm.2.2.2.1 h1] at hi
        rcases hi with h | h <;> cases h
  · rw [if_neg hi]
    have hsplit : ∀ (sig : Bool) (w : Str) (r : Str), (sig = true ∧ w = s%"snan" ∧ lower s = 's' :: r) ∨ (sig = false ∧ w = s%"nan" ∧ lower s = r ∧ ∀ x, r ≠ 's' :: x) →
        ((∃ ds p, r = s%"nan" ++ ds ∧ DigitsOf ds p ∧ d = .nan neg sig p) ↔ Special neg s d) := by
      intro sig w r hcase
      constructor
      · rintro ⟨ds, p, rfl, hd, rfl⟩
        rcases hcase with ⟨rfl, rfl, hl⟩ | ⟨rfl, rfl, hl, _⟩
        · obtain ⟨a, b, rfl, ha, hb⟩ := spelled_of_lower s s%"snan" ds hsm.2.2.2.1 (h307 hd) hl
          rw [digits_lower hb (hdig hd)]
          exact .snan ha hd
        · obtain ⟨a, b, rfl, ha, hb⟩ := spelled_of_lower s s%"nan" ds hsm.2.2.1 (h307 hd) hl
          rw [digits_lower hb (hdig hd)]
          exact .nan ha hd
      · intro h
        cases h with
        | inf h => exact absurd (h.imp (lower_iff_spelled hsm.1).2 (lower_iff_spelled hsm.2.1).2) hi
        | @nan t ds p h1 h2 =>
          have he : lower (t ++ ds) = s%"nan" ++ ds := by rw [lower_append, lower_of_spelled hsm.2.2.1 h1, lower_digits (hdig h2)]
          rcases hcase with ⟨rfl, rfl, hl⟩ | ⟨rfl, rfl, hl, _⟩
          · rw [he] at hl; cases hl
          · rw [he] at hl; exact ⟨ds, p, hl.symm, h2, rfl⟩
        | @snan t ds p h1 h2 =>
          have he : lower (t ++ ds) = s%"snan" ++ ds := by rw [lower_append, lower_of_spelled hsm.2.2.2.1 h1, lower_digits (hdig h2)]
          rcases hcase with ⟨rfl, rfl, hl⟩ | ⟨rfl, rfl, hl, hn⟩
          · rw [he] at hl
            simp only [List.cons_append, List.nil_append, List.cons.injEq, true_and] at hl
            exact ⟨ds, p, by rw [← hl]; rfl, h2, rfl⟩
          · rw [he] at hl; exact absurd hl.symm (hn _)
    cases hl : lower s with
    | nil =>
      have := hsplit false s%"nan" [] (.inr ⟨rfl, rfl, hl, by simp⟩)
      rw [← this, ← nanPart_iff]
    | cons c r =>
      by_cases hc : c = 's'
      · subst hc
        have := hsplit true s%"snan" r (.inl ⟨rfl, rfl, hl⟩)
        rw [← this, ← nanPart_iff]
        exact Iff.rfl
      · have := hsplit false s%"nan" (c :: r) (.inr ⟨rfl, rfl, hl, by simpa using hc⟩)
        rw [← this, ← nanPart_iff]
        split
        rename_i sig r' heq
        split at heq
        · rename_i h; simp only [List.cons.injEq] at h; exact absurd h.1 hc
        · cases heq; rfl

theorem spelled_head {t : Str} {l : Char} {w : Str} (h : Spelled t (l :: w)) (hl : 97 ≤ l.toNat ∧ l.toNat ≤ 122) : ∃ c r, t = c :: r ∧ digitVal c = none ∧ c ≠ '.' := by
  unfold Spelled at h
  cases h with
  | @cons c _ r _ h1 _ =>
    have hr : 65 ≤ c.toNat ∧ c.toNat ≤ 122 := by
      rcases h1 with rfl | h1 <;> omega
    refine ⟨c, r, rfl, ?_, ?_⟩
    · cases hd : digitVal c with
      | none => rfl
      | some d =>
        have := digit_range ((digitVal_iff c d).1 hd)
        omega
    · rintro rfl
      exact absurd hr.1 (by decide)

theorem special_head {neg : Bool} {s : Str} {d : Dec} (h : Special neg s d) : ∃ c r, s = c :: r ∧ digitVal c = none ∧ c ≠ '.' := by
  have key : ∀ {t ds w : Str} {l : Char}, Spelled t (l :: w) → (97 ≤ l.toNat ∧ l.toNat ≤ 122) → ∃ c r, t ++ ds = c :: r ∧ digitVal c = none ∧ c ≠ '.' := by
    intro t ds w l h1 h2
    obtain ⟨c, r, rfl, h⟩ := spelled_head h1 h2
    exact ⟨c, r ++ ds, rfl, h⟩
  cases h with
  | inf h => rcases h with h | h <;> exact spelled_head h (by decide)
  | nan h _ => exact key h (by decide)
  | snan h _ => exact key h (by decide)

theorem unsigned_cases {neg : Bool} {s : Str} {d : Dec} : Unsigned neg s d ↔ Special neg s d ∨
    (∃ ip ex c e, s = ip ++ ex ∧ DigitsOf ip c ∧ ip ≠ [] ∧ Exponent ex e ∧ d = .fin neg c e) ∨
    (∃ ip fp ex c e, s = ip ++ '.' :: (fp ++ ex) ∧ DigitsOf (ip ++ fp) c ∧ ip ++ fp ≠ [] ∧ Exponent ex e ∧ d = .fin neg c (e - fp.length)) := by
  constructor
  · intro h
    cases h with
    | whole h1 h2 h3 => exact .inr (.inl ⟨_, _, _, _, rfl, h1, h2, h3, rfl⟩)
    | point h1 h2 h3 => exact .inr (.inr ⟨_, _, _, _, _, rfl, h1, h2, h3, rfl⟩)
    | inf h => exact .inl (.inf h)
    | nan h1 h2 => exact .inl (.nan h1 h2)
    | snan h1 h2 => exact .inl (.snan h1 h2)
  · rintro (h | ⟨ip, ex, c, e, rfl, h1, h2, h3, rfl⟩ | ⟨ip, fp, ex, c, e, rfl, h1, h2, h3, rfl⟩)
    · cases h with
      | inf h => exact .inf h
      | nan h1 h2 => exact .nan h1 h2
      | snan h1 h2 => exact .snan h1 h2
    · exact .whole h1 h2 h3
    · exact .point h1 h2 h3

theorem exponent_head {ex : Str} {e : Int} (h : Exponent ex e) : ∀ c, ex.head? = some c → digitVal c = none ∧ c ≠ '.' := by
  intro c hc
  cases h with
  | none => cases hc
  | some h1 _ _ _ =>
    simp only [List.head?_cons, Option.some.injEq] at hc
    subst hc
    rcases h1 with rfl | rfl <;> decide +kernel

theorem digitVal_point : digitVal '.' = none := by decide +kernel

def pointPart (iv : Nat) (r : Str) : Nat × Nat × Str :=
  match r with
  | '.' :: r2 => takeDigits iv 0 r2
  | r2 => (iv, 0, r2)

theorem pointPart_other {iv : Nat} {r : Str} (h : ∀ r2, r ≠ '.' :: r2) : pointPart iv r = (iv, 0, r) := by
  unfold pointPart
  split
  · exact absurd rfl (h _)
  · rfl

theorem unsignedDec_eq {neg : Bool} {s r r' : Str} {iv ni fv nf : Nat} (h : takeDigits 0 0 s = (iv, ni, r)) (h' : pointPart iv r = (fv, nf, r')) :
    unsignedDec neg s = if ni + nf = 0 then specialDec neg (lower s) else
      match expPart r' with
      | some e => some (.fin neg fv (e - nf))
      | none => none := by
  have : unsignedDec neg s = if (takeDigits 0 0 s).2.1 + (pointPart (takeDigits 0 0 s).1 (takeDigits 0 0 s).2.2).2.1 = 0 then specialDec neg (lower s) else
      match expPart (pointPart (takeDigits 0 0 s).1 (takeDigits 0 0 s).2.2).2.2 with
      | some e => some (.fin neg (pointPart (takeDigits 0 0 s).1 (takeDigits 0 0 s).2.2).1 (e - (pointPart (takeDigits 0 0 s).1 (takeDigits 0 0 s).2.2).2.1))
      | none => none := rfl
  rw [this, h, h']

theorem unsignedDec_iff (neg : Bool) (s : Str) (d : Dec) : unsignedDec neg s = some d ↔ Unsigned neg s d := by
  rw [unsigned_cases]
  constructor
  · intro h
    obtain ⟨ip, r, iv, h1, h2, h3, h4⟩ := takeDigits_spec s 0 0
    rw [Nat.zero_add] at h3
    by_cases hp : ∃ r2, r = '.' :: r2
    · obtain ⟨r2, rfl⟩ := hp
      obtain ⟨fp, r', fv, f1, f2, f3, f4⟩ := takeDigits_spec r2 iv 0
      rw [Nat.zero_add] at f3
      rw [unsignedDec_eq h3 (show pointPart iv ('.' :: r2) = _ from f3)] at h
      split at h
      · exact .inl ((specialDec_iff neg s d).1 h)
      · rename_i hn
        split at h
        · rename_i e he
          refine .inr (.inr ⟨ip, fp, r', fv, e, by rw [h1, f1], digits_from.2 (from_append h2 f2), ?_, (expPart_iff r' e).1 he, (Option.some.inj h).symm⟩)
          intro hh
          rw [List.append_eq_nil_iff] at hh
          exact hn (by rw [hh.1, hh.2]; rfl)
        · cases h
    · rw [unsignedDec_eq h3 (pointPart_other (fun r2 hr => hp ⟨r2, hr⟩))] at h
      simp only [Nat.add_zero] at h
      split at h
      · exact .inl ((specialDec_iff neg s d).1 h)
      · rename_i hn
        split at h
        · rename_i e he
          refine .inr (.inl ⟨ip, r, iv, e, h1, digits_from.2 h2, ?_, (expPart_iff r e).1 he, ?_⟩)
          · rintro rfl; exact hn rfl
          · rw [← Option.some.inj h]; congr 1; omega
        · cases h
  · rintro (h | ⟨ip, ex, c, e, rfl, h1, h2, h3, rfl⟩ | ⟨ip, fp, ex, c, e, rfl, h1, h2, h3, rfl⟩)
    · obtain ⟨x, r, hs, hx, hd⟩ := special_head h
      have hsp := (specialDec_iff neg s d).2 h
      have ht : takeDigits 0 0 s = (0, 0, s) := by rw [hs]; simp [takeDigits, hx]
      rw [unsignedDec_eq ht (pointPart_other (by rw [hs]; simpa using hd)), if_pos rfl]
      exact hsp
    · have ht := takeDigits_from (digits_from.1 h1) 0 ex (fun c hc => (exponent_head h3 c hc).1)
      have hl : ip.length ≠ 0 := by simp [h2]
      rw [Nat.zero_add] at ht
      rw [unsignedDec_eq ht (pointPart_other (by rintro r2 rfl; exact (exponent_head h3 '.' rfl).2 rfl)), if_neg (by omega), (expPart_iff ex e).2 h3]
      simp
    · obtain ⟨v, f1, f2⟩ := from_split (digits_from.1 h1)
      have ht := takeDigits_from f1 0 ('.' :: (fp ++ ex)) (by intro c hc; cases hc; exact digitVal_point)
      have ht' := takeDigits_from f2 0 ex (fun c hc => (exponent_head h3 c hc).1)
      have hl : ¬ (ip.length + fp.length = 0) := by
        intro h; apply h2; rw [List.append_eq_nil_iff]
        exact ⟨List.length_eq_zero_iff.1 (by omega), List.length_eq_zero_iff.1 (by omega)⟩
      rw [Nat.zero_add] at ht ht'
      rw [unsignedDec_eq ht (show pointPart v ('.' :: (fp ++ ex)) = _ from ht'), if_neg hl, (expPart_iff ex e).2 h3]

theorem spelled_facts {t : Str} {w : Str} (h : Spelled t w) (hw : Small w) : ∀ c ∈ t, isSpace c = false ∧ c ≠ '_' ∧ c ≠ '+' ∧ c ≠ '-' := by
  unfold Spelled at h
  induction h with
  | nil => simp
  | @cons x l t w h1 _ ih =>
    intro c hc
    rcases List.mem_cons.1 hc with rfl | hc
    · have hl := hw l (by simp)
      have hr : 65 ≤ c.toNat ∧ c.toNat ≤ 122 ∧ c ≠ '_' := by
        rcases h1 with rfl | h1
        · exact ⟨by omega, by omega, by rintro rfl; exact absurd hl.1 (by decide)⟩
        · exact ⟨by omega, by omega, by rintro rfl; exact absurd h1.2.1 (by decide)⟩
      refine ⟨?_, hr.2.2, ?_, ?_⟩
      · unfold isSpace isIntSpace
        simp only [Bool.or_eq_false_iff, Bool.and_eq_false_iff, decide_eq_false_iff_not, beq_eq_false_iff_ne]
        omega
      · rintro rfl; exact absurd hr.1 (by decide)
      · rintro rfl; exact absurd hr.1 (by decide)
    · exact ih (fun c hc => hw c (by simp [hc])) c hc

/-- The characters of a number. -/
theorem unsigned_chars {neg : Bool} {s : Str} {d : Dec} (h : Unsigned neg s d) : s ≠ [] ∧ (∀ c ∈ s, isSpace c = false) ∧ s.head? ≠ some '+' ∧ s.head? ≠ some '-' := by
  have hdig : ∀ {ds : Str} {p : Nat}, DigitsOf ds p → ∀ c ∈ ds, isSpace c = false ∧ c ≠ '+' ∧ c ≠ '-' := by
    intro ds p h c hc
    obtain ⟨d, hd⟩ := from_facts (digits_from.1 h) c hc
    have := digit_facts hd
    exact ⟨this.1, this.2.2.1, this.2.2.2.1⟩
  have hexp : ∀ {ex : Str} {e : Int}, Exponent ex e → ∀ c ∈ ex, isSpace c = false := by
    intro ex e h c hc
    cases h with
    | none => cases hc
    | some h1 h2 h3 _ =>
      rcases List.mem_cons.1 hc with rfl | hc
      · rcases h1 with rfl | rfl <;> decide +kernel
      · rcases List.mem_append.1 hc with hc | hc
        · cases h2 with
          | none => cases hc
          | plus => simp only [List.mem_singleton] at hc; subst hc; decide +kernel
          | minus => simp only [List.mem_singleton] at hc; subst hc; decide +kernel
        · exact (hdig h3 c hc).1
  have hword : ∀ {t w ds : Str} {p : Nat}, Spelled t w → Small w → w ≠ [] → DigitsOf ds p →
      t ++ ds ≠ [] ∧ (∀ c ∈ t ++ ds, isSpace c = false) ∧ (t ++ ds).head? ≠ some '+' ∧ (t ++ ds).head? ≠ some '-' := by
    intro t w ds p h1 h2 h3 h4
    have hf := spelled_facts h1 h2
    cases t with
    | nil => unfold Spelled at h1; cases h1; exact absurd rfl h3
    | cons x t =>
      refine ⟨by simp, ?_, ?_, ?_⟩
      · intro c hc
        rcases List.mem_append.1 hc with hc | hc
        · exact (hf c hc).1
        · exact (hdig h4 c hc).1
      · simpa using (hf x (by simp)).2.2.1
      · simpa using (hf x (by simp)).2.2.2
  cases h with
  | @whole ip ex c e h1 h2 h3 =>
    cases ip with
    | nil => exact absurd rfl h2
    | cons x r =>
      refine ⟨by simp, ?_, ?_, ?_⟩
      · intro c hc
        rcases List.mem_append.1 hc with hc | hc
        · exact (hdig h1 c hc).1
        · exact hexp h3 c hc
      · simpa using (hdig h1 x (by simp)).2.1
      · simpa using (hdig h1 x (by simp)).2.2
  | @point ip fp ex c e h1 h2 h3 =>
    refine ⟨by simp, ?_, ?_, ?_⟩
    · intro c hc
      rcases List.mem_append.1 hc with hc | hc
      · exact (hdig h1 c (by simp [hc])).1
      · rcases List.mem_cons.1 hc with rfl | hc
        · decide +kernel
        · rcases List.mem_append.1 hc with hc | hc
          · exact (hdig h1 c (by simp [hc])).1
          · exact hexp h3 c hc
    · cases ip with
      | nil => simp
      | cons x r => simpa using (hdig h1 x (by simp)).2.1
    · cases ip with
      | nil => simp
      | cons x r => simpa using (hdig h1 x (by simp)).2.2
  | inf h =>
    rcases h with h | h
    · have := hword h small_lit.1 (by simp) .nil; rwa [List.append_nil] at this
    · have := hword h small_lit.2.1 (by simp) .nil; rwa [List.append_nil] at this
  | nan h1 h2 => exact hword h1 small_lit.2.2.1 (by simp) h2
  | snan h1 h2 => exact hword h1 small_lit.2.2.2.1 (by simp) h2

def decBody (t : Str) : Option Dec :=
  match t with
  | '+' :: cs => unsignedDec false cs
  | '-' :: cs => unsignedDec true cs
  | cs => unsignedDec false cs

theorem decBody_iff (t : Str) (d : Dec) : decBody t = some d ↔ ∃ sign neg u, t = sign ++ u ∧ Sign sign neg ∧ Unsigned neg u d := by
  constructor
  · intro h
    unfold decBody at h
    split at h
    · exact ⟨['+'], false, _, rfl, .plus, (unsignedDec_iff _ _ _).1 h⟩
    · exact ⟨['-'], true, _, rfl, .minus, (unsignedDec_iff _ _ _).1 h⟩
    · exact ⟨[], false, _, rfl, .none, (unsignedDec_iff _ _ _).1 h⟩
  · rintro ⟨sign, neg, u, rfl, hs, hu⟩
    have hu' := (unsignedDec_iff _ _ _).2 hu
    have hc := unsigned_chars hu
    cases hs with
    | plus => simpa [decBody] using hu'
    | minus => simpa [decBody] using hu'
    | none =>
      unfold decBody
      rw [List.nil_append]
      split
      · exact absurd rfl hc.2.2.1
      · exact absurd rfl hc.2.2.2
      · exact hu'

/-- `Decimal(s)` succeeds exactly on the texts of numbers, and gives the number. -/
theorem dec?_iff (s : Str) (d : Dec) : dec? s = some d ↔ DecText s d := by
  have he : dec? s = decBody ((strip isSpace s).filter (· ≠ '_')) := rfl
  rw [he, decBody_iff]
  constructor
  · rintro ⟨sign, neg, u, h1, h2, h3⟩
    obtain ⟨before, after, e1, e2, e3⟩ := strip_spec isSpace s
    exact ⟨before, _, after, sign, neg, u, e1, e2, e3, h1, h2, h3⟩
  · rintro ⟨before, body, after, sign, neg, u, rfl, e2, e3, h1, h2, h3⟩
    have hc := unsigned_chars h3
    have hns : ∀ c ∈ body, isSpace c = false := by
      intro c hc'
      by_cases hu : c = '_'
      · subst hu; decide +kernel
      · have : c ∈ body.filter (· ≠ '_') := by simp [hc', hu]
        rw [h1] at this
        rcases List.mem_append.1 this with h | h
        · cases h2 with
          | none => cases h
          | plus => simp only [List.mem_singleton] at h; subst h; decide +kernel
          | minus => simp only [List.mem_singleton] at h; subst h; decide +kernel
        · exact hc.2.1 c h
    rw [strip_of e2 e3]
    · exact ⟨sign, neg, u, h1, h2, h3⟩
    · cases body with
      | nil => rfl
      | cons x r => simp [hns x (by simp)]
    · cases hl : body.getLast? with
      | none => rfl
      | some x => simp [hns x (List.mem_of_getLast? hl)]

end Py
end Verif

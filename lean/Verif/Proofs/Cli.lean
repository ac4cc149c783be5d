import Verif.Spec.Cli
import Verif.Proofs.Dict
/-! Lemmas on the command line. -/
namespace Verif.Cli
open Verif.Spec Verif.Spec.CommandLine

/-- A flag is a dash and a letter, or begins with two dashes. -/
def okFlag : Str → Bool
  | ['-', a] => a ≠ '-' && a ≠ '='
  | '-' :: '-' :: a :: r => '=' ∉ a :: r
  | _ => false

def isLong (f : Str) : Bool := Py.startsWith s%"--" f

/-- What is used of the tables. -/
structure Table (c : Command) : Prop where
  flags : ∀ o ∈ c.options, ∀ f ∈ o.flags, okFlag f = true
  nodup : (c.options.flatMap (·.flags)).Nodup
  unique : ∀ o ∈ c.options, ∀ o' ∈ c.options, ∀ f ∈ o.flags, f ∈ o'.flags → o = o'
  dests : ∀ o ∈ c.options, ∀ o' ∈ c.options, o.dest = o'.dest → o = o'
  input : ∀ o ∈ c.options, o.dest ≠ s%"input_name"
  long : 2 ≤ ((c.options.flatMap (·.flags)).filter isLong).length
  sig : (c.signature.map (·.1)).Nodup
  nsdup : (((c.options.filter (fun o => o.action ≠ .help)).map (fun o => (o.dest, o.default))).map (·.1)).Nodup
  collects : ∀ o ∈ c.options, o.action = .collect → o.default = .none
  noRoll : ∀ o ∈ c.options, ∀ l, o.default ≠ .rollup l
  defaults : ∀ p ∈ c.signature,
    (match Dict.get ((c.options.filter (fun o => o.action ≠ .help)).map (fun o => (o.dest, o.default))) p.1 with
      | none => p.2
      | some .none => p.2
      | some v => v) = defaultOf c p.1 p.2

theorem noRoll_of (o : Opt) (h : (match o.default with | .rollup _ => false | _ => true) = true) (l : List (Option Str)) : o.default ≠ .rollup l := by
  intro e; rw [e] at h; exact absurd h (by simp)

theorem table (c : Command) (hc : c ∈ commands) : Table c := by
  have hnr : ∀ c ∈ commands, ∀ o ∈ c.options, (match o.default with | .rollup _ => false | _ => true) = true := by decide +kernel
  refine ⟨?_, ?_, ?_, ?_, ?_, ?_, ?_, ?_, ?_, fun o ho l => noRoll_of o (hnr c hc o ho) l, ?_⟩ <;> clear hnr <;> revert c <;> decide +kernel

theorem table_help (c : Command) (hc : c ∈ commands) : ∀ o ∈ c.options, o.required = true → o.action ≠ .help := by
  revert c; decide +kernel

/-! #### The words -/

theorem optionFor_some {os : List Opt} {w : Str} {o : Opt} (h : optionFor os w = some o) : o ∈ os ∧ w ∈ o.flags := by
  refine ⟨List.mem_of_find?_eq_some h, ?_⟩
  have := List.find?_some h
  simpa using this

theorem optionFor_flag {c : Command} (t : Table c) {w : Str} {o : Opt} (ho : o ∈ c.options) (hw : w ∈ o.flags) :
    optionFor c.options w = some o := by
  cases h : optionFor c.options w with
  | some o' =>
    obtain ⟨h1, h2⟩ := optionFor_some h
    rw [t.unique o ho o' h1 w hw h2]
  | none =>
    have := List.find?_eq_none.mp h o ho
    simp [hw] at this

theorem optionFor_none {c : Command} {w : Str} (h : ∀ o ∈ c.options, w ∉ o.flags) : optionFor c.options w = none := by
  cases h' : optionFor c.options w with
  | none => rfl
  | some o => exact absurd (optionFor_some h').2 (h o (optionFor_some h').1)

theorem splitEq_none {w : Str} (h : '=' ∉ w) : splitEq w = none := by
  induction w with
  | nil => rfl
  | cons a r ih =>
    simp only [List.mem_cons, not_or] at h
    simp [splitEq, Ne.symm h.1, ih h.2]

theorem splitEq_eq {w : Str} (v : Str) (h : '=' ∉ w) : splitEq (w ++ '=' :: v) = some (w, v) := by
  induction w with
  | nil => simp [splitEq]
  | cons a r ih =>
    simp only [List.mem_cons, not_or] at h
    simp [splitEq, Ne.symm h.1, ih h.2]

theorem splitEq_some {w a b : Str} (h : splitEq w = some (a, b)) : w = a ++ '=' :: b := by
  induction w generalizing a b with
  | nil => simp [splitEq] at h
  | cons x r ih =>
    simp only [splitEq] at h
    split at h
    · simp only [Option.some.injEq, Prod.mk.injEq] at h
      obtain ⟨rfl, rfl⟩ := h
      subst x
      rfl
    · cases hr : splitEq r with
      | none => simp [hr] at h
      | some q =>
        simp only [hr, Option.map_some, Option.some.injEq, Prod.mk.injEq] at h
        obtain ⟨rfl, rfl⟩ := h
        simp [ih (a := q.1) (b := q.2) hr]

/-- A list without repetitions with one element that satisfies `p`. -/
theorem filter_one {α : Type} {l : List α} {p : α → Bool} {x : α} (hn : l.Nodup) (hx : x ∈ l) (hp : p x = true)
    (h : ∀ y ∈ l, p y = true → y = x) : l.filter p = [x] := by
  induction l with
  | nil => simp at hx
  | cons a r ih =>
    rw [List.nodup_cons] at hn
    by_cases ha : p a = true
    · have := h a (by simp) ha
      subst this
      have : r.filter p = [] := by
        rw [List.filter_eq_nil_iff]
        intro y hy hpy
        exact hn.1 (h y (by simp [hy]) hpy ▸ hy)
      simp [ha, this]
    · have : x ∈ r := by
        rcases List.mem_cons.mp hx with rfl | h'
        · exact absurd hp ha
        · exact h'
      simp only [List.filter_cons, ha]
      exact ih hn.2 this (fun y hy => h y (by simp [hy]))

theorem tuples_one {os : List Opt} {p : Str → Bool} {o : Opt} {f : Str} {e : Option Str} (hn : (os.flatMap (·.flags)).Nodup)
    (ho : o ∈ os) (hf : f ∈ o.flags) (hp : p f = true) (h : ∀ o' ∈ os, ∀ f' ∈ o'.flags, p f' = true → f' = f) :
    os.flatMap (fun o => (o.flags.filter p).map (fun _ => (o, e))) = [(o, e)] := by
  induction os with
  | nil => simp at ho
  | cons a r ih =>
    simp only [List.flatMap_cons, List.nodup_append] at hn
    obtain ⟨h1, h2, h3⟩ := hn
    simp only [List.flatMap_cons]
    by_cases hfa : f ∈ a.flags
    · have hr : ∀ o' ∈ r, o'.flags.filter p = [] := by
        intro o' ho'
        rw [List.filter_eq_nil_iff]
        intro f' hf' hpf
        have := h o' (by simp [ho']) f' hf' hpf
        subst this
        exact h3 f' hfa f' (List.mem_flatMap.mpr ⟨o', ho', hf'⟩) rfl
      have hoa : o = a := by
        rcases List.mem_cons.mp ho with h' | h'
        · exact h'
        · exact absurd rfl (h3 f hfa f (List.mem_flatMap.mpr ⟨o, h', hf⟩))
      subst hoa
      rw [filter_one h1 hf hp (fun y hy hpy => h o (by simp) y hy hpy)]
      have : r.flatMap (fun o => (o.flags.filter p).map (fun _ => (o, e))) = [] := by
        rw [List.flatMap_eq_nil_iff]
        intro o' ho'
        rw [hr o' ho', List.map_nil]
      rw [this]; rfl
    · have hor : o ∈ r := by
        rcases List.mem_cons.mp ho with h' | h'
        · exact absurd (h' ▸ hf) hfa
        · exact h'
      have ha : a.flags.filter p = [] := by
        rw [List.filter_eq_nil_iff]
        intro f' hf' hpf
        exact hfa (h a (by simp) f' hf' hpf ▸ hf')
      rw [ha, ih h2 hor (fun o' ho' => h o' (by simp [ho']))]
      rfl

theorem okFlag_cases {f : Str} (h : okFlag f = true) :
    (∃ a, f = ['-', a] ∧ a ≠ '-' ∧ a ≠ '=') ∨ (∃ a r, f = '-' :: '-' :: a :: r ∧ '=' ∉ a :: r) := by
  unfold okFlag at h
  split at h
  · left; rename_i a; exact ⟨a, rfl, by simpa using h⟩
  · right; rename_i a r; exact ⟨a, r, rfl, by simpa using h⟩
  · simp at h

theorem okFlag_eq {f : Str} (h : okFlag f = true) : '=' ∉ f := by
  rcases okFlag_cases h with ⟨a, rfl, h1, h2⟩ | ⟨a, r, rfl, h1⟩
  · simp [Ne.symm h2]
  · simp only [List.mem_cons, not_or] at h1 ⊢
    exact ⟨by decide, by decide, h1⟩

theorem okFlag_dash {f : Str} (h : okFlag f = true) : ∃ r, f = '-' :: r ∧ r ≠ [] := by
  rcases okFlag_cases h with ⟨a, rfl, h1, h2⟩ | ⟨a, r, rfl, h1⟩
  · exact ⟨_, rfl, by simp⟩
  · exact ⟨_, rfl, by simp⟩

theorem names_eq {c : Command} (t : Table c) {w : Str} {o : Opt} (h : Names c w o) : '=' ∉ w := by
  obtain ⟨ho, h | h⟩ := h
  · exact okFlag_eq (t.flags o ho w h)
  · exact h.2.1

/-- The tuples of a word with two dashes. -/
theorem tuples_long {c : Command} (t : Table c) {w f : Str} {o : Opt} (e : Option Str) (ho : o ∈ c.options) (hf : f ∈ o.flags) (hwf : w <+: f)
    (hu : ∀ o' ∈ c.options, ∀ f' ∈ o'.flags, w <+: f' → f' = f) :
    c.options.flatMap (fun o => (o.flags.filter (Py.startsWith w)).map (fun _ => (o, e))) = [(o, e)] := by
  refine tuples_one t.nodup ho hf ?_ ?_
  · simpa [Py.startsWith] using hwf
  · intro o' ho' f' hf' hp
    exact hu o' ho' f' hf' (by simpa [Py.startsWith] using hp)

theorem classify_names {c : Command} (t : Table c) {w : Str} {o : Opt} (h : Names c w o) : classify c.options w = .opt o none := by
  have heq := names_eq t h
  obtain ⟨ho, h | ⟨hd, -, f, hf, hwf, hu⟩⟩ := h
  · obtain ⟨r, rfl, -⟩ := okFlag_dash (t.flags o ho w h)
    simp [classify, optionFor_flag t ho h]
  · obtain ⟨r, rfl⟩ := hd
    simp only [List.cons_append, List.nil_append] at *
    simp only [classify]
    cases hop : optionFor c.options ('-' :: '-' :: r) with
    | some o' =>
      obtain ⟨h1, h2⟩ := optionFor_some hop
      have := hu o' h1 _ h2 (List.prefix_refl _)
      rw [this] at h2
      simp [t.unique o ho o' h1 f hf h2]
    | none =>
      have ht : tuples c.options ('-' :: '-' :: r) = [(o, none)] := by
        have := tuples_long t (w := '-' :: '-' :: r) none ho hf hwf hu
        simpa [tuples, splitEq_none heq, Py.startsWith] using this
      rw [splitEq_none heq]
      simp [ht]

theorem classify_equals {c : Command} (t : Table c) {w : Str} {o : Opt} (v : Str) (h : Names c w o) :
    classify c.options (w ++ '=' :: v) = .opt o (some v) := by
  have heq := names_eq t h
  have hno : optionFor c.options (w ++ '=' :: v) = none :=
    optionFor_none (fun o' ho' hm => okFlag_eq (t.flags o' ho' _ hm) (by simp))
  obtain ⟨ho, h | ⟨hd, -, f, hf, hwf, hu⟩⟩ := h
  · obtain ⟨r, rfl, -⟩ := okFlag_dash (t.flags o ho w h)
    have hs := splitEq_eq v heq
    simp only [List.cons_append] at *
    simp [classify, hno, hs, optionFor_flag t ho h]
  · obtain ⟨r, rfl⟩ := hd
    have hs := splitEq_eq v heq
    simp only [List.cons_append, List.nil_append] at *
    simp only [classify, hno, hs]
    cases hop : optionFor c.options ('-' :: '-' :: r) with
    | some o' =>
      obtain ⟨h1, h2⟩ := optionFor_some hop
      have := hu o' h1 _ h2 (List.prefix_refl _)
      rw [this] at h2
      simp [hop, t.unique o ho o' h1 f hf h2]
    | none =>
      have ht : tuples c.options ('-' :: '-' :: (r ++ '=' :: v)) = [(o, some v)] := by
        have := tuples_long t (w := '-' :: '-' :: r) (some v) ho hf hwf hu
        simpa [tuples, hs, Py.startsWith] using this
      simp [hop, ht]

theorem not_two_dashes {c : Command} (t : Table c) {o : Opt} : ¬ (∃ f ∈ o.flags, o ∈ c.options ∧ ∀ o' ∈ c.options, ∀ f' ∈ o'.flags, s%"--" <+: f' → f' = f) := by
  rintro ⟨f, hf, ho, hu⟩
  have hn := t.nodup
  have hl := t.long
  have hn' := List.Nodup.sublist (List.filter_sublist (p := isLong)) hn
  have hall : ∀ x ∈ (c.options.flatMap (·.flags)).filter isLong, x = f := by
    intro x hx
    obtain ⟨hx1, hx2⟩ := List.mem_filter.mp hx
    obtain ⟨o', ho', hx'⟩ := List.mem_flatMap.mp hx1
    exact hu o' ho' x hx' (by simpa [isLong, Py.startsWith] using hx2)
  generalize (c.options.flatMap (·.flags)).filter isLong = l at hn' hall hl
  match l, hn', hall, hl with
  | a :: b :: l, hn', hall, _ =>
    have ha := hall a (by simp)
    have hb := hall b (by simp)
    simp [ha, hb] at hn'

theorem classify_joined {c : Command} (t : Table c) {w : Str} {o : Opt} {v : Str} (h : Names c w o) (hl : w.length = 2) (hv : v ≠ [])
    (he : v.head? ≠ some '=') : classify c.options (w ++ v) = .opt o (some v) := by
  obtain ⟨ho, h⟩ := h
  have h : w ∈ o.flags := by
    rcases h with h | ⟨hd, -, f, hf, hwf, hu⟩
    · exact h
    exfalso
    obtain ⟨r, rfl⟩ := hd
    have : r = [] := by simpa using hl
    subst this
    exact not_two_dashes t ⟨f, hf, ho, hu⟩
  · rcases okFlag_cases (t.flags o ho w h) with ⟨a, rfl, h1, h2⟩ | ⟨a, r, rfl, h1⟩
    · have hlong : ∀ x y : Str, y ≠ [] → ∀ o' ∈ c.options, ('-' :: a :: y) ∉ o'.flags := by
        intro _ y hy o' ho' hm
        rcases okFlag_cases (t.flags o' ho' _ hm) with ⟨b, hb, -, -⟩ | ⟨b, r, hb, -⟩
        · simp only [List.cons.injEq, true_and] at hb; exact hy hb.2
        · simp only [List.cons.injEq, true_and] at hb; exact h1 hb.1
      have hno : optionFor c.options ('-' :: a :: v) = none := optionFor_none (hlong [] v hv)
      have hs : (splitEq ('-' :: a :: v)).bind (fun p => (optionFor c.options p.1).map (fun o => (o, p.2))) = none := by
        cases hq : splitEq ('-' :: a :: v) with
        | none => rfl
        | some q =>
          have hq' := splitEq_some (a := q.1) (b := q.2) hq
          have : ∃ y, y ≠ [] ∧ q.1 = '-' :: a :: y := by
            match hq1 : q.1, hq' with
            | [], hq' => simp at hq'
            | [x], hq' => simp at hq'; exact absurd hq'.2.1 h2
            | [x, y], hq' =>
              simp only [List.cons_append, List.nil_append, List.cons.injEq] at hq'
              rw [hq'.2.2] at he; simp at he
            | x :: y :: z :: l, hq' =>
              simp only [List.cons_append, List.cons.injEq] at hq'
              exact ⟨z :: l, by simp, by rw [← hq'.1, ← hq'.2.1]⟩
          obtain ⟨y, hy, hq1⟩ := this
          simp [hq1, optionFor_none (hlong [] y hy)]
      have ht : tuples c.options ('-' :: a :: v) = [(o, some v)] := by
        have := tuples_one (e := some v) (p := fun f => decide (f = ['-', a])) t.nodup ho h (by simp) (fun o' _ f' _ hp => by simpa using hp)
        have hst : Py.startsWith s%"--" ('-' :: a :: v) = false := by simp [Py.startsWith, List.isPrefixOf, Ne.symm h1]
        simp only [tuples, hst]
        refine Eq.trans ?_ this
        simp only [Bool.false_eq_true, if_false, List.take, List.drop]
        refine congrArg (fun f => c.options.flatMap f) (funext fun o => ?_)
        refine congrArg (fun g => (o.flags.filter g).map _) (funext fun f => ?_)
        by_cases hq : f = ['-', a] <;> simp [hq]
      simp only [List.cons_append, List.nil_append, classify, hno, hs, ht]
      simp
    · simp at hl

theorem splitEq_takeWhile {w a b : Str} (h : splitEq w = some (a, b)) : w.takeWhile (fun x => decide (x ≠ '=')) = a := by
  induction w generalizing a b with
  | nil => simp [splitEq] at h
  | cons x r ih =>
    simp only [splitEq] at h
    split at h
    · simp only [Option.some.injEq, Prod.mk.injEq] at h
      simp [h.1, ‹x = '='›]
    · cases hr : splitEq r with
      | none => simp [hr] at h
      | some q =>
        simp only [hr, Option.map_some, Option.some.injEq, Prod.mk.injEq] at h
        rw [List.takeWhile_cons, if_pos (by simpa using ‹¬ x = '='›), ih (a := q.1) (b := q.2) hr]
        exact h.1

theorem splitEq_takeWhile_none {w : Str} (h : splitEq w = none) : w.takeWhile (fun x => decide (x ≠ '=')) = w := by
  induction w with
  | nil => rfl
  | cons x r ih =>
    simp only [splitEq] at h
    split at h
    · simp at h
    · rw [List.takeWhile_cons, if_pos (by simpa using ‹¬ x = '='›), ih (by simpa using h)]

theorem takeWhile_noEq (w : Str) : '=' ∉ w.takeWhile (fun x => decide (x ≠ '=')) := by
  intro h
  have := List.all_eq_true.mp (List.all_takeWhile (l := w) (p := fun x => decide (x ≠ '='))) _ h
  simp at this

/-- The part before `=` and the part after it. -/
def before (w : Str) : Str × Option Str := match splitEq w with | some (a, b) => (a, some b) | none => (w, none)

theorem before_fst (w : Str) : (before w).1 = w.takeWhile (fun x => decide (x ≠ '=')) := by
  unfold before
  cases h : splitEq w with
  | none => exact (splitEq_takeWhile_none h).symm
  | some q => exact (splitEq_takeWhile (a := q.1) (b := q.2) h).symm

theorem negNumber_iff (v : Str) : negNumber v = true ↔ NegativeNumber v := by
  have hdig : ∀ x : Char, (decide ('0' ≤ x) && decide (x ≤ '9')) = true ↔ IsDigit x := by
    intro x; rw [Bool.and_eq_true, decide_eq_true_eq, decide_eq_true_eq]; rfl
  have dot : ¬ (decide ('0' ≤ '.') && decide ('.' ≤ '9')) = true := by decide
  unfold negNumber
  split
  · rename_i r
    simp only
    have hs := List.takeWhile_append_dropWhile (p := fun c : Char => decide ('0' ≤ c) && decide (c ≤ '9')) (l := r)
    have ha : ∀ x ∈ r.takeWhile (fun c : Char => decide ('0' ≤ c) && decide (c ≤ '9')), IsDigit x := fun x hx =>
      (hdig x).mp (List.all_eq_true.mp (List.all_takeWhile (l := r)) x hx)
    constructor
    · intro h
      split at h
      · rename_i he
        rw [he, List.append_nil] at hs
        rw [hs] at ha
        exact ⟨r, [], ha, by simp, Or.inl ⟨rfl, by simpa using h⟩⟩
      · rename_i f he
        rw [Bool.and_eq_true, List.all_eq_true] at h
        refine ⟨_, f, ha, fun x hx => (hdig x).mp (h.2 x hx), Or.inr ⟨?_, by simpa using h.1⟩⟩
        rw [← he, List.cons_append, hs]
      · simp at h
    · rintro ⟨a, b, h1, h2, ⟨h3, h4⟩ | ⟨h3, h4⟩⟩
      · simp only [List.cons.injEq, true_and] at h3
        subst h3
        have : r.dropWhile (fun c : Char => decide ('0' ≤ c) && decide (c ≤ '9')) = [] := by
          have := List.dropWhile_append_of_pos (l₂ := []) (fun x hx => (hdig x).mpr (h1 x hx))
          simpa using this
        rw [this]; simpa using h4
      · simp only [List.cons_append, List.cons.injEq, true_and] at h3
        subst h3
        have : (a ++ '.' :: b).dropWhile (fun c : Char => decide ('0' ≤ c) && decide (c ≤ '9')) = '.' :: b := by
          rw [List.dropWhile_append_of_pos (fun x hx => (hdig x).mpr (h1 x hx))]
          exact List.dropWhile_cons_of_neg dot
        rw [this]
        simp only
        rw [Bool.and_eq_true, List.all_eq_true]
        exact ⟨by simpa using h4, fun x hx => (hdig x).mpr (h2 x hx)⟩
  · rename_i hn
    constructor
    · simp
    · rintro ⟨a, b, h1, h2, ⟨rfl, h4⟩ | ⟨rfl, h4⟩⟩ <;> exact absurd rfl (hn _)

/-- The options a word may be, with two dashes and with one. -/
theorem tuples_mem {c : Command} {w : Str} {o : Opt} {e : Option Str} (h : (o, e) ∈ tuples c.options w) :
    o ∈ c.options ∧ ((s%"--" <+: w ∧ e = (before w).2 ∧ ∃ f ∈ o.flags, (before w).1 <+: f) ∨
      (¬ s%"--" <+: w ∧ e = some (w.drop 2) ∧ w.take 2 ∈ o.flags)) := by
  unfold tuples at h
  split at h
  · rename_i hd
    simp only [List.mem_flatMap, List.mem_map, List.mem_filter, Prod.mk.injEq] at h
    obtain ⟨o', ho', f, ⟨hf, hp⟩, rfl, rfl⟩ := h
    have hp' : Py.startsWith (before w).1 f = true := hp
    exact ⟨ho', Or.inl ⟨by simpa [Py.startsWith] using hd, rfl, f, hf, by simpa [Py.startsWith] using hp'⟩⟩
  · rename_i hd
    simp only [List.mem_flatMap, List.mem_map, List.mem_filter, Prod.mk.injEq, decide_eq_true_eq] at h
    obtain ⟨o', ho', f, ⟨hf, hp⟩, rfl, rfl⟩ := h
    exact ⟨ho', Or.inr ⟨by simpa [Py.startsWith] using hd, rfl, hp ▸ hf⟩⟩

theorem mem_tuples {c : Command} {w : Str} {o : Opt} (ho : o ∈ c.options) :
    (∀ f ∈ o.flags, s%"--" <+: w → (before w).1 <+: f → (o, (before w).2) ∈ tuples c.options w) ∧
    (¬ s%"--" <+: w → w.take 2 ∈ o.flags → (o, some (w.drop 2)) ∈ tuples c.options w) := by
  constructor
  · intro f hf hd hp
    unfold tuples
    rw [if_pos (by simpa [Py.startsWith] using hd)]
    refine List.mem_flatMap.mpr ⟨o, ho, List.mem_map.mpr ⟨f, List.mem_filter.mpr ⟨hf, ?_⟩, rfl⟩⟩
    show Py.startsWith (before w).1 f = true
    simpa [Py.startsWith] using hp
  · intro hd hp
    unfold tuples
    rw [if_neg (by simpa [Py.startsWith] using hd)]
    exact List.mem_flatMap.mpr ⟨o, ho, List.mem_map.mpr ⟨_, List.mem_filter.mpr ⟨hp, by simp⟩, rfl⟩⟩

/-- Some option fits iff the word looks like one. -/
theorem tuples_nil_iff {c : Command} {w : Str} (hl : 2 ≤ w.length) : tuples c.options w = [] ↔ ¬ LooksLike c w := by
  constructor
  · rintro h ⟨o, ho, f, hf, ⟨h1, h2⟩ | ⟨h1, h2, h3⟩⟩
    · have := (mem_tuples (w := w) ho).1 f hf h1 (by rw [before_fst]; exact h2)
      rw [h] at this; simp at this
    · have : f = w.take 2 := by rw [← h2]; exact List.prefix_iff_eq_take.mp h3
      have := (mem_tuples (w := w) ho).2 h1 (this ▸ hf)
      rw [h] at this; simp at this
  · intro h
    cases ht : tuples c.options w with
    | nil => rfl
    | cons q r =>
      exfalso
      have hm : (q.1, q.2) ∈ tuples c.options w := by rw [ht]; simp
      obtain ⟨ho, ⟨h1, -, f, hf, hp⟩ | ⟨h1, -, hp⟩⟩ := tuples_mem hm
      · exact h ⟨q.1, ho, f, hf, Or.inl ⟨h1, by rw [← before_fst]; exact hp⟩⟩
      · exact h ⟨q.1, ho, _, hp, Or.inr ⟨h1, by simp; omega, List.take_prefix _ _⟩⟩

theorem looksLike_of_flag {c : Command} (t : Table c) {w : Str} {o : Opt} (ho : o ∈ c.options) {p : Str} (hf : p ∈ o.flags)
    (hw : w = p ∨ ∃ v, w = p ++ '=' :: v) : LooksLike c w := by
  have hok := t.flags o ho p hf
  refine ⟨o, ho, p, hf, ?_⟩
  have heq := okFlag_eq hok
  have htw : w.takeWhile (fun x => decide (x ≠ '=')) = p := by
    rcases hw with rfl | ⟨v, rfl⟩
    · exact splitEq_takeWhile_none (splitEq_none heq)
    · exact splitEq_takeWhile (splitEq_eq v heq)
  have hpw : p <+: w := by
    rcases hw with rfl | ⟨v, rfl⟩
    · exact List.prefix_refl _
    · exact List.prefix_append _ _
  by_cases hd : s%"--" <+: w
  · exact Or.inl ⟨hd, by rw [htw]; exact List.prefix_refl _⟩
  · rcases okFlag_cases hok with ⟨a, rfl, -, -⟩ | ⟨a, r, rfl, -⟩
    · exact Or.inr ⟨hd, rfl, hpw⟩
    · exact absurd (List.IsPrefix.trans ⟨a :: r, rfl⟩ hpw) hd

theorem split_flag {c : Command} {w : Str} {o : Opt} {v : Str}
    (h : (splitEq w).bind (fun p => (optionFor c.options p.1).map (fun o => (o, p.2))) = some (o, v)) :
    ∃ p, o ∈ c.options ∧ p ∈ o.flags ∧ w = p ++ '=' :: v := by
  cases hq : splitEq w with
  | none => simp [hq] at h
  | some q =>
    rw [hq, Option.bind_some] at h
    cases ho : optionFor c.options q.1 with
    | none => simp [ho] at h
    | some o' =>
      simp only [ho, Option.map_some, Option.some.injEq, Prod.mk.injEq] at h
      obtain ⟨rfl, rfl⟩ := h
      exact ⟨q.1, (optionFor_some ho).1, (optionFor_some ho).2, splitEq_some (a := q.1) (b := q.2) hq⟩

theorem classify_plain {c : Command} (t : Table c) {v : Str} (h : Plain c v) : classify c.options v = .arg := by
  match v, h with
  | [], _ => rfl
  | a :: r, h =>
    by_cases ha : a = '-'
    · subst ha
      rcases h with h | h | ⟨h1, h2⟩
      · simp at h
      · simp only [List.cons.injEq, true_and] at h
        subst h
        have : optionFor c.options ['-'] = none := optionFor_none (fun o ho hm => by
          obtain ⟨r, hr, hne⟩ := okFlag_dash (t.flags o ho _ hm)
          simp only [List.cons.injEq, true_and] at hr
          exact hne hr.symm)
        simp [classify, this]
      · have hr : r ≠ [] := by
          rintro rfl
          rcases h1 with ⟨x, y, -, -, ⟨h, hn⟩ | ⟨h, hn⟩⟩ | h1
          · simp only [List.cons.injEq, true_and] at h; exact hn h.symm
          · simp at h
          · simp at h1
        have hl : 2 ≤ ('-' :: r).length := by
          cases r with
          | nil => exact absurd rfl hr
          | cons _ _ => simp
        have hno : optionFor c.options ('-' :: r) = none := by
          cases ho : optionFor c.options ('-' :: r) with
          | none => rfl
          | some o => exact absurd (looksLike_of_flag t (optionFor_some ho).1 (optionFor_some ho).2 (Or.inl rfl)) h2
        have hs : (splitEq ('-' :: r)).bind (fun p => (optionFor c.options p.1).map (fun o => (o, p.2))) = none := by
          cases ho : (splitEq ('-' :: r)).bind (fun p => (optionFor c.options p.1).map (fun o => (o, p.2))) with
          | none => rfl
          | some q =>
            obtain ⟨p, h3, h4, h5⟩ := split_flag (o := q.1) (v := q.2) ho
            exact absurd (looksLike_of_flag t h3 h4 (Or.inr ⟨_, h5⟩)) h2
        simp only [classify, hno, hs, (tuples_nil_iff hl).mpr h2]
        rw [if_neg (by simp), if_neg hr]
        rcases h1 with h1 | h1
        · rw [if_pos ((negNumber_iff _).mpr h1)]
        · rw [if_pos h1]; simp
    · simp [classify, ha]

/-- What the classification of a word says. -/
inductive Reads (c : Command) (w : Str) : Word → Prop
  | arg : Plain c w → Reads c w .arg
  | exact (o) : Names c w o → Reads c w (.opt o none)
  | equals (o p v) : Names c p o → w = p ++ '=' :: v → Reads c w (.opt o (some v))
  | joined (o p v) : Names c p o → p.length = 2 → v ≠ [] → v.head? ≠ some '=' → w = p ++ v → Reads c w (.opt o (some v))
  | ambiguous : Reads c w .ambiguous
  | unknown : w.head? = some '-' → w ≠ s%"-" → ¬ NegativeNumber w → ' ' ∉ w → ¬ LooksLike c w → Reads c w .unknown

theorem tuples_unique {c : Command} {w : Str} {o : Opt} {e : Option Str} (hd : s%"--" <+: w) (h : tuples c.options w = [(o, e)]) :
    Names c (before w).1 o := by
  have hm : (o, e) ∈ tuples c.options w := by rw [h]; simp
  obtain ⟨ho, ⟨h1, -, f, hf, hp⟩ | ⟨h1, -, hp⟩⟩ := tuples_mem hm
  · have hdash : s%"--" <+: (before w).1 := by
      rw [before_fst]
      obtain ⟨r, rfl⟩ := hd
      exact ⟨r.takeWhile (fun x => decide (x ≠ '=')), by simp⟩
    refine ⟨ho, Or.inr ⟨hdash, by rw [before_fst]; exact takeWhile_noEq w, f, hf, hp, ?_⟩⟩
    -- two matches would give two tuples
    unfold tuples at h
    rw [if_pos (by simpa [Py.startsWith] using hd)] at h
    have hl : (c.options.flatMap (fun o => o.flags.filter (Py.startsWith (before w).1))).length = 1 := by
      have := congrArg List.length h
      simp only [List.length_flatMap, List.length_map, List.length_cons, List.length_nil] at this ⊢
      exact this
    obtain ⟨z, hz⟩ := List.length_eq_one_iff.mp hl
    have mem : ∀ o' ∈ c.options, ∀ f' ∈ o'.flags, (before w).1 <+: f' → f' = z := by
      intro o' ho' f' hf' hp'
      have : f' ∈ c.options.flatMap (fun o => o.flags.filter (Py.startsWith (before w).1)) :=
        List.mem_flatMap.mpr ⟨o', ho', List.mem_filter.mpr ⟨hf', by simpa [Py.startsWith] using hp'⟩⟩
      rw [hz] at this
      simpa using this
    intro o' ho' f' hf' hp'
    rw [mem o' ho' f' hf' hp', mem o ho f hf hp]
  · exact absurd hd h1

theorem reads {c : Command} (t : Table c) (w : Str) : Reads c w (classify c.options w) := by
  match w with
  | [] => exact .arg (Or.inl (by simp))
  | a :: r =>
    by_cases ha : a = '-'
    · subst ha
      simp only [classify, ne_eq, not_true_eq_false, if_false]
      cases ho : optionFor c.options ('-' :: r) with
      | some o => exact .exact o ⟨(optionFor_some ho).1, Or.inl (optionFor_some ho).2⟩
      | none =>
        simp only
        split
        · rename_i hr; subst hr; exact .arg (Or.inr (Or.inl rfl))
        · rename_i hr
          have hl : 2 ≤ ('-' :: r).length := by
            cases r with
            | nil => exact absurd rfl hr
            | cons _ _ => simp
          cases hs : (splitEq ('-' :: r)).bind (fun p => (optionFor c.options p.1).map (fun o => (o, p.2))) with
          | some q =>
            obtain ⟨p, h1, h2, h3⟩ := split_flag (o := q.1) (v := q.2) hs
            exact .equals q.1 p q.2 ⟨h1, Or.inl h2⟩ h3
          | none =>
            simp only
            cases ht : tuples c.options ('-' :: r) with
            | cons q l =>
              cases l with
              | cons _ _ => exact .ambiguous
              | nil =>
                obtain ⟨o, e⟩ := q
                simp only
                have hm : (o, e) ∈ tuples c.options ('-' :: r) := by rw [ht]; simp
                obtain ⟨hoc, ⟨h1, h2, -⟩ | ⟨h1, h2, hp⟩⟩ := tuples_mem hm
                · have hn := tuples_unique h1 ht
                  unfold before at hn h2
                  cases hq : splitEq ('-' :: r) with
                  | none =>
                    rw [hq] at hn h2
                    subst h2
                    exact .exact o hn
                  | some q =>
                    rw [hq] at hn h2
                    subst h2
                    exact .equals o q.1 q.2 hn (splitEq_some (a := q.1) (b := q.2) hq)
                · subst h2
                  have hsp := List.take_append_drop 2 ('-' :: r)
                  refine .joined o (('-' :: r).take 2) _ ⟨hoc, Or.inl hp⟩ (by simp at hl ⊢; omega) ?_ ?_ hsp.symm
                  · intro he
                    rw [he, List.append_nil] at hsp
                    rw [hsp] at hp
                    rw [optionFor_flag t hoc hp] at ho
                    simp at ho
                  · intro he
                    cases hd : ('-' :: r).drop 2 with
                    | nil => rw [hd] at he; simp at he
                    | cons x l =>
                      rw [hd] at he hsp
                      simp only [List.head?_cons, Option.some.injEq] at he
                      subst he
                      have := splitEq_eq l (okFlag_eq (t.flags o hoc _ hp))
                      rw [hsp] at this
                      rw [this, Option.bind_some, optionFor_flag t hoc hp] at hs
                      simp at hs
            | nil =>
              have hll := (tuples_nil_iff hl).mp ht
              simp only
              split
              · rename_i hn; exact .arg (Or.inr (Or.inr ⟨Or.inl ((negNumber_iff _).mp hn), hll⟩))
              · rename_i hn
                split
                · rename_i hsp; exact .arg (Or.inr (Or.inr ⟨Or.inr hsp, hll⟩))
                · rename_i hsp
                  exact .unknown rfl (by simpa using hr) (fun h => hn ((negNumber_iff _).mpr h)) hsp hll
    · have : classify c.options (a :: r) = .arg := by simp [classify, ha]
      rw [this]
      exact .arg (Or.inl (by simpa using ha))

/-! #### The state -/

/-- A value that is given again. -/
def upd (cur : CVal) : CVal → CVal
  | .rollup l => match cur with | .rollup k => .rollup (k ++ l) | _ => .rollup l
  | v => v

def PState.after (st : PState) (i : Item) : PState := st.put i.param (upd ((Dict.get st.ns i.param).getD .none) i.value)

theorem collected_eq (st : PState) (d : Str) (x : Option Str) : st.collected d x = upd ((Dict.get st.ns d).getD .none) (.rollup [x]) := by
  unfold PState.collected upd
  cases h : Dict.get st.ns d with
  | none => simp
  | some v => cases v <;> simp

theorem give_takes {st : PState} {o : Opt} {v : Str} (h : Takes o v) :
    st.give o v = .ok (st.put o.dest (upd ((Dict.get st.ns o.dest).getD .none) (textValue o v))) := by
  unfold Takes at h
  unfold PState.give textValue
  cases ha : o.action <;> simp only [ha] at h ⊢
  · simp [h, upd]
  · cases hi : Py.int? v with
    | none => simp [hi] at h
    | some i => simp [upd]
  · simp [collected_eq]
  · simp [upd]

theorem put_pending (st : PState) (q : Pending) (d : Str) (v : CVal) : ({ st with pending := q } : PState).put d v = st.put d v := rfl

theorem close_put (st : PState) (d : Str) (v : CVal) : (st.put d v).close = .ok (st.put d v) := rfl

theorem words_cons {c : Command} {w : Str} {r : List Str} {st st' : PState} (h : st.word c w = .ok st') :
    words c (w :: r) st = words c r st' := by simp [words, h]

/-- Texts after an option with any number of texts. -/
theorem words_gather {c : Command} (t : Table c) {o : Opt} {vs : List Str} (hv : ∀ v ∈ vs, Plain c v) (r : List Str) (st : PState) (l : List Str)
    (hst : st.pending = .gathers o l) : words c (vs ++ r) st = words c r { st with pending := .gathers o (l ++ vs) } := by
  induction vs generalizing st l with
  | nil => obtain ⟨ns, seen, p⟩ := st; simp only at hst; subst hst; simp
  | cons v vs ih =>
    rw [List.cons_append, words_cons (st' := { st with pending := .gathers o (l ++ [v]) })]
    · rw [ih (fun v' h => hv v' (by simp [h])) _ (l ++ [v]) rfl]
      simp
    · simp [PState.word, classify_plain t (hv v (by simp)), PState.arg, hst]

/-- One item. -/
theorem words_item {c : Command} (t : Table c) {i : Item} (hi : i.Fits c) (r : List Str) {st st0 : PState} (hst : st.close = .ok st0)
    (hin : ∀ n, i = .input n → st.pending = .nothing ∧ s%"input_name" ∉ st.seen) :
    ∃ st', words c (i.words ++ r) st = words c r st' ∧ st'.close = .ok (st0.after i) ∧ (¬ i.Open → st'.pending = .nothing) := by
  have next : ∀ (o : Opt) (w v : Str), Names c w o → o.action ≠ .many → Takes o v → Plain c v →
      ∃ st', words c (w :: v :: r) st = words c r st' ∧
        st'.close = .ok (st0.put o.dest (upd ((Dict.get st0.ns o.dest).getD .none) (textValue o v))) ∧ st'.pending = .nothing := by
    intro o w v h1 h2 h3 h4
    have hg := give_takes h3 (st := st0)
    have ht := h3
    unfold Takes at ht
    refine ⟨_, ?_, close_put _ _ _, rfl⟩
    cases ha : o.action with
    | store =>
      rw [words_cons (st' := { st0 with pending := .needs o }), words_cons (st' := _)]
      · simp only [PState.word, classify_plain t h4, PState.arg]; rw [give_takes h3]; rfl
      · simp [PState.word, classify_names t h1, hst, PState.option, ha]
    | number =>
      rw [words_cons (st' := { st0 with pending := .needs o }), words_cons (st' := _)]
      · simp only [PState.word, classify_plain t h4, PState.arg]; rw [give_takes h3]; rfl
      · simp [PState.word, classify_names t h1, hst, PState.option, ha]
    | collect =>
      rw [words_cons (st' := { st0 with pending := .may o }), words_cons (st' := _)]
      · simp only [PState.word, classify_plain t h4, PState.arg]; rw [give_takes h3]; rfl
      · simp [PState.word, classify_names t h1, hst, PState.option, ha]
    | many => exact absurd ha h2
    | flag => simp [ha] at ht
    | help => simp [ha] at ht
  cases i with
  | input n =>
    obtain ⟨h1, h2⟩ := hin n rfl
    have : st0 = st := by simp only [PState.close, h1, Except.ok.injEq] at hst; exact hst.symm
    subst this
    refine ⟨_, words_cons (st' := st0.put s%"input_name" (.str n)) ?_, rfl, fun _ => rfl⟩
    simp [PState.word, classify_plain t hi.2, PState.arg, h1, hi.1, h2]
  | on o w =>
    refine ⟨_, words_cons (st' := st0.put o.dest (.bool true)) ?_, rfl, fun _ => rfl⟩
    simp [PState.word, classify_names t hi.1, hst, PState.option, hi.2]
  | next o w v =>
    obtain ⟨st', h1, h2, h3⟩ := next o w v hi.1 hi.2.1 hi.2.2.1 hi.2.2.2
    exact ⟨st', h1, h2, fun _ => h3⟩
  | equals o w v =>
    refine ⟨_, words_cons (st' := _) ?_, close_put _ _ _, fun _ => rfl⟩
    simp only [PState.word, classify_equals t v hi.1, hst, PState.option]
    exact give_takes hi.2
  | joined o w v =>
    refine ⟨_, words_cons (st' := _) ?_, close_put _ _ _, fun _ => rfl⟩
    simp only [PState.word, classify_joined t hi.1 hi.2.1 hi.2.2.2.1 hi.2.2.2.2, hst, PState.option]
    exact give_takes hi.2.2.1
  | alone o w =>
    refine ⟨{ st0 with pending := .may o }, words_cons ?_, ?_, fun h => absurd trivial h⟩
    · simp [PState.word, classify_names t hi.1, hst, PState.option, hi.2]
    · simp only [PState.close, PState.after, collected_eq]; rfl
  | several o w vs =>
    refine ⟨{ st0 with pending := .gathers o vs }, ?_, rfl, fun h => absurd trivial h⟩
    simp only [Item.words, List.cons_append]
    rw [words_cons (st' := { st0 with pending := .gathers o [] }), words_gather t hi.2.2 r _ [] rfl]
    · simp
    · simp [PState.word, classify_names t hi.1, hst, PState.option, hi.2.1]

def isInput : Item → Bool
  | .input _ => true
  | _ => false

theorem param_input {c : Command} (t : Table c) {i : Item} (hi : i.Fits c) : i.param = s%"input_name" ↔ isInput i = true := by
  cases i with
  | input n => simp [Item.param, isInput]
  | on o w => simp [Item.param, isInput]; exact t.input o hi.1.1
  | next o w v => simp [Item.param, isInput]; exact t.input o hi.1.1
  | equals o w v => simp [Item.param, isInput]; exact t.input o hi.1.1
  | joined o w v => simp [Item.param, isInput]; exact t.input o hi.1.1
  | alone o w => simp [Item.param, isInput]; exact t.input o hi.1.1
  | several o w v => simp [Item.param, isInput]; exact t.input o hi.1.1

theorem words_items {c : Command} (t : Table c) (items : List Item) (hf : ∀ i ∈ items, i.Fits c)
    (hap : ∀ a x n b, items = a ++ x :: .input n :: b → ¬ x.Open) (st st0 : PState) (hst : st.close = .ok st0)
    (hp : ∀ n b, items = .input n :: b → st.pending = .nothing)
    (hin : (items.filter isInput).length ≤ if s%"input_name" ∈ st0.seen then 0 else 1) :
    words c (items.flatMap Item.words) st = .ok (items.foldl PState.after st0) := by
  induction items generalizing st st0 with
  | nil => simpa [words] using hst
  | cons i r ih =>
    have hfi := hf i (by simp)
    obtain ⟨st', h1, h2, h3⟩ := words_item t hfi (r.flatMap Item.words) hst (by
      rintro n rfl
      have h := hp n r rfl
      refine ⟨h, ?_⟩
      have : st0 = st := by simp only [PState.close, h, Except.ok.injEq] at hst; exact hst.symm
      subst this
      intro hs
      simp [hs, isInput] at hin)
    rw [List.flatMap_cons, h1, List.foldl_cons]
    refine ih (fun i hi => hf i (by simp [hi])) (fun a x n b e => hap (i :: a) x n b (by simp [e])) st' _ h2 ?_ ?_
    · rintro n b rfl
      exact h3 (hap [] i n b rfl)
    · simp only [PState.after, PState.put, List.mem_cons, List.filter_cons] at hin ⊢
      by_cases hi : isInput i = true
      · rw [if_pos (Or.inl ((param_input t hfi).mpr hi).symm)]
        rw [if_pos hi] at hin
        simp only [List.length_cons] at hin
        split at hin <;> omega
      · have : ¬ s%"input_name" = i.param := fun e => hi ((param_input t hfi).mp e.symm)
        rw [if_neg hi] at hin
        simp only [this, false_or]
        exact hin

/-! #### The namespace at the end -/

def given (items : List Item) (p : Str) : List CVal := (items.filter (fun i => i.param = p)).map Item.value

theorem fold_get (items : List Item) (st : PState) (p : Str) :
    (Dict.get (items.foldl PState.after st).ns p).getD .none = (given items p).foldl upd ((Dict.get st.ns p).getD .none) := by
  induction items generalizing st with
  | nil => rfl
  | cons i r ih =>
    rw [List.foldl_cons, ih]
    simp only [PState.after, PState.put, given, List.filter_cons, Dict.get_set]
    by_cases h : i.param = p
    · subst h; simp
    · simp [h, Ne.symm h]

theorem fold_nodup (items : List Item) (st : PState) (h : (Dict.keys st.ns).Nodup) : (Dict.keys (items.foldl PState.after st).ns).Nodup := by
  induction items generalizing st with
  | nil => exact h
  | cons i r ih => exact ih _ (Dict.nodup_keys_set _ _ h)

theorem fold_seen (items : List Item) (st : PState) (p : Str) :
    p ∈ (items.foldl PState.after st).seen ↔ p ∈ st.seen ∨ ∃ i ∈ items, i.param = p := by
  induction items generalizing st with
  | nil => simp
  | cons i r ih =>
    rw [List.foldl_cons, ih]
    simp only [PState.after, PState.put, List.mem_cons, exists_eq_or_imp]
    constructor
    · rintro ((h | h) | h)
      · exact Or.inr (Or.inl h.symm)
      · exact Or.inl h
      · exact Or.inr (Or.inr h)
    · rintro (h | h | h)
      · exact Or.inl (Or.inr h)
      · exact Or.inl (Or.inl h.symm)
      · exact Or.inr h

theorem upd_last (vs : List CVal) (h : ∀ v ∈ vs, ∀ l, v ≠ .rollup l) (d : CVal) : vs.foldl upd d = vs.getLast?.getD d := by
  induction vs generalizing d with
  | nil => rfl
  | cons v r ih =>
    have hv : upd d v = v := by
      have := h v (by simp)
      cases v <;> simp_all [upd]
    rw [List.foldl_cons, ih (fun v hv => h v (by simp [hv])), hv, List.getLast?_cons]
    simp

def rolled : CVal → List (Option Str)
  | .rollup l => l
  | _ => []

theorem upd_rollup (vs : List CVal) (h : ∀ v ∈ vs, ∃ l, v = .rollup l) (k : List (Option Str)) :
    vs.foldl upd (.rollup k) = .rollup (k ++ vs.flatMap rolled) := by
  induction vs generalizing k with
  | nil => simp
  | cons v r ih =>
    obtain ⟨l, rfl⟩ := h v (by simp)
    rw [List.foldl_cons, upd, ih (fun v hv => h v (by simp [hv]))]
    simp [rolled]

/-- The option of an item. -/
def itemOpt : Item → Option Opt
  | .input _ => none
  | .on o _ | .next o _ _ | .equals o _ _ | .joined o _ _ | .alone o _ | .several o _ _ => some o

theorem item_value {c : Command} {i : Item} (hi : i.Fits c) :
    (∃ o ∈ c.options, i.param = o.dest ∧ o.action = .collect ∧ ∃ l, i.value = .rollup l) ∨
    ((∀ l, i.value ≠ .rollup l) ∧ i.value ≠ .none ∧ ((∃ n, i = .input n) ∨ ∃ o ∈ c.options, i.param = o.dest ∧ o.action ≠ .collect)) := by
  have text : ∀ (o : Opt) (v : Str), o ∈ c.options → Takes o v →
      (o.action = .collect ∧ ∃ l, textValue o v = .rollup l) ∨ ((∀ l, textValue o v ≠ .rollup l) ∧ textValue o v ≠ .none ∧ o.action ≠ .collect) := by
    intro o v ho ht
    unfold Takes at ht
    unfold textValue
    cases ha : o.action <;> simp [ha] at ht ⊢
  cases i with
  | input n => exact Or.inr ⟨by simp [Item.value], by simp [Item.value], Or.inl ⟨n, rfl⟩⟩
  | on o w => exact Or.inr ⟨by simp [Item.value], by simp [Item.value], Or.inr ⟨o, hi.1.1, rfl, by rw [hi.2]; simp⟩⟩
  | next o w v =>
    rcases text o v hi.1.1 hi.2.2.1 with ⟨h1, h2⟩ | ⟨h1, h2, h3⟩
    · exact Or.inl ⟨o, hi.1.1, rfl, h1, h2⟩
    · exact Or.inr ⟨h1, h2, Or.inr ⟨o, hi.1.1, rfl, h3⟩⟩
  | equals o w v =>
    rcases text o v hi.1.1 hi.2 with ⟨h1, h2⟩ | ⟨h1, h2, h3⟩
    · exact Or.inl ⟨o, hi.1.1, rfl, h1, h2⟩
    · exact Or.inr ⟨h1, h2, Or.inr ⟨o, hi.1.1, rfl, h3⟩⟩
  | joined o w v =>
    rcases text o v hi.1.1 hi.2.2.1 with ⟨h1, h2⟩ | ⟨h1, h2, h3⟩
    · exact Or.inl ⟨o, hi.1.1, rfl, h1, h2⟩
    · exact Or.inr ⟨h1, h2, Or.inr ⟨o, hi.1.1, rfl, h3⟩⟩
  | alone o w => exact Or.inl ⟨o, hi.1.1, rfl, hi.2, _, rfl⟩
  | several o w vs => exact Or.inr ⟨by simp [Item.value], by simp [Item.value], Or.inr ⟨o, hi.1.1, rfl, by rw [hi.2.1]; simp⟩⟩

/-- For one parameter all values are lists that are collected, or none is. -/
theorem given_kind {c : Command} (t : Table c) {items : List Item} (hf : ∀ i ∈ items, i.Fits c) (p : Str) :
    ((∀ v ∈ given items p, ∃ l, v = .rollup l) ∧ ∀ i ∈ items, i.param = p → ∃ o ∈ c.options, o.dest = p ∧ o.action = .collect) ∨
      (∀ v ∈ given items p, (∀ l, v ≠ .rollup l) ∧ v ≠ .none) := by
  by_cases h : ∃ o ∈ c.options, o.dest = p ∧ o.action = .collect
  · left
    obtain ⟨o, ho, hd, ha⟩ := h
    refine ⟨?_, fun _ _ _ => ⟨o, ho, hd, ha⟩⟩
    intro v hv
    obtain ⟨i, hi, rfl⟩ := List.mem_map.mp hv
    obtain ⟨him, hip⟩ := List.mem_filter.mp hi
    simp only [decide_eq_true_eq] at hip
    rcases item_value (hf i him) with ⟨_, _, _, _, h⟩ | ⟨_, _, ⟨n, rfl⟩ | ⟨o', ho', h1, h2⟩⟩
    · exact h
    · exact absurd (hd.trans hip.symm) (t.input o ho)
    · have := t.dests o ho o' ho' (by rw [hd, ← hip, h1])
      exact absurd (this ▸ ha) h2
  · right
    intro v hv
    obtain ⟨i, hi, rfl⟩ := List.mem_map.mp hv
    obtain ⟨him, hip⟩ := List.mem_filter.mp hi
    simp only [decide_eq_true_eq] at hip
    rcases item_value (hf i him) with ⟨o, ho, h1, h2, _⟩ | ⟨h1, h2, _⟩
    · exact absurd ⟨o, ho, by rw [← h1, hip], h2⟩ h
    · exact ⟨h1, h2⟩

theorem get_kwargs {ns : List (Str × CVal)} (hn : (Dict.keys ns).Nodup) (p : Str) (d : CVal) :
    (Dict.get (kwargs ns) p).getD d = match (Dict.get ns p).getD .none with | .none => d | v => v := by
  unfold kwargs
  induction ns with
  | nil => rfl
  | cons e r ih =>
    obtain ⟨k, v⟩ := e
    simp only [Dict.keys, List.map_cons, List.nodup_cons] at hn
    by_cases hk : k = p
    · subst hk
      have hr : Dict.get (r.filter (fun p => decide (p.2 ≠ .none))) k = none := by
        rw [Dict.get_none_iff]
        intro hm
        obtain ⟨q, hq, rfl⟩ := List.mem_map.mp hm
        exact hn.1 (List.mem_map.mpr ⟨q, (List.mem_filter.mp hq).1, rfl⟩)
      by_cases hv : v = .none
      · subst hv
        simp only [List.filter_cons, Dict.get_cons, ne_eq, not_true_eq_false, decide_false, Bool.false_eq_true, if_false] at hr ⊢
        rw [hr]
        rfl
      · simp only [List.filter_cons, Dict.get_cons]
        simp only [hv, decide_true, ne_eq, not_false_eq_true, if_true, Dict.get_cons, Option.getD_some]
    · have := ih hn.2
      rw [Dict.get_cons, if_neg hk, ← this]
      simp only [List.filter_cons]
      split
      · rw [Dict.get_cons, if_neg hk]
      · rfl

theorem get_bind {sig kw : List (Str × CVal)} (hn : (sig.map (·.1)).Nodup) {p : Str} {d : CVal} (h : (p, d) ∈ sig) :
    Dict.get (bind sig kw) p = some ((Dict.get kw p).getD d) := by
  refine Dict.get_of_mem ?_ (List.mem_map.mpr ⟨(p, d), h, rfl⟩)
  simpa [Dict.keys, bind, List.map_map, Function.comp_def] using hn

/-- The defaults of the options. -/
def defaults (c : Command) : List (Str × CVal) := (c.options.filter (fun o => o.action ≠ .help)).map (fun o => (o.dest, o.default))

theorem defaults_roll {c : Command} (t : Table c) (p : Str) (l : List (Option Str)) : (Dict.get (defaults c) p).getD .none ≠ .rollup l := by
  cases h : Dict.get (defaults c) p with
  | none => simp
  | some v =>
    obtain ⟨o, ho, he⟩ := List.mem_map.mp (Dict.get_eq_some_mem h)
    simp only [Prod.mk.injEq] at he
    rw [Option.getD_some, ← he.2]
    exact t.noRoll o (List.mem_filter.mp ho).1 l

theorem passed_eq {c : Command} (t : Table c) {items : List Item} (hf : ∀ i ∈ items, i.Fits c) {p : Str} {d : CVal}
    (hpd : (p, d) ∈ c.signature) :
    (match (given items p).foldl upd ((Dict.get (defaults c) p).getD .none) with | .none => d | v => v) = passed items p (defaultOf c p d) := by
  have hd := t.defaults (p, d) hpd
  have hnil : given items p = [] → (match (given items p).foldl upd ((Dict.get (defaults c) p).getD .none) with | .none => d | v => v)
      = passed items p (defaultOf c p d) := by
    intro h
    have hp : passed items p (defaultOf c p d) = defaultOf c p d := by
      unfold passed; unfold given at h; simp only [h]; rfl
    rw [hp, ← hd, h]
    simp only [List.foldl_nil, defaults]
    cases Dict.get ((c.options.filter (fun o => o.action ≠ .help)).map (fun o => (o.dest, o.default))) p with
    | none => rfl
    | some v => cases v <;> rfl
  rcases given_kind t hf p with ⟨hk, ho⟩ | hk
  · cases hg : given items p with
    | nil => rw [← hg]; exact hnil hg
    | cons v r =>
      obtain ⟨l, hv⟩ := hk v (by simp [hg])
      rw [hg] at hk
      subst hv
      have h1 : upd ((Dict.get (defaults c) p).getD .none) (.rollup l) = .rollup l := by
        have := defaults_roll t p
        generalize (Dict.get (defaults c) p).getD .none = q at this
        cases q with
        | rollup k => exact absurd rfl (this k)
        | _ => rfl
      rw [List.foldl_cons, h1, upd_rollup r (fun v hv => hk v (by simp [hv]))]
      unfold passed
      unfold given at hg
      simp only [hg]
      obtain ⟨z, hz⟩ : ∃ z, (CVal.rollup l :: r).getLast? = some z := ⟨_, List.getLast?_eq_some_getLast (by simp)⟩
      obtain ⟨k, rfl⟩ := hk z (List.mem_of_getLast? hz)
      simp only [hz]
      simp only [List.flatMap_cons, CVal.rollup.injEq, List.append_cancel_left_eq]
      rfl
  · rw [upd_last _ (fun v hv => (hk v hv).1)]
    cases hg : (given items p).getLast? with
    | none =>
      have := hnil (by simpa using hg)
      rwa [upd_last _ (fun v hv => (hk v hv).1), hg] at this
    | some z =>
      obtain ⟨h1, h2⟩ := hk z (List.mem_of_getLast? hg)
      unfold passed
      unfold given at hg
      simp only [hg]
      cases z <;> simp_all

end Verif.Cli

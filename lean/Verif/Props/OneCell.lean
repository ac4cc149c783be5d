import Verif.Spec.OneCell
/-! C24: which arrays are written into one cell, and with which text. -/
namespace Verif
open Spec

theorem basicStr_iff (j : Json) (t : Str) : basicStr j = some t ↔ ScalarText j t := by
  constructor
  · intro h
    cases j with
    | leaf a =>
      cases a with
      | bool b => cases b <;> (simp [basicStr, Atom.basic, Py.str] at h; subst h; constructor)
      | float _ => simp [basicStr, Atom.basic] at h
      | datetime _ => simp [basicStr, Atom.basic] at h
      | other _ => simp [basicStr, Atom.basic] at h
      | _ => simp [basicStr, Atom.basic, Py.str] at h; subst h; constructor
    | _ => cases h
  · intro h
    cases h <;> simp [basicStr, Atom.basic, Py.str]

theorem mapM_all₂ {α β : Type} {f : α → Option β} {R : α → β → Prop} (h : ∀ a b, f a = some b ↔ R a b) (l : List α) (m : List β) :
    l.mapM f = some m ↔ All₂ R l m := by
  induction l generalizing m with
  | nil =>
    constructor
    · intro e; injection e with e; subst e; exact .nil
    · intro e; cases e; rfl
  | cons a r ih =>
    rw [List.mapM_cons]
    constructor
    · intro e
      cases ha : f a with
      | none => rw [ha] at e; cases e
      | some b =>
        rw [ha] at e
        cases hr : r.mapM f with
        | none => rw [hr] at e; cases e
        | some bs =>
          rw [hr] at e
          injection e with e
          subst e
          exact .cons ((h a b).1 ha) ((ih bs).1 hr)
    · intro e
      cases e with
      | cons h1 h2 => rw [(h _ _).2 h1, (ih _).2 h2]; rfl

theorem innerJoin_iff (j : Json) (t : Str) : innerJoin j = some t ↔ InnerText j t := by
  constructor
  · intro h
    cases j with
    | leaf a =>
      cases a with
      | str s => simp only [innerJoin] at h; injection h with h; subst h; exact .chars
      | _ => cases h
    | obj _ => cases h
    | arr l =>
      simp only [innerJoin] at h
      cases hm : l.mapM basicStr with
      | none => rw [hm] at h; cases h
      | some ts =>
        rw [hm] at h
        injection h with h
        subst h
        exact .list ((mapM_all₂ basicStr_iff l ts).1 hm)
  · intro h
    cases h with
    | list hl => simp only [innerJoin]; rw [(mapM_all₂ basicStr_iff _ _).2 hl]; rfl
    | chars => rfl

theorem all₂_exists {α β : Type} {R : α → β → Prop} {l : List α} {m : List β} (h : All₂ R l m) {a : α} (ha : a ∈ l) : ∃ b, R a b := by
  induction h with
  | nil => cases ha
  | @cons x y _ _ h1 _ ih =>
    rcases List.mem_cons.1 ha with rfl | ha
    · exact ⟨y, h1⟩
    · exact ih ha

/-- C24: which arrays are written into one cell, and the text of the cell (`HasCell` refers to it as `joinArray`): arrays of scalars, and arrays of arrays of scalars. -/
theorem C24_array_in_one_cell (l : List Json) (t : Str) : joinArray l = some t ↔ OneCell l t := by
  unfold joinArray
  have arr : ∀ m, .arr m ∈ l → l.mapM basicStr = none := by
    intro m hm
    cases h : l.mapM basicStr with
    | none => rfl
    | some ts =>
      obtain ⟨t, ht⟩ := all₂_exists ((mapM_all₂ basicStr_iff l ts).1 h) hm
      cases ht
  constructor
  · intro h
    split at h
    · next ss hs => injection h with h; subst h; exact .scalars ((mapM_all₂ basicStr_iff l ss).1 hs)
    · next hs =>
      cases hm : l.mapM innerJoin with
      | none => rw [hm] at h; cases h
      | some ts =>
        rw [hm] at h
        injection h with h
        subst h
        have h2 := (mapM_all₂ innerJoin_iff l ts).1 hm
        -- if all were texts they would be scalars
        by_cases ha : ∃ m, .arr m ∈ l
        · obtain ⟨m, ha⟩ := ha; exact .lists ha h2
        · exfalso
          have : ∃ ss, All₂ ScalarText l ss := by
            clear hs hm arr
            induction h2 with
            | nil => exact ⟨[], .nil⟩
            | cons h1 _ ih =>
              obtain ⟨ss, hss⟩ := ih (fun ⟨m, hm⟩ => ha ⟨m, by simp [hm]⟩)
              cases h1 with
              | list _ => exact absurd ⟨_, List.mem_cons_self ..⟩ ha
              | chars => exact ⟨_, .cons .text hss⟩
          obtain ⟨ss, hss⟩ := this
          rw [(mapM_all₂ basicStr_iff l ss).2 hss] at hs
          cases hs
  · intro h
    cases h with
    | scalars h => rw [(mapM_all₂ basicStr_iff _ _).2 h]
    | lists ha h => rw [arr _ ha, (mapM_all₂ innerJoin_iff _ _).2 h]; rfl

/-- `[1, null, "a", true]`, `[[1, 2], ["a"], "xy"]` and an array of objects. -/
example : OneCell [.leaf (.int 1), .leaf .none, .leaf (.str s%"a"), .leaf (.bool true)] s%"1;None;a;True" ∧
    OneCell [.arr [.leaf (.int 1), .leaf (.int 2)], .arr [.leaf (.str s%"a")], .leaf (.str s%"xy")] s%"1,2;a;x,y" ∧
    ∀ t, ¬ OneCell [.obj []] t :=
  ⟨(C24_array_in_one_cell _ _).1 (by decide +kernel), (C24_array_in_one_cell _ _).1 (by decide +kernel),
    fun t h => by have := (C24_array_in_one_cell _ _).2 h; simp [joinArray, basicStr, innerJoin] at this⟩

end Verif

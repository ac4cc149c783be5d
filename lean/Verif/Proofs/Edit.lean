import Verif.Spec.Edit
import Verif.Proofs.Objects
/-! Lines of a spreadsheet are replaced or added: which rows make up the objects then. -/
namespace Verif
open Spec

/-- The groups of equal ids, and what has no id. -/
def innerBy {α : Type} (id : α → Option Atom) (g : List α) : List (List α) :=
  classes (fun a b => match id a, id b with | some x, some y => atomEq x y | _, _ => false) (g.filter (fun r => (id r).isSome)) ++
    (g.filter (fun r => (id r).isNone)).map (fun r => [r])

/-- `objectRows` for anything with root ids and ids. -/
def groupsBy {α : Type} (root : α → Atom) (id : α → Option Atom) (l : List α) : List (List α) :=
  (classes (fun a b => atomEq (root a) (root b)) l).flatMap (fun g =>
    classes (fun a b => match id a, id b with | some x, some y => atomEq x y | _, _ => false) (g.filter (fun r => (id r).isSome)) ++
      (g.filter (fun r => (id r).isNone)).map (fun r => [r]))

theorem objectRows_groupsBy (cfg : UnCfg) (rows : List RowIn) :
    objectRows cfg rows = groupsBy (fun r => rootCell cfg.rootId r.line) (rowId cfg) rows := rfl

theorem filter_map_mem {α β : Type} (f : α → β) (p : α → Bool) (q : β → Bool) (l : List α) (h : ∀ a ∈ l, q (f a) = p a) :
    (l.map f).filter q = (l.filter p).map f := by
  induction l with
  | nil => rfl
  | cons a r ih =>
    rw [List.map_cons, List.filter_cons, List.filter_cons, h a (by simp), ih (fun b hb => h b (by simp [hb]))]
    split <;> rfl

theorem flatMap_mem {α β : Type} {f g : α → List β} {l : List α} (h : ∀ a ∈ l, f a = g a) : l.flatMap f = l.flatMap g := by
  induction l with
  | nil => rfl
  | cons a r ih => rw [List.flatMap_cons, List.flatMap_cons, h a (by simp), ih (fun b hb => h b (by simp [hb]))]

theorem groupsBy_map {α β : Type} (f : α → β) (root : α → Atom) (id : α → Option Atom) (root' : β → Atom) (id' : β → Option Atom) (l : List α)
    (hr : ∀ a ∈ l, root' (f a) = root a) (hi : ∀ a ∈ l, id' (f a) = id a) :
    groupsBy root' id' (l.map f) = (groupsBy root id l).map (List.map f) := by
  unfold groupsBy
  rw [classes_map f (fun a b => atomEq (root a) (root b)) _ l (by intro a ha b hb; rw [hr a ha, hr b hb]), List.flatMap_map, List.map_flatMap]
  refine flatMap_mem ?_
  intro g hg
  have hmem : ∀ a ∈ g, a ∈ l := fun a ha => mem_classes hg ha
  rw [filter_map_mem f (fun r => (id r).isSome) _ g (fun a ha => by rw [hi a (hmem a ha)]),
    filter_map_mem f (fun r => (id r).isNone) _ g (fun a ha => by rw [hi a (hmem a ha)])]
  rw [classes_map f (fun a b => match id a, id b with | some x, some y => atomEq x y | _, _ => false) _ _ (by
    intro a ha b hb
    rw [hi a (hmem a (List.mem_filter.1 ha).1), hi b (hmem b (List.mem_filter.1 hb).1)])]
  simp only [List.map_append, List.map_map]
  congr 1

theorem addToClass_flatten {α : Type} (eq : α → α → Bool) (x : α) (cs : List (List α)) : (addToClass eq x cs).flatten.Perm (x :: cs.flatten) := by
  induction cs with
  | nil => simp [addToClass]
  | cons c r ih =>
    rw [addToClass]
    split
    · simp only [List.flatten_cons, List.append_assoc, List.singleton_append]
      exact List.perm_middle
    · simp only [List.flatten_cons]
      exact (ih.append_left c).trans List.perm_middle

theorem classes_flatten {α : Type} (eq : α → α → Bool) (l : List α) : (classes eq l).flatten.Perm l := by
  have h : ∀ (l : List α) (cs : List (List α)), (l.foldl (fun cs x => addToClass eq x cs) cs).flatten.Perm (cs.flatten ++ l) := by
    intro l
    induction l with
    | nil => intro cs; simp
    | cons x r ih =>
      intro cs
      refine (ih _).trans ?_
      exact ((addToClass_flatten eq x cs).append_right r).trans (by simpa using List.perm_middle.symm)
  have := h l []
  simpa [classes] using this

theorem filter_split {α : Type} (p q : α → Bool) (h : ∀ a, q a = !p a) (l : List α) : (l.filter p ++ l.filter q).Perm l := by
  have : q = fun a => !p a := funext h
  rw [this]
  exact List.filter_append_perm p l

theorem flatten_singles {α : Type} (l : List α) : (l.map (fun r => [r])).flatten = l := by
  induction l with
  | nil => rfl
  | cons a r ih => simp [ih]

theorem groupsBy_flatten {α : Type} (root : α → Atom) (id : α → Option Atom) (l : List α) : (groupsBy root id l).flatten.Perm l := by
  unfold groupsBy
  have h : ∀ cs : List (List α), ((cs.flatMap (fun g =>
      classes (fun a b => match id a, id b with | some x, some y => atomEq x y | _, _ => false) (g.filter (fun r => (id r).isSome)) ++
        (g.filter (fun r => (id r).isNone)).map (fun r => [r]))).flatten).Perm cs.flatten := by
    intro cs
    induction cs with
    | nil => exact .nil
    | cons c r ih =>
      simp only [List.flatMap_cons, List.flatten_append, List.flatten_cons, flatten_singles]
      refine List.Perm.append ?_ ih
      exact ((classes_flatten _ _).append_right _).trans (filter_split _ _ (fun a => by cases id a <;> rfl) c)
  exact (h _).trans (classes_flatten _ l)

/-- If one element at most is bad, one group at most has a bad element. -/
theorem one_bad {α : Type} (bad : α → Bool) (G : List (List α)) (h : (G.flatten.filter bad).length ≤ 1) :
    ∃ n : Nat, ∀ (k : Nat) g, k ≠ n → G[k]? = some g → ∀ a ∈ g, bad a = false := by
  induction G with
  | nil => exact ⟨0, by simp⟩
  | cons c r ih =>
    simp only [List.flatten_cons, List.filter_append, List.length_append] at h
    by_cases hc : (c.filter bad).length = 0
    · obtain ⟨n, hn⟩ := ih (by omega)
      refine ⟨n + 1, ?_⟩
      intro k g hk hg
      cases k with
      | zero =>
        simp only [List.getElem?_cons_zero, Option.some.injEq] at hg
        subst hg
        intro a ha
        have : c.filter bad = [] := List.eq_nil_of_length_eq_zero hc
        have := List.filter_eq_nil_iff.1 this a ha
        simpa using this
      | succ k => exact hn k g (by omega) (by simpa using hg)
    · refine ⟨0, ?_⟩
      intro k g hk hg a ha
      cases k with
      | zero => exact absurd rfl hk
      | succ k =>
        have hz : (r.flatten.filter bad) = [] := List.eq_nil_of_length_eq_zero (by omega)
        have := List.filter_eq_nil_iff.1 hz a (List.mem_flatten.2 ⟨g, List.mem_of_getElem? (by simpa using hg), ha⟩)
        simpa using this

/-- A new element joins one class, or is a new class at the end. -/
theorem addToClass_split {α : Type} (eq : α → α → Bool) (x : α) (cs : List (List α)) :
    (∃ A g B, cs = A ++ g :: B ∧ addToClass eq x cs = A ++ (g ++ [x]) :: B) ∨ addToClass eq x cs = cs ++ [[x]] := by
  induction cs with
  | nil => exact .inr rfl
  | cons c r ih =>
    rw [addToClass]
    split
    · exact .inl ⟨[], c, r, rfl, rfl⟩
    · rcases ih with ⟨A, g, B, h1, h2⟩ | h
      · exact .inl ⟨c :: A, g, B, by simp [h1], by simp [h2]⟩
      · exact .inr (by simp [h])

/-- A new row changes or adds one group. -/
theorem groupsBy_snoc {α : Type} (root : α → Atom) (id : α → Option Atom) (l : List α) (x : α) :
    ∃ A mid g B, groupsBy root id l = A ++ mid ++ B ∧ groupsBy root id (l ++ [x]) = A ++ [g] ++ B ∧ mid.length ≤ 1 ∧ x ∈ g ∧ ∀ c ∈ mid, g = c ++ [x] := by
  have hinner : ∀ c : List α, ∃ A mid g B,
      classes (fun a b => match id a, id b with | some x, some y => atomEq x y | _, _ => false) (c.filter (fun r => (id r).isSome)) ++
        (c.filter (fun r => (id r).isNone)).map (fun r => [r]) = A ++ mid ++ B ∧
      classes (fun a b => match id a, id b with | some x, some y => atomEq x y | _, _ => false) ((c ++ [x]).filter (fun r => (id r).isSome)) ++
        ((c ++ [x]).filter (fun r => (id r).isNone)).map (fun r => [r]) = A ++ [g] ++ B ∧ mid.length ≤ 1 ∧ x ∈ g ∧ ∀ c ∈ mid, g = c ++ [x] := by
    intro c
    cases hid : id x with
    | none =>
      refine ⟨_, [], [x], [], (List.append_nil _).symm.trans (List.append_nil _).symm, ?_, by simp, by simp, by simp⟩
      simp [List.filter_append, hid]
    | some a =>
      have h1 : (c ++ [x]).filter (fun r => (id r).isSome) = c.filter (fun r => (id r).isSome) ++ [x] := by simp [List.filter_append, hid]
      have h2 : (c ++ [x]).filter (fun r => (id r).isNone) = c.filter (fun r => (id r).isNone) := by simp [List.filter_append, hid]
      rw [h1, h2, classes_snoc]
      rcases addToClass_split (fun a b => match id a, id b with | some x, some y => atomEq x y | _, _ => false) x
        (classes (fun a b => match id a, id b with | some x, some y => atomEq x y | _, _ => false) (c.filter (fun r => (id r).isSome))) with ⟨A, g, B, h3, h4⟩ | h3
      · refine ⟨A, [g], g ++ [x], B ++ (c.filter (fun r => (id r).isNone)).map (fun r => [r]), ?_, ?_, by simp, by simp, by simp⟩
        · rw [h3]; simp
        · rw [h4]; simp
      · refine ⟨_, [], [x], (c.filter (fun r => (id r).isNone)).map (fun r => [r]), by rw [List.append_nil], ?_, by simp, by simp, by simp⟩
        rw [h3]
  unfold groupsBy
  rw [classes_snoc]
  rcases addToClass_split (fun a b => atomEq (root a) (root b)) x (classes (fun a b => atomEq (root a) (root b)) l) with ⟨A, g, B, h3, h4⟩ | h3
  · obtain ⟨A', mid, g', B', h5, h6, h7⟩ := hinner g
    rw [h4]
    rw [h3]
    simp only [List.flatMap_append, List.flatMap_cons, h5, h6]
    exact ⟨List.flatMap (innerBy id) A ++ A', mid, g', B' ++ List.flatMap (innerBy id) B, by simp only [List.append_assoc]; rfl, by simp only [List.append_assoc]; rfl, h7⟩
  · obtain ⟨A', mid, g', B', h5, h6, h7⟩ := hinner []
    rw [h3]
    have hnil : A' = [] ∧ mid = [] ∧ B' = [] := by simpa [classes, List.append_eq_nil_iff] using h5.symm
    obtain ⟨rfl, rfl, rfl⟩ := hnil
    simp only [List.nil_append, List.append_nil] at h6
    refine ⟨_, [], g', [], (List.append_nil _).symm.trans (List.append_nil _).symm, ?_, h7⟩
    simp only [List.flatMap_append, List.flatMap_cons, List.flatMap_nil, h6, List.append_nil]


theorem classes_ne_nil {α : Type} (eq : α → α → Bool) (l : List α) : ∀ c ∈ classes eq l, c ≠ [] := by
  have h : ∀ (l : List α) (cs : List (List α)), (∀ c ∈ cs, c ≠ []) → ∀ c ∈ l.foldl (fun cs x => addToClass eq x cs) cs, c ≠ [] := by
    intro l
    induction l with
    | nil => intro cs h; exact h
    | cons x r ih =>
      intro cs h
      refine ih _ ?_
      intro c hc
      replace hc : c ∈ addToClass eq x cs := hc
      rcases addToClass_split eq x cs with ⟨A, g, B, h1, h2⟩ | h1
      · rw [h2] at hc
        simp only [List.mem_append, List.mem_cons] at hc
        rcases hc with hc | rfl | hc
        · exact h c (by rw [h1]; simp [hc])
        · simp
        · exact h c (by rw [h1]; simp [hc])
      · rw [h1] at hc
        simp only [List.mem_append, List.mem_singleton] at hc
        rcases hc with hc | rfl
        · exact h c hc
        · simp
  exact h l [] (by simp)

theorem groupsBy_ne_nil {α : Type} (root : α → Atom) (id : α → Option Atom) (l : List α) : ∀ c ∈ groupsBy root id l, c ≠ [] := by
  intro c hc
  obtain ⟨g, -, hc⟩ := List.mem_flatMap.1 hc
  rcases List.mem_append.1 hc with hc | hc
  · exact classes_ne_nil _ _ c hc
  · obtain ⟨r, -, rfl⟩ := List.mem_map.1 hc
    simp

/-! ### The rows -/

/-- The rows of one sheet. -/
def rowsOf (s : SheetIn) : List RowIn :=
  if s.headings = some [] then [] else (s.lines.zipIdx.filter (fun p => hasData p.1)).map (fun p => ⟨s, p.2, p.1⟩)

theorem rowsIn_eq (sheets : List SheetIn) : rowsIn sheets = sheets.flatMap rowsOf := rfl

/-- The rows of two sheets with the same lines but one. -/
theorem rows_replaced (s s' : SheetIn) (hh : s.headings = s'.headings) (above below : List Line) (l l' : Line) (hl : s.lines = above ++ l :: below)
    (hl' : s'.lines = above ++ l' :: below) (hd : hasData l = true) (hd' : hasData l' = true) :
    ∃ P : List (RowIn × RowIn), rowsOf s = P.map (·.1) ∧ rowsOf s' = P.map (·.2) ∧
      ((s.headings = some [] ∧ ∀ p ∈ P, p.1.sheet = s ∧ p.2.sheet = s' ∧ p.1.number = p.2.number ∧ p.1.line = p.2.line) ∨
      ∃ A B, P = A ++ (⟨s, above.length, l⟩, ⟨s', above.length, l'⟩) :: B ∧ ∀ p ∈ A ++ B, p.1.sheet = s ∧ p.2.sheet = s' ∧ p.1.number = p.2.number ∧ p.1.line = p.2.line) := by
  unfold rowsOf
  rw [← hh]
  by_cases he : s.headings = some []
  · rw [if_pos he, if_pos he]
    exact ⟨[], rfl, rfl, .inl ⟨he, by simp⟩⟩
  rw [if_neg he, if_neg he, hl, hl']
  simp only [List.zipIdx_append, List.zipIdx_cons, List.filter_append, List.filter_cons, hd, hd', if_true, List.map_append, List.map_cons]
  let f : Line × Nat → RowIn × RowIn := fun p => (⟨s, p.2, p.1⟩, ⟨s', p.2, p.1⟩)
  refine ⟨(above.zipIdx.filter (fun p => hasData p.1)).map f ++ (⟨s, above.length, l⟩, ⟨s', above.length, l'⟩) ::
    ((below.zipIdx (above.length + 1)).filter (fun p => hasData p.1)).map f, ?_, ?_, .inr ⟨_, _, rfl, ?_⟩⟩
  · simp [f, Function.comp_def]
  · simp [f, Function.comp_def]
  · intro p hp
    simp only [List.mem_append, List.mem_map] at hp
    rcases hp with ⟨q, -, rfl⟩ | ⟨q, -, rfl⟩ <;> exact ⟨rfl, rfl, rfl, rfl⟩

end Verif

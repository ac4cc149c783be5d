import Verif.Spec.Xml
import Verif.Proofs.DecEq
/-! C45: XML input, dicts and lists of dicts at the same path. -/
namespace Verif
open Spec Xml

mutual
theorem mem_listPaths (d : List (Str × Json)) (p : List Str) : p ∈ listPaths d ↔ ListAt d p := by
  match d with
  | [] =>
    rw [listPaths]
    constructor
    · intro h; cases h
    · intro h; cases h <;> contradiction
  | (k, v) :: r =>
    have hr := mem_listPaths r p
    have up : ListAt r p → ListAt ((k, v) :: r) p := by
      intro h
      cases h with
      | here h => exact .here (List.mem_cons_of_mem _ h)
      | list h h1 h2 => exact .list (List.mem_cons_of_mem _ h) h1 h2
      | dict h h1 => exact .dict (List.mem_cons_of_mem _ h) h1
    match v with
    | .leaf a =>
      rw [listPaths, hr]
      refine ⟨up, fun h => ?_⟩
      cases h with
      | here h => exact .here (by simpa using h)
      | list h h1 h2 => exact .list (by simpa using h) h1 h2
      | dict h h1 => exact .dict (by simpa using h) h1
    | .obj fs =>
      rw [listPaths, List.mem_append, hr, List.mem_map]
      constructor
      · rintro (⟨q, hq, rfl⟩ | h)
        · exact .dict List.mem_cons_self ((mem_listPaths fs q).1 hq)
        · exact up h
      · intro h
        cases h with
        | here h => exact Or.inr (.here (by simpa using h))
        | list h h1 h2 => exact Or.inr (.list (by simpa using h) h1 h2)
        | @dict _ _ gs q h h1 =>
          rcases List.mem_cons.1 h with h | h
          · cases h; exact Or.inl ⟨q, (mem_listPaths _ q).2 h1, rfl⟩
          · exact Or.inr (.dict h h1)
    | .arr l =>
      rw [listPaths, List.mem_append, hr]
      constructor
      · rintro (h | h)
        · match l with
          | [] => simp [isListOfDicts] at h
          | .leaf _ :: _ => simp [isListOfDicts, isObj] at h
          | .arr _ :: _ => simp [isListOfDicts, isObj] at h
          | .obj g :: l' =>
            rw [if_pos (by rfl), List.mem_cons, List.mem_map] at h
            rcases h with rfl | ⟨q, hq, rfl⟩
            · exact .here List.mem_cons_self
            · obtain ⟨fs, h1, h2⟩ := (mem_itemPaths _ q).1 hq
              exact .list List.mem_cons_self h1 h2
        · exact up h
      · intro h
        cases h with
        | here h =>
          rcases List.mem_cons.1 h with h | h
          · cases h; left; rw [if_pos (by rfl)]; simp
          · exact Or.inr (.here h)
        | @list _ _ g l' fs q h h1 h2 =>
          rcases List.mem_cons.1 h with h | h
          · cases h; left; rw [if_pos (by rfl)]
            exact List.mem_cons_of_mem _ (List.mem_map.2 ⟨q, (mem_itemPaths _ q).2 ⟨fs, h1, h2⟩, rfl⟩)
          · exact Or.inr (.list h h1 h2)
        | dict h h1 => exact Or.inr (.dict (by simpa using h) h1)
termination_by sizeOf d
theorem mem_itemPaths (l : List Json) (p : List Str) : p ∈ itemPaths l ↔ ∃ fs, .obj fs ∈ l ∧ ListAt fs p := by
  match l with
  | [] => rw [itemPaths]; simp
  | .leaf a :: r => rw [itemPaths, mem_itemPaths r p] <;> simp
  | .arr a :: r => rw [itemPaths, mem_itemPaths r p] <;> simp
  | .obj fs :: r =>
    rw [itemPaths, List.mem_append, mem_itemPaths r p, mem_listPaths fs p]
    constructor
    · rintro (h | ⟨g, h1, h2⟩)
      · exact ⟨fs, by simp, h⟩
      · exact ⟨g, by simp [h1], h2⟩
    · rintro ⟨g, h1, h2⟩
      rcases List.mem_cons.1 h1 with h | h
      · cases h; exact Or.inl h2
      · exact Or.inr ⟨g, h, h2⟩
termination_by sizeOf l
end

mutual
theorem wrapped_fields (s : List (List Str)) (p : List Str) (d : List (Str × Json)) :
    WrappedFields (· ∈ s) p d (toListOfDicts s p d) := by
  match d with
  | [] => rw [toListOfDicts]; exact .nil
  | (k, .leaf a) :: r => rw [toListOfDicts]; exact .cons .leaf (wrapped_fields s p r)
  | (k, .arr l) :: r => rw [toListOfDicts]; exact .cons (.list (wrapped_items s _ l)) (wrapped_fields s p r)
  | (k, .obj fs) :: r =>
    rw [toListOfDicts]
    refine .cons ?_ (wrapped_fields s p r)
    by_cases h : p ++ [k] ∈ s
    · simp only [if_pos h]; exact .wrap h (wrapped_fields s _ fs)
    · simp only [if_neg h]; exact .dict h (wrapped_fields s _ fs)
termination_by sizeOf d
theorem wrapped_items (s : List (List Str)) (p : List Str) (l : List Json) :
    WrappedItems (· ∈ s) p l (itemsToListOfDicts s p l) := by
  match l with
  | [] => rw [itemsToListOfDicts]; exact .nil
  | .leaf a :: r => rw [itemsToListOfDicts]; exact .leaf (wrapped_items s p r); simp
  | .arr a :: r => rw [itemsToListOfDicts]; exact .list (wrapped_items s p r); simp
  | .obj fs :: r => rw [itemsToListOfDicts]; exact .dict (wrapped_fields s p fs) (wrapped_items s p r)
termination_by sizeOf l
end

/-- C45: the result is the data with exactly those dicts made one-element lists whose path is, somewhere in the data, the path of
a list of dicts.  Nothing else changes. -/
theorem C45_wrapped (d : List (Str × Json)) : WrappedFields (ListAt d) [] d (listDictConsistency d) := by
  have h := wrapped_fields (listPaths d) [] d
  have e : (· ∈ listPaths d) = ListAt d := by funext p; exact propext (mem_listPaths d p)
  rw [e] at h
  exact h

mutual
/-- The specification determines the result. -/
theorem wrappedFields_unique {w : List Str → Prop} {p : List Str} (d e f : List (Str × Json))
    (h : WrappedFields w p d e) (g : WrappedFields w p d f) : e = f := by
  match d with
  | [] => cases h; cases g; rfl
  | (k, v) :: r =>
    cases h with
    | cons h1 h2 =>
      cases g with
      | cons g1 g2 => rw [wrapped_unique v _ _ h1 g1, wrappedFields_unique r _ _ h2 g2]
termination_by structural d
theorem wrapped_unique {w : List Str → Prop} {p : List Str} (v e f : Json) (h : Wrapped w p v e) (g : Wrapped w p v f) : e = f := by
  match v with
  | .leaf a => cases h; cases g; rfl
  | .obj fs =>
    cases h with
    | dict h1 h2 =>
      cases g with
      | dict g1 g2 => rw [wrappedFields_unique fs _ _ h2 g2]
      | wrap g1 g2 => exact absurd g1 h1
    | wrap h1 h2 =>
      cases g with
      | dict g1 g2 => exact absurd h1 g1
      | wrap g1 g2 => rw [wrappedFields_unique fs _ _ h2 g2]
  | .arr l =>
    cases h with
    | list h1 =>
      cases g with
      | list g1 => rw [wrappedItems_unique l _ _ h1 g1]
termination_by structural v
theorem wrappedItems_unique {w : List Str → Prop} {p : List Str} (l e f : List Json)
    (h : WrappedItems w p l e) (g : WrappedItems w p l f) : e = f := by
  match l with
  | [] => cases h; cases g; rfl
  | .leaf a :: r =>
    cases h with | leaf h => cases g with | leaf g => rw [wrappedItems_unique r _ _ h g]
  | .arr a :: r =>
    cases h with | list h => cases g with | list g => rw [wrappedItems_unique r _ _ h g]
  | .obj fs :: r =>
    cases h with | dict h1 h2 => cases g with | dict g1 g2 => rw [wrappedFields_unique fs _ _ h1 g1, wrappedItems_unique r _ _ h2 g2]
termination_by structural l
end

/-- C45: the specification determines the result. -/
theorem C45_determined (d e : List (Str × Json)) (h : WrappedFields (ListAt d) [] d e) : e = listDictConsistency d :=
  wrappedFields_unique d _ _ h (C45_wrapped d)

/-! Entries of the result. -/

theorem wrappedFields_mem {w : List Str → Prop} {p : List Str} : ∀ {d e : List (Str × Json)}, WrappedFields w p d e → ∀ {k v}, (k, v) ∈ e →
    ∃ u, (k, u) ∈ d ∧ Wrapped w (p ++ [k]) u v
  | [], _, h, k, v, hm => by cases h; cases hm
  | (k', u) :: r, _, h, k, v, hm => by
    cases h with
    | cons h1 h2 =>
      rcases List.mem_cons.1 hm with hm | hm
      · cases hm; exact ⟨u, by simp, h1⟩
      · obtain ⟨u', h3, h4⟩ := wrappedFields_mem h2 hm; exact ⟨u', by simp [h3], h4⟩

theorem wrappedItems_mem {w : List Str → Prop} {p : List Str} : ∀ {l m : List Json}, WrappedItems w p l m → ∀ {fs}, .obj fs ∈ m →
    ∃ gs, .obj gs ∈ l ∧ WrappedFields w p gs fs
  | [], _, h, fs, hm => by cases h; cases hm
  | .leaf a :: r, _, h, fs, hm => by
    cases h with
    | leaf h =>
      rcases List.mem_cons.1 hm with hm | hm
      · cases hm
      · obtain ⟨g, h1, h2⟩ := wrappedItems_mem h hm; exact ⟨g, by simp [h1], h2⟩
  | .arr a :: r, _, h, fs, hm => by
    cases h with
    | list h =>
      rcases List.mem_cons.1 hm with hm | hm
      · cases hm
      · obtain ⟨g, h1, h2⟩ := wrappedItems_mem h hm; exact ⟨g, by simp [h1], h2⟩
  | .obj a :: r, _, h, fs, hm => by
    cases h with
    | dict h h' =>
      rcases List.mem_cons.1 hm with hm | hm
      · cases hm; exact ⟨a, by simp, h⟩
      · obtain ⟨g, h1, h2⟩ := wrappedItems_mem h' hm; exact ⟨g, by simp [h1], h2⟩

/-- The first item of a list stays a dict, or not. -/
theorem wrappedItems_head {w : List Str → Prop} {p : List Str} {l m : List Json} {g} (h : WrappedItems w p l (.obj g :: m)) :
    ∃ g' l', l = .obj g' :: l' := by
  cases h; exact ⟨_, _, rfl⟩

/-- Lists of dicts of the result are at paths of lists of dicts of the data. -/
theorem listAt_result {w : List Str → Prop} {e : List (Str × Json)} {q : List Str} (h : ListAt e q) :
    ∀ {p d}, WrappedFields w p d e → w (p ++ q) ∨ ListAt d q := by
  induction h with
  | @here e k g l hm =>
    intro p d hw
    obtain ⟨u, hu, hw⟩ := wrappedFields_mem hw hm
    cases hw with
    | wrap h1 _ => exact Or.inl h1
    | list h1 =>
      obtain ⟨g', l', rfl⟩ := wrappedItems_head h1
      exact Or.inr (.here hu)
  | @list e k g l fs q hm hf hq ih =>
    intro p d hw
    obtain ⟨u, hu, hw⟩ := wrappedFields_mem hw hm
    cases hw with
    | wrap h1 h2 =>
      rcases List.mem_cons.1 hf with hf | hf
      · cases hf
        rcases ih h2 with h | h
        · left; simpa using h
        · exact Or.inr (.dict hu h)
      · cases hf
    | list h1 =>
      obtain ⟨g', hg, h2⟩ := wrappedItems_mem h1 hf
      obtain ⟨g'', l', rfl⟩ := wrappedItems_head h1
      rcases ih h2 with h | h
      · left; simpa using h
      · exact Or.inr (.list hu hg h)
  | @dict e k fs q hm hq ih =>
    intro p d hw
    obtain ⟨u, hu, hw⟩ := wrappedFields_mem hw hm
    cases hw with
    | dict h1 h2 =>
      rcases ih h2 with h | h
      · left; simpa using h
      · exact Or.inr (.dict hu h)

/-- A dict that is left alone is not at a path to be wrapped. -/
theorem dictAt_result {w : List Str → Prop} {e : List (Str × Json)} {q : List Str} (h : DictAt e q) :
    ∀ {p d}, WrappedFields w p d e → ¬ w (p ++ q) := by
  induction h with
  | @here e k fs hm =>
    intro p d hw
    obtain ⟨u, hu, hw⟩ := wrappedFields_mem hw hm
    cases hw with
    | dict h1 _ => exact h1
  | @list e k l fs q hm hf hq ih =>
    intro p d hw
    obtain ⟨u, hu, hw⟩ := wrappedFields_mem hw hm
    cases hw with
    | wrap h1 h2 =>
      rcases List.mem_cons.1 hf with hf | hf
      · cases hf; simpa using ih h2
      · cases hf
    | list h1 =>
      obtain ⟨g', hg, h2⟩ := wrappedItems_mem h1 hf
      simpa using ih h2
  | @dict e k fs q hm hq ih =>
    intro p d hw
    obtain ⟨u, hu, hw⟩ := wrappedFields_mem hw hm
    cases hw with
    | dict h1 h2 => simpa using ih h2

/-- C45: in the result, no path has both a list of dicts and a dict that is not in a list. -/
theorem C45_consistent (d : List (Str × Json)) (p : List Str) :
    ¬ (ListAt (listDictConsistency d) p ∧ DictAt (listDictConsistency d) p) := by
  rintro ⟨h1, h2⟩
  have h := dictAt_result h2 (C45_wrapped d)
  rcases listAt_result h1 (C45_wrapped d) with h' | h'
  · exact h h'
  · exact h (by simpa using h')

mutual
/-- Nothing to wrap, nothing changes. -/
theorem wrapped_same {w : List Str → Prop} {p : List Str} (d : List (Str × Json)) (h : ∀ q, DictAt d q → ¬ w (p ++ q)) :
    WrappedFields w p d d := by
  match d with
  | [] => exact .nil
  | (k, v) :: r =>
    have hr : ∀ q, DictAt r q → ¬ w (p ++ q) := by
      intro q hq
      apply h
      cases hq with
      | here h => exact .here (List.mem_cons_of_mem _ h)
      | list h h1 h2 => exact .list (List.mem_cons_of_mem _ h) h1 h2
      | dict h h1 => exact .dict (List.mem_cons_of_mem _ h) h1
    refine .cons ?_ (wrapped_same r hr)
    match v with
    | .leaf a => exact .leaf
    | .obj fs =>
      refine .dict (h _ (.here List.mem_cons_self)) (wrapped_same fs ?_)
      intro q hq
      have := h _ (.dict List.mem_cons_self hq)
      simpa using this
    | .arr l =>
      refine .list (wrappedItems_same l ?_)
      intro fs hf q hq
      have := h _ (.list List.mem_cons_self hf hq)
      simpa using this
termination_by sizeOf d
theorem wrappedItems_same {w : List Str → Prop} {p : List Str} (l : List Json) (h : ∀ fs, .obj fs ∈ l → ∀ q, DictAt fs q → ¬ w (p ++ q)) :
    WrappedItems w p l l := by
  match l with
  | [] => exact .nil
  | .leaf a :: r => exact .leaf (wrappedItems_same r (fun fs hf => h fs (by simp [hf])))
  | .arr a :: r => exact .list (wrappedItems_same r (fun fs hf => h fs (by simp [hf])))
  | .obj fs :: r =>
    exact .dict (wrapped_same fs (h fs (by simp))) (wrappedItems_same r (fun fs hf => h fs (by simp [hf])))
termination_by sizeOf l
end

/-- C45: data in which no path has both is not changed. -/
theorem C45_unchanged (d : List (Str × Json)) (h : ∀ p, ¬ (ListAt d p ∧ DictAt d p)) : listDictConsistency d = d := by
  refine (C45_determined d d (wrapped_same d ?_)).symm
  intro q hq hl
  exact h q ⟨by simpa using hl, hq⟩

/-- C45: doing it again changes nothing. -/
theorem C45_twice (d : List (Str × Json)) : listDictConsistency (listDictConsistency d) = listDictConsistency d :=
  C45_unchanged _ (C45_consistent d)

/-- A concrete case: `b` is a list in the first `a` and a dict in the second, where it becomes a list; the dict `c` stays one. -/
example : listDictConsistency
      [(s%"a", .arr [.obj [(s%"b", .arr [.obj [], .obj []])], .obj [(s%"b", .obj [(s%"t", .leaf (.str s%"x"))]), (s%"c", .obj [])]])] =
    [(s%"a", .arr [.obj [(s%"b", .arr [.obj [], .obj []])],
      .obj [(s%"b", .arr [.obj [(s%"t", .leaf (.str s%"x"))]]), (s%"c", .obj [])]])] := by decide +kernel

/-- Only lists whose first item is a dict count (a repeated element whose first occurrence has only text is not seen):
here the second `b` stays a dict. -/
example : listDictConsistency
      [(s%"a", .arr [.obj [(s%"b", .arr [.leaf (.str s%"x"), .obj []])], .obj [(s%"b", .obj [])]])] =
    [(s%"a", .arr [.obj [(s%"b", .arr [.leaf (.str s%"x"), .obj []])], .obj [(s%"b", .obj [])]])] := by decide +kernel

end Verif

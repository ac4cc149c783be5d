import Verif.Proofs.Paths
/-! The order of the paths in source maps. -/
namespace Verif
open Spec

theorem strLt_lt {a b : Str} (h : strLt a b = true) : NameLt a b := by
  induction a generalizing b with
  | nil => cases b <;> simp_all [strLt, NameLt]
  | cons x xs ih =>
    cases b with
    | nil => simp [strLt] at h
    | cons y ys =>
      rw [strLt] at h
      split at h
      · next e => exact .inr ⟨e, ih h⟩
      · exact .inl (of_decide_eq_true h)

theorem strLt_not {a b : Str} (h : strLt a b = false) (hne : a ≠ b) : NameLt b a := by
  induction a generalizing b with
  | nil => cases b <;> simp_all [strLt]
  | cons x xs ih =>
    cases b with
    | nil => trivial
    | cons y ys =>
      rw [strLt] at h
      split at h
      · next e => subst e; exact .inr ⟨rfl, ih h (fun e => hne (by rw [e]))⟩
      · next e =>
        have := of_decide_eq_false h
        have hn : x.toNat ≠ y.toNat := fun hh => e (Char.ext (UInt32.toNat_inj.1 hh))
        exact .inl (by omega)

theorem name_lt_trans {a b c : Str} (h1 : NameLt a b) (h2 : NameLt b c) : NameLt a c := by
  induction a generalizing b c with
  | nil =>
    cases b with
    | nil => exact h1.elim
    | cons y ys =>
      cases c with
      | nil => exact h2.elim
      | cons _ _ => trivial
  | cons x xs ih =>
    cases b with
    | nil => exact h1.elim
    | cons y ys =>
      cases c with
      | nil => exact h2.elim
      | cons z zs =>
        rcases h1 with h1 | ⟨rfl, h1⟩ <;> rcases h2 with h2 | ⟨rfl, h2⟩
        · exact .inl (by omega)
        · exact .inl h1
        · exact .inl h2
        · exact .inr ⟨rfl, ih h1 h2⟩

theorem stepLt_trans {a b c : PStep} (h1 : StepLt a b) (h2 : StepLt b c) : StepLt a c := by
  cases a <;> cases b <;> cases c <;> simp only [StepLt] at h1 h2 ⊢
  · exact name_lt_trans h1 h2
  · omega

theorem pathLt_trans {a b c : List PStep} (h1 : PathLt a b) (h2 : PathLt b c) : PathLt a c := by
  induction a generalizing b c with
  | nil =>
    cases b with
    | nil => exact h1.elim
    | cons y ys =>
      cases c with
      | nil => exact h2.elim
      | cons _ _ => trivial
  | cons x xs ih =>
    cases b with
    | nil => exact h1.elim
    | cons y ys =>
      cases c with
      | nil => exact h2.elim
      | cons z zs =>
        rcases h1 with h1 | ⟨rfl, h1⟩ <;> rcases h2 with h2 | ⟨rfl, h2⟩
        · exact .inl (stepLt_trans h1 h2)
        · exact .inl h1
        · exact .inl h2
        · exact .inr ⟨rfl, ih h1 h2⟩

theorem name_lt_irrefl (a : Str) : ¬ NameLt a a := by
  induction a with
  | nil => exact id
  | cons x xs ih => rintro (h | ⟨-, h⟩); exact absurd h (Nat.lt_irrefl _); exact ih h

theorem pathLt_cancel {pre p q : List PStep} (h : PathLt (pre ++ p) (pre ++ q)) : PathLt p q := by
  induction pre with
  | nil => exact h
  | cons x xs ih =>
    rcases h with h | ⟨-, h⟩
    · cases x with
      | key s => exact absurd h (name_lt_irrefl s)
      | idx i => exact absurd h (Nat.lt_irrefl i)
    · exact ih h

theorem pathLt_lt {p q : List PStep} (h : pathLt p q = .ok true) : PathLt p q := by
  induction p generalizing q with
  | nil => cases q <;> simp_all [pathLt, PathLt]
  | cons x xs ih =>
    cases q with
    | nil => simp [pathLt] at h
    | cons y ys =>
      unfold pathLt at h
      split at h
      · next e => exact .inr ⟨e, ih h⟩
      · split at h
        · injection h with h; exact .inl (strLt_lt h)
        · next i j _ => injection h with h; exact .inl (show i < j from of_decide_eq_true h)
        · cases h

theorem pathLt_not {p q : List PStep} (h : pathLt p q = .ok false) (hne : p ≠ q) : PathLt q p := by
  induction p generalizing q with
  | nil => cases q <;> simp_all [pathLt]
  | cons x xs ih =>
    cases q with
    | nil => trivial
    | cons y ys =>
      unfold pathLt at h
      split at h
      · next e => subst e; exact .inr ⟨rfl, ih h (fun e => hne (by rw [e]))⟩
      · next e =>
        split at h
        · injection h with h; exact .inl (strLt_not h (fun e' => e (by rw [e'])))
        · next i j =>
          injection h with h
          have := of_decide_eq_false h
          have hn : i ≠ j := fun e' => e (by rw [e'])
          exact .inl (show j < i by omega)
        · cases h

theorem insertPath_sorted {x : List PStep × List Loc} {l l' : PMap} (hl : (l.map (·.1)).Pairwise PathLt) (hx : ∀ y ∈ l, y.1 ≠ x.1)
    (h : insertPath x l = .ok l') : (l'.map (·.1)).Pairwise PathLt ∧ ∀ y, y ∈ l' ↔ y = x ∨ y ∈ l := by
  induction l generalizing l' with
  | nil => simp only [insertPath] at h; injection h with h; subst h; simp
  | cons y r ih =>
    rw [List.map_cons, List.pairwise_cons] at hl
    rw [insertPath] at h
    split at h
    · cases h
    · next hlt =>
      split at h
      · cases h
      · next r' hr =>
        injection h with h; subst h
        obtain ⟨h1, h2⟩ := ih hl.2 (fun z hz => hx z (by simp [hz])) hr
        constructor
        · rw [List.map_cons, List.pairwise_cons]
          refine ⟨fun p hp => ?_, h1⟩
          obtain ⟨z, hz, rfl⟩ := List.mem_map.1 hp
          rcases (h2 z).1 hz with rfl | hz
          · exact pathLt_lt hlt
          · exact hl.1 _ (List.mem_map_of_mem hz)
        · intro z
          rw [List.mem_cons, h2, List.mem_cons]
          exact ⟨fun h => h.elim (fun h => .inr (.inl h)) (fun h => h.elim .inl (fun h => .inr (.inr h))),
            fun h => h.elim (fun h => .inr (.inl h)) (fun h => h.elim .inl (fun h => .inr (.inr h)))⟩
    · next hlt =>
      injection h with h; subst h
      have hxy : PathLt x.1 y.1 := pathLt_not hlt (hx y (by simp))
      refine ⟨?_, fun z => by rw [List.mem_cons]⟩
      rw [List.map_cons, List.pairwise_cons]
      refine ⟨fun p hp => ?_, by rw [List.map_cons, List.pairwise_cons]; exact hl⟩
      rw [List.map_cons] at hp
      rcases List.mem_cons.1 hp with rfl | hp
      · exact hxy
      · exact pathLt_trans hxy (hl.1 p hp)

theorem sortPaths_sorted {l l' : PMap} (h : AllSep l) (hs : sortPaths l = .ok l') : (l'.map (·.1)).Pairwise PathLt ∧ ∀ y, y ∈ l' ↔ y ∈ l := by
  induction l generalizing l' with
  | nil => simp only [sortPaths] at hs; injection hs with hs; subst hs; simp
  | cons x r ih =>
    obtain ⟨h1, h2⟩ := List.pairwise_cons.1 h
    rw [sortPaths] at hs
    split at hs
    · cases hs
    · next r' hr =>
      obtain ⟨h3, h4⟩ := ih h2 hr
      obtain ⟨h5, h6⟩ := insertPath_sorted h3 (fun y hy => (h1 y ((h4 y).1 hy)).symm.ne) hs
      exact ⟨h5, fun y => by rw [h6, h4, List.mem_cons]⟩

end Verif

import Verif.Model.Store
import Verif.Proofs.Dict
/-! C32: stored lines. -/
namespace Verif
open Store

/-- Specification: the lines added to sheet number `i`, in order; `n` sheets exist so far (adding
to a sheet that does not exist yet is impossible). -/
def Spec.addedTo {α : Type} (i : Nat) : Nat → List (Op α) → List α
  | _, [] => []
  | n, .create _ :: r => addedTo i (n + 1) r
  | n, .append j l :: r => if j = i ∧ j < n then l :: addedTo i n r else addedTo i n r
  | n, .commit :: r => addedTo i n r

/-- The names of the sheets created. -/
def Spec.createdNames {α : Type} : List (Op α) → List Str
  | [] => []
  | .create n :: r => n :: createdNames r
  | _ :: r => createdNames r

theorem btSet_end {α : Type} (t : IBTree α) (k : Nat) (v : α) (h : ∀ e ∈ t, e.1 < k) :
    btSet t k v = t ++ [(k, v)] := by
  induction t with
  | nil => rfl
  | cons e r ih =>
    obtain ⟨k', v'⟩ := e
    have := h (k', v') (by simp)
    simp only at this
    unfold btSet
    rw [if_neg (by omega), if_neg (by omega), ih (fun e he => h e (by simp [he]))]
    rfl

/-- Every sheet object's lines are stored under its name, numbered from 0. -/
structure StoreInv {α : Type} (s : State α) : Prop where
  nodup : (s.sheets.map (·.1)).Nodup
  stored : ∀ name idx, (name, idx) ∈ s.sheets → ∃ t, Dict.get s.store name = some t ∧
    (∀ e ∈ t, e.1 < idx)

theorem storeInv_append {α : Type} {s : State α} (h : StoreInv s) (i : Nat) (l : α) :
    StoreInv (step s (.append i l)) ∧ (step s (.append i l)).sheets.map (·.1) = s.sheets.map (·.1) ∧
    ∀ j, lines (step s (.append i l)) j =
      lines s j ++ (if i = j ∧ i < s.sheets.length then [l] else []) := by
  cases hi : s.sheets[i]? with
  | none =>
    have hstep : step s (.append i l) = s := by simp [step, hi]
    rw [hstep]
    refine ⟨h, rfl, ?_⟩
    intro j
    have : ¬ i < s.sheets.length := by simpa using hi
    simp [this]
  | some p =>
    obtain ⟨name, idx⟩ := p
    have hstep : step s (.append i l) =
        { store := Dict.set s.store name (btSet ((Dict.get s.store name).getD []) idx l),
          sheets := s.sheets.set i (name, idx + 1) } := by simp [step, hi]
    rw [hstep]
    obtain ⟨hlt, hget⟩ := List.getElem?_eq_some_iff.1 hi
    obtain ⟨t, ht, htk⟩ := h.stored name idx (List.mem_of_getElem? hi)
    have hmap : (s.sheets.set i (name, idx + 1)).map (·.1) = s.sheets.map (·.1) := by
      rw [List.map_set]
      have : name = (s.sheets.map (·.1))[i]'(by simpa using hlt) := by simp [hget]
      conv => lhs; rw [this]
      exact List.set_getElem_self _
    have huniq : ∀ j q, s.sheets[j]? = some q → q.1 = name → j = i := by
      intro j q hj hq
      obtain ⟨hjl, hjg⟩ := List.getElem?_eq_some_iff.1 hj
      have := (List.nodup_iff_pairwise_ne.1 h.nodup)
      have e : (s.sheets.map (·.1))[j]? = (s.sheets.map (·.1))[i]? := by
        simp [List.getElem?_map, hj, hi, hq]
      exact (List.getElem?_inj (by simpa using hjl) h.nodup).1 e
    refine ⟨⟨by simpa [hmap] using h.nodup, ?_⟩, hmap, ?_⟩
    · intro n k hm
      simp only at hm
      obtain ⟨j, hj⟩ := List.getElem?_of_mem hm
      rw [List.getElem?_set] at hj
      simp only [Dict.get_set]
      by_cases hji : i = j
      · subst hji
        simp [hlt] at hj
        obtain ⟨rfl, rfl⟩ := hj
        refine ⟨_, if_pos rfl, ?_⟩
        intro e he
        simp only [ht, Option.getD_some, btSet_end t idx l htk] at he
        rcases List.mem_append.1 he with he | he
        · have := htk e he; omega
        · simp at he; subst he; simp
      · simp only [hji, if_false] at hj
        have hn : name ≠ n := by
          rintro rfl
          exact hji (huniq j _ hj rfl).symm
        rw [if_neg hn]
        exact h.stored n k (List.mem_of_getElem? hj)
    · intro j
      unfold lines
      simp only [List.getElem?_set]
      by_cases hji : i = j
      · subst hji
        simp [hlt, hget, ht, btSet_end t idx l htk]
      · simp only [hji, if_false, false_and, List.append_nil]
        cases hj : s.sheets[j]? with
        | none => rfl
        | some q =>
          have hn : name ≠ q.1 := by
            intro e
            exact hji (huniq j q hj e.symm).symm
          simp [Dict.get_set_other _ _ hn]

theorem storeInv_create {α : Type} {s : State α} (h : StoreInv s) (n : Str)
    (hn : n ∉ s.sheets.map (·.1)) :
    StoreInv (step s (.create n)) ∧ ∀ j, lines (step s (.create n)) j = lines s j := by
  simp only [step]
  constructor
  · constructor
    · simp only [List.map_append, List.map_cons, List.map_nil]
      rw [List.nodup_append]
      refine ⟨h.nodup, by simp, ?_⟩
      intro a ha b hb
      simp at hb; subst hb
      rintro rfl; exact hn ha
    · intro name idx hm
      rcases List.mem_append.1 hm with hm | hm
      · obtain ⟨t, ht, htk⟩ := h.stored name idx hm
        have : n ≠ name := by
          rintro rfl; exact hn (List.mem_map.2 ⟨_, hm, rfl⟩)
        exact ⟨t, by simp only; rw [Dict.get_set_other _ _ this]; exact ht, htk⟩
      · simp at hm
        obtain ⟨rfl, rfl⟩ := hm
        exact ⟨[], by simp, by simp⟩
  · intro j
    unfold lines
    simp only
    by_cases hj : j < s.sheets.length
    · rw [List.getElem?_append_left hj]
      cases hq : s.sheets[j]? with
      | none => rfl
      | some q =>
        have : n ≠ q.1 := by
          intro e; exact hn (List.mem_map.2 ⟨q, List.mem_of_getElem? hq, e.symm⟩)
        simp [Dict.get_set_other _ _ this]
    · have h1 : s.sheets[j]? = none := by simp; omega
      rw [h1]
      by_cases hj2 : j = s.sheets.length
      · subst hj2; simp
      · have : (s.sheets ++ [(n, 0)])[j]? = none := by simp; omega
        rw [this]

theorem store_run {α : Type} (ops : List (Op α)) (s : State α) (h : StoreInv s)
    (hn : (s.sheets.map (·.1) ++ Spec.createdNames ops).Nodup) (i : Nat) :
    lines (ops.foldl step s) i = lines s i ++ Spec.addedTo i s.sheets.length ops := by
  induction ops generalizing s with
  | nil => simp [Spec.addedTo]
  | cons op r ih =>
    rw [List.foldl_cons]
    cases op with
    | commit => exact ih s h hn
    | create n =>
      have hmem : n ∉ s.sheets.map (·.1) := by
        intro hm
        rw [Spec.createdNames, List.nodup_append] at hn
        exact hn.2.2 n hm n (by simp) rfl
      obtain ⟨h1, h2⟩ := storeInv_create h n hmem
      rw [ih _ h1, h2]
      · simp [step, Spec.addedTo]
      · simp only [step, List.map_append, List.map_cons, List.map_nil, List.append_assoc, List.singleton_append]
        exact hn
    | append j l =>
      obtain ⟨h1, h2, h3⟩ := storeInv_append h j l
      rw [ih _ h1, h3]
      · have hlen : (step s (.append j l)).sheets.length = s.sheets.length := by
          have := congrArg List.length h2; simpa using this
        rw [hlen, Spec.addedTo]
        by_cases hc : j = i ∧ j < s.sheets.length
        · rw [if_pos hc, if_pos hc]; simp
        · rw [if_neg hc, if_neg hc]; simp
      · rw [h2]; exact hn

/-- **C32.** After any sequence of sheet creations, line additions and commits, with distinct
sheet names, every sheet's lines are exactly those added to it, in order. -/
theorem C32_lines_complete_and_in_order {α : Type} (ops : List (Op α))
    (hn : (Spec.createdNames ops).Nodup) (i : Nat) :
    lines (run ops) i = Spec.addedTo i 0 ops := by
  have := store_run ops ({} : State α) ⟨by simp, by simp⟩ (by simpa using hn) i
  simpa [run, lines] using this

example : lines (run [.create s%"a", .append 0 1, .create s%"b", .commit, .append 1 2, .append 0 3]) 0 = [1, 3] := rfl
/-- The names must be distinct: creating a second sheet with the same name empties the first. -/
example : lines (run [.create s%"a", .append 0 1, .create s%"a"]) 0 = [] := rfl

end Verif

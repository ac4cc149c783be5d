import Verif.Py.Str
/-! Lemmas on ordered dictionaries. -/
namespace Verif.Dict
variable {κ : Type} {α : Type} [DecidableEq κ]

@[simp] theorem get_nil (k : κ) : get ([] : List (κ × α)) k = none := rfl

theorem get_cons (k' k : κ) (v : α) (r : List (κ × α)) :
    get ((k', v) :: r) k = if k' = k then some v else get r k := by
  unfold get; rw [List.find?_cons]; by_cases h : k' = k <;> simp [h]

@[simp] theorem get_set_same (d : List (κ × α)) (k : κ) (v : α) : get (set d k v) k = some v := by
  induction d with
  | nil => simp [set, get_cons]
  | cons e r ih =>
    obtain ⟨k', v'⟩ := e
    simp only [set]; split
    · next h => simp [get_cons, h]
    · next h => simp [get_cons, h, ih]

theorem get_set_other (d : List (κ × α)) {k k' : κ} (v : α) (h : k ≠ k') :
    get (set d k v) k' = get d k' := by
  induction d with
  | nil => simp [set, get_cons, h]
  | cons e r ih =>
    obtain ⟨j, v'⟩ := e
    simp only [set]; split
    · next hj => subst hj; simp [get_cons, h]
    · next hj => simp only [get_cons, ih]

theorem get_set (d : List (κ × α)) (k k' : κ) (v : α) :
    get (set d k v) k' = if k = k' then some v else get d k' := by
  by_cases h : k = k'
  · subst h; simp
  · simp [h, get_set_other]

theorem set_of_get_none (d : List (κ × α)) (k : κ) (v : α) (h : get d k = none) :
    set d k v = d ++ [(k, v)] := by
  induction d with
  | nil => rfl
  | cons e r ih =>
    obtain ⟨j, w⟩ := e
    rw [get_cons] at h
    by_cases hj : j = k
    · simp [hj] at h
    · simp [hj] at h; simp [set, hj, ih h]

theorem get_eq_some_mem {d : List (κ × α)} {k : κ} {v : α} (h : get d k = some v) : (k, v) ∈ d := by
  induction d with
  | nil => simp at h
  | cons e r ih =>
    obtain ⟨j, w⟩ := e
    rw [get_cons] at h
    by_cases hj : j = k
    · subst hj; simp at h; simp [h]
    · simp [hj] at h; simp [ih h]

theorem get_none_iff {d : List (κ × α)} {k : κ} : get d k = none ↔ k ∉ keys d := by
  induction d with
  | nil => simp [keys]
  | cons e r ih =>
    obtain ⟨j, w⟩ := e
    rw [get_cons]
    by_cases hj : j = k
    · simp [hj, keys]
    · simp only [keys] at ih
      simp only [hj, if_false, ih, keys, List.map_cons, List.mem_cons, not_or]
      exact ⟨fun h => ⟨fun e => hj e.symm, h⟩, fun h => h.2⟩

theorem get_isSome_iff {d : List (κ × α)} {k : κ} : (get d k).isSome ↔ k ∈ keys d := by
  have := @get_none_iff κ α _ d k
  cases h : get d k <;> simp_all

theorem has_iff {d : List (κ × α)} {k : κ} : has d k = true ↔ k ∈ keys d := get_isSome_iff

theorem get_of_mem {d : List (κ × α)} {k : κ} {v : α} (hn : (keys d).Nodup) (h : (k, v) ∈ d) :
    get d k = some v := by
  induction d with
  | nil => simp at h
  | cons e r ih =>
    obtain ⟨j, w⟩ := e
    rw [get_cons]
    simp only [keys, List.map_cons, List.nodup_cons] at hn
    rcases List.mem_cons.1 h with h | h
    · cases h; simp
    · have : j ≠ k := by
        rintro rfl; exact hn.1 (List.mem_map_of_mem (f := (·.1)) h)
      simp [this, ih hn.2 h]

theorem keys_set (d : List (κ × α)) (k : κ) (v : α) :
    keys (set d k v) = if k ∈ keys d then keys d else keys d ++ [k] := by
  induction d with
  | nil => simp [set, keys]
  | cons e r ih =>
    obtain ⟨j, w⟩ := e
    simp only [set]
    by_cases hj : j = k
    · simp [hj, keys]
    · simp only [hj, if_false]
      simp only [keys, List.map_cons] at ih ⊢
      rw [ih]
      by_cases hk : k ∈ r.map (·.1)
      · simp [hk]
      · simp [hk, Ne.symm hj]

theorem mem_keys_set {d : List (κ × α)} {k k' : κ} {v : α} :
    k' ∈ keys (set d k v) ↔ k' = k ∨ k' ∈ keys d := by
  rw [keys_set]; split
  · next h =>
    constructor
    · exact Or.inr
    · rintro (rfl | h') <;> assumption
  · simp [or_comm]

theorem nodup_keys_set {d : List (κ × α)} (k : κ) (v : α) (h : (keys d).Nodup) :
    (keys (set d k v)).Nodup := by
  rw [keys_set]; split
  · exact h
  · next hk => 
    rw [List.nodup_append]; refine ⟨h, by simp, ?_⟩
    intro a ha b hb; simp at hb; subst hb; rintro rfl; exact hk ha

theorem mem_set {d : List (κ × α)} {k k' : κ} {v v' : α} (h : (k', v') ∈ set d k v) :
    (k' = k ∧ v' = v) ∨ (k', v') ∈ d := by
  induction d with
  | nil => simp [set] at h; exact Or.inl h
  | cons e r ih =>
    obtain ⟨j, w⟩ := e
    simp only [set] at h
    by_cases hj : j = k
    · simp only [hj, if_true, List.mem_cons] at h
      rcases h with h | h
      · cases h; exact Or.inl ⟨rfl, rfl⟩
      · exact Or.inr (List.mem_cons_of_mem _ h)
    · simp only [hj, if_false, List.mem_cons] at h
      rcases h with h | h
      · cases h; exact Or.inr (by simp)
      · rcases ih h with h | h
        · exact Or.inl h
        · exact Or.inr (List.mem_cons_of_mem _ h)

/-- `d.update(e)` looks up the last entry of `e`, else `d`. -/
theorem get_update (d e : List (κ × α)) (k : κ) :
    get (update d e) k = (get e.reverse k).or (get d k) := by
  unfold update
  induction e generalizing d with
  | nil => simp
  | cons x r ih =>
    obtain ⟨j, w⟩ := x
    simp only [List.foldl_cons, ih, get_set]
    have : ∀ l : List (κ × α), get (l ++ [(j, w)]) k = (get l k).or (if j = k then some w else none) := by
      intro l
      induction l with
      | nil => simp [get_cons]
      | cons y l ih => obtain ⟨a, b⟩ := y; simp only [List.cons_append, get_cons, ih]; split <;> simp
    rw [List.reverse_cons, this]
    cases get r.reverse k <;> by_cases h : j = k <;> simp [h]

theorem nodup_keys_update {d : List (κ × α)} (e : List (κ × α)) (h : (keys d).Nodup) :
    (keys (update d e)).Nodup := by
  unfold update
  induction e generalizing d with
  | nil => simpa
  | cons x r ih => exact ih (nodup_keys_set _ _ h)

theorem get_append (d e : List (κ × α)) (k : κ) : get (d ++ e) k = (get d k).or (get e k) := by
  induction d with
  | nil => simp
  | cons y l ih => obtain ⟨a, b⟩ := y; simp only [List.cons_append, get_cons, ih]; split <;> simp

omit [DecidableEq κ] in
theorem mem_keys_of_mem {d : List (κ × α)} {k : κ} {v : α} (h : (k, v) ∈ d) : k ∈ keys d :=
  List.mem_map_of_mem (f := (·.1)) h

theorem get_map {β : Type} (f : α → β) (d : List (κ × α)) (k : κ) :
    get (d.map (fun p => (p.1, f p.2))) k = (get d k).map f := by
  induction d with
  | nil => rfl
  | cons y l ih => obtain ⟨a, b⟩ := y; simp only [List.map_cons, get_cons, ih]; split <;> simp

omit [DecidableEq κ] in
theorem keys_append (d e : List (κ × α)) : keys (d ++ e) = keys d ++ keys e := by simp [keys]

theorem mem_keys_update {d e : List (κ × α)} {k : κ} :
    k ∈ keys (update d e) ↔ k ∈ keys d ∨ k ∈ keys e := by
  unfold update
  induction e generalizing d with
  | nil => simp [keys]
  | cons x r ih =>
    rw [List.foldl_cons, ih, mem_keys_set]; simp only [keys, List.map_cons, List.mem_cons]; grind

theorem get_reverse {d : List (κ × α)} (h : (keys d).Nodup) (k : κ) : get d.reverse k = get d k := by
  cases hg : get d k with
  | none =>
    rw [get_none_iff] at hg ⊢; simpa [keys] using hg
  | some v =>
    apply get_of_mem
    · rw [show keys d.reverse = (keys d).reverse by simp [keys]]; exact List.pairwise_reverse.2 (List.Pairwise.imp (fun h => Ne.symm h) h)
    · simpa using get_eq_some_mem hg

end Verif.Dict

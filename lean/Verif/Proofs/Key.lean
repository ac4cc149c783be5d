import Verif.Model.Merge
import Verif.Proofs.Dict
/-! Lemmas on Python equality and dictionaries with cell values as keys. -/
namespace Verif

theorem Val.pyEq_symm {a b : Val} (h : a.pyEq b = true) : b.pyEq a = true := by
  unfold Val.pyEq at *
  cases ha : a.canon <;> cases hb : b.canon <;> simp_all

theorem Val.pyEq_comm (a b : Val) : a.pyEq b = b.pyEq a := by
  cases h : a.pyEq b
  · cases h' : b.pyEq a
    · rfl
    · rw [Val.pyEq_symm h'] at h; exact absurd h (by simp)
  · exact (Val.pyEq_symm h).symm

theorem Val.pyEq_trans {a b c : Val} (h : a.pyEq b = true) (h' : b.pyEq c = true) : a.pyEq c = true := by
  unfold Val.pyEq at *
  cases ha : a.canon <;> cases hb : b.canon <;> cases hc : c.canon <;> simp_all

theorem Val.pyEq_congr {a b : Val} (h : a.pyEq b = true) (c : Val) : a.pyEq c = b.pyEq c := by
  cases h1 : b.pyEq c
  · cases h2 : a.pyEq c
    · rfl
    · rw [Val.pyEq_trans (Val.pyEq_symm h) h2] at h1; exact absurd h1 (by simp)
  · exact Val.pyEq_trans h h1

theorem Val.pyEq_congr_right {a b : Val} (h : a.pyEq b = true) (c : Val) : c.pyEq a = c.pyEq b := by
  rw [Val.pyEq_comm c a, Val.pyEq_comm c b, Val.pyEq_congr h]

theorem Val.pyEq_left {a b : Val} (h : a.pyEq b = true) : a.pyEq a = true :=
  Val.pyEq_trans h (Val.pyEq_symm h)

theorem Val.pyEq_right {a b : Val} (h : a.pyEq b = true) : b.pyEq b = true :=
  Val.pyEq_trans (Val.pyEq_symm h) h

variable {α : Type}

@[simp] theorem keyGet_nil (k : Val) : keyGet ([] : List (Val × α)) k = none := rfl

theorem keyGet_cons (k' k : Val) (v : α) (r : List (Val × α)) :
    keyGet ((k', v) :: r) k = if k'.pyEq k = true then some v else keyGet r k := by
  unfold keyGet; rw [List.find?_cons]; by_cases h : k'.pyEq k = true <;> simp [h]

theorem keyGet_keySet (d : List (Val × α)) (k k' : Val) (v : α) :
    keyGet (keySet d k v) k' = if k.pyEq k' = true then some v else keyGet d k' := by
  induction d with
  | nil => simp [keySet, keyGet_cons]
  | cons e r ih =>
    obtain ⟨k1, v1⟩ := e
    simp only [keySet]
    by_cases h : k1.pyEq k = true
    · rw [if_pos h, keyGet_cons, keyGet_cons, Val.pyEq_congr h]
      by_cases h2 : k.pyEq k' = true <;> simp [h2]
    · rw [if_neg h, keyGet_cons, keyGet_cons, ih]
      by_cases h2 : k.pyEq k' = true
      · have : ¬ k1.pyEq k' = true := by
          intro h3; exact h (Val.pyEq_trans h3 (Val.pyEq_symm h2))
        simp [h2, this]
      · simp [h2]

theorem keyGet_congr {k k' : Val} (h : k.pyEq k' = true) (d : List (Val × α)) :
    keyGet d k = keyGet d k' := by
  induction d with
  | nil => rfl
  | cons e r ih =>
    obtain ⟨k1, v1⟩ := e
    rw [keyGet_cons, keyGet_cons, ih, Val.pyEq_congr_right h]

theorem keyGet_append (d e : List (Val × α)) (k : Val) :
    keyGet (d ++ e) k = (keyGet d k).or (keyGet e k) := by
  induction d with
  | nil => simp
  | cons y l ih => obtain ⟨a, b⟩ := y; simp only [List.cons_append, keyGet_cons, ih]; split <;> simp

theorem keySet_of_none {d : List (Val × α)} {k : Val} (v : α) (h : keyGet d k = none) :
    keySet d k v = d ++ [(k, v)] := by
  induction d with
  | nil => rfl
  | cons e r ih =>
    obtain ⟨j, w⟩ := e
    rw [keyGet_cons] at h
    by_cases hj : j.pyEq k = true
    · simp [hj] at h
    · simp [hj] at h; simp [keySet, hj, ih h]

theorem keyGet_some_mem {d : List (Val × α)} {k : Val} {v : α} (h : keyGet d k = some v) :
    ∃ k', (k', v) ∈ d ∧ k'.pyEq k = true := by
  induction d with
  | nil => simp at h
  | cons e r ih =>
    obtain ⟨j, w⟩ := e
    rw [keyGet_cons] at h
    by_cases hj : j.pyEq k = true
    · simp [hj] at h; exact ⟨j, by simp [h], hj⟩
    · simp [hj] at h; obtain ⟨k', h1, h2⟩ := ih h; exact ⟨k', by simp [h1], h2⟩

/-- Keys pairwise different in the sense of Python `==`. -/
def KeysDistinct (d : List (Val × α)) : Prop :=
  d.Pairwise (fun a b => ¬ a.1.pyEq b.1 = true)

theorem keyGet_of_mem {d : List (Val × α)} (hd : KeysDistinct d) {k k' : Val} {v : α} (h : (k, v) ∈ d)
    (hk : k.pyEq k' = true) : keyGet d k' = some v := by
  induction d with
  | nil => simp at h
  | cons e r ih =>
    obtain ⟨j, w⟩ := e
    rw [keyGet_cons]
    have hd' := List.pairwise_cons.1 hd
    rcases List.mem_cons.1 h with h | h
    · cases h; simp [hk]
    · have : ¬ j.pyEq k' = true := by
        intro h2; exact hd'.1 _ h (Val.pyEq_trans h2 (Val.pyEq_symm hk))
      simp [this, ih hd'.2 h]

theorem keyGet_none_iff {d : List (Val × α)} {k : Val} :
    keyGet d k = none ↔ ∀ e ∈ d, ¬ e.1.pyEq k = true := by
  induction d with
  | nil => simp
  | cons e r ih =>
    obtain ⟨j, w⟩ := e
    rw [keyGet_cons]
    by_cases hj : j.pyEq k = true <;> simp [hj, ih]

theorem mem_keySet {d : List (Val × α)} {k : Val} {v : α} {e : Val × α} (h : e ∈ keySet d k v) :
    (e.2 = v ∧ (e.1 = k ∨ e.1.pyEq k = true)) ∨ e ∈ d := by
  induction d with
  | nil => simp [keySet] at h; subst h; simp
  | cons x r ih =>
    obtain ⟨j, w⟩ := x
    simp only [keySet] at h
    by_cases hj : j.pyEq k = true
    · simp only [hj, if_true, List.mem_cons] at h
      rcases h with h | h
      · subst h; simp [hj]
      · right; simp [h]
    · rw [if_neg hj] at h
      rcases List.mem_cons.1 h with h | h
      · right; simp [h]
      · rcases ih h with h | h
        · exact Or.inl h
        · right; simp [h]

theorem keySet_fst_mem {d : List (Val × α)} {k : Val} {v : α} {e : Val × α} (h : e ∈ keySet d k v) :
    e.1 = k ∨ ∃ e' ∈ d, e'.1 = e.1 := by
  induction d with
  | nil => simp [keySet] at h; subst h; simp
  | cons x r ih =>
    obtain ⟨j, w⟩ := x
    simp only [keySet] at h
    by_cases hj : j.pyEq k = true
    · simp only [hj, if_true, List.mem_cons] at h
      rcases h with h | h
      · subst h; exact Or.inr ⟨(j, w), by simp, rfl⟩
      · exact Or.inr ⟨e, by simp [h], rfl⟩
    · rw [if_neg hj] at h
      rcases List.mem_cons.1 h with h | h
      · exact Or.inr ⟨(j, w), by simp, by rw [h]⟩
      · rcases ih h with h | ⟨e', h1, h2⟩
        · exact Or.inl h
        · exact Or.inr ⟨e', by simp [h1], h2⟩

theorem keysDistinct_keySet {d : List (Val × α)} (hd : KeysDistinct d) (k : Val) (v : α) :
    KeysDistinct (keySet d k v) := by
  induction d with
  | nil => simp [keySet, KeysDistinct]
  | cons x r ih =>
    obtain ⟨j, w⟩ := x
    have hd' := List.pairwise_cons.1 hd
    simp only [keySet]
    by_cases hj : j.pyEq k = true
    · simp only [hj, if_true]
      exact List.pairwise_cons.2 ⟨hd'.1, hd'.2⟩
    · rw [if_neg hj]
      refine List.pairwise_cons.2 ⟨?_, ih hd'.2⟩
      intro e he
      rcases keySet_fst_mem he with h | ⟨e', h1, h2⟩
      · rw [h]; exact hj
      · rw [← h2]; exact hd'.1 e' h1

/-- `keySet` on an existing key keeps the list's shape. -/
theorem keySet_of_some {d : List (Val × α)} {k : Val} {old : α} (v : α) (h : keyGet d k = some old) :
    ∃ a k' b, d = a ++ (k', old) :: b ∧ keySet d k v = a ++ (k', v) :: b ∧ k'.pyEq k = true := by
  induction d with
  | nil => simp at h
  | cons e r ih =>
    obtain ⟨j, w⟩ := e
    rw [keyGet_cons] at h
    by_cases hj : j.pyEq k = true
    · simp [hj] at h; subst h
      exact ⟨[], j, r, rfl, by simp [keySet, hj], hj⟩
    · simp [hj] at h
      obtain ⟨a, k', b, h1, h2, h3⟩ := ih h
      exact ⟨(j, w) :: a, k', b, by simp [h1], by simp [keySet, hj, h2], h3⟩

theorem Dict.set_of_some {κ : Type} [DecidableEq κ] {d : List (κ × α)} {k : κ} {old : α} (v : α)
    (h : Dict.get d k = some old) :
    ∃ a b, d = a ++ (k, old) :: b ∧ Dict.set d k v = a ++ (k, v) :: b := by
  induction d with
  | nil => simp at h
  | cons e r ih =>
    obtain ⟨j, w⟩ := e
    rw [Dict.get_cons] at h
    by_cases hj : j = k
    · simp [hj] at h; subst h hj
      exact ⟨[], r, rfl, by simp [Dict.set]⟩
    · simp [hj] at h
      obtain ⟨a, b, h1, h2⟩ := ih h
      exact ⟨(j, w) :: a, b, by simp [h1], by simp [Dict.set, hj, h2]⟩

end Verif

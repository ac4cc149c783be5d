import Verif.Model.Unflatten
/-! Induction principles for the nested tree types. -/
namespace Verif

theorem Json.ind {motive : Json → Prop} (leaf : ∀ a, motive (.leaf a))
    (obj : ∀ fs, (∀ e ∈ fs, motive e.2) → motive (.obj fs))
    (arr : ∀ is, (∀ j ∈ is, motive j) → motive (.arr is)) (j : Json) : motive j :=
  Json.rec (motive_1 := motive) (motive_2 := fun fs => ∀ e ∈ fs, motive e.2)
    (motive_3 := fun is => ∀ j ∈ is, motive j) (motive_4 := fun e => motive e.2)
    leaf obj arr (by simp)
    (by intro e r h1 h2 x hx; exact (List.mem_cons.1 hx).elim (fun h => h ▸ h1) (h2 x))
    (by simp)
    (by intro e r h1 h2 x hx; exact (List.mem_cons.1 hx).elim (fun h => h ▸ h1) (h2 x))
    (by intro a b h; exact h) j

theorem Tree.ind {motive : Tree → Prop} (cell : ∀ c, motive (.cell c))
    (obj : ∀ fs, (∀ e ∈ fs, motive e.2) → motive (.obj fs))
    (tmp : ∀ keyed rest, (∀ x ∈ keyed, ∀ e ∈ x.2, motive e.2) → (∀ x ∈ rest, ∀ e ∈ x, motive e.2) →
      motive (.tmp keyed rest)) (t : Tree) : motive t := by
  refine Tree.rec (motive_1 := motive) (motive_2 := fun fs => ∀ e ∈ fs, motive e.2)
    (motive_3 := fun ks => ∀ x ∈ ks, ∀ e ∈ x.2, motive e.2) (motive_4 := fun is => ∀ x ∈ is, ∀ e ∈ x, motive e.2)
    (motive_5 := fun e => motive e.2) (motive_6 := fun x => ∀ e ∈ x.2, motive e.2)
    ?_ ?_ ?_ ?_ ?_ ?_ ?_ ?_ ?_ ?_ ?_ t
  · exact cell
  · exact obj
  · exact tmp
  · simp
  · intro e r h1 h2 x hx; exact (List.mem_cons.1 hx).elim (fun h => h ▸ h1) (h2 x)
  · simp
  · intro e r h1 h2 x hx; exact (List.mem_cons.1 hx).elim (fun h => h ▸ h1) (h2 x)
  · simp
  · intro e r h1 h2 x hx; exact (List.mem_cons.1 hx).elim (fun h => h ▸ h1) (h2 x)
  · intro a b h; exact h
  · intro a b h; exact h

theorem CTree.ind {motive : CTree → Prop} (cell : ∀ c, motive (.cell c))
    (obj : ∀ fs, (∀ e ∈ fs, motive e.2) → motive (.obj fs))
    (list : ∀ is, (∀ x ∈ is, ∀ e ∈ x, motive e.2) → motive (.list is)) (t : CTree) : motive t := by
  refine CTree.rec (motive_1 := motive) (motive_2 := fun fs => ∀ e ∈ fs, motive e.2)
    (motive_3 := fun is => ∀ x ∈ is, ∀ e ∈ x, motive e.2)
    (motive_4 := fun e => motive e.2)
    ?_ ?_ ?_ ?_ ?_ ?_ ?_ ?_ t
  · exact cell
  · exact obj
  · exact list
  · simp
  · intro e r h1 h2 x hx; exact (List.mem_cons.1 hx).elim (fun h => h ▸ h1) (h2 x)
  · simp
  · intro e r h1 h2 x hx; exact (List.mem_cons.1 hx).elim (fun h => h ▸ h1) (h2 x)
  · intro a b h; exact h

theorem RTree.ind {motive : RTree → Prop} (cell : ∀ c, motive (.cell c))
    (obj : ∀ fs, (∀ e ∈ fs, motive e.2) → motive (.obj fs))
    (lad : ∀ is, (∀ x ∈ is, ∀ e ∈ x.2, motive e.2) → motive (.lad is)) (t : RTree) : motive t := by
  refine RTree.rec (motive_1 := motive) (motive_2 := fun fs => ∀ e ∈ fs, motive e.2)
    (motive_3 := fun is => ∀ x ∈ is, ∀ e ∈ x.2, motive e.2)
    (motive_4 := fun e => motive e.2) (motive_5 := fun x => ∀ e ∈ x.2, motive e.2)
    ?_ ?_ ?_ ?_ ?_ ?_ ?_ ?_ ?_ t
  · exact cell
  · exact obj
  · exact lad
  · simp
  · intro e r h1 h2 x hx; exact (List.mem_cons.1 hx).elim (fun h => h ▸ h1) (h2 x)
  · simp
  · intro e r h1 h2 x hx; exact (List.mem_cons.1 hx).elim (fun h => h ▸ h1) (h2 x)
  · intro a b h; exact h
  · intro a b h; exact h

theorem toLists_eq (fs : Fields) : toLists fs = fs.map (fun e => (e.1, treeToLists e.2)) := by
  induction fs with
  | nil => simp [toLists]
  | cons e r ih => obtain ⟨k, t⟩ := e; simp [toLists, ih]

theorem keyedToLists_eq (ks : List (Val × Fields)) : keyedToLists ks = ks.map (fun e => toLists e.2) := by
  induction ks with
  | nil => simp [keyedToLists]
  | cons e r ih => obtain ⟨k, t⟩ := e; simp [keyedToLists, ih]

theorem itemsToLists_eq (is : List Fields) : itemsToLists is = is.map toLists := by
  induction is with
  | nil => simp [itemsToLists]
  | cons e r ih => simp [itemsToLists, ih]

theorem toValue_eq (fs : List (Str × CTree)) : toValue fs = fs.map (fun e => (e.1, treeToValue e.2)) := by
  induction fs with
  | nil => simp [toValue]
  | cons e r ih => obtain ⟨k, t⟩ := e; simp [toValue, ih]

theorem listToValue_eq (is : List (List (Str × CTree))) : listToValue is = is.map (fun fs => Json.obj (toValue fs)) := by
  induction is with
  | nil => simp [listToValue]
  | cons e r ih => simp [listToValue, ih]

/-- The JSON of a tree, of fields, of an array. -/
def jv (t : Tree) : Json := treeToValue (treeToLists t)
def jf (fs : Fields) : List (Str × Json) := fs.map (fun e => (e.1, jv e.2))
def jobj (fs : Fields) : Json := .obj (jf fs)
def jtd (keyed : List (Val × Fields)) (rest : List Fields) : List Json :=
  keyed.map (fun e => jobj e.2) ++ rest.map jobj

theorem toValue_toLists (fs : Fields) : toValue (toLists fs) = jf fs := by
  rw [toLists_eq, toValue_eq, List.map_map]; rfl

@[simp] theorem jv_cell (c : Cell) : jv (.cell c) = c.value.toJson := by simp [jv, treeToLists, treeToValue]
@[simp] theorem jv_obj (fs : Fields) : jv (.obj fs) = .obj (jf fs) := by
  simp [jv, treeToLists, treeToValue, toValue_toLists]
@[simp] theorem jv_tmp (keyed : List (Val × Fields)) (rest : List Fields) :
    jv (.tmp keyed rest) = .arr (jtd keyed rest) := by
  simp only [jv, treeToLists, treeToValue, listToValue_eq, keyedToLists_eq, itemsToLists_eq, List.map_append,
    List.map_map, jtd]
  congr 2
  · apply List.map_congr_left; intro e _; simp [toValue_toLists, jobj]
  · apply List.map_congr_left; intro e _; simp [toValue_toLists, jobj]

theorem jtd_eq (keyed : List (Val × Fields)) (rest : List Fields) :
    listToValue (keyedToLists keyed ++ itemsToLists rest) = jtd keyed rest := by
  simp only [listToValue_eq, keyedToLists_eq, itemsToLists_eq, List.map_append, List.map_map, jtd]
  congr 1
  · apply List.map_congr_left; intro e _; simp [toValue_toLists, jobj]
  · apply List.map_congr_left; intro e _; simp [toValue_toLists, jobj]

/-- The JSON list of all groups. -/
def jgs (gs : Groups) : List Json := gs.flatMap (fun g => jtd g.2.keyed g.2.rest)

theorem jgs_eq (gs : Groups) : listToValue (groupsToList gs) = jgs gs := by
  unfold groupsToList jgs
  induction gs with
  | nil => simp [listToValue]
  | cons g r ih =>
    rw [List.flatMap_cons, List.flatMap_cons, ← ih, ← jtd_eq]
    simp only [listToValue_eq, List.map_append]

end Verif

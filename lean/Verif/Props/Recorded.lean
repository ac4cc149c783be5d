import Verif.Props.Additive
import Verif.Props.SourceMaps
/-! C51: the source map attributes every value to all the cells that give it. -/
namespace Verif
open Spec

theorem keysOn_key (k : Str) (p : List PStep) : keysOn (.key k :: p) = k :: keysOn p := rfl
theorem keysOn_idx (i : Nat) (p : List PStep) : keysOn (.idx i :: p) = keysOn p := rfl

/-- The cell gives a value of the tree: it is there, at a path with the same keys, with an equal value and this location; or it is reported. -/
def Given (W : List Warn) (cells : List (List PStep × Cell)) (e : List PStep × Cell) : Prop :=
  (∃ f ∈ cells, keysOn f.1 = keysOn e.1 ∧ EqualVal f.2.value e.2.value ∧ e.2.loc ∈ locations f.2) ∨ Ignored W e.2 ∨ ∃ field, Conflict W field e.2

mutual
theorem ignored_cells {W : List Warn} : ∀ t : CTree, AllIgnored W t → ∀ e ∈ cellsIn t, Ignored W e.2
  | .cell c, h, e, he => by
    simp only [cellsIn, List.mem_singleton] at he
    subst he; exact h
  | .obj fs, h, e, he => ignored_cellsF fs h e he
  | .list is, h, e, he => ignored_cellsI 0 is h e he
theorem ignored_cellsF {W : List Warn} : ∀ fs : List (Str × CTree), AllIgnoredFields W fs → ∀ e ∈ cellsInFields fs, Ignored W e.2
  | [], _, e, he => by simp [cellsInFields] at he
  | (k, t) :: r, h, e, he => by
    simp only [cellsInFields, List.mem_append, List.mem_map] at he
    rcases he with ⟨d, hd, rfl⟩ | he
    · exact ignored_cells t h.1 d hd
    · exact ignored_cellsF r h.2 e he
theorem ignored_cellsI {W : List Warn} : ∀ (i : Nat) (is : List (List (Str × CTree))), AllIgnoredItems W is → ∀ e ∈ cellsInItems i is, Ignored W e.2
  | _, [], _, e, he => by simp [cellsInItems] at he
  | i, x :: r, h, e, he => by
    simp only [cellsInItems, List.mem_append, List.mem_map] at he
    rcases he with ⟨d, hd, rfl⟩ | he
    · exact ignored_cellsF x h.1 d hd
    · exact ignored_cellsI (i + 1) r h.2 e he
end

theorem mem_cellsInFields {fs : List (Str × CTree)} {k : Str} {t : CTree} {e : List PStep × Cell} (h : Dict.get fs k = some t) (he : e ∈ cellsIn t) :
    under (.key k) e ∈ cellsInFields fs := by
  have := Dict.get_eq_some_mem h
  clear h
  induction fs with
  | nil => cases this
  | cons x r ih =>
    obtain ⟨k', t'⟩ := x
    rw [cellsInFields, List.mem_append]
    rcases List.mem_cons.1 this with h | h
    · cases h; exact Or.inl (List.mem_map_of_mem he)
    · exact Or.inr (ih h)

theorem mem_cellsInItems {is : List (List (Str × CTree))} {x : List (Str × CTree)} {e : List PStep × Cell} (h : x ∈ is) (he : e ∈ cellsInFields x) :
    ∀ i, ∃ j, under (.idx j) e ∈ cellsInItems i is := by
  induction is with
  | nil => cases h
  | cons y r ih =>
    intro i
    rw [cellsInItems]
    rcases List.mem_cons.1 h with rfl | h
    · exact ⟨i, List.mem_append_left _ (List.mem_map_of_mem he)⟩
    · obtain ⟨j, hj⟩ := ih h (i + 1)
      exact ⟨j, List.mem_append_right _ hj⟩

theorem cellsInItems_mem {is : List (List (Str × CTree))} {e : List PStep × Cell} : ∀ {i : Nat}, e ∈ cellsInItems i is →
    ∃ x ∈ is, ∃ d ∈ cellsInFields x, ∃ j, e = under (.idx j) d := by
  induction is with
  | nil => intro i h; simp [cellsInItems] at h
  | cons y r ih =>
    intro i h
    simp only [cellsInItems, List.mem_append, List.mem_map] at h
    rcases h with ⟨d, hd, rfl⟩ | h
    · exact ⟨y, by simp, d, hd, i, rfl⟩
    · obtain ⟨x, hx, hd⟩ := ih h
      exact ⟨x, by simp [hx], hd⟩

theorem Given.key {W : List Warn} {fs : List (Str × CTree)} {k : Str} {u : CTree} {e : List PStep × Cell} (hu : Dict.get fs k = some u)
    (h : Given W (cellsIn u) e) : Given W (cellsInFields fs) (under (.key k) e) := by
  rcases h with ⟨f, hf, h1, h2, h3⟩ | h
  · exact Or.inl ⟨under (.key k) f, mem_cellsInFields hu hf, by simp only [under, keysOn_key, h1], h2, h3⟩
  · exact Or.inr h

theorem Given.idx {W : List Warn} {is : List (List (Str × CTree))} {x : List (Str × CTree)} {e : List PStep × Cell} (hx : x ∈ is) (i j : Nat)
    (h : Given W (cellsInFields x) e) : Given W (cellsInItems i is) (under (.idx j) e) := by
  rcases h with ⟨f, hf, h1, h2, h3⟩ | h
  · obtain ⟨m, hm⟩ := mem_cellsInItems hx hf i
    exact Or.inl ⟨_, hm, by simp only [under, keysOn_idx, h1], h2, h3⟩
  · exact Or.inr h

mutual
theorem covered_given {n : Option Str} {xml : Bool} {W : List Warn} : ∀ (t : CTree) (key : Str) (u : CTree), Covered n xml W key t u →
    ∀ e ∈ cellsIn t, Given W (cellsIn u) e
  | .cell c, key, u, h, e, he => by
    simp only [cellsIn, List.mem_singleton] at he
    subst he
    rcases h with ⟨b, rfl, h1, h2⟩ | h | h
    · exact Or.inl ⟨([], b), by simp [cellsIn], rfl, h1, h2⟩
    · exact Or.inr (Or.inl h)
    · exact Or.inr (Or.inr ⟨_, h⟩)
  | .obj fs, key, u, h, e, he => by
    rcases h with ⟨gs, rfl, h⟩ | h
    · exact covered_givenF fs gs h e he
    · exact Or.inr (Or.inl (ignored_cellsF fs h e he))
  | .list is, key, u, h, e, he => by
    rcases h with ⟨js, rfl, h, hs⟩ | h
    · exact covered_givenI is js 0 h (fun x hx hid => (List.mem_filter.1 (hs.subset (List.mem_filter.2 ⟨hx, hid⟩))).1) e he
    · exact Or.inr (Or.inl (ignored_cellsI 0 is h e he))
theorem covered_givenF {n : Option Str} {xml : Bool} {W : List Warn} : ∀ (fs gs : List (Str × CTree)), CoveredFields n xml W fs gs →
    ∀ e ∈ cellsInFields fs, Given W (cellsInFields gs) e
  | [], _, _, e, he => by simp [cellsInFields] at he
  | (k, t) :: r, gs, h, e, he => by
    obtain ⟨⟨u, hu, hc⟩, h2⟩ := h
    simp only [cellsInFields, List.mem_append, List.mem_map] at he
    rcases he with ⟨d, hd, rfl⟩ | he
    · exact Given.key hu (covered_given t k u hc d hd)
    · exact covered_givenF r gs h2 e he
theorem covered_givenI {n : Option Str} {xml : Bool} {W : List Warn} : ∀ (is js : List (List (Str × CTree))) (i : Nat), CoveredItems n xml W is js →
    (∀ x ∈ is, (cellId n xml x).isNone = true → x ∈ js) → ∀ e ∈ cellsInItems i is, Given W (cellsInItems 0 js) e
  | [], _, _, _, _, e, he => by simp [cellsInItems] at he
  | x :: r, js, i, h, hs, e, he => by
    obtain ⟨hx, h2⟩ := h
    simp only [cellsInItems, List.mem_append, List.mem_map] at he
    rcases he with ⟨d, hd, rfl⟩ | he
    · cases hid : cellId n xml x with
      | none => exact Given.idx (hs x (by simp) (by simp [hid])) 0 i (Or.inl ⟨d, hd, rfl, Or.inl rfl, by simp [locations]⟩)
      | some k =>
        obtain ⟨y, hy, k', _, _, hc⟩ := hx k hid
        exact Given.idx hy 0 i (covered_givenF x y hc d hd)
    · exact covered_givenI r js (i + 1) h2 (fun x hx => hs x (by simp [hx])) e he
end

/-- Each row is covered by some object of the result. -/
theorem row_covered {cfg : UnCfg} {sheets : List SheetIn} {out : List (List (Str × CTree))} {w : List Warn}
    (h : doUnflatten cfg sheets = .ok (out, w)) {r : RowIn} (hr : r ∈ rowsIn sheets) :
    ∃ o' w', doUnflatten cfg [alone r] = .ok ([o'], w') ∧ ∃ o ∈ out, CoveredFields cfg.idName cfg.row.xml w o' o := by
  obtain ⟨xs, gs, mw, e1, e2, e3, -, e5⟩ := doUnflatten_ok h
  obtain ⟨ps, p1, p2, p3⟩ := rowsAlone_pairs e1
  rw [← p1] at hr
  subst p2
  obtain ⟨p, hp, rfl⟩ := List.mem_map.1 hr
  have hx := p3 p hp
  have hc : Counts p.1 := counts_rowsIn (by rw [← p1]; exact hr)
  obtain ⟨w2, hw2⟩ := alone_run hc hx (foldRows_each e2 p.2 (List.mem_map_of_mem hp))
  refine ⟨_, w2, hw2, ?_⟩
  have hwf := rowsAlone_wf e1
  have hwf' := (foldRows_inv (Q := fun _ => True) (P := fun _ _ => True) (by simp) _ e2 (gwf_nil cfg) hwf).1
  obtain ⟨-, hcov⟩ := foldRows_covers (W := w) _ e2 (gwf_nil cfg) hwf (fun y hy => (e5 y).2 (Or.inr (Or.inr hy)))
  obtain ⟨X, hX, hc⟩ := hcov p.2 (List.mem_map_of_mem hp)
  refine ⟨toLists X, ?_, covF_covered (hwf _ (List.mem_map_of_mem hp)) ?_ hc⟩
  · rw [e3, groupsToList_trees]; exact List.mem_map_of_mem hX
  · obtain ⟨g, hg, hX⟩ := mem_treesOf.1 hX
    have := hwf'.groups g hg
    rcases List.mem_append.1 hX with hX | hX
    · obtain ⟨e, he, rfl⟩ := List.mem_map.1 hX
      exact (wfKeyed_iff.1 this.keyed e he).2
    · exact (wfItems_iff.1 this.rest X hX).2

/-- C51.  Take any row of the spreadsheet that has data, and any cell of the object that the row gives on its own.  Then the cell source map of
the whole spreadsheet lists the location of that cell, under the path of a value that has the same keys and is equal to the value of the cell;
or a warning says that the column is ignored, or that the value was not used because another value was there. -/
theorem C51_every_cell_is_recorded {cfg : UnCfg} {root : Option Str} {wh : Bool} {sheets : List SheetIn} {out : List Json}
    {cm : List (Str × MapEntry)} {hm : Option (List (Str × List (Str × Str)))} {w : List Warn}
    (h : fancyUnflatten cfg root true wh sheets = .ok (out, some cm, hm, w)) :
    ∀ r ∈ rowsIn sheets, ∃ o' w', doUnflatten cfg [alone r] = .ok ([o'], w') ∧
      ∀ path cell, (path, cell) ∈ cellsInFields o' →
        (∃ path' value locs, (stepsText (rootSteps root ++ path'), locs) ∈ cellEntries cm ∧ keysOn path' = keysOn path ∧
          valueAt (.arr out) path' = some value.toJson ∧ EqualVal value cell.value ∧ cell.loc ∈ locs) ∨
        Ignored w cell ∨ ∃ field, Conflict w field cell := by
  obtain ⟨tree, ht, rfl⟩ := fancy_inv h
  obtain ⟨cells, h1, h2, h3, h4⟩ := fancy_ok ht root
  rw [h4] at h
  simp only [Bool.not_true, Bool.false_and, Bool.false_eq_true, if_false, if_true, Except.ok.injEq, Prod.mk.injEq,
    Option.some.injEq, true_and] at h
  obtain ⟨rfl, _⟩ := h
  intro r hr
  obtain ⟨o', w', e1, o, ho, hc⟩ := row_covered ht hr
  refine ⟨o', w', e1, ?_⟩
  intro path cell hcell
  rcases Given.idx ho 0 0 (covered_givenF o' o hc _ hcell) with ⟨f, hf, k1, k2, k3⟩ | hbad
  · refine Or.inl ⟨f.1, f.2.value, locations f.2, ?_, by simpa [under, keysOn_idx] using k1, ?_, k2, k3⟩
    · rw [cellEntries_maps, List.mem_map]
      exact ⟨entryOf (rootSteps root) f, List.mem_map_of_mem (h1.symm.subset hf), rfl⟩
    · have := valueAt_cell [] (.list tree) (by simpa [CGood] using run_good ht) f (by simpa [cellsIn] using hf)
      simpa [treeToValue] using this
  · exact Or.inr hbad

/-- The example of the source maps: the location of the second cell with the title is recorded for the one title of the output; in the second
run the different title is reported instead. -/
example : (rowsIn mapsEx).length = 2 ∧
    fancyUnflatten {} none true false [{ name := s%"a", lines := [[(some s%"id", .int 1), (some s%"t", .str s%"x")], [(some s%"id", .int 1), (some s%"t", .str s%"y")]] }] = .ok
      ([.obj [(s%"id", .leaf (.int 1)), (s%"t", .leaf (.str s%"x"))]],
       some [(s%"0/id", .cells [⟨s%"a", 1, 2, s%"id"⟩, ⟨s%"a", 1, 3, s%"id"⟩]), (s%"0/t", .cells [⟨s%"a", 2, 2, s%"t"⟩]), (s%"0", .rows [(s%"a", 2), (s%"a", 3)])],
       some [], [.conflict s%"t" s%"a" (.atom (.str s%"x")) (.atom (.str s%"y"))]) := by
  constructor
  · decide +kernel
  · with_unfolding_all rfl

end Verif

import Verif.Proofs.Cover
import Verif.Proofs.DecEq
/-! C03: everything in a row is in the object it is merged into, or a warning says that it is not. -/
namespace Verif
open Spec

/-- One row on its own gives exactly its own object. -/
theorem alone_run {cfg : UnCfg} {r : RowIn} {x : Row} (hc : Counts r) (hx : rowAlone cfg r = .ok x)
    (hk : ∃ td td' w, addToGroup cfg x.sheet x.fields td = .ok (td', w)) :
    ∃ w, doUnflatten cfg [alone r] = .ok ([toLists x.fields], w) := by
  have hra : rowsAlone cfg (rowsIn [alone r]) = .ok [x] := by
    have := rowsAlone_alone cfg [r] (by simpa using hc)
    simp only [List.map_cons, List.map_nil] at this
    rw [this]; simp [rowsAlone, hx]
  obtain ⟨td, td', w, h⟩ := hk
  rcases addToGroup_cases h with ⟨hk, -, -, hrk⟩ | ⟨k, hk, hh, hrk, -⟩
  · have hf : foldRows cfg [x] [] = .ok ([(x.root, { rest := [x.fields] })], []) := by
      simp only [foldRows, addRow, addToGroup, hrk, keyGet_nil, Option.getD_none, TDict.append, rowKey_ok hrk, keySet]
      simp
    obtain ⟨w, hw, -⟩ := doUnflatten_of_rows hra hf
    exact ⟨w, by rw [hw, groupsToList_trees]; simp [treesOf]⟩
  · have hf : foldRows cfg [x] [] = .ok ([(x.root, { keyed := [(k, x.fields)] })], []) := by
      simp [foldRows, addRow, addToGroup, hrk, TDict.append, rowKey_ok hrk, keySet, hh]
    obtain ⟨w, hw, -⟩ := doUnflatten_of_rows hra hf
    exact ⟨w, by rw [hw, groupsToList_trees]; simp [treesOf]⟩

theorem All₂.imp_mem {α β : Type} {R S : α → β → Prop} {a : List α} {b : List β} (h : All₂ R a b)
    (hi : ∀ x ∈ a, ∀ y ∈ b, R x y → S x y) : All₂ S a b := by
  induction h with
  | nil => exact .nil
  | @cons x y xs ys h1 _ ih =>
    exact .cons (hi x (by simp) y (by simp) h1) (ih (fun x hx y hy => hi x (by simp [hx]) y (by simp [hy])))

theorem mem_objectRows {cfg : UnCfg} {rows c : List RowIn} {r : RowIn} (hc : c ∈ objectRows cfg rows) (hr : r ∈ c) : r ∈ rows := by
  unfold objectRows at hc
  rw [List.mem_flatMap] at hc
  obtain ⟨g, hg, hc⟩ := hc
  rcases List.mem_append.1 hc with hc | hc
  · exact mem_classes hg (List.mem_filter.1 (mem_classes hc hr)).1
  · obtain ⟨x, hx, rfl⟩ := List.mem_map.1 hc
    simp at hr; subst hr
    exact mem_classes hg (List.mem_filter.1 hx).1

/-- C03: each object of the output is made from certain rows (`objectRows`: those with the same root id and the same id, or one row without
id).  Take any of these rows, and the object it gives on its own: everything in that object, at any depth, is in the output object
at the same position with an equal value, or a warning of the run says that its column is ignored or that its value
is not used since another value was there; array items without id are all there, unchanged and in the same order. -/
theorem C03_rows_are_covered (cfg : UnCfg) (sheets : List SheetIn) (out : List (List (Str × CTree))) (w : List Warn)
    (h : doUnflatten cfg sheets = .ok (out, w)) :
    All₂ (fun rows o => ∀ r ∈ rows, ∃ o' w', doUnflatten cfg [alone r] = .ok ([o'], w') ∧ CoveredFields cfg.idName cfg.row.xml w o' o)
      (objectRows cfg (rowsIn sheets)) out := by
  refine All₂.imp_mem (objects_of_run_cells h) ?_
  intro rows hrows o _ ⟨w', h', hsub⟩ r hr
  obtain ⟨xs, gs, mw, e1, e2, e3, -, e5⟩ := doUnflatten_ok h'
  have hcount : ∀ r ∈ rows, Counts r := fun r hr => counts_rowsIn (mem_objectRows hrows hr)
  rw [rowsAlone_alone cfg rows hcount] at e1
  obtain ⟨ps, p1, p2, p3⟩ := rowsAlone_pairs e1
  subst p1 p2
  obtain ⟨p, hp, rfl⟩ := List.mem_map.1 hr
  have hx := p3 p hp
  obtain ⟨w2, hw2⟩ := alone_run (hcount _ hr) hx (foldRows_each e2 p.2 (List.mem_map_of_mem hp))
  refine ⟨_, w2, hw2, ?_⟩
  have hwf := rowsAlone_wf e1
  have hwf' := (foldRows_inv (Q := fun _ => True) (P := fun _ _ => True) (by simp) _ e2 (gwf_nil cfg) hwf).1
  obtain ⟨-, hcov⟩ := foldRows_covers (W := w) _ e2 (gwf_nil cfg) hwf (fun y hy => hsub y ((e5 y).2 (Or.inr (Or.inr hy))))
  obtain ⟨X, hX, hc⟩ := hcov p.2 (List.mem_map_of_mem hp)
  rw [groupsToList_trees] at e3
  have h1 : treesOf gs = [X] := by
    have hl : (treesOf gs).length = 1 := by simpa using (congrArg List.length e3).symm
    match hT : treesOf gs, hl with
    | [Y], _ => rw [hT] at hX; simp at hX; rw [hX]
  rw [h1] at e3
  simp at e3
  rw [e3]
  refine covF_covered (hwf _ (List.mem_map_of_mem hp)) ?_ hc
  obtain ⟨g, hg, hX⟩ := mem_treesOf.1 hX
  have := hwf'.groups g hg
  rcases List.mem_append.1 hX with hX | hX
  · obtain ⟨e, he, rfl⟩ := List.mem_map.1 hX
    exact (wfKeyed_iff.1 this.keyed e he).2
  · exact (wfItems_iff.1 this.rest X hX).2

/-- Two rows of one object: the second adds a field, an item without id and a field of an item with id; its different value for `t` is reported. -/
example :
    unflatten {} [{ name := s%"a", lines := [
      [(some s%"id", .int 1), (some s%"t", .str s%"x"), (some s%"l/0/id", .str s%"p"), (some s%"m/0/v", .int 1)],
      [(some s%"id", .int 1), (some s%"t", .str s%"y"), (some s%"u", .str s%"z"), (some s%"l/0/id", .str s%"p"), (some s%"l/0/v", .int 5), (some s%"m/0/v", .int 2)]] }]
    = .ok ([.obj [(s%"id", .leaf (.int 1)), (s%"t", .leaf (.str s%"x")), (s%"l", .arr [.obj [(s%"id", .leaf (.str s%"p")), (s%"v", .leaf (.int 5))]]),
        (s%"m", .arr [.obj [(s%"v", .leaf (.int 1))], .obj [(s%"v", .leaf (.int 2))]]), (s%"u", .leaf (.str s%"z"))]],
      [.conflict s%"t" s%"a" (.atom (.str s%"x")) (.atom (.str s%"y"))]) := by
  decide +kernel

end Verif

import Verif.Proofs.Embed
import Verif.Proofs.DecEq
import Verif.Proofs.Ids
/-! C02, C03, C05–C08: what merging rows does to the result of `unflatten`. -/
namespace Verif
open Spec

/-- C02: whatever rows are added to the end of a sheet, and whatever sheets are added after it, every
value produced from the earlier rows is still there, unchanged, at its old position. -/
theorem C02_later_rows_keep_earlier_values (cfg : UnCfg) (pre post : List SheetIn) (s : SheetIn) (more : List Line)
    (out2 : List Json) (w2 : List Warn)
    (h : unflatten cfg (pre ++ { s with lines := s.lines ++ more } :: post) = .ok (out2, w2)) :
    ∃ out1 w1, unflatten cfg (pre ++ [s]) = .ok (out1, w1) ∧ EmbedsList out1 out2 := by
  unfold unflatten at h
  split at h
  · cases h
  · next t w ht =>
    cases h
    obtain ⟨rows', gs, mw, e1, e2, e3, -, -⟩ := doUnflatten_ok ht
    obtain ⟨rows, rest, f1, f2⟩ := rows_prefix e1
    subst f2
    rw [foldRows_append] at e2
    split at e2
    · cases e2
    · next g1 w1 h1 =>
      split at e2
      · cases e2
      · next g2 w2' h2 =>
        cases e2
        obtain ⟨w, hw, -⟩ := doUnflatten_of_rows f1 h1
        refine ⟨listToValue (groupsToList g1), w, by simp [unflatten, hw], ?_⟩
        rw [e3, jgs_eq, jgs_eq]
        have wf := rowsAlone_wf e1
        refine foldRows_embeds rest h2 ?_ (fun r hr => wf r (List.mem_append_right _ hr))
        exact (foldRows_inv (Q := fun _ => True) (P := fun _ _ => True) (by simp) rows h1 (gwf_nil cfg)
          (fun r hr => wf r (List.mem_append_left _ hr))).1

/-- A row that contradicts an earlier one (`title`) and extends it (`size`): the title stays. -/
example : unflatten {} [{ name := s%"a", lines := [[(some s%"id", .str s%"1"), (some s%"title", .str s%"x")],
      [(some s%"id", .str s%"1"), (some s%"title", .str s%"y"), (some s%"size", .int 3)]] }]
    = .ok ([.obj [(s%"id", .leaf (.str s%"1")), (s%"title", .leaf (.str s%"x")), (s%"size", .leaf (.int 3))]],
        [.conflict s%"title" s%"a" (.atom (.str s%"x")) (.atom (.str s%"y"))]) := by
  decide +kernel

/-! ### C07 -/

/-- C07: the list `unflatten` returns has exactly one object for each group of rows in `objectRows`: per
root id in order of first appearance, one for each distinct id in order of first appearance, then one for each
row without id.  Each object is what its own rows give alone, with warnings that are also warnings of the whole run. -/
theorem C07_one_object_per_id (cfg : UnCfg) (sheets : List SheetIn) (out : List Json) (w : List Warn)
    (h : unflatten cfg sheets = .ok (out, w)) :
    All₂ (fun rows o => ∃ w', unflatten cfg (rows.map alone) = .ok ([o], w') ∧ ∀ x ∈ w', x ∈ w) (objectRows cfg (rowsIn sheets)) out :=
  objects_of_run h

/-- Rows of two ids and one without, interleaved: three objects, the id-less one last. -/
example :
    (unflatten {} [{ name := s%"a", lines := [[(some s%"id", .str s%"1"), (some s%"x", .int 1)],
      [(some s%"x", .int 2)], [(some s%"id", .str s%"2"), (some s%"x", .int 3)],
      [(some s%"id", .str s%"1"), (some s%"y", .int 4)]] }]).map (·.1)
    = .ok [.obj [(s%"id", .leaf (.str s%"1")), (s%"x", .leaf (.int 1)), (s%"y", .leaf (.int 4))],
        .obj [(s%"id", .leaf (.str s%"2")), (s%"x", .leaf (.int 3))], .obj [(s%"x", .leaf (.int 2))]] := by
  decide +kernel

/-- The groups of rows of that spreadsheet, by row number. -/
example :
    (objectRows {} (rowsIn [{ name := s%"a", lines := [[(some s%"id", .str s%"1"), (some s%"x", .int 1)],
      [(some s%"x", .int 2)], [(some s%"id", .str s%"2"), (some s%"x", .int 3)],
      [(some s%"id", .str s%"1"), (some s%"y", .int 4)]] }])).map (List.map (·.number)) = [[0, 3], [2], [1]] := by
  decide +kernel

/-! ### C08 -/

/-- C08: no array at any depth of the output has two objects with equal ids, nor an object a repeated key; the
output itself consists of one stretch per distinct root id, and no stretch has two objects with equal ids.
(Geometries come from a library; they are assumed to have the property themselves.) -/
theorem C08_ids_unique (cfg : UnCfg) (sheets : List SheetIn) (out : List Json) (w : List Warn)
    (hgeo : ∀ s g, cfg.row.conv.wktLoads s = some g → IdsUnique cfg.idName cfg.row.xml g)
    (h : unflatten cfg sheets = .ok (out, w)) :
    (∀ o ∈ out, IdsUnique cfg.idName cfg.row.xml o) ∧
    ∃ stretches : List (List Json), out = stretches.flatten ∧
      stretches.length = (classes (sameRoot cfg) (rowsIn sheets)).length ∧
      ∀ s ∈ stretches, IdsUnique cfg.idName cfg.row.xml (.arr s) := by
  obtain ⟨rows, gs, mw, e1, e2, rfl, wf, -⟩ := unflatten_ok h
  have hvals : ∀ x ∈ rows, TAllF (fun _ => True) (fun _ c => IdsUnique cfg.idName cfg.row.xml c.value.toJson) [] x.fields := by
    intro x hx
    obtain ⟨r, _, hr⟩ := rowsAlone_mem e1 x hx
    refine rowAlone_vals (fun v => IdsUnique cfg.idName cfg.row.xml v.toJson) (fun a => by simp [Val.toJson, IdsUnique]) ?_ hr
    intro ty v v' w' hv hc
    apply idsUnique_value
    rintro g rfl
    rcases convertCell_geo hc with rfl | ⟨s, hs⟩
    · exact hv
    · exact hgeo s g hs
  have hall := (foldRows_inv (Q := fun _ => True) (P := fun _ c => IdsUnique cfg.idName cfg.row.xml c.value.toJson)
    (fun p b c hb _ _ => hb) rows e2 (gwf_nil cfg) (rowsAlone_wf e1)).2 (by simp) hvals
  have hseg : ∀ g ∈ gs, IdsUnique cfg.idName cfg.row.xml (.arr (jtd g.2.keyed g.2.rest)) := by
    intro g hg
    have h1 := wf.groups g hg
    have h2 := hall g hg
    exact idsUnique_jtd h1.distinct h1.keyed h1.rest (idsUnique_keyed _ _ [] _ h1.keyed h2.1)
      (idsUnique_items _ _ [] _ h1.rest h2.2)
  refine ⟨?_, gs.map (fun g => jtd g.2.keyed g.2.rest), ?_, ?_, ?_⟩
  · intro o ho
    unfold jgs at ho
    obtain ⟨g, hg, ho⟩ := List.mem_flatMap.1 ho
    have := hseg g hg
    simp only [IdsUnique] at this
    exact idsUniqueList_iff.1 this.2 o ho
  · simp [jgs, List.flatMap_def]
  · obtain ⟨ps, p1, p2, p3⟩ := rowsAlone_pairs e1
    have hlen : ∀ {α β : Type} {R : α → β → Prop} {a : List α} {b : List β}, All₂ R a b → a.length = b.length := by
      intro α β R a b h
      induction h with
      | nil => rfl
      | cons _ _ ih => simp [ih]
    have h1 := hlen (groupInv_run rows (done := []) e2 .nil (fun _ h => h))
    rw [List.length_map, h1, ← p1, ← p2, List.nil_append,
      classes_map (fun p : RowIn × Row => p.2) (fun p q => sameRoot cfg p.1 q.1) byRoot ps ?_,
      classes_map (fun p : RowIn × Row => p.1) (fun p q => sameRoot cfg p.1 q.1) (sameRoot cfg) ps (fun _ _ _ _ => rfl)]
    · simp
    · intro a ha b hb
      unfold byRoot sameRoot atomEq
      rw [rowAlone_root (p3 a ha), rowAlone_root (p3 b hb)]
  · intro s hs
    obtain ⟨g, hg, rfl⟩ := List.mem_map.1 hs
    exact hseg g hg

/-- C08: without a root id the whole output is one array without repeated ids. -/
theorem C08_ids_unique_no_root (cfg : UnCfg) (sheets : List SheetIn) (out : List Json) (w : List Warn)
    (hgeo : ∀ s g, cfg.row.conv.wktLoads s = some g → IdsUnique cfg.idName cfg.row.xml g) (hroot : cfg.rootId = none)
    (h : unflatten cfg sheets = .ok (out, w)) : IdsUnique cfg.idName cfg.row.xml (.arr out) := by
  obtain ⟨-, st, h1, h2, h3⟩ := C08_ids_unique cfg sheets out w hgeo h
  have hs : ∀ a b, sameRoot cfg a b = true := by
    intro a b; simp [sameRoot, rootCell, hroot]; decide
  have hl : ∀ (l : List RowIn) (cs : List (List RowIn)), cs.length ≤ 1 → (∀ c ∈ cs, c ≠ []) →
      (l.foldl (fun cs x => addToClass (sameRoot cfg) x cs) cs).length ≤ 1 := by
    intro l
    induction l with
    | nil => intro cs h _; exact h
    | cons x l ih =>
      intro cs h1 h2
      simp only [List.foldl_cons]
      match cs, h1, h2 with
      | [], _, _ => exact ih _ (by simp [addToClass]) (by simp [addToClass])
      | [c], _, h2 =>
        cases c with
        | nil => exact absurd rfl (h2 [] (by simp))
        | cons y t => exact ih _ (by simp [addToClass, hs]) (by simp [addToClass, hs])
      | a :: b :: r, h1, _ => simp at h1
  have := hl (rowsIn sheets) [] (by simp) (by simp)
  rw [classes] at h2
  rw [← h2] at this
  subst h1
  match st, this with
  | [], _ => simp [IdsUnique, IdsUniqueList]
  | [s], _ => simpa using h3 s (by simp)
  | _ :: _ :: _, h => simp at h

/-- Ids 1 (a number) and 1 (a text that a schema could turn into a number) stay apart without a schema; the same
text twice is one object, also inside an array. -/
example :
    (unflatten {} [{ name := s%"a", lines := [
      [(some s%"id", .str s%"1"), (some s%"l/0/id", .str s%"p"), (some s%"l/1/id", .str s%"q")],
      [(some s%"id", .int 1), (some s%"l/0/id", .str s%"p")],
      [(some s%"id", .str s%"1"), (some s%"l/0/id", .str s%"q"), (some s%"l/0/x", .int 2)]] }]).map (·.1)
    = .ok [.obj [(s%"id", .leaf (.str s%"1")), (s%"l", .arr [.obj [(s%"id", .leaf (.str s%"p"))],
        .obj [(s%"id", .leaf (.str s%"q")), (s%"x", .leaf (.int 2))]])],
      .obj [(s%"id", .leaf (.int 1)), (s%"l", .arr [.obj [(s%"id", .leaf (.str s%"p"))]])]] := by
  decide +kernel

end Verif

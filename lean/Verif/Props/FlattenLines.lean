import Verif.Proofs.FlatItems
import Verif.Proofs.EmitCount
import Verif.Proofs.DecEq
import Verif.Props.Flatten
import Verif.Spec.List
/-! C23, C24, C27: the lines of flattened sheets. -/
namespace Verif
open Spec

theorem result_lines {cfg : FCfg} (hs : FromSchemaParser cfg) (ev : List Ev) (st : FState)
    (h : finish cfg (runEv cfg ev (initState cfg)) = st) :
    st.main.lines = evLines none ev ∧ ∀ name, subLines st name = evLines (some name) ev := by
  have hn := nodup_run_subs cfg ev _ (nodup_init hs)
  have hl : ∀ ref, ((runEv cfg ev (initState cfg)).sheet ref).lines = evLines ref ev := by
    intro ref; rw [run_lines, init_lines hs, List.nil_append]
  subst h
  constructor
  · rw [finish_main]; exact hl none
  · intro name
    rw [← hl (some name)]
    simp only [subLines, FState.sheet, finish_subs]
    generalize runEv cfg ev (initState cfg) = st at *
    split
    · cases hg : Dict.get st.subs name with
      | none =>
        have : Dict.get (st.subs.filter (fun p => !(p.2.lines.isEmpty && isSchemaSheet cfg p.1))) name = none := by
          rw [Dict.get_none_iff] at hg ⊢
          intro hk; apply hg
          simp only [Dict.keys, List.mem_map, List.mem_filter] at hk ⊢
          obtain ⟨p, ⟨hp, -⟩, he⟩ := hk
          exact ⟨p, hp, he⟩
        rw [this]
      | some s =>
        by_cases hkeep : (s.lines.isEmpty && isSchemaSheet cfg name) = true
        · have : Dict.get (st.subs.filter (fun p => !(p.2.lines.isEmpty && isSchemaSheet cfg p.1))) name = none := by
            rw [Dict.get_none_iff]
            intro hk
            simp only [Dict.keys, List.mem_map, List.mem_filter] at hk
            obtain ⟨⟨n, t⟩, ⟨hp, hb⟩, he⟩ := hk
            dsimp only at he; subst he
            have := Dict.get_of_mem hn hp
            rw [hg] at this
            simp only [Option.some.injEq] at this; subst this
            simp [hkeep] at hb
          rw [this]
          simp only [Bool.and_eq_true, List.isEmpty_iff] at hkeep
          simp [hkeep.1]
        · have hm : (name, s) ∈ st.subs.filter (fun p => !(p.2.lines.isEmpty && isSchemaSheet cfg p.1)) := by
            rw [List.mem_filter]; exact ⟨Dict.get_eq_some_mem hg, by simp only [Bool.not_eq_true] at hkeep; simp [hkeep]⟩
          have hn' : (Dict.keys (st.subs.filter (fun p => !(p.2.lines.isEmpty && isSchemaSheet cfg p.1)))).Nodup := by
            unfold Dict.keys at hn ⊢
            exact (List.filter_sublist.map _).nodup hn
          rw [Dict.get_of_mem hn' hm]
    · rfl

/-- The lines of a plain flattening. -/
theorem plain_lines {cfg : FCfg} (hp : Plain cfg) (hf : cfg.filter = none) (hs : FromSchemaParser cfg) {root : List Json}
    {st : FState} (h : flatten cfg root = .ok st) :
    st.main.lines = (objects root).map (fun fs => toLine (cells (keepOf cfg) [] fs)) ∧
      ∀ name, subLines st name = wanted cfg name (docItems (keepOf cfg) root) := by
  obtain ⟨ev, he, rfl⟩ := flatten_ok.1 h
  obtain ⟨h1, h2⟩ := emitRootList_plain hp hf 0 root ev he
  obtain ⟨h3, h4⟩ := result_lines hs ev _ rfl
  exact ⟨by rw [h3, h1], fun name => by rw [h4, h2]⟩

theorem keepOf_nil {cfg : FCfg} (h : cfg.preserve = []) : keepOf cfg = everything := by
  funext p k; simp [keepOf, dropped, h, everything]

/-- C23: one line on the main sheet for each object of the root list, in order, and one line on the sheet of its array for
each object in an array, at any depth, in order; nothing else. -/
theorem C23_one_line_per_object (cfg : FCfg) (hp : Plain cfg) (hf : cfg.filter = none) (hk : cfg.preserve = [])
    (hs : FromSchemaParser cfg) (root : List Json) (st : FState) (h : flatten cfg root = .ok st) :
    st.main.lines = (objects root).map (fun fs => toLine (cells everything [] fs)) ∧
    ∀ name, subLines st name = ((docItems everything root).filter (fun i => sheetName cfg.trunc i.array = name)).map
      (Item.line (idOpts cfg) everything) := by
  obtain ⟨h1, h2⟩ := plain_lines hp hf hs h
  rw [keepOf_nil hk] at h1 h2
  exact ⟨h1, fun name => by rw [h2, wanted, keepOf_nil hk]⟩

theorem replaceAux_char (a b : Char) (s : Str) : Py.replaceAll [a] [b] s = s.map (fun c => if c = a then b else c) := by
  unfold Py.replaceAll
  induction s with
  | nil => rfl
  | cons c r ih =>
    rw [Py.replaceAux]
    by_cases h : c = a
    · subst h; simp [ih]
    · have : ([a].isPrefixOf (c :: r)) = false := by simp [List.isPrefixOf, Ne.symm h]
      simp [this, h, ih]

theorem split_pnOf (q : List Str) (h : ∀ x ∈ q, '/' ∉ x) : Py.split '/' (pnOf q) = q ++ [[]] := by
  induction q with
  | nil => rfl
  | cons x r ih =>
    have : pnOf (x :: r) = x ++ '/' :: pnOf r := by simp [pnOf]
    rw [this, Py.split_append _ (h x (by simp)), ih (fun y hy => h y (by simp [hy]))]
    rfl

theorem join_snoc_nil (l : List Str) : Py.join s%"_" (l ++ [[]]) = l.flatMap (fun x => x ++ s%"_") := by
  induction l with
  | nil => rfl
  | cons x r ih =>
    cases r with
    | nil => simp [Py.join]
    | cons y t => simp [Py.join] at ih ⊢; rw [ih]

/-- C23: the sheet of an array has the documented name. -/
theorem C23_sheet_name (trunc : Nat) (q : List Str) (k : Str) (hq : ∀ x ∈ q, '/' ∉ x) :
    sheetName trunc (q ++ [k]) = documentedName trunc q k := by
  have h0 : (q.flatMap (fun x => x ++ s%"/")) = pnOf q := rfl
  have hf : ([[]] : List Str).filter (fun x => decide (x ≠ s%"0")) = [[]] := by decide
  simp only [sheetName, makeSubSheetName, List.dropLast_concat, List.getLast?_concat, Option.getD_some, h0, split_pnOf q hq,
    replaceAux_char, documentedName, List.filter_append, List.map_append, hf, List.map_cons, List.map_nil, List.take_nil, join_snoc_nil]
  simp [List.flatMap_map, Function.comp_def]

/-- The number of lines, for the fields that the program keeps. -/
theorem line_counts {cfg : FCfg} (hw : cfg.wkt = false) (hx : cfg.xml = false) (hf : cfg.filter = none)
    (hs : FromSchemaParser cfg) {root : List Json} {st : FState} (h : flatten cfg root = .ok st) :
    st.main.lines.length = (objects root).length ∧
    ∀ name, (subLines st name).length = ((docItems (keepOf cfg) root).filter (fun i => sheetOf cfg i.array = name)).length := by
  obtain ⟨ev, he, rfl⟩ := flatten_ok.1 h
  obtain ⟨h1, h2⟩ := result_lines hs ev _ rfl
  obtain ⟨h3, h4⟩ := emitRootList_counts hw hx hf 0 root ev he
  exact ⟨by rw [h1, h3], fun name => by rw [h2, h4]⟩

/-- C23: whatever the titles and the rollup, there is one line on the main sheet per object of the root list, and on each sub-sheet one
line per object in the arrays that belong to that sheet.  (With a list of fields to preserve: `C29_line_counts`.) -/
theorem C23_line_counts (cfg : FCfg) (hw : cfg.wkt = false) (hx : cfg.xml = false) (hf : cfg.filter = none) (hk : cfg.preserve = [])
    (hs : FromSchemaParser cfg) (root : List Json) (st : FState) (h : flatten cfg root = .ok st) :
    st.main.lines.length = (objects root).length ∧
    ∀ name, (subLines st name).length = ((docItems everything root).filter (fun i => sheetOf cfg i.array = name)).length := by
  rw [← keepOf_nil hk]
  exact line_counts hw hx hf hs h

/-- C23: a document of objects, scalars, lists of scalars and lists of objects can be flattened. -/
theorem C23_flatten_succeeds (cfg : FCfg) (hp : Plain cfg) (root : List Json)
    (hr : ∀ fs ∈ objects root, FlattenableFields fs) : ∃ st, flatten cfg root = .ok st := by
  obtain ⟨ev, he⟩ := emitRootList_total hp 0 root hr
  exact ⟨_, flatten_ok.2 ⟨ev, he, rfl⟩⟩

/-- C23: without a filter and a list of fields to preserve, exactly the documents of objects, scalars, lists of scalars and lists of objects can be
flattened; anything else in an object is an error, not a gap in the sheets. -/
theorem C23_flatten_iff (cfg : FCfg) (hp : Plain cfg) (hf : cfg.filter = none) (hk : cfg.preserve = []) (root : List Json) :
    (∃ st, flatten cfg root = .ok st) ↔ ∀ fs ∈ objects root, FlattenableFields fs := by
  constructor
  · rintro ⟨st, h⟩
    obtain ⟨ev, he, -⟩ := flatten_ok.1 h
    exact emitRootList_only hp hf hk 0 root ev he
  · exact C23_flatten_succeeds cfg hp root

theorem all₂_map_right {α β : Type} {R : α → β → Prop} {f : α → β} (l : List α) (h : ∀ a ∈ l, R a (f a)) :
    All₂ R l (l.map f) := by
  induction l with
  | nil => exact .nil
  | cons a r ih => exact .cons (h a (by simp)) (ih (fun b hb => h b (by simp [hb])))

/-- C24: each line has every value of its object under the heading of its path, and otherwise only ids of the objects
around it. -/
theorem C24_lines_hold_the_values (cfg : FCfg) (hp : Plain cfg) (hf : cfg.filter = none) (hk : cfg.preserve = [])
    (hs : FromSchemaParser cfg) (root : List Json) (hc : ∀ fs ∈ objects root, CleanKeys (.obj fs)) (st : FState)
    (h : flatten cfg root = .ok st) :
    All₂ (fun fs line => Holds everything [] fs (fun _ _ => False) line) (objects root) st.main.lines ∧
    ∀ name, All₂ (fun (i : Item) line => Holds everything (i.array ++ [s%"0"]) i.fields (IsIdOf (idOpts cfg) i.around) line)
      ((docItems everything root).filter (fun i => sheetName cfg.trunc i.array = name)) (subLines st name) := by
  obtain ⟨h1, h2⟩ := C23_one_line_per_object cfg hp hf hk hs root st h
  constructor
  · rw [h1]
    apply all₂_map_right
    intro fs hfs
    constructor
    · intro q v hq
      exact entries_complete [] (hc fs hfs) (by simp) hq
    · intro h v hg
      rcases entries_sound (d := []) hg with h | h
      · exact Or.inl h
      · simp [Dict.get] at h
  · intro name
    rw [h2]
    apply all₂_map_right
    intro i hi
    exact item_line_holds (docItems_ok everything root hc i (List.mem_filter.1 hi).1)

/-- C24: also for documents whose keys contain slashes, a line holds nothing but values of its object and ids of the objects around it. -/
theorem C24_lines_hold_nothing_else (cfg : FCfg) (hp : Plain cfg) (hf : cfg.filter = none) (hk : cfg.preserve = [])
    (hs : FromSchemaParser cfg) (root : List Json) (st : FState) (h : flatten cfg root = .ok st) :
    All₂ (fun fs line => ∀ h v, Dict.get line h = some v → ∃ q, h = pathText q ∧ HasCell everything [] fs q v)
      (objects root) st.main.lines ∧
    ∀ name, All₂ (fun (i : Item) line => ∀ h v, Dict.get line h = some v →
        (∃ q, h = pathText q ∧ HasCell everything (i.array ++ [s%"0"]) i.fields q v) ∨ IsIdOf (idOpts cfg) i.around h v)
      ((docItems everything root).filter (fun i => sheetName cfg.trunc i.array = name)) (subLines st name) := by
  obtain ⟨h1, h2⟩ := C23_one_line_per_object cfg hp hf hk hs root st h
  constructor
  · rw [h1]
    apply all₂_map_right
    intro fs hfs h v hg
    rcases entries_sound (d := []) hg with h | h
    · exact h
    · simp [Dict.get] at h
  · intro name
    rw [h2]
    apply all₂_map_right
    intro i hi h v hg
    rw [item_line_eq] at hg
    rcases entries_sound hg with h | h
    · exact Or.inl h
    · rw [get_update_nil (nodup_idsOf _ i.around)] at h
      exact Or.inr (get_idsOf_sound h)

/-- C27: each line of a sub-sheet carries, for every object around its object, the id of that object under the heading of its
path; and the root id of the innermost of them that has one. -/
theorem C27_lines_carry_ancestor_ids (cfg : FCfg) (hp : Plain cfg) (hf : cfg.filter = none) (hk : cfg.preserve = [])
    (hs : FromSchemaParser cfg) (hid : '/' ∉ cfg.idName) (hrid : ∀ rid, cfg.rootId = some rid → '/' ∉ rid ∧ rid ≠ cfg.idName)
    (root : List Json) (hc : ∀ fs ∈ objects root, CleanKeys (.obj fs)) (st : FState) (h : flatten cfg root = .ok st) (name : Str) :
    All₂ (fun (i : Item) line => CarriesIds (idOpts cfg) i.around line)
      ((docItems everything root).filter (fun i => sheetName cfg.trunc i.array = name)) (subLines st name) := by
  rw [(C23_one_line_per_object cfg hp hf hk hs root st h).2 name]
  apply all₂_map_right
  intro i hi
  exact item_line_carries (docItems_ok everything root hc i (List.mem_filter.1 hi).1) hid hrid

/-! ### A concrete document -/

/-- `[{"ocid": "1", "id": "A", "dishes": [{"id": "d1", "ing": [{"n": "x"}, null, {"n": "y"}]}, {"id": "d2"}],
"geo": {"lat": 1, "tags": ["a", "b"]}}, 3, {"id": "B"}]` -/
def exampleDoc : List Json :=
  [.obj [(s%"ocid", .leaf (.str s%"1")), (s%"id", .leaf (.str s%"A")),
      (s%"dishes", .arr [.obj [(s%"id", .leaf (.str s%"d1")),
          (s%"ing", .arr [.obj [(s%"n", .leaf (.str s%"x"))], .leaf .none, .obj [(s%"n", .leaf (.str s%"y"))]])],
        .obj [(s%"id", .leaf (.str s%"d2"))]]),
      (s%"geo", .obj [(s%"lat", .leaf (.int 1)), (s%"tags", .arr [.leaf (.str s%"a"), .leaf (.str s%"b")])])],
    .leaf (.int 3), .obj [(s%"id", .leaf (.str s%"B"))]]

/-- The hypotheses of C23, C24 and C27 hold for this document and the default options. -/
example : Plain {} ∧ FromSchemaParser {} ∧ (∀ fs ∈ objects exampleDoc, FlattenableFields fs) ∧
    (∀ fs ∈ objects exampleDoc, CleanKeys (.obj fs)) := by
  refine ⟨⟨rfl, rfl, rfl, rfl⟩, (fun sp h => by cases h), ?_, ?_⟩
  · intro fs h
    simp only [exampleDoc, objects, List.mem_cons, List.not_mem_nil, or_false] at h
    rcases h with rfl | rfl
    · simp only [FlattenableFields, Flattenable, FlattenableItems]
      exact ⟨rfl, rfl, Or.inr ⟨⟨rfl, Or.inr ⟨⟨rfl, trivial⟩, trivial, ⟨rfl, trivial⟩, trivial⟩, trivial⟩, ⟨rfl, trivial⟩, trivial⟩,
        ⟨rfl, Or.inl (by decide), trivial⟩, trivial⟩
    · exact ⟨rfl, trivial⟩
  · intro fs h
    simp only [exampleDoc, objects, List.mem_cons, List.not_mem_nil, or_false] at h
    rcases h with rfl | rfl <;> simp only [CleanKeys, CleanFields, CleanList] <;> decide

set_option synthInstance.maxSize 2000 in
/-- The sheets it gives. -/
example : (flatten {} exampleDoc).map (fun st => (st.main.lines, st.subs.map (fun s => (s.1, s.2.lines)))) =
    .ok ([[(s%"ocid", .leaf (.str s%"1")), (s%"id", .leaf (.str s%"A")), (s%"geo/lat", .leaf (.int 1)),
          (s%"geo/tags", .leaf (.str s%"a;b"))], [(s%"id", .leaf (.str s%"B"))]],
      [(s%"dishes", [[(s%"ocid", .leaf (.str s%"1")), (s%"id", .leaf (.str s%"A")), (s%"dishes/0/id", .leaf (.str s%"d1"))],
          [(s%"ocid", .leaf (.str s%"1")), (s%"id", .leaf (.str s%"A")), (s%"dishes/0/id", .leaf (.str s%"d2"))]]),
       (s%"dis_ing", [[(s%"ocid", .leaf (.str s%"1")), (s%"id", .leaf (.str s%"A")), (s%"dishes/0/id", .leaf (.str s%"d1")),
            (s%"dishes/0/ing/0/n", .leaf (.str s%"x"))],
          [(s%"ocid", .leaf (.str s%"1")), (s%"id", .leaf (.str s%"A")), (s%"dishes/0/id", .leaf (.str s%"d1")),
            (s%"dishes/0/ing/0/n", .leaf (.str s%"y"))]])]) := by
  decide +kernel

/-- Why C27 speaks of the innermost root id: an object inside the root object that has the root id key itself (here `ocid`) hides the
root id of the root object on the lines below. -/
example : (flatten {} [.obj [(s%"ocid", .leaf (.str s%"1")),
      (s%"a", .obj [(s%"ocid", .leaf (.str s%"2")), (s%"l", .arr [.obj [(s%"x", .leaf (.int 5))]])])]]).map
      (fun st => st.subs.map (fun s => (s.1, s.2.lines))) =
    .ok [(s%"a_l", [[(s%"ocid", .leaf (.str s%"2")), (s%"a/l/0/x", .leaf (.int 5))]])] := by
  decide +kernel

/-- Why C23 excludes WKT: an object that is an invalid geometry has no line. -/
example : (flatten { wkt := true } [.obj [(s%"l", .arr [.obj [(s%"type", .leaf (.str s%"x")), (s%"coordinates", .leaf (.int 1))],
      .obj [(s%"id", .leaf (.str s%"2"))]])]]).map (fun st => (st.subs.map (fun s => (s.1, s.2.lines.length)), st.warns)) =
    .ok ([(s%"l", 1)], [.badGeo]) := by
  decide +kernel

end Verif

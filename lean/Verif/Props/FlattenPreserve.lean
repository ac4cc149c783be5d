import Verif.Proofs.Preserve
import Verif.Props.FlattenLines
/-! C29: fields to preserve. -/
namespace Verif
open Spec
set_option synthInstance.maxSize 4000

/-- What holds of a value that is reached at path `p`. -/
structure ReachedAt (listed : List (List Str)) (p : List Str) (v : Json) : Prop where
  comp : ∀ x ∈ p, CompOK x
  head : p.head? ≠ some s%"0"
  clean : CleanKeys v
  noZero : ∀ s w, At v s w → ∀ k ∈ s, k.head? ≠ some '0'
  inside : ∀ s gs, At v s (.obj gs) → Inside listed (p.filter (· ≠ s%"0") ++ s)
  pres : p.filter (· ≠ s%"0") ≠ [] → Preserved listed (p.filter (· ≠ s%"0"))

theorem clean_mem {fs : List (Str × Json)} (h : CleanFields fs) {k : Str} {v : Json} (hm : (k, v) ∈ fs) : CleanKeys v := by
  induction fs with
  | nil => cases hm
  | cons e r ih =>
    obtain ⟨k', v'⟩ := e
    rw [CleanFields] at h
    rcases List.mem_cons.1 hm with he | hm
    · cases he; exact h.1
    · exact ih h.2 hm

theorem clean_mem_list {l : List Json} (h : CleanList l) {v : Json} (hm : v ∈ l) : CleanKeys v := by
  induction l with
  | nil => cases hm
  | cons e r ih =>
    rw [CleanList] at h
    rcases List.mem_cons.1 hm with rfl | hm
    · exact h.1
    · exact ih h.2 hm

theorem reached_field {cfg : FCfg} {listed : List (List Str)} {root : List Json} (hg : GoodList listed root)
    (hcfg : cfg.preserve = preserveSet (listed.map pathText)) {p : List Str} {fs : List (Str × Json)} {k : Str} {v : Json}
    (hr : ReachedAt listed p (.obj fs)) (hroot : p.filter (· ≠ s%"0") = [] → .obj fs ∈ root) (hm : (k, v) ∈ fs) :
    keepOf cfg p k = preserved listed p k ∧ (keepOf cfg p k = true → ReachedAt listed (p ++ [k]) v) := by
  have hcl := hr.clean
  rw [CleanKeys] at hcl
  have hk := hcl.2.1 k (Dict.mem_keys_of_mem hm)
  have hin := hr.inside [] fs .here
  rw [List.append_nil] at hin
  have hd := decision hg hcfg hr.comp hr.head hk hin
    (fun h0 q hq hl => hg.names fs k v q (hroot h0) hm hq hl) hr.pres
  refine ⟨hd, fun ht => ?_⟩
  have hz : k.head? ≠ some '0' := hr.noZero [k] v (.field hm .here) k (by simp)
  have hk0 : k ≠ s%"0" := by rintro rfl; simp at hz
  have hf : (p ++ [k]).filter (· ≠ s%"0") = p.filter (· ≠ s%"0") ++ [k] := by
    rw [List.filter_append, List.filter_cons_of_pos (by simpa using hk0), List.filter_nil]
  constructor
  · intro x hx
    simp only [List.mem_append, List.mem_singleton] at hx
    rcases hx with hx | rfl
    · exact hr.comp x hx
    · exact ⟨hk, Or.inr hz⟩
  · cases p with
    | nil => simpa using hk0
    | cons a b => simpa using hr.head
  · exact clean_mem hcl.2.2 hm
  · intro s w ha x hx
    exact hr.noZero (k :: s) w (.field hm ha) x (by simp [hx])
  · intro s gs ha
    rw [hf, List.append_assoc]
    exact hr.inside (k :: s) gs (.field hm ha)
  · intro _
    rw [hf]
    rw [hd] at ht
    exact of_decide_eq_true ht

theorem reached_item {listed : List (List Str)} {p : List Str} {l : List Json} {fs : List (Str × Json)} (hp : p ≠ [])
    (hr : ReachedAt listed p (.arr l)) (hm : .obj fs ∈ l) : ReachedAt listed (p ++ [s%"0"]) (.obj fs) := by
  have hf : (p ++ [s%"0"]).filter (· ≠ s%"0") = p.filter (· ≠ s%"0") := by
    rw [List.filter_append, List.filter_cons_of_neg (by simp)]; simp
  have hcl := hr.clean
  rw [CleanKeys] at hcl
  constructor
  · intro x hx
    simp only [List.mem_append, List.mem_singleton] at hx
    rcases hx with hx | rfl
    · exact hr.comp x hx
    · exact ⟨by decide, Or.inl rfl⟩
  · cases p with
    | nil => exact absurd rfl hp
    | cons a b => simpa using hr.head
  · exact clean_mem_list hcl hm
  · intro s w ha; exact hr.noZero s w (.item hm ha)
  · intro s gs ha; rw [hf]; exact hr.inside s gs (.item hm ha)
  · rw [hf]; exact hr.pres

theorem filter_ne_nil {p : List Str} (hp : p ≠ []) (h0 : p.head? ≠ some s%"0") : p.filter (· ≠ s%"0") ≠ [] := by
  cases p with
  | nil => exact absurd rfl hp
  | cons a b => rw [List.filter_cons_of_pos (by simpa using h0)]; simp

theorem mem_objects {root : List Json} {fs : List (Str × Json)} (h : fs ∈ objects root) : .obj fs ∈ root := by
  induction root with
  | nil => cases h
  | cons j r ih =>
    cases j with
    | obj gs =>
      rcases List.mem_cons.1 h with rfl | h
      · simp
      · simp [ih h]
    | leaf a => exact List.mem_cons_of_mem _ (ih h)
    | arr a => exact List.mem_cons_of_mem _ (ih h)

theorem reached_root {listed : List (List Str)} {root : List Json} (hg : GoodList listed root)
    (hc : ∀ fs ∈ objects root, CleanKeys (.obj fs)) (hz : ∀ j ∈ root, ∀ p w, At j p w → ∀ k ∈ p, k.head? ≠ some '0')
    {fs : List (Str × Json)} (hfs : fs ∈ objects root) : ReachedAt listed [] (.obj fs) where
  comp := by simp
  head := by simp
  clean := hc fs hfs
  noZero := hz _ (mem_objects hfs)
  inside := fun s gs ha hs l hl a b h => hg.inside _ s gs l a b (mem_objects hfs) ha hs hl h
  pres := fun h => absurd rfl h

/-- Through the document, the fields kept are the ones to be preserved. -/
theorem kept_cells {cfg : FCfg} {listed : List (List Str)} {root : List Json} (hg : GoodList listed root)
    (hcfg : cfg.preserve = preserveSet (listed.map pathText)) (hc : ∀ fs ∈ objects root, CleanKeys (.obj fs))
    (hz : ∀ j ∈ root, ∀ p w, At j p w → ∀ k ∈ p, k.head? ≠ some '0') {fs : List (Str × Json)} (hfs : fs ∈ objects root) :
    cells (keepOf cfg) [] fs = cells (preserved listed) [] fs ∧
      items (keepOf cfg) [] [([], fs)] fs = items (preserved listed) [] [([], fs)] fs ∧
      ∀ i ∈ items (keepOf cfg) [] [([], fs)] fs,
        i.line (idOpts cfg) (keepOf cfg) = i.line (idOpts cfg) (preserved listed) := by
  let Inv : List Str → Json → Prop := fun p v => p ≠ [] ∧ ReachedAt listed p v
  have h : ∀ p fs k v, Inv p (.obj fs) → (k, v) ∈ fs →
      keepOf cfg p k = preserved listed p k ∧ (keepOf cfg p k = true → Inv (p ++ [k]) v) := by
    intro p fs k v hi hm
    obtain ⟨h1, h2⟩ := reached_field hg hcfg hi.2 (fun h => absurd h (filter_ne_nil hi.1 hi.2.head)) hm
    exact ⟨h1, fun ht => ⟨by simp, h2 ht⟩⟩
  have ha : ∀ p l fs, Inv p (.arr l) → .obj fs ∈ l → Inv (p ++ [s%"0"]) (.obj fs) :=
    fun p l fs hi hm => ⟨by simp, reached_item hi.1 hi.2 hm⟩
  have hr := reached_root hg hc hz hfs
  have hi : ∀ k v, (k, v) ∈ fs → keepOf cfg [] k = preserved listed [] k ∧ (keepOf cfg [] k = true → Inv ([] ++ [k]) v) := by
    intro k v hm
    obtain ⟨h1, h2⟩ := reached_field hg hcfg hr (fun _ => mem_objects hfs) hm
    exact ⟨h1, fun ht => ⟨by simp, h2 ht⟩⟩
  refine ⟨cells_congr Inv h [] fs hi, (items_congr Inv h ha [] _ fs hi).1, ?_⟩
  intro i hm
  have hinv := (items_congr Inv h ha [] _ fs hi).2 i hm
  unfold Item.line
  rw [cells_congr Inv h _ i.fields (fun k v hm => h _ i.fields k v hinv hm)]

/-- C29: whatever the titles and the rollup, there is one line on the main sheet per object of the root list, and on each sub-sheet one
line per object in the arrays (reached through fields to be preserved) that belong to that sheet. -/
theorem C29_line_counts (cfg : FCfg) (hw : cfg.wkt = false) (hx : cfg.xml = false) (hf : cfg.filter = none) (hs : FromSchemaParser cfg)
    (listed : List (List Str)) (hcfg : cfg.preserve = preserveSet (listed.map pathText)) (root : List Json)
    (hg : GoodList listed root) (hc : ∀ fs ∈ objects root, CleanKeys (.obj fs))
    (hz : ∀ j ∈ root, ∀ p w, At j p w → ∀ k ∈ p, k.head? ≠ some '0') (st : FState) (h : flatten cfg root = .ok st) :
    st.main.lines.length = (objects root).length ∧
    ∀ name, (subLines st name).length = ((docItems (preserved listed) root).filter (fun i => sheetOf cfg i.array = name)).length := by
  obtain ⟨h1, h2⟩ := line_counts hw hx hf hs h
  refine ⟨h1, fun name => ?_⟩
  rw [h2]
  have : docItems (keepOf cfg) root = docItems (preserved listed) root := by
    unfold docItems
    have hk := fun fs hm => (kept_cells hg hcfg hc hz (fs := fs) hm).2.1
    generalize objects root = l at hk
    clear hg hc hz h h2 h1
    induction l with
    | nil => rfl
    | cons x r ih => rw [List.flatMap_cons, List.flatMap_cons, hk x (by simp), ih (fun y hy => hk y (by simp [hy]))]
  rw [this]

/-- C29: if the listed paths fit the document (see `GoodList`) and no key starts with `0`, then each line holds exactly the values
of the fields to be preserved of its object (and the ids of the objects around it), and there is one line on a sub-sheet per object in the arrays
that are to be preserved. -/
theorem C29_preserve_fields (cfg : FCfg) (hp : Plain cfg) (hf : cfg.filter = none) (hs : FromSchemaParser cfg)
    (listed : List (List Str)) (hcfg : cfg.preserve = preserveSet (listed.map pathText)) (root : List Json)
    (hg : GoodList listed root) (hc : ∀ fs ∈ objects root, CleanKeys (.obj fs))
    (hz : ∀ j ∈ root, ∀ p w, At j p w → ∀ k ∈ p, k.head? ≠ some '0') (st : FState) (h : flatten cfg root = .ok st) :
    All₂ (fun fs line => Holds (preserved listed) [] fs (fun _ _ => False) line) (objects root) st.main.lines ∧
    ∀ name, All₂ (fun (i : Item) line => Holds (preserved listed) (i.array ++ [s%"0"]) i.fields (IsIdOf (idOpts cfg) i.around) line)
      ((docItems (preserved listed) root).filter (fun i => sheetName cfg.trunc i.array = name)) (subLines st name) := by
  obtain ⟨h1, h2⟩ := plain_lines hp hf hs h
  constructor
  · rw [h1]
    apply all₂_map_right
    intro fs hfs
    rw [(kept_cells hg hcfg hc hz hfs).1]
    constructor
    · intro q v hq
      exact entries_complete [] (hc fs hfs) (by simp) hq
    · intro h v hg
      rcases entries_sound (d := []) hg with h | h
      · exact Or.inl h
      · simp [Dict.get] at h
  · intro name
    have hd : docItems (keepOf cfg) root = docItems (preserved listed) root := by
      unfold docItems
      rw [List.flatMap_def, List.flatMap_def]
      congr 1
      apply List.map_congr_left
      intro fs hfs
      exact (kept_cells hg hcfg hc hz hfs).2.1
    have hl : ∀ i ∈ docItems (keepOf cfg) root, i.line (idOpts cfg) (keepOf cfg) = i.line (idOpts cfg) (preserved listed) := by
      intro i hi
      simp only [docItems, List.mem_flatMap] at hi
      obtain ⟨fs, hfs, hi⟩ := hi
      exact (kept_cells hg hcfg hc hz hfs).2.2 i hi
    rw [h2, wanted, ← hd]
    apply all₂_map_right
    intro i hi
    have hi' := (List.mem_filter.1 hi).1
    rw [hl i hi']
    exact item_line_holds (docItems_ok _ root hc i hi')

/-! ### A concrete case -/

/-- `[{"id": "1", "title": "t", "size": 3, "dishes": [{"title": "x", "n": 1}]}]` -/
def preserveDoc : List Json :=
  [.obj [(s%"id", .leaf (.str s%"1")), (s%"title", .leaf (.str s%"t")), (s%"size", .leaf (.int 3)),
    (s%"dishes", .arr [.obj [(s%"title", .leaf (.str s%"x")), (s%"n", .leaf (.int 1))]])]]

/-- The paths `title` and `dishes/title`. -/
def preserveList : List (List Str) := [[s%"title"], [s%"dishes", s%"title"]]

theorem preserveDoc_at {j : Json} (hj : j ∈ preserveDoc) {p : List Str} {w : Json} (h : At j p w) :
    p = [] ∨ p = [s%"id"] ∨ p = [s%"title"] ∨ p = [s%"size"] ∨ p = [s%"dishes"] ∨ p = [s%"dishes", s%"title"] ∨ p = [s%"dishes", s%"n"] := by
  simp only [preserveDoc, List.mem_singleton] at hj
  subst hj
  have hleaf : ∀ {a p w}, At (.leaf a) p w → p = [] := by intro a p w h; cases h; rfl
  cases h with
  | here => simp
  | field hm h =>
    simp only [List.mem_cons, Prod.mk.injEq, List.not_mem_nil, or_false] at hm
    rcases hm with ⟨rfl, rfl⟩ | ⟨rfl, rfl⟩ | ⟨rfl, rfl⟩ | ⟨rfl, rfl⟩
    · rw [hleaf h]; simp
    · rw [hleaf h]; simp
    · rw [hleaf h]; simp
    · cases h with
      | here => simp
      | item hm h =>
        simp only [List.mem_singleton] at hm
        subst hm
        cases h with
        | here => simp
        | field hm h =>
          simp only [List.mem_cons, Prod.mk.injEq, List.not_mem_nil, or_false] at hm
          rcases hm with ⟨rfl, rfl⟩ | ⟨rfl, rfl⟩ <;> rw [hleaf h] <;> simp

/-- The hypotheses of C29 hold for this document and these paths. -/
example : GoodList preserveList preserveDoc ∧ (∀ fs ∈ objects preserveDoc, CleanKeys (.obj fs)) ∧
    (∀ j ∈ preserveDoc, ∀ p w, At j p w → ∀ k ∈ p, k.head? ≠ some '0') := by
  refine ⟨⟨by decide, by decide, by decide, ?_, ?_, ?_⟩, ?_, ?_⟩
  · intro l hl q hq hne
    obtain ⟨t, rfl⟩ := hq
    simp only [preserveList, List.mem_cons, List.not_mem_nil, or_false] at hl
    rcases q with _ | ⟨a, _ | ⟨b, c⟩⟩
    · exact absurd rfl hne
    · rcases hl with hl | hl
      · simp at hl; left; rw [hl.1]; decide
      · simp at hl; right; rw [hl.1]; exact ⟨s%"title", by decide⟩
    · rcases hl with hl | hl
      · simp at hl
      · simp at hl; left; rw [hl.1, hl.2.1, hl.2.2.1]; decide
  · intro fs k v q hj hm hq hl
    simp only [preserveDoc, List.mem_singleton, Json.obj.injEq] at hj
    subst hj
    simp only [List.mem_cons, Prod.mk.injEq, List.not_mem_nil, or_false] at hm
    simp only [preserveList, List.mem_cons, List.not_mem_nil, or_false] at hl
    have hlen : (q ++ [k]).getLast? = some k := by simp
    have : k = s%"title" := by
      rcases hl with hl | hl <;> rw [hl] at hlen <;> simpa using hlen.symm
    subst this
    exact ⟨[s%"title"], by decide, List.prefix_rfl⟩
  · intro j p gs l a b hj ha hp hl he
    have hcon := (contains_iff _ _).2 ⟨a, b, he⟩
    simp only [preserveList, List.mem_cons, List.not_mem_nil, or_false] at hl
    rcases preserveDoc_at hj ha with rfl | rfl | rfl | rfl | rfl | rfl | rfl <;> rcases hl with rfl | rfl <;>
      first
        | exact absurd rfl hp
        | exact absurd hcon (by decide)
        | exact ⟨[s%"title"], rfl⟩
  · intro fs hfs
    simp only [preserveDoc, objects, List.mem_singleton] at hfs
    subst hfs
    simp only [CleanKeys, CleanFields, CleanList]; decide
  · intro j hj p w ha k hk
    rcases preserveDoc_at hj ha with rfl | rfl | rfl | rfl | rfl | rfl | rfl <;> revert k hk <;> decide

/-- The sheets of a flattening with a list of paths to preserve. -/
def preservedSheets (paths : List Str) (root : List Json) : Except Err (List FLine × List (Str × List FLine)) :=
  (flatten { preserve := preserveSet paths } root).map (fun st => (st.main.lines, st.subs.map (fun s => (s.1, s.2.lines))))

/-- Only the titles are kept (and on the sub-sheet the id of the root object). -/
example : preservedSheets [s%"title", s%"dishes/title"] preserveDoc =
    .ok ([[(s%"title", .leaf (.str s%"t"))]],
      [(s%"dishes", [[(s%"id", .leaf (.str s%"1")), (s%"dishes/0/title", .leaf (.str s%"x"))]])]) := by
  decide +kernel

/-! ### Why the conditions: each of these documents and lists violates one, and the documented rule fails -/

/-- `GoodList.names`: listing `dishes/title` also keeps `title` of the root object. -/
example : preservedSheets [s%"dishes/title"] preserveDoc =
    .ok ([[(s%"title", .leaf (.str s%"t"))]],
      [(s%"dishes", [[(s%"id", .leaf (.str s%"1")), (s%"dishes/0/title", .leaf (.str s%"x"))]])]) := by
  decide +kernel

/-- `GoodList.above`: listing only `a/b/c` keeps nothing. -/
example : preservedSheets [s%"a/b/c"] [.obj [(s%"a", .obj [(s%"b", .obj [(s%"c", .leaf (.int 1))])])]] = .ok ([[]], []) := by
  decide +kernel

/-- `GoodList.inside`: `b` is listed, and nothing below it; but `b/` occurs in `ab/c`, so the fields of `b` are lost. -/
example : preservedSheets [s%"b", s%"ab/c"] [.obj [(s%"b", .obj [(s%"x", .leaf (.int 1))])]] = .ok ([[]], []) ∧
    preservedSheets [s%"b"] [.obj [(s%"b", .obj [(s%"x", .leaf (.int 1))])]] = .ok ([[(s%"b/x", .leaf (.int 1))]], []) := by
  decide +kernel

/-- A key that starts with `0`: only `a/0x/y` is listed, but `a/0x/z` is kept too. -/
example : preservedSheets [s%"a", s%"a/0x/y"] [.obj [(s%"a", .obj [(s%"0x", .obj [(s%"y", .leaf (.int 1)), (s%"z", .leaf (.int 2))])])]] =
    .ok ([[(s%"a/0x/y", .leaf (.int 1)), (s%"a/0x/z", .leaf (.int 2))]], []) := by
  decide +kernel

end Verif

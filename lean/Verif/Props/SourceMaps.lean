import Verif.Proofs.Maps
import Verif.Proofs.DecEq
/-! Source maps: C13, C14, C15, C16. -/
namespace Verif
open Spec

/-! #### The cells of a run -/

/-- Invariants of the rows hold of the cells of the result. -/
theorem run_cells {cfg : UnCfg} {sheets : List SheetIn} {tree : List (List (Str × CTree))} {w : List Warn}
    {Q : Str → Prop} {P : List Str → Cell → Prop}
    (hP : ∀ p b c, P p b → P p c → b.value.pyEq c.value = true → P p { b with sub := b.sub ++ [(c.value, c.loc)] })
    (hrow : ∀ r ∈ rowsIn sheets, ∀ x, rowAlone cfg r = .ok x → TAllF Q P [] x.fields)
    (h : doUnflatten cfg sheets = .ok (tree, w)) : CGoodI Q P [] tree := by
  obtain ⟨rows, gs, mw, h1, h2, rfl, hg, _⟩ := doUnflatten_ok h
  refine cgood_groups hg ?_
  refine (foldRows_inv hP rows h2 (gwf_nil cfg) (rowsAlone_wf h1)).2 (by simp) ?_
  intro x hx
  obtain ⟨r, hr, hrx⟩ := rowsAlone_mem h1 x hx
  exact hrow r hr x hrx

/-- No slash and no number. -/
def KeyOk (k : Str) : Prop := '/' ∉ k ∧ isint k = false

theorem pathList_noSlash (h : Str) : ∀ item ∈ pathList h, '/' ∉ item := by
  intro item hi hs
  obtain ⟨s, hs1, rfl⟩ := List.mem_map.1 hi
  exact Py.not_mem_split '/' h s hs1 (Py.mem_rstrip hs)

theorem keyOk_item (h : Str) : ∀ item ∈ pathList h, ¬ isint item = true → KeyOk item :=
  fun item hi hn => ⟨pathList_noSlash h item hi, by simpa using hn⟩

theorem keyOk_text : KeyOk s%"text()" := by unfold KeyOk; decide +kernel

/-- The cells of a line: position, heading, value. -/
theorem lineCells_get {sheet : Str} {hs : Option (List (Option Str))} {j k : Nat} {l : Line} {e : Str × Cell}
    (he : e ∈ lineCells sheet hs j k l) : ∃ i h a, l[i]? = some (h, a) ∧ e.1 = h.getD s%"None" ∧
      e.2 = { value := .atom a, loc := ⟨sheet, k + i + 1, j + 2, headingOf ⟨sheet, hs, []⟩ (k + i) h⟩ } := by
  induction l generalizing k with
  | nil => simp [lineCells] at he
  | cons x r ih =>
    obtain ⟨h, v⟩ := x
    simp only [lineCells, List.mem_cons] at he
    rcases he with rfl | he
    · refine ⟨0, h, v, by simp, rfl, ?_⟩
      cases hs <;> rfl
    · obtain ⟨i, h', a, h1, h2, h3⟩ := ih he
      refine ⟨i + 1, h', a, by simpa using h1, h2, ?_⟩
      rw [h3]
      have e1 : k + 1 + i = k + (i + 1) := by omega
      rw [e1]

/-- The rows of a spreadsheet are its lines. -/
theorem rowsIn_line {sheets : List SheetIn} {r : RowIn} (h : r ∈ rowsIn sheets) :
    r.sheet ∈ sheets ∧ r.sheet.headings ≠ some [] ∧ r.sheet.lines[r.number]? = some r.line := by
  unfold rowsIn at h
  obtain ⟨s, hs, hr⟩ := List.mem_flatMap.1 h
  split at hr
  · simp at hr
  · next hh =>
    obtain ⟨p, hp, rfl⟩ := List.mem_map.1 hr
    obtain ⟨l, i⟩ := p
    have hp1 := (List.mem_filter.1 hp).1
    refine ⟨hs, hh, ?_⟩
    have := List.mem_zipIdx_iff_getElem?.1 hp1
    simpa using this

/-- A cell of a line is a cell of the spreadsheet. -/
theorem hasCell_line {sheets : List SheetIn} {r : RowIn} (hr : r ∈ rowsIn sheets) {e : Str × Cell}
    (he : e ∈ lineCells r.sheet.name r.sheet.headings r.number 0 r.line) :
    ∃ own a, CellThere sheets e.2.loc own a ∧ e.2.value = .atom a ∧ e.1 = own.getD s%"None" ∧ e.2.sub = [] := by
  obtain ⟨i, h, a, h1, h2, h3⟩ := lineCells_get he
  obtain ⟨g1, g2, g3⟩ := rowsIn_line hr
  refine ⟨h, a, ⟨r.sheet, g1, g2, ?_, r.line, ?_⟩, ?_, h2, ?_⟩
  · rw [h3]
  · rw [h3]
    refine ⟨by simp, by simpa using g3, by simp, by simpa using h1, ?_⟩
    unfold headingOf
    cases hh : r.sheet.headings <;> simp
  · rw [h3]
  · rw [h3]

theorem rowAlone_keys {cfg : UnCfg} {r : RowIn} {x : Row} (h : rowAlone cfg r = .ok x) :
    TAllF KeyOk (fun _ _ => True) [] x.fields := by
  unfold rowAlone at h
  split at h
  · cases h
  · next fs w hu =>
    cases h
    refine tallF_mono (P := fun _ c => c.sub = []) (fun _ _ _ => trivial) [] _ ?_
    refine (unflattenRow_inv (Q := KeyOk) (fun _ _ h => h) _ ?_ hu).2
    intro e he _
    refine ⟨fun _ c => c.sub = [], fun _ _ => True, ?_, trivial, lineCells_sub _ _ _ _ _ e he⟩
    constructor
    · intros; trivial
    · intros; trivial
    · intros; trivial
    · exact keyOk_item e.1
    · intro _; exact keyOk_text
    · intros; assumption
    · intro pre p item rest cell ty v w _ _ _ hpin _ _
      exact ⟨hpin, fun _ q _ => hpin⟩

theorem run_good {cfg : UnCfg} {sheets : List SheetIn} {tree : List (List (Str × CTree))} {w : List Warn}
    (h : doUnflatten cfg sheets = .ok (tree, w)) : CGoodI KeyOk (fun _ _ => True) [] tree :=
  run_cells (by intros; trivial) (fun _ _ _ hx => rowAlone_keys hx) h

/-! #### The values of cells are the values of the document -/

theorem leavesInFields_append (a b : List (Str × Json)) : leavesInFields (a ++ b) = leavesInFields a ++ leavesInFields b := by
  induction a with
  | nil => rfl
  | cons x r ih => obtain ⟨k, v⟩ := x; simp [leavesInFields, ih]

/-- The scalars a cell stands for. -/
def leavesOf (e : List PStep × Cell) : List (List PStep × Atom) :=
  (leaves e.2.value.toJson).map (fun d => (e.1 ++ d.1, d.2))

theorem leavesOf_under (s : PStep) (l : List (List PStep × Cell)) :
    (l.map (under s)).flatMap leavesOf = (l.flatMap leavesOf).map (under s) := by
  induction l with
  | nil => rfl
  | cons e r ih => simp [ih, leavesOf, under, Function.comp_def]

mutual
theorem leaves_cells : ∀ t : CTree, leaves (treeToValue t) = (cellsIn t).flatMap leavesOf
  | .cell c => by simp [treeToValue, cellsIn, leavesOf]
  | .obj fs => by simp only [treeToValue, cellsIn, leaves]; exact leaves_cellsF fs
  | .list is => by simp only [treeToValue, cellsIn, leaves]; exact leaves_cellsI 0 is
theorem leaves_cellsF : ∀ fs : List (Str × CTree), leavesInFields (toValue fs) = (cellsInFields fs).flatMap leavesOf
  | [] => rfl
  | (k, t) :: r => by
    simp only [toValue, leavesInFields, cellsInFields, List.flatMap_append, leavesOf_under, leaves_cells t, leaves_cellsF r]
theorem leaves_cellsI : ∀ (i : Nat) (is : List (List (Str × CTree))),
    leavesInItems i (listToValue is) = (cellsInItems i is).flatMap leavesOf
  | _, [] => rfl
  | i, fs :: r => by
    simp only [listToValue, leavesInItems, cellsInItems, List.flatMap_append, leavesOf_under, leaves, leaves_cellsF fs,
      leaves_cellsI (i + 1) r]
end

/-! #### The path of a cell leads to its value -/

theorem get_toValue (fs : List (Str × CTree)) (k : Str) : Dict.get (toValue fs) k = (Dict.get fs k).map treeToValue := by
  induction fs with
  | nil => rfl
  | cons e r ih => obtain ⟨j, t⟩ := e; simp only [toValue, Dict.get_cons, ih]; split <;> simp

theorem get_listToValue (is : List (List (Str × CTree))) (i : Nat) :
    (listToValue is)[i]? = (is[i]?).map (fun fs => Json.obj (toValue fs)) := by
  induction is generalizing i with
  | nil => simp [listToValue]
  | cons x r ih => cases i <;> simp [listToValue, ih]

section
variable {Q : Str → Prop} {P : List Str → Cell → Prop}

mutual
theorem valueAt_cell : ∀ (p : List Str) (t : CTree), CGood Q P p t → ∀ e ∈ cellsIn t,
    valueAt (treeToValue t) e.1 = some e.2.value.toJson
  | _, .cell c, _, e, he => by
    simp only [cellsIn, List.mem_singleton] at he
    subst he
    simp [treeToValue, valueAt]
  | p, .obj fs, h, e, he => by
    simp only [cellsIn] at he
    simp only [CGood] at h
    simp only [treeToValue]
    exact valueAt_field p fs h e he
  | p, .list is, h, e, he => by
    simp only [cellsIn] at he
    simp only [CGood] at h
    simp only [treeToValue]
    obtain ⟨i, q, h1, h2, h3⟩ := valueAt_item p 0 is h e he
    rw [h1]
    simp only [valueAt]
    rw [get_listToValue]
    rw [Nat.zero_add]
    exact h3
theorem valueAt_field : ∀ (p : List Str) (fs : List (Str × CTree)), CGoodF Q P p fs → ∀ e ∈ cellsInFields fs,
    valueAt (.obj (toValue fs)) e.1 = some e.2.value.toJson
  | _, [], _, e, he => by simp [cellsInFields] at he
  | p, (k, t) :: r, h, e, he => by
    simp only [CGoodF] at h
    simp only [cellsInFields, List.mem_append, List.mem_map] at he
    rcases he with ⟨d, hd, rfl⟩ | he
    · have := valueAt_cell _ t h.1.2.2 d hd
      simp only [under, valueAt, get_toValue, Dict.get_cons, if_true, Option.map_some]
      exact this
    · have := valueAt_field p r h.2 e he
      obtain ⟨k', q, h1, h2⟩ := cellsInFields_head he
      have hk : k ≠ k' := by rintro rfl; exact h.1.1 h2
      rw [h1] at this ⊢
      simp only [valueAt, toValue, Dict.get_cons, hk, if_false] at this ⊢
      exact this
theorem valueAt_item : ∀ (p : List Str) (i : Nat) (is : List (List (Str × CTree))), CGoodI Q P p is →
    ∀ e ∈ cellsInItems i is, ∃ j q, e.1 = .idx (i + j) :: q ∧ True ∧
      (match (is[j]?).map (fun fs => Json.obj (toValue fs)) with | some x => valueAt x q | none => none)
        = some e.2.value.toJson
  | _, _, [], _, e, he => by simp [cellsInItems] at he
  | p, i, fs :: r, h, e, he => by
    simp only [CGoodI] at h
    simp only [cellsInItems, List.mem_append, List.mem_map] at he
    rcases he with ⟨d, hd, rfl⟩ | he
    · exact ⟨0, d.1, rfl, trivial, by simpa [under] using valueAt_field p fs h.1 d hd⟩
    · obtain ⟨j, q, h1, _, h3⟩ := valueAt_item p (i + 1) r h.2 e he
      refine ⟨j + 1, q, by rw [h1]; congr 2; omega, trivial, by simpa using h3⟩
end
end

/-! #### The properties -/

/-- The record of a cell. -/
def recordOf (e : List PStep × Cell) : Recorded := ⟨e.1, e.2.value, locations e.2⟩

/-- Moving a permutation through a map. -/
theorem perm_of_map {α β : Type} (f : α → β) {l : List β} {m : List α} (h : l.Perm (m.map f)) :
    ∃ m' : List α, m'.Perm m ∧ l = m'.map f := by
  generalize hm : m.map f = k at h
  induction h generalizing m with
  | nil => exact ⟨[], by simp at hm; subst hm; exact List.Perm.refl _, rfl⟩
  | cons x hp ih =>
    obtain ⟨a, m1, rfl, rfl, h3⟩ := List.map_eq_cons_iff.1 hm
    obtain ⟨m', b1, b2⟩ := ih h3
    exact ⟨a :: m', b1.cons a, by simp [b2]⟩
  | swap x y l =>
    obtain ⟨a, m1, rfl, rfl, h3⟩ := List.map_eq_cons_iff.1 hm
    obtain ⟨b, m2, rfl, rfl, h4⟩ := List.map_eq_cons_iff.1 h3
    exact ⟨b :: a :: m2, List.Perm.swap .., by simp [h4]⟩
  | trans h1 h2 ih1 ih2 =>
    obtain ⟨m1, a1, a2⟩ := ih2 hm
    obtain ⟨m2, b1, b2⟩ := ih1 a2.symm
    exact ⟨m2, b1.trans a1, b2⟩

theorem fancy_sorted {cfg : UnCfg} {sheets : List SheetIn} {tree : List (List (Str × CTree))} {w : List Warn}
    (h : doUnflatten cfg sheets = .ok (tree, w)) (root : Option Str) :
    ∃ cells : List (List PStep × Cell), (cells.map (·.1)).Pairwise PathLt ∧ cells.Perm (cellsInItems 0 tree) ∧
      AllSep (cells.map (entryOf (rootSteps root))) ∧ (∀ e ∈ cells, EntryOk root (entryOf (rootSteps root) e)) ∧
      ∀ wc wh, fancyUnflatten cfg root wc wh sheets = .ok (listToValue tree,
        if !wc && !wh then (none, none, w)
        else (if wc then some ((cells.map (entryOf (rootSteps root))).map (fun e => (pathStr e.1, .cells e.2)) ++
                  (rowMap (cells.map (entryOf (rootSteps root)))).map (fun e => (e.1, .rows e.2))) else none,
               some (if wh then headingMap (cells.map (entryOf (rootSteps root))) else []), w)) := by
  have hg := run_good h
  obtain ⟨sorted, h1, h2, h3, h0, h4⟩ := sourceMaps_ok (fun k hk => hk.1) hg root true true
  obtain ⟨cells, c1, rfl⟩ := perm_of_map _ h1
  have h0' : (cells.map (·.1)).Pairwise PathLt := by
    rw [List.pairwise_map] at h0 ⊢
    rw [List.pairwise_map] at h0
    exact h0.imp (fun h => pathLt_cancel h)
  refine ⟨cells, h0', c1, h2, fun e he => h3 _ (List.mem_map_of_mem he), ?_⟩
  intro wc wh
  unfold fancyUnflatten
  rw [h]
  -- the maps do not depend on what is asked for
  have hs : ∀ wc wh, sourceMaps root wc wh tree = .ok
        (if !wc && !wh then (none, none)
         else (if wc then some ((cells.map (entryOf (rootSteps root))).map (fun e => (pathStr e.1, .cells e.2)) ++
                  (rowMap (cells.map (entryOf (rootSteps root)))).map (fun e => (e.1, .rows e.2))) else none,
               some (if wh then headingMap (cells.map (entryOf (rootSteps root))) else []))) := by
    intro wc wh
    unfold sourceMaps at h4 ⊢
    simp only [Bool.not_true, Bool.and_self, Bool.false_eq_true, if_false, if_true] at h4
    split at h4
    · cases h4
    · next pm hpm =>
      split at h4
      · cases h4
      · next st hst =>
        split at h4
        · cases h4
        · next cm hcm =>
          simp only [Except.ok.injEq, Prod.mk.injEq, Option.some.injEq] at h4
          obtain ⟨rfl, h5⟩ := h4
          by_cases hn : (!wc && !wh) = true
          · simp only [hn, if_true]
          · simp only [hn, hst, hcm]
            cases wc <;> cases wh <;> simp_all
  simp only [hs]
  by_cases hn : (!wc && !wh) = true <;> simp [hn]

theorem fancy_ok {cfg : UnCfg} {sheets : List SheetIn} {tree : List (List (Str × CTree))} {w : List Warn}
    (h : doUnflatten cfg sheets = .ok (tree, w)) (root : Option Str) :
    ∃ cells : List (List PStep × Cell), cells.Perm (cellsInItems 0 tree) ∧
      AllSep (cells.map (entryOf (rootSteps root))) ∧ (∀ e ∈ cells, EntryOk root (entryOf (rootSteps root) e)) ∧
      ∀ wc wh, fancyUnflatten cfg root wc wh sheets = .ok (listToValue tree,
        if !wc && !wh then (none, none, w)
        else (if wc then some ((cells.map (entryOf (rootSteps root))).map (fun e => (pathStr e.1, .cells e.2)) ++
                  (rowMap (cells.map (entryOf (rootSteps root)))).map (fun e => (e.1, .rows e.2))) else none,
               some (if wh then headingMap (cells.map (entryOf (rootSteps root))) else []), w)) := by
  obtain ⟨cells, -, h⟩ := fancy_sorted h root
  exact ⟨cells, h⟩

/-- C15.  If a spreadsheet can be unflattened, then it can be unflattened with source maps, whatever the name of the root list and whichever of the
maps are asked for; the data and the warnings are the same, and the maps do not depend on which of them are asked for. -/
theorem C15_maps_never_fail {cfg : UnCfg} {sheets : List SheetIn} {out : List Json} {w : List Warn}
    (h : unflatten cfg sheets = .ok (out, w)) (root : Option Str) :
    ∃ cm hm, ∀ wantCells wantHeadings, fancyUnflatten cfg root wantCells wantHeadings sheets = .ok (out,
      if wantCells then some cm else none,
      if wantHeadings then some hm else if wantCells then some [] else none, w) := by
  unfold unflatten at h
  split at h
  · cases h
  · next t w1 ht =>
    cases h
    obtain ⟨cells, _, _, _, h4⟩ := fancy_ok ht root
    refine ⟨(cells.map (entryOf (rootSteps root))).map (fun e => (pathStr e.1, .cells e.2)) ++
        (rowMap (cells.map (entryOf (rootSteps root)))).map (fun e => (e.1, .rows e.2)),
      headingMap (cells.map (entryOf (rootSteps root))), fun wc wh => ?_⟩
    rw [h4 wc wh]
    cases wc <;> cases wh <;> rfl

/-- Splitting a run with source maps. -/
theorem fancy_inv {cfg : UnCfg} {root : Option Str} {wc wh : Bool} {sheets : List SheetIn} {out : List Json}
    {cm : Option (List (Str × MapEntry))} {hm : Option (List (Str × List (Str × Str)))} {w : List Warn}
    (h : fancyUnflatten cfg root wc wh sheets = .ok (out, cm, hm, w)) :
    ∃ tree, doUnflatten cfg sheets = .ok (tree, w) ∧ out = listToValue tree := by
  unfold fancyUnflatten at h
  split at h
  · cases h
  · next t w1 ht =>
    split at h
    · cases h
    · cases h; exact ⟨t, ht, rfl⟩

theorem cellEntries_maps (m : PMap) (r : List (Str × List (Str × Nat))) :
    cellEntries (m.map (fun e => (pathStr e.1, .cells e.2)) ++ r.map (fun e => (e.1, .rows e.2)))
      = m.map (fun e => (pathStr e.1, e.2)) := by
  unfold cellEntries
  rw [List.filterMap_append, List.filterMap_map, List.filterMap_map]
  have h1 : List.filterMap (cellEntry ∘
      fun e : Str × List (Str × Nat) => (e.1, MapEntry.rows e.2)) r = [] := by
    rw [List.filterMap_eq_nil_iff]; intros; rfl
  rw [h1, List.append_nil]
  exact congrFun (List.filterMap_eq_map (f := fun e : List PStep × List Loc => (pathStr e.1, e.2))) m

theorem rowEntries_maps (m : PMap) (r : List (Str × List (Str × Nat))) :
    rowEntries (m.map (fun e => (pathStr e.1, .cells e.2)) ++ r.map (fun e => (e.1, .rows e.2))) = r := by
  unfold rowEntries
  rw [List.filterMap_append, List.filterMap_map, List.filterMap_map]
  have h1 : List.filterMap (rowEntry ∘
      fun e : List PStep × List Loc => (pathStr e.1, MapEntry.cells e.2)) m = [] := by
    rw [List.filterMap_eq_nil_iff]; intros; rfl
  rw [h1, List.nil_append]
  exact (congrFun (List.filterMap_eq_map (f := fun e : Str × List (Str × Nat) => e)) r).trans (List.map_id r)

theorem stepKeys_filter {p : List PStep} (h : ∀ k, .key k ∈ p → isint k = false) :
    (p.filter (fun x => !x.intLike)).map PStep.str = stepKeys p := by
  induction p with
  | nil => rfl
  | cons s r ih =>
    have ih := ih (fun k hk => h k (List.mem_cons_of_mem _ hk))
    cases s with
    | key k =>
      have := h k (List.mem_cons_self ..)
      have e1 : (PStep.key k).intLike = false := this
      rw [List.filter_cons, e1]
      simp only [Bool.not_false, if_true, List.map_cons, ih]
      simp [stepKeys, PStep.str]
    | idx i =>
      have e1 : (PStep.idx i).intLike = true := rfl
      rw [List.filter_cons, e1]
      simp only [Bool.not_true, Bool.false_eq_true, if_false, ih]
      simp [stepKeys]

/-- Everything about the source maps, for one list of records. -/
theorem maps_sorted {cfg : UnCfg} {root : Option Str} {wh : Bool} {sheets : List SheetIn} {out : List Json}
    {cm : List (Str × MapEntry)} {hm : Option (List (Str × List (Str × Str)))} {w : List Warn}
    (h : fancyUnflatten cfg root true wh sheets = .ok (out, some cm, hm, w)) :
    ∃ rs : List Recorded, (rs.map (·.path)).Pairwise PathLt ∧ Exhaustive out rs ∧
      (∀ r ∈ rs, valueAt (.arr out) r.path = some r.value.toJson ∧ r.locs ≠ []) ∧
      cellEntries cm = rs.map (fun r => (stepsText (rootSteps root ++ r.path), r.locs)) ∧
      (cm.map (·.1)).Nodup ∧
      (∀ k, (∃ l, (k, l) ∈ rowEntries cm) ↔ ∃ r ∈ rs, stepsText (rootSteps root ++ r.path.dropLast) = k) ∧
      (∀ k l, (k, l) ∈ rowEntries cm → l.Nodup ∧ ∀ sheet row, (sheet, row) ∈ l ↔
        ∃ r ∈ rs, stepsText (rootSteps root ++ r.path.dropLast) = k ∧ ∃ loc ∈ r.locs, loc.sheet = sheet ∧ loc.row = row) ∧
      (∀ r ∈ rs, ∃ i k q, r.path = .idx i :: .key k :: q ∧ NoSlash r.path) ∧
      (wh = true → (∀ r, root = some r → Py.int? r = none) → ∃ hs, hm = some hs ∧
        (hs.map (·.1)).Nodup ∧
        (∀ k, (∃ l, (k, l) ∈ hs) ↔ ∃ r ∈ rs, keysText (rootSteps root ++ r.path) = k) ∧
        ∀ k l, (k, l) ∈ hs → l.Nodup ∧ ∀ sheet heading, (sheet, heading) ∈ l ↔
          ∃ r ∈ rs, keysText (rootSteps root ++ r.path) = k ∧
            ∃ loc ∈ r.locs, loc.sheet = sheet ∧ loc.heading = heading) := by
  obtain ⟨tree, ht, rfl⟩ := fancy_inv h
  obtain ⟨cells, h0, h1, h2, h3, h4⟩ := fancy_sorted ht root
  rw [h4] at h
  simp only [Bool.not_true, Bool.false_and, Bool.false_eq_true, if_false, if_true, Except.ok.injEq, Prod.mk.injEq,
    Option.some.injEq, true_and] at h
  obtain ⟨rfl, hhm, _⟩ := h
  have hdrop : ∀ e ∈ cells, (rootSteps root ++ e.1).dropLast = rootSteps root ++ e.1.dropLast := by
    intro e he
    obtain ⟨q, hq1, hq2, _⟩ := h3 e he
    have : e.1 = q := List.append_cancel_left hq1
    subst this
    exact List.dropLast_append_of_ne_nil (by intro h; simp [h] at hq2)
  have hspec := groupBy_spec (fun e : List PStep × List Loc => pathStr e.1.dropLast)
        (fun e => e.2.map (fun l => (l.sheet, l.row))) (cells.map (entryOf (rootSteps root))) [] (by simp)
  refine ⟨cells.map recordOf, by rw [List.map_map]; exact h0, ?_, ?_, ?_, ?_, ?_, ?_, ?_, ?_⟩
  · unfold Exhaustive
    rw [leaves_cellsI, List.flatMap_map]
    exact (h1.symm.flatMap_right _)
  · intro r hr
    obtain ⟨e, he, rfl⟩ := List.mem_map.1 hr
    refine ⟨?_, by simp [recordOf, locations]⟩
    have := valueAt_cell [] (.list tree) (by simpa [CGood] using run_good ht) e
      (by simpa [cellsIn] using h1.subset he)
    simpa [treeToValue, recordOf] using this
  · rw [cellEntries_maps, List.map_map, List.map_map]
    rfl
  · rw [List.map_append, List.nodup_append]
    generalize hl : cells.map (entryOf (rootSteps root)) = L at h2
    rw [List.map_map, List.map_map]
    rw [← hl] at *
    have h3' : ∀ e ∈ cells.map (entryOf (rootSteps root)), EntryOk root e := by
      intro e he
      obtain ⟨d, hd, rfl⟩ := List.mem_map.1 he
      exact h3 d hd
    refine ⟨pathStr_nodup h2 h3', ?_, ?_⟩
    · have := groupBy_nodup (fun e : List PStep × List Loc => pathStr e.1.dropLast)
        (fun e => e.2.map (fun l => (l.sheet, l.row))) (cells.map (entryOf (rootSteps root))) [] (by simp [Dict.keys])
      rw [rowMap_eq]
      exact this
    · intro x hx y hy hxy
      subst hxy
      have hy' : x ∈ Dict.keys (rowMap (cells.map (entryOf (rootSteps root)))) := hy
      rw [rowMap_eq, (groupBy_spec _ _ _ _ (by simp)).1] at hy'
      simp only [Dict.keys, List.map_nil, List.not_mem_nil, false_or] at hy'
      obtain ⟨a, ha, hay⟩ := hy'
      obtain ⟨b, hb, hbx⟩ := List.mem_map.1 hx
      exact row_cell_ne h2 h3' ha hb (hay.trans hbx.symm)
  · intro k
    rw [rowEntries_maps]
    have hk := hspec.1 k
    rw [← rowMap_eq] at hk
    simp only [Dict.keys, List.map_nil, List.not_mem_nil, false_or] at hk
    rw [List.mem_map] at hk
    constructor
    · rintro ⟨l, hl⟩
      obtain ⟨e, he, hek⟩ := hk.1 ⟨_, hl, rfl⟩
      obtain ⟨d, hd, rfl⟩ := List.mem_map.1 he
      refine ⟨recordOf d, List.mem_map_of_mem hd, ?_⟩
      rw [← hek]
      show pathStr _ = pathStr (rootSteps root ++ d.1).dropLast
      rw [hdrop d hd]
      rfl
    · rintro ⟨r, hr, hrk⟩
      obtain ⟨d, hd, rfl⟩ := List.mem_map.1 hr
      obtain ⟨⟨k', l⟩, hl, rfl⟩ := hk.2 ⟨entryOf (rootSteps root) d, List.mem_map_of_mem hd, by
        rw [← hrk]
        show pathStr (rootSteps root ++ d.1).dropLast = pathStr _
        rw [hdrop d hd]
        rfl⟩
      exact ⟨l, hl⟩
  · intro k l hl
    rw [rowEntries_maps] at hl
    have hnd := groupBy_nodup (fun e : List PStep × List Loc => pathStr e.1.dropLast)
        (fun e => e.2.map (fun l => (l.sheet, l.row))) (cells.map (entryOf (rootSteps root))) [] (by simp [Dict.keys])
    rw [rowMap_eq] at hl
    obtain ⟨g1, g2⟩ := hspec.2 k l (Dict.get_of_mem hnd hl)
    refine ⟨g1, fun sheet row => ?_⟩
    rw [g2 (sheet, row)]
    simp only [Dict.get_nil, Option.getD_none, List.not_mem_nil, false_or]
    constructor
    · rintro ⟨e, he, hek, hx⟩
      obtain ⟨d, hd, rfl⟩ := List.mem_map.1 he
      obtain ⟨loc, hloc, hx⟩ := List.mem_map.1 hx
      simp only [Prod.mk.injEq] at hx
      refine ⟨recordOf d, List.mem_map_of_mem hd, ?_, loc, hloc, hx⟩
      rw [← hek]
      show pathStr _ = pathStr (rootSteps root ++ d.1).dropLast
      rw [hdrop d hd]
      rfl
    · rintro ⟨r, hr, hrk, loc, hloc, hx⟩
      obtain ⟨d, hd, rfl⟩ := List.mem_map.1 hr
      refine ⟨entryOf (rootSteps root) d, List.mem_map_of_mem hd, ?_, List.mem_map.2 ⟨loc, hloc, by simp [hx]⟩⟩
      rw [← hrk]
      show pathStr (rootSteps root ++ d.1).dropLast = pathStr _
      rw [hdrop d hd]
      rfl
  · intro r hr
    obtain ⟨e, he, rfl⟩ := List.mem_map.1 hr
    obtain ⟨q, hq1, hq2, hq3⟩ := h3 e he
    have hq : e.1 = q := List.append_cancel_left hq1
    subst hq
    obtain ⟨i, k, q, hiq, _⟩ := cellsInItems_head (h1.subset he)
    exact ⟨i, k, q, hiq, hq3⟩
  · intro hwh hroot
    subst hwh
    refine ⟨_, hhm.symm, ?_⟩
    simp only [if_true]
    have hkeys : ∀ e ∈ cells, headerPath (rootSteps root ++ e.1) = keysText (rootSteps root ++ e.1) := by
      intro e he
      unfold headerPath keysText
      have hok := (cells_goodI [] 0 tree (run_good ht)).1 e (h1.subset he)
      rw [stepKeys_filter]
      · rfl
      · intro k hk
        rcases List.mem_append.1 hk with hk | hk
        · cases root with
          | none => simp [rootSteps] at hk
          | some r =>
            simp only [rootSteps, List.mem_singleton, PStep.key.injEq] at hk
            subst hk
            simp [isint, hroot k rfl]
        · exact (hok.2.2 k hk).2
    have hspec := groupBy_spec (fun e : List PStep × List Loc => headerPath e.1)
          (fun e => e.2.map (fun l => (l.sheet, l.heading))) (cells.map (entryOf (rootSteps root))) [] (by simp)
    have hnd := groupBy_nodup (fun e : List PStep × List Loc => headerPath e.1)
          (fun e => e.2.map (fun l => (l.sheet, l.heading))) (cells.map (entryOf (rootSteps root))) [] (by simp [Dict.keys])
    rw [← headingMap_eq] at hnd hspec
    refine ⟨hnd, ?_, ?_⟩
    · intro k
      have hk := hspec.1 k
      simp only [Dict.keys, List.map_nil, List.not_mem_nil, false_or] at hk
      rw [List.mem_map] at hk
      constructor
      · rintro ⟨l, hl⟩
        obtain ⟨e, he, hek⟩ := hk.1 ⟨_, hl, rfl⟩
        obtain ⟨d, hd, rfl⟩ := List.mem_map.1 he
        exact ⟨recordOf d, List.mem_map_of_mem hd, (hkeys d hd).symm.trans hek⟩
      · rintro ⟨r, hr, hrk⟩
        obtain ⟨d, hd, rfl⟩ := List.mem_map.1 hr
        obtain ⟨⟨k', l⟩, hl, rfl⟩ := hk.2 ⟨entryOf (rootSteps root) d, List.mem_map_of_mem hd, (hkeys d hd).trans hrk⟩
        exact ⟨l, hl⟩
    · intro k l hl
      obtain ⟨g1, g2⟩ := hspec.2 k l (Dict.get_of_mem hnd hl)
      refine ⟨g1, fun sheet heading => ?_⟩
      rw [g2 (sheet, heading)]
      simp only [Dict.get_nil, Option.getD_none, List.not_mem_nil, false_or]
      constructor
      · rintro ⟨e, he, hek, hx⟩
        obtain ⟨d, hd, rfl⟩ := List.mem_map.1 he
        obtain ⟨loc, hloc, hx⟩ := List.mem_map.1 hx
        simp only [Prod.mk.injEq] at hx
        exact ⟨recordOf d, List.mem_map_of_mem hd, (hkeys d hd).symm.trans hek, loc, hloc, hx⟩
      · rintro ⟨r, hr, hrk, loc, hloc, hx⟩
        obtain ⟨d, hd, rfl⟩ := List.mem_map.1 hr
        exact ⟨entryOf (rootSteps root) d, List.mem_map_of_mem hd, (hkeys d hd).trans hrk,
          List.mem_map.2 ⟨loc, hloc, by simp [hx]⟩⟩

theorem maps_all {cfg : UnCfg} {root : Option Str} {wh : Bool} {sheets : List SheetIn} {out : List Json}
    {cm : List (Str × MapEntry)} {hm : Option (List (Str × List (Str × Str)))} {w : List Warn}
    (h : fancyUnflatten cfg root true wh sheets = .ok (out, some cm, hm, w)) :
    ∃ rs : List Recorded, Exhaustive out rs ∧
      (∀ r ∈ rs, valueAt (.arr out) r.path = some r.value.toJson ∧ r.locs ≠ []) ∧
      cellEntries cm = rs.map (fun r => (stepsText (rootSteps root ++ r.path), r.locs)) ∧
      (cm.map (·.1)).Nodup ∧
      (∀ k, (∃ l, (k, l) ∈ rowEntries cm) ↔ ∃ r ∈ rs, stepsText (rootSteps root ++ r.path.dropLast) = k) ∧
      (∀ k l, (k, l) ∈ rowEntries cm → l.Nodup ∧ ∀ sheet row, (sheet, row) ∈ l ↔
        ∃ r ∈ rs, stepsText (rootSteps root ++ r.path.dropLast) = k ∧ ∃ loc ∈ r.locs, loc.sheet = sheet ∧ loc.row = row) ∧
      (∀ r ∈ rs, ∃ i k q, r.path = .idx i :: .key k :: q ∧ NoSlash r.path) ∧
      (wh = true → (∀ r, root = some r → Py.int? r = none) → ∃ hs, hm = some hs ∧
        (hs.map (·.1)).Nodup ∧
        (∀ k, (∃ l, (k, l) ∈ hs) ↔ ∃ r ∈ rs, keysText (rootSteps root ++ r.path) = k) ∧
        ∀ k l, (k, l) ∈ hs → l.Nodup ∧ ∀ sheet heading, (sheet, heading) ∈ l ↔
          ∃ r ∈ rs, keysText (rootSteps root ++ r.path) = k ∧
            ∃ loc ∈ r.locs, loc.sheet = sheet ∧ loc.heading = heading) := by
  obtain ⟨rs, -, h⟩ := maps_sorted h
  exact ⟨rs, h⟩

/-- C13.  The cell source map is about exactly the values of the output: there are records of the values, which taken together are all the
scalars of the output with their paths, each record gives the value found at its path, and the entries for cells are these records, each under
the text of its path and with at least one location, in the order of the paths.  No key of the map occurs twice. -/
theorem C13_exactly_the_values {cfg : UnCfg} {root : Option Str} {wh : Bool} {sheets : List SheetIn} {out : List Json}
    {cm : List (Str × MapEntry)} {hm : Option (List (Str × List (Str × Str)))} {w : List Warn}
    (h : fancyUnflatten cfg root true wh sheets = .ok (out, some cm, hm, w)) :
    ∃ rs : List Recorded, Exhaustive out rs ∧
      (∀ r ∈ rs, valueAt (.arr out) r.path = some r.value.toJson ∧ r.locs ≠ []) ∧
      cellEntries cm = rs.map (fun r => (stepsText (rootSteps root ++ r.path), r.locs)) ∧
      (cm.map (·.1)).Nodup ∧ (rs.map (·.path)).Pairwise PathLt := by
  obtain ⟨rs, o, a, b, c, d, _⟩ := maps_sorted h
  exact ⟨rs, a, b, c, d, o⟩

/-- C13, the entries for rows: there is one for each object that directly contains a recorded value, under the text of the object's path, and it
lists without repetition exactly the rows (sheet and row number) of the locations of those values. -/
theorem C13_rows {cfg : UnCfg} {root : Option Str} {wh : Bool} {sheets : List SheetIn} {out : List Json}
    {cm : List (Str × MapEntry)} {hm : Option (List (Str × List (Str × Str)))} {w : List Warn}
    (h : fancyUnflatten cfg root true wh sheets = .ok (out, some cm, hm, w)) :
    ∃ rs : List Recorded, Exhaustive out rs ∧
      cellEntries cm = rs.map (fun r => (stepsText (rootSteps root ++ r.path), r.locs)) ∧
      (∀ k, (∃ l, (k, l) ∈ rowEntries cm) ↔ ∃ r ∈ rs, stepsText (rootSteps root ++ r.path.dropLast) = k) ∧
      ∀ k l, (k, l) ∈ rowEntries cm → l.Nodup ∧ ∀ sheet row, (sheet, row) ∈ l ↔
        ∃ r ∈ rs, stepsText (rootSteps root ++ r.path.dropLast) = k ∧ ∃ loc ∈ r.locs, loc.sheet = sheet ∧ loc.row = row := by
  obtain ⟨rs, a, _, c, _, e, f, _⟩ := maps_all h
  exact ⟨rs, a, c, e, f⟩

/-- C16.  Besides the cell source map, the heading source map has one key for each path of a recorded value with the positions in arrays left out,
and lists under it without repetition exactly the pairs of sheet and heading of the locations recorded for the values with that path.
(The name of the root list must not itself be a number: the code leaves out everything that `int` accepts.) -/
theorem C16_headings {cfg : UnCfg} {root : Option Str} {sheets : List SheetIn} {out : List Json}
    {cm : List (Str × MapEntry)} {hm : List (Str × List (Str × Str))} {w : List Warn}
    (hroot : ∀ r, root = some r → Py.int? r = none)
    (h : fancyUnflatten cfg root true true sheets = .ok (out, some cm, some hm, w)) :
    ∃ rs : List Recorded, Exhaustive out rs ∧
      cellEntries cm = rs.map (fun r => (stepsText (rootSteps root ++ r.path), r.locs)) ∧
      (hm.map (·.1)).Nodup ∧
      (∀ k, (∃ l, (k, l) ∈ hm) ↔ ∃ r ∈ rs, keysText (rootSteps root ++ r.path) = k) ∧
      ∀ k l, (k, l) ∈ hm → l.Nodup ∧ ∀ sheet heading, (sheet, heading) ∈ l ↔
        ∃ r ∈ rs, keysText (rootSteps root ++ r.path) = k ∧
          ∃ loc ∈ r.locs, loc.sheet = sheet ∧ loc.heading = heading := by
  obtain ⟨rs, a, _, c, _, _, _, _, g⟩ := maps_all h
  obtain ⟨hs, hh, g⟩ := g rfl hroot
  injection hh with hh; subst hh
  exact ⟨rs, a, c, g⟩

/-! #### Where the values come from -/

/-- The location holds a cell that converts to the value, by the type of the path. -/
def Origin (cfg : UnCfg) (sheets : List SheetIn) (q : List Str) (v : Val) (loc : Loc) : Prop :=
  ∃ own a w, CellThere sheets loc own a ∧ a.blank = false ∧
    convertType cfg.row.conv ((cfg.row.types (Py.join s%"/" q)).getD .untyped) a = .ok (v, w)

theorem rowAlone_origin {cfg : UnCfg} {sheets : List SheetIn} {r : RowIn} {x : Row} (hx : cfg.row.xml = false)
    (hr : r ∈ rowsIn sheets)
    (hp : ∀ c ∈ r.line, c.2.blank = false → [] ∉ (pathList (c.1.getD s%"None")).tail)
    (h : rowAlone cfg r = .ok x) :
    TAllF KeyOk (fun q c => Origin cfg sheets q c.value c.loc ∧ c.sub = []) [] x.fields := by
  unfold rowAlone at h
  split at h
  · cases h
  · next fs w hu =>
    cases h
    refine (unflattenRow_inv (Q := KeyOk) (fun _ _ h => h.2) _ ?_ hu).2
    intro e he hb
    obtain ⟨own, a, g1, g2, g3, g4⟩ := hasCell_line hr he
    have hne : [] ∉ (pathList e.1).tail := by
      obtain ⟨i, h', a', h1, h2, h3⟩ := lineCells_get he
      have hm := List.mem_of_getElem? h1
      rw [h2]
      apply hp _ hm
      rw [h3] at hb
      exact hb
    refine ⟨fun items c => c.loc = e.2.loc ∧ c.sub = [] ∧ (items ≠ [] → c.value = .atom a), fun pre p => p = keysOf pre,
      ?_, rfl, rfl, g4, fun _ => g2⟩
    constructor
    · rintro pre p item hi rfl
      rw [keysOf_append, keysOf_single_int hi, List.append_nil]
    · rintro pre p item hi rfl
      rw [keysOf_append, keysOf_single hi]
    · rintro pre p item rest hc hr hh rfl
      exfalso
      apply hne
      rw [hc]
      cases rest with
      | nil => exact absurd rfl hr
      | cons y ys =>
        simp only [List.headD_cons] at hh
        subst hh
        cases pre <;> simp
    · exact keyOk_item e.1
    · intro _; exact keyOk_text
    · rintro item rest cell ⟨h1, h2, h3⟩
      exact ⟨h1, h2, fun _ => h3 (by simp)⟩
    · rintro pre p item rest cell ty v w hc hi rfl ⟨h1, h2, h3⟩ hty hconv
      have hrest : rest = [] := by
        rcases hty with ⟨_, hh⟩ | ⟨hh, _⟩
        · cases rest with
          | nil => rfl
          | cons y ys =>
            exfalso
            simp only [List.headD_cons] at hh
            subst hh
            apply hne
            rw [hc]
            cases pre <;> simp
        · rw [hx] at hh; cases hh
      subst hrest
      refine ⟨⟨h1, h2, fun h => absurd rfl h⟩, ?_⟩
      intro _ q hq
      have hv := h3 (by simp)
      rcases hq with rfl | ⟨hh, _⟩
      · refine ⟨⟨own, a, w, by rw [h1]; exact g1, by rw [g2] at hb; exact hb, ?_⟩, h2⟩
        rcases hty with ⟨hty, _⟩ | ⟨hh, _⟩
        · have hty' : ty = cfg.row.types (Py.join s%"/" (keysOf pre ++ [item])) := by
            rw [hty]
            unfold currentType pathTillNow
            rw [hx]
            have : List.filter (fun i => !isint i) (pre ++ [item]) = keysOf pre ++ [item] := by
              have e1 := keysOf_append pre [item]
              rw [keysOf_single hi] at e1
              exact e1
            rw [this]
            simp only [Bool.false_and, Bool.false_eq_true, if_false]
            split <;> rfl
          rw [← hty']
          rw [hv] at hconv
          unfold convertCell at hconv
          simpa [hx] using hconv
        · rw [hx] at hh; cases hh
      · rw [hx] at hh; cases hh

theorem pyEq_symm' {a b : Val} (h : a.pyEq b = true) : b.pyEq a = true := by
  unfold Val.pyEq at *
  cases ha : a.canon <;> cases hb : b.canon <;> simp_all

/-- C14.  Every location in the cell source map really holds the reported value: the entry belongs to the value at a path of the output, and the
cell of the spreadsheet that the location names has the heading that the location gives, and a content (not blank) that converts, by the schema's type of the
path without the positions (or without a type), to a value equal to the value at the path.  (For spreadsheet and JSON data, and for headings that
have no empty part after the first.) -/
theorem C14_locations {cfg : UnCfg} {root : Option Str} {wh : Bool} {sheets : List SheetIn} {out : List Json}
    {cm : List (Str × MapEntry)} {hm : Option (List (Str × List (Str × Str)))} {w : List Warn}
    (hxml : cfg.row.xml = false)
    (hparts : ∀ s ∈ sheets, ∀ line ∈ s.lines, ∀ c ∈ line, c.2.blank = false → [] ∉ (pathList (c.1.getD s%"None")).tail)
    (h : fancyUnflatten cfg root true wh sheets = .ok (out, some cm, hm, w)) :
    ∀ key locs, (key, locs) ∈ cellEntries cm → ∃ path value,
      key = stepsText (rootSteps root ++ path) ∧ valueAt (.arr out) path = some value.toJson ∧
      ∀ loc ∈ locs, ∃ own content v w', CellThere sheets loc own content ∧ content.blank = false ∧
        convertType cfg.row.conv ((cfg.row.types (keysText path)).getD .untyped) content = .ok (v, w') ∧
        (v = value ∨ v.pyEq value = true) := by
  obtain ⟨tree, ht, rfl⟩ := fancy_inv h
  have hg : CGoodI KeyOk (fun q c => Origin cfg sheets q c.value c.loc ∧ ∀ s ∈ c.sub, Origin cfg sheets q s.1 s.2) [] tree := by
    refine run_cells ?_ ?_ ht
    · rintro p b c ⟨h1, h2⟩ ⟨h3, h4⟩ _
      refine ⟨h1, ?_⟩
      intro s hs
      rcases List.mem_append.1 hs with hs | hs
      · exact h2 s hs
      · rw [List.mem_singleton] at hs; subst hs; exact h3
    · intro r hr x hx
      refine tallF_mono ?_ [] _ (rowAlone_origin hxml hr ?_ hx)
      · rintro p c ⟨h1, h2⟩
        exact ⟨h1, by rw [h2]; simp⟩
      · obtain ⟨g1, _, g3⟩ := rowsIn_line hr
        exact hparts _ g1 _ (List.mem_of_getElem? g3)
  have hc := (cells_goodI [] 0 tree hg).1
  obtain ⟨cells, h1, h2, h3, h4⟩ := fancy_ok ht root
  rw [h4] at h
  simp only [Bool.not_true, Bool.false_and, Bool.false_eq_true, if_false, if_true, Except.ok.injEq, Prod.mk.injEq,
    Option.some.injEq, true_and] at h
  obtain ⟨rfl, _⟩ := h
  intro key locs hk
  rw [cellEntries_maps, List.map_map] at hk
  obtain ⟨e, he, hke⟩ := List.mem_map.1 hk
  simp only [Function.comp, entryOf, Prod.mk.injEq] at hke
  obtain ⟨rfl, rfl⟩ := hke
  refine ⟨e.1, e.2.value, rfl, ?_, ?_⟩
  · have := valueAt_cell [] (.list tree) (by simpa [CGood] using run_good ht) e
      (by simpa [cellsIn] using h1.subset he)
    simpa [treeToValue] using this
  · obtain ⟨⟨o1, o2⟩, o3, _⟩ := hc e (h1.subset he)
    simp only [List.nil_append] at o1 o2
    intro loc hloc
    rcases List.mem_cons.1 hloc with rfl | hloc
    · obtain ⟨own, a, w', q1, qb, q2⟩ := o1
      exact ⟨own, a, e.2.value, w', q1, qb, q2, Or.inl rfl⟩
    · obtain ⟨s, hs, rfl⟩ := List.mem_map.1 hloc
      obtain ⟨own, a, w', q1, qb, q2⟩ := o2 s hs
      exact ⟨own, a, s.1, w', q1, qb, q2, Or.inr (o3 s hs)⟩

/-- If a line has its cells in the order of the sheet's headings, the heading of a location is that of the cell. -/
theorem C14_heading {sheets : List SheetIn} {loc : Loc} {own : Option Str} {a : Atom} (h : CellThere sheets loc own a)
    (haligned : ∀ s ∈ sheets, ∀ line ∈ s.lines, ∀ hs, s.headings = some hs → line.map (·.1) = hs) :
    own.getD s%"None" = loc.heading := by
  obtain ⟨s, hs, _, _, line, _, hline, _, hcell, hh⟩ := h
  rw [← hh]
  unfold headingOf
  cases hsh : s.headings with
  | none => rfl
  | some l =>
    have := haligned s hs line (List.mem_of_getElem? hline) l hsh
    subst this
    simp [hcell]

/-! #### Without schema -/

theorem convertType_untyped_atom {env : ConvEnv} {a : Atom} {v : Val} {w : List Warn}
    (h : convertType env .untyped a = .ok (v, w)) : ∃ b, v = .atom b := by
  unfold convertType at h
  split at h
  · cases h; exact ⟨_, rfl⟩
  · simp only at h
    split at h
    · cases h; exact ⟨_, rfl⟩
    · split at h
      · split at h <;> (cases h; exact ⟨_, rfl⟩)
      all_goals cases h
    all_goals (cases h; exact ⟨_, rfl⟩)

theorem convertType_date_atom {env : ConvEnv} {a : Atom} {v : Val} {w : List Warn}
    (h : convertType env .date a = .ok (v, w)) : ∃ b, v = .atom b := by
  unfold convertType at h
  split at h
  · cases h; exact ⟨_, rfl⟩
  · simp only at h
    split at h <;> (cases h; exact ⟨_, rfl⟩)

theorem rowAlone_atoms {cfg : UnCfg} {r : RowIn} {x : Row} (hty : ∀ p, cfg.row.types p = none)
    (h : rowAlone cfg r = .ok x) :
    TAllF KeyOk (fun _ c => ∃ a, c.value = .atom a) [] x.fields := by
  unfold rowAlone at h
  split at h
  · cases h
  · next fs w hu =>
    cases h
    refine tallF_mono (P := fun _ c => c.sub = [] ∧ ∃ a, c.value = .atom a) (fun _ _ h => h.2) [] _ ?_
    refine (unflattenRow_inv (Q := KeyOk) (fun _ _ h => h.1) _ ?_ hu).2
    intro e he _
    obtain ⟨i, h', a', h1, h2, h3⟩ := lineCells_get he
    refine ⟨fun _ c => c.sub = [] ∧ ∃ a, c.value = .atom a, fun _ _ => True, ?_, trivial, by rw [h3], a', by rw [h3]⟩
    constructor
    · intros; trivial
    · intros; trivial
    · intros; trivial
    · exact keyOk_item e.1
    · intro _; exact keyOk_text
    · intros; assumption
    · intro pre p item rest cell ty v w _ _ _ hpin hty' hc
      have hv : ∃ a, v = .atom a := by
        obtain ⟨_, b, hb⟩ := hpin
        rw [hb] at hc
        unfold convertCell at hc
        have key : ty = none ∨ ty = some .date ∨ (cfg.row.xml = true ∧ ty = some .array) := by
          rcases hty' with ⟨rfl, _⟩ | ⟨h1, h2, _⟩
          · unfold currentType
            split
            · split
              · exact Or.inr (Or.inl rfl)
              · exact Or.inl (hty _)
            · exact Or.inl (hty _)
          · exact Or.inr (Or.inr ⟨h1, h2⟩)
        rcases key with rfl | rfl | ⟨hx, rfl⟩
        · have : convertType cfg.row.conv .untyped b = .ok (v, w) := by
            simpa using hc
          exact convertType_untyped_atom this
        · have : convertType cfg.row.conv .date b = .ok (v, w) := by
            simpa using hc
          exact convertType_date_atom this
        · have : convertType cfg.row.conv .untyped b = .ok (v, w) := by
            simpa [hx] using hc
          exact convertType_untyped_atom this
      exact ⟨⟨hpin.1, hv⟩, fun _ q _ => ⟨hpin.1, hv⟩⟩

/-- C13 without a schema: the keys of the entries for cells are exactly the texts of the paths of the scalars in the output. -/
theorem C13_without_schema {cfg : UnCfg} {root : Option Str} {wh : Bool} {sheets : List SheetIn} {out : List Json}
    {cm : List (Str × MapEntry)} {hm : Option (List (Str × List (Str × Str)))} {w : List Warn}
    (hty : ∀ p, cfg.row.types p = none)
    (h : fancyUnflatten cfg root true wh sheets = .ok (out, some cm, hm, w)) :
    ((cellEntries cm).map (·.1)).Perm ((leavesInItems 0 out).map (fun e => stepsText (rootSteps root ++ e.1))) := by
  obtain ⟨tree, ht, rfl⟩ := fancy_inv h
  have hg : CGoodI KeyOk (fun _ c => ∃ a, c.value = .atom a) [] tree :=
    run_cells (fun _ _ _ h _ _ => h) (fun r _ x hx => rowAlone_atoms hty hx) ht
  have hc := (cells_goodI [] 0 tree hg).1
  obtain ⟨cells, h1, h2, h3, h4⟩ := fancy_ok ht root
  rw [h4] at h
  simp only [Bool.not_true, Bool.false_and, Bool.false_eq_true, if_false, if_true, Except.ok.injEq, Prod.mk.injEq,
    Option.some.injEq, true_and] at h
  obtain ⟨rfl, _⟩ := h
  rw [cellEntries_maps, List.map_map, List.map_map, leaves_cellsI]
  have key : ∀ l : List (List PStep × Cell), (∀ e ∈ l, ∃ a, e.2.value = .atom a) →
      (l.flatMap leavesOf).map (fun e => stepsText (rootSteps root ++ e.1)) = l.map (fun e => stepsText (rootSteps root ++ e.1)) := by
    intro l
    induction l with
    | nil => intro _; rfl
    | cons e r ih =>
      intro hl
      obtain ⟨a, ha⟩ := hl e (List.mem_cons_self ..)
      simp only [List.flatMap_cons, List.map_append, List.map_cons, ih (fun x hx => hl x (List.mem_cons_of_mem _ hx))]
      simp [leavesOf, ha, Val.toJson, leaves]
  rw [key _ (fun e he => (hc e he).1)]
  exact h1.map _

/-! #### A concrete case -/

/-- Two sheets about one object with an array; the title is given twice. -/
def mapsEx : List SheetIn :=
  [{ name := s%"main", headings := some [some s%"id", some s%"title", some s%"part/0/id"],
     lines := [[(some s%"id", .str s%"1"), (some s%"title", .str s%"A"), (some s%"part/0/id", .str s%"p")]] },
   { name := s%"more", headings := some [some s%"id", some s%"title", some s%"part/0/id", some s%"part/0/n"],
     lines := [[(some s%"id", .none), (some s%"title", .none), (some s%"part/0/id", .none), (some s%"part/0/n", .none)],
               [(some s%"id", .str s%"1"), (some s%"title", .str s%"A"), (some s%"part/0/id", .str s%"q"),
                (some s%"part/0/n", .int 7)]] }]

/-- What the source maps of the example are. -/
example : fancyUnflatten {} (some s%"main") true true mapsEx = .ok
    ([.obj [(s%"id", .leaf (.str s%"1")), (s%"title", .leaf (.str s%"A")),
       (s%"part", .arr [.obj [(s%"id", .leaf (.str s%"p"))], .obj [(s%"id", .leaf (.str s%"q")), (s%"n", .leaf (.int 7))]])]],
     some [(s%"main/0/id", .cells [⟨s%"main", 1, 2, s%"id"⟩, ⟨s%"more", 1, 3, s%"id"⟩]),
       (s%"main/0/part/0/id", .cells [⟨s%"main", 3, 2, s%"part/0/id"⟩]),
       (s%"main/0/part/1/id", .cells [⟨s%"more", 3, 3, s%"part/0/id"⟩]),
       (s%"main/0/part/1/n", .cells [⟨s%"more", 4, 3, s%"part/0/n"⟩]),
       (s%"main/0/title", .cells [⟨s%"main", 2, 2, s%"title"⟩, ⟨s%"more", 2, 3, s%"title"⟩]),
       (s%"main/0", .rows [(s%"main", 2), (s%"more", 3)]),
       (s%"main/0/part/0", .rows [(s%"main", 2)]),
       (s%"main/0/part/1", .rows [(s%"more", 3)])],
     some [(s%"main/id", [(s%"main", s%"id"), (s%"more", s%"id")]),
       (s%"main/part/id", [(s%"main", s%"part/0/id"), (s%"more", s%"part/0/id")]),
       (s%"main/part/n", [(s%"more", s%"part/0/n")]),
       (s%"main/title", [(s%"main", s%"title"), (s%"more", s%"title")])], []) := by with_unfolding_all rfl

/-- The hypotheses of C14 and C16 hold of it. -/
example : (∀ s ∈ mapsEx, ∀ line ∈ s.lines, ∀ c ∈ line, c.2.blank = false → [] ∉ (pathList (c.1.getD s%"None")).tail) ∧
    (∀ s ∈ mapsEx, ∀ line ∈ s.lines, ∀ hs, s.headings = some hs → line.map (·.1) = hs) ∧
    Py.int? s%"main" = none := by
  refine ⟨by decide +kernel, ?_, by decide +kernel⟩
  intro s hs line hl h hh
  simp only [mapsEx, List.mem_cons, List.not_mem_nil, or_false] at hs
  rcases hs with rfl | rfl
  · simp only [List.mem_singleton] at hl; subst hl; cases hh; rfl
  · simp only [List.mem_cons, List.not_mem_nil, or_false] at hl
    rcases hl with rfl | rfl <;> (cases hh; rfl)

/-- A finding: with a repeated heading the lines have fewer cells than the sheet has columns, so the location of a later column is wrong: the
value of column 3 is reported for column 2 and its heading. -/
example : fancyUnflatten {} none true false
    [{ name := s%"main", headings := some [some s%"a", some s%"a", some s%"b"],
       lines := [[(some s%"a", .str s%"1"), (some s%"b", .str s%"2")]] }] = .ok
    ([.obj [(s%"a", .leaf (.str s%"1")), (s%"b", .leaf (.str s%"2"))]],
     some [(s%"0/a", .cells [⟨s%"main", 1, 2, s%"a"⟩]), (s%"0/b", .cells [⟨s%"main", 2, 2, s%"a"⟩]),
       (s%"0", .rows [(s%"main", 2)])], some [], [.dupHeading s%"a" [0] s%"main"]) := by with_unfolding_all rfl

end Verif

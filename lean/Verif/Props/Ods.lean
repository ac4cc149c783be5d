import Verif.Proofs.Ods
import Verif.Props.FileCells
import Verif.Proofs.DecEq
/-! C59: `flatten` to an ODS file and `unflatten` of it.  C60: the cells of ODS tables. -/
namespace Verif
open Spec Api

/-- C60: in a file whose tables have distinct names, no merged cells and no repeated rows, every table is read row by row and column by column:
the value of each cell is in its row and column, whatever cells are repeated; and reading fails only if a cell has no value. -/
theorem C60_tables_read (lib : OdsLib) (tables : List OdsTable) (hn : (tables.map (·.name)).Nodup)
    (hm : ∀ t ∈ tables, ∀ r ∈ t.rows, r.repeated = 1 ∧ NotMerged r.cells) (decoded : List (Str × List (List Atom))) :
    readTables lib tables [] = .ok decoded ↔ All₂ (fun t p => p.1 = t.name ∧ All₂ (RowReads lib) (rowsShown t.rows) p.2) tables decoded := by
  rw [readTables_iff (by simpa [Dict.keys] using hn)]
  have key : ∀ {ts : List OdsTable} {d : List (Str × List (List Atom))}, (∀ t ∈ ts, ∀ r ∈ t.rows, r.repeated = 1 ∧ NotMerged r.cells) →
      (All₂ (fun (t : OdsTable) p => p.1 = t.name ∧ readRows lib t.rows = .ok p.2) ts d ↔
        All₂ (fun t p => p.1 = t.name ∧ All₂ (RowReads lib) (rowsShown t.rows) p.2) ts d) := by
    intro ts d h
    constructor
    · intro ha
      exact All₂.imp_mem ha (fun t ht p _ hp => ⟨hp.1, (readRows_iff (h t ht)).1 hp.2⟩)
    · intro ha
      exact All₂.imp_mem ha (fun t ht p _ hp => ⟨hp.1, (readRows_iff (h t ht)).2 hp.2⟩)
  constructor
  · rintro ⟨d1, rfl, h⟩
    exact (key hm).1 h
  · intro h
    exact ⟨decoded, by simp, (key hm).2 h⟩

/-! ### Writing and reading a sheet -/

/-- What becomes of a value of a line. -/
def odsCellOf (lib : OdsLib) : Option Json → Atom
  | some (.leaf a) => odsBack lib a
  | _ => .none

/-- The cell that is made. -/
def madeCell (lib : OdsLib) (v : Option Json) : OdsCell := match odsMake lib v with | .ok c => c | .error _ => {}

theorem odsMake_shape {lib : OdsLib} {v : Option Json} {c : OdsCell} (h : odsMake lib v = .ok c) : c.repeated = 1 ∧ c.covered = false := by
  unfold odsMake at h
  repeat' split at h
  all_goals first | (cases h; done) | (cases h; exact ⟨rfl, rfl⟩)

theorem mapRow_ok {lib : OdsLib} : ∀ {l : List (Option Json)}, (∀ v ∈ l, ∃ c, odsMake lib v = .ok c) → mapRow lib l = .ok (l.map (madeCell lib))
  | [], _ => rfl
  | v :: r, h => by
    obtain ⟨c, hc⟩ := h v (by simp)
    rw [mapRow, hc, mapRow_ok (fun w hw => h w (by simp [hw]))]
    simp only [List.map_cons, madeCell, hc]

theorem mapRows_ok {lib : OdsLib} : ∀ {l : List (List (Option Json))}, (∀ r ∈ l, ∀ v ∈ r, ∃ c, odsMake lib v = .ok c) →
    mapRows lib l = .ok (l.map (fun r => { cells := r.map (madeCell lib) }))
  | [], _ => rfl
  | v :: r, h => by
    rw [mapRows, mapRow_ok (h v (by simp)), mapRows_ok (fun w hw => h w (by simp [hw]))]
    rfl

theorem columns_made {lib : OdsLib} {l : List (Option Json)} (h : ∀ v ∈ l, ∃ c, odsMake lib v = .ok c) :
    columnsOf (l.map (madeCell lib)) = l.map (madeCell lib) ∧ NotMerged (l.map (madeCell lib)) := by
  have key : ∀ c ∈ l.map (madeCell lib), c.repeated = 1 ∧ c.covered = false := by
    intro c hc
    obtain ⟨v, hv, rfl⟩ := List.mem_map.1 hc
    obtain ⟨c, hc⟩ := h v hv
    have := odsMake_shape hc
    simpa only [madeCell, hc] using this
  refine ⟨?_, fun c hc => (key c hc).2⟩
  generalize l.map (madeCell lib) = m at key
  induction m with
  | nil => rfl
  | cons c r ih =>
    have := ih (fun d hd => key d (by simp [hd]))
    simp only [columnsOf, List.flatMap_cons, (key c (by simp)).1, List.replicate_one, List.singleton_append] at this ⊢
    rw [this]

theorem heading_made {lib : OdsLib} {h : Str} (hh : StaysText lib h) (hne : h ≠ []) :
    odsMake lib (some (.leaf (.str h))) = .ok { text := h } := by
  have ht : (Atom.str h).truthy = true := by cases h <;> simp_all [Atom.truthy]
  simp only [odsMake, ht, if_true, hh.1, hh.2]

theorem value_made {lib : OdsLib} {v : Option Json} (h : ∀ j, v = some j → ∃ a, j = .leaf a ∧ (odsBack lib a).blank = false) :
    ∃ c, odsMake lib (cleanValue v) = .ok c ∧ CellValue lib c (odsCellOf lib v) := by
  cases v with
  | none => exact ⟨{}, rfl, .empty⟩
  | some j =>
    obtain ⟨a, rfl, hb⟩ := h j rfl
    unfold odsCellOf
    unfold odsBack at hb ⊢
    split at hb
    · cases hb
    · next c hc =>
      refine ⟨c, hc, ?_⟩
      simp only [hc]
      split at hb
      · next v hv =>
        exact odsValue_iff.2 ⟨_, hv, rfl⟩
      · cases hb

theorem cellValue_unique {lib : OdsLib} {c : OdsCell} {a b : Atom} (h1 : CellValue lib c a) (h2 : CellValue lib c b) : a = b := by
  obtain ⟨o, h3, rfl⟩ := odsValue_iff.1 h1
  obtain ⟨o', h4, rfl⟩ := odsValue_iff.1 h2
  rw [h3] at h4
  cases h4
  rfl

theorem row_exists {lib : OdsLib} {cells : List OdsCell} (hm : NotMerged cells) (h : ∀ c ∈ columnsOf cells, ∃ a, CellValue lib c a) :
    ∃ row, RowReads lib (columnsOf cells) row := by
  let f : OdsCell → Option Atom := fun c => match odsValue lib c with | .ok o => o | .error _ => none
  have hf : All₂ (fun c o => odsValue lib c = .ok o) (columnsOf cells) ((columnsOf cells).map f) := by
    refine all₂_map_right _ ?_
    intro c hc
    obtain ⟨a, ha⟩ := h c hc
    obtain ⟨o, ho, -⟩ := odsValue_iff.1 ha
    simp only [f, ho]
  exact ⟨_, (readCells_iff hm).1 ((readCells_ok hm).2 ⟨_, hf, rfl⟩)⟩

theorem line_kept {hs : List Str} (hn : hs.Nodup) (hne : ∀ h ∈ hs, h ≠ []) {f : Str → Atom} {row : List Atom} (hlen : row.length ≤ hs.length)
    (hv : ∀ (i : Nat) h, hs[i]? = some h → row[i]?.getD .none = f h) :
    Kept (hs.map (fun h => (some h, f h))) (xlsxLine {} (hs.map Atom.str) row) := by
  have key : xlsxLine {} (hs.map Atom.str) row = (hs.map (fun h => (some h, f h))).take row.length := by
    unfold xlsxLine
    rw [dictOf_nodup]
    · apply List.ext_getElem?
      intro i
      by_cases hi : i < row.length
      · have hi2 : i < hs.length := by omega
        rw [List.getElem?_take_of_lt hi, List.getElem?_map, List.getElem?_map]
        have hz : (List.zip (hs.map Atom.str) row)[i]? = some (.str hs[i], row[i]) := by
          rw [List.getElem?_zip_eq_some]
          simp [hi, hi2]
        rw [hz, List.getElem?_eq_getElem hi2]
        have hv' := hv i _ (List.getElem?_eq_getElem hi2)
        rw [List.getElem?_eq_getElem hi] at hv'
        simp only [Option.getD_some] at hv'
        have hf : (Atom.str hs[i]).falsy = false := by
          have := hne hs[i] (List.getElem_mem hi2)
          cases he : hs[i] with
          | nil => exact absurd he this
          | cons a x => simp [Atom.falsy, Atom.blank, Val.pyEq, Val.canon, Atom.canon, canonNum]
        simp [Verif.headingOf, Py.str, hf, hv']
      · rw [List.getElem?_eq_none (by simp; omega), List.getElem?_eq_none (by simp; omega)]
    · have : Dict.keys ((List.zip (hs.map Atom.str) row).map (fun (x : Atom × Atom) => (Verif.headingOf x.1,
          if x.1.falsy then Atom.none else match x.1 with
            | .str s => if ({} : SheetConfig).hashcomments && Py.startsWith s%"#" s then Atom.none else x.2
            | _ => x.2))) <+: hs.map some := by
        unfold Dict.keys
        rw [List.map_map]
        have e : ((List.zip (hs.map Atom.str) row).map (fun x => x.1)).map Verif.headingOf <+: hs.map some := by
          have hz : (List.zip (hs.map Atom.str) row).map (fun x => x.1) = (hs.map Atom.str).take row.length := by
            apply List.ext_getElem?
            intro i
            grind
          rw [hz]
          simp only [List.map_take, List.map_map]
          exact List.take_prefix _ _
        rw [List.map_map] at e
        exact e
      exact (hn.map _ (fun a b hab e => hab (Option.some.inj e))).sublist this.sublist
  rw [key]
  refine ⟨_, (List.take_append_drop row.length _).symm, ?_⟩
  intro p hp
  obtain ⟨i, hi, rfl⟩ := List.getElem_of_mem hp
  simp only [List.getElem_drop, List.getElem_map]
  simp at hi
  have h1 := hv (row.length + i) _ (List.getElem?_eq_getElem (by omega))
  rw [List.getElem?_eq_none (by omega)] at h1
  exact h1.symm

/-- A sheet that is written to a table and read. -/
theorem sheet_through_ods {lib : OdsLib} {s : Sheet} (hn : s.headings.Nodup) (hgood : ∀ h ∈ s.headings, h ≠ [] ∧ h ≠ s%"#")
    (htext : ∀ h ∈ s.headings, StaysText lib h) (hempty : s.headings = [] → s.lines = [])
    (hval : ∀ line ∈ s.lines, ∀ k j, Dict.get line k = some j → ∃ a, j = .leaf a ∧ (odsBack lib a).blank = false) :
    ∃ rows, odsRowsOf lib s = .ok rows ∧ ∃ out, readRows lib rows = .ok out ∧ ∀ name, ∃ sh, odsSheet {} name out = .ok sh ∧ SheetHolds (odsCellOf lib) s sh := by
  have hmade : ∀ r ∈ s.headings.map (fun h => some (.leaf (.str h))) :: xlsxRows s, ∀ v ∈ r, ∃ c, odsMake lib v = .ok c := by
    intro r hr v hv
    rcases List.mem_cons.1 hr with rfl | hr
    · obtain ⟨h, hh, rfl⟩ := List.mem_map.1 hv
      exact ⟨_, heading_made (htext h hh) (hgood h hh).1⟩
    · obtain ⟨l, hl, rfl⟩ := List.mem_map.1 hr
      obtain ⟨h, hh, rfl⟩ := List.mem_map.1 hv
      obtain ⟨c, hc, -⟩ := value_made (lib := lib) (v := Dict.get l h) (fun j hj => hval l hl h j hj)
      exact ⟨c, hc⟩
  refine ⟨_, mapRows_ok hmade, ?_⟩
  have hrow : ∀ l ∈ s.lines, ∃ row : List Atom, RowReads lib ((s.headings.map (fun h => cleanValue (Dict.get l h))).map (madeCell lib)) row ∧
      row.length ≤ s.headings.length ∧ ∀ (i : Nat) h, s.headings[i]? = some h → row[i]?.getD .none = odsCellOf lib (Dict.get l h) := by
    intro l hl
    obtain ⟨hc1, hc2⟩ := columns_made (lib := lib) (l := s.headings.map (fun h => cleanValue (Dict.get l h)))
      (hmade _ (List.mem_cons_of_mem _ (List.mem_map.2 ⟨l, hl, rfl⟩)))
    have hcell : ∀ h, ∃ a, CellValue lib (madeCell lib (cleanValue (Dict.get l h))) a ∧ a = odsCellOf lib (Dict.get l h) := by
      intro h
      obtain ⟨c, hc, hv⟩ := value_made (lib := lib) (v := Dict.get l h) (fun j hj => hval l hl h j hj)
      exact ⟨_, by simpa only [madeCell, hc] using hv, rfl⟩
    obtain ⟨row, hr⟩ := row_exists (lib := lib) hc2 (by
      intro c hc
      rw [hc1] at hc
      obtain ⟨v, hv, rfl⟩ := List.mem_map.1 hc
      obtain ⟨h, -, rfl⟩ := List.mem_map.1 hv
      obtain ⟨a, ha, -⟩ := hcell h
      exact ⟨a, ha⟩)
    rw [hc1] at hr
    refine ⟨row, hr, by simpa using hr.width, ?_⟩
    intro i h hi
    obtain ⟨a, ha, rfl⟩ := hcell h
    exact cellValue_unique (hr.value i _ (by simp [hi])) ha
  have hhead : RowReads lib ((s.headings.map (fun h => some (Json.leaf (.str h)))).map (madeCell lib)) (s.headings.map Atom.str) := by
    refine ⟨by simp, ?_, ?_⟩
    · intro i c hc
      simp only [List.map_map, List.getElem?_map, Option.map_eq_some_iff] at hc
      obtain ⟨h, hh, rfl⟩ := hc
      have hm := List.mem_of_getElem? hh
      simp only [Function.comp, madeCell, heading_made (htext h hm) (hgood h hm).1, List.getElem?_map, hh, Option.map_some, Option.getD_some]
      exact .text (hgood h hm).1
    · rw [List.getLast?_map]
      cases s.headings.getLast? <;> simp
  let rowOf : FLine → List Atom := fun l => match readCells lib ((s.headings.map (fun h => cleanValue (Dict.get l h))).map (madeCell lib)) [] 0 with
    | .ok r => r | .error _ => []
  have hrowOf : ∀ l ∈ s.lines, readCells lib ((s.headings.map (fun h => cleanValue (Dict.get l h))).map (madeCell lib)) [] 0 = .ok (rowOf l) ∧
      (rowOf l).length ≤ s.headings.length ∧ ∀ (i : Nat) h, s.headings[i]? = some h → (rowOf l)[i]?.getD .none = odsCellOf lib (Dict.get l h) := by
    intro l hl
    obtain ⟨row, h1, h2⟩ := hrow l hl
    obtain ⟨hc1, hc2⟩ := columns_made (lib := lib) (l := s.headings.map (fun h => cleanValue (Dict.get l h)))
      (hmade _ (List.mem_cons_of_mem _ (List.mem_map.2 ⟨l, hl, rfl⟩)))
    have h3 := (readCells_iff hc2).2 (by rw [hc1]; exact h1)
    have : rowOf l = row := by simp only [rowOf, h3]
    rw [this]
    exact ⟨h3, h2⟩
  have hread : ∀ ls : List FLine, (∀ l ∈ ls, l ∈ s.lines) → readRows lib (ls.map (fun l => { cells := (s.headings.map (fun h => cleanValue (Dict.get l h))).map (madeCell lib) })) =
      .ok (ls.map rowOf) := by
    intro ls
    induction ls with
    | nil => intro _; rfl
    | cons l r ih =>
      intro hm
      simp only [List.map_cons, readRows]
      have h1 := (hrowOf l (hm l (by simp))).1
      rw [h1, ih (fun x hx => hm x (by simp [hx]))]
  obtain ⟨hc1, hc2⟩ := columns_made (lib := lib) (l := s.headings.map (fun h => some (.leaf (.str h)))) (hmade _ (by simp))
  refine ⟨s.headings.map Atom.str :: s.lines.map rowOf, ?_, ?_⟩
  · simp only [List.map_cons, readRows, xlsxRows, List.map_map, Function.comp_def]
    have h1 := (readCells_iff hc2).2 (by rw [hc1]; exact hhead)
    simp only [List.map_map, Function.comp_def] at h1
    have h2 := hread s.lines (fun _ h => h)
    simp only [List.map_map, Function.comp_def] at h2
    rw [h1, h2]
  · intro name
    have hcfg : odsConfig (s.headings.map Atom.str :: s.lines.map rowOf) = .ok {} := by
      unfold odsConfig
      cases hs : s.headings with
      | nil => rfl
      | cons h t =>
        have := (hgood h (by simp [hs])).2
        simp only [List.map_cons]
        rw [if_neg (by simpa using this)]
    unfold odsSheet
    rw [hcfg]
    have hres : resolveConfig {} {} = ({}, 0) := by rfl
    have hparts : odsParts {} {} (s.headings.map Atom.str :: s.lines.map rowOf) = (s.headings.map Atom.str, s.lines.map rowOf) := by
      unfold odsParts
      rw [hres]
      rfl
    simp only [hres, hparts]
    by_cases he : s.headings = []
    · refine ⟨_, by rw [if_pos (by simp [he])], ?_⟩
      simp only [SheetHolds, he, hempty he, List.map_nil, true_and]
      exact ⟨[], .nil, by simp⟩
    · rw [if_neg (by simp [he, ignoredSheet])]
      rw [mapM_ok _ (xlsxLine {} _) _ (fun r _ => odsLine_plain)]
      refine ⟨_, rfl, ?_, s.lines.map (fun l => xlsxLine {} (s.headings.map Atom.str) (rowOf l)), ?_, ?_⟩
      · simp [Verif.headingOf, Py.str]
      · refine all₂_map_right _ ?_
        intro l hl
        obtain ⟨-, h2, h3⟩ := hrowOf l hl
        exact line_kept hn (fun h hh => (hgood h hh).1) h2 h3
      · simp only [List.map_map, Function.comp_def, List.filter_filter]
        apply List.filter_congr
        intro l _
        cases hd : hasData l with
        | false => simp
        | true =>
          obtain ⟨kv, h1, h2⟩ := List.any_eq_true.1 hd
          simp only [Bool.true_and, Bool.not_eq_true', List.all_eq_false]
          refine ⟨kv, h1, ?_⟩
          intro e
          rw [beq_iff_eq] at e
          rw [e] at h2
          cases h2

theorem title_full {pfx n : Str} (h : (pfx ++ n).length ≤ 31) : sheetTitle pfx n = pfx ++ n := List.take_of_length_le h

theorem ods_width {name : Str} {rows : List (List Atom)} {sh : SheetIn} (h : odsSheet {} name rows = .ok sh) (hw : WithinZZZ rows) {hs : List (Option Str)}
    (he : sh.headings = some hs) : hs.length ≤ 18278 := by
  unfold odsSheet at h
  split at h
  · cases h
  · next own ho =>
    simp only at h
    split at h
    · injection h with h; subst h
      injection he with he
      subst he
      simp
    · split at h
      · cases h
      · injection h with h
        subst h
        injection he with he
        subst he
        simp only [List.length_map, odsParts]
        rw [if_neg (by simp)]
        simp only
        cases hr : rows[(resolveConfig {} own).1.skip + (resolveConfig {} own).2]? with
        | none => simp
        | some row => exact hw row (List.mem_of_getElem? hr)

/-- What is written to an ODS file is read from it. -/
theorem ods_trip {o : FlOpts} {env : FlEnv} {cfg : FCfg} {sw : List SWarn} {names : Str → Prop} {root : List Json} {st : FState}
    (hst : FlatFacts o env cfg sw names root (odsCellOf env.ods) st)
    (hpre : flattenPreChecks o.filterField o.filterValue o.lineTerminator = .ok ()) (hfmt : o.outputFormat = s%"ods")
    (hheads : ∀ s ∈ sheetsOf st, ∀ h ∈ s.headings, StaysText env.ods h)
    (hnames : (o.sheetPrefix ++ o.mainSheetName).length ≤ 31 ∧ ∀ n, names n → n ≠ o.mainSheetName ∧ (o.sheetPrefix ++ n).length ≤ 31) {Q : Input → Prop}
    (htrip : ∀ i : Input, i.format = s%"ods" → (∀ s ∈ sheetsOf st, s.headings.length ≤ 18278) →
      (∃ order sheets, i.read {} [] [none] = .ok sheets ∧ order.Perm (sheetsOf st) ∧ All₂ (SheetHolds (odsCellOf env.ods)) order sheets) → Q i) :
    ∃ out file tables decoded, runFlatten o env = .ok out ∧ out.written = [.ods file tables] ∧ readTables env.ods tables [] = .ok decoded ∧
      ((∀ t ∈ decoded, WithinZZZ t.2) → Q (.ods decoded)) := by
  have hsheet : ∀ s ∈ sheetsOf st, ∃ rows, odsRowsOf env.ods s = .ok rows ∧ ∃ out, readRows env.ods rows = .ok out ∧
      ∀ name, ∃ sh, odsSheet {} name out = .ok sh ∧ SheetHolds (odsCellOf env.ods) s sh := by
    intro s hm
    refine sheet_through_ods (hst.nodup s hm) (hst.good s hm) (hheads s hm) (hst.empty s hm) ?_
    intro line hl k j hg
    obtain ⟨a, rfl⟩ := hst.scalars s hm line hl k j hg
    exact ⟨a, rfl, hst.back s hm line hl k a hg⟩
  let rowsOf : Sheet → List OdsRow := fun s => match odsRowsOf env.ods s with | .ok r => r | .error _ => []
  let outOf : Sheet → List (List Atom) := fun s => match readRows env.ods (rowsOf s) with | .ok r => r | .error _ => []
  have hrows : ∀ s ∈ sheetsOf st, odsRowsOf env.ods s = .ok (rowsOf s) ∧ readRows env.ods (rowsOf s) = .ok (outOf s) ∧
      ∀ name, ∃ sh, odsSheet {} name (outOf s) = .ok sh ∧ SheetHolds (odsCellOf env.ods) s sh := by
    intro s hm
    obtain ⟨rows, h1, out, h2, h3⟩ := hsheet s hm
    have e1 : rowsOf s = rows := by simp only [rowsOf, h1]
    have e2 : outOf s = out := by simp only [outOf, e1, h2]
    rw [e1, e2]
    exact ⟨h1, h2, h3⟩
  have hlen : ∀ p ∈ outSheets o.mainSheetName st, (o.sheetPrefix ++ p.1).length ≤ 31 := by
    rintro ⟨n, s⟩ hm
    rcases List.mem_cons.1 hm with e | hm
    · cases e; exact hnames.1
    · exact (hnames.2 n (hst.names n (List.mem_map.2 ⟨_, (sortSheets_perm st.subs).mem_iff.1 hm, rfl⟩))).2
  have hnodup : ((outSheets o.mainSheetName st).map (·.1)).Nodup :=
    outSheets_nodup hst.distinct (fun hm => (hnames.2 _ (hst.names _ hm)).1 rfl)
  let tables : List OdsTable := (outSheets o.mainSheetName st).map (fun p => ⟨o.sheetPrefix ++ p.1, rowsOf p.2⟩)
  have hwrite : writeAll env o.sheetPrefix o.mainSheetName o.outputName s%"flattened" o.outputFormat st =
      .ok [.ods (outputNameOf o.outputName s%"flattened" o.outputFormat s%"ods") tables] := by
    have hof : outputFormats s%"ods" = .ok [s%"ods"] := by decide +kernel
    unfold writeAll
    rw [hfmt, hof]
    simp only [mapE]
    unfold writeFormat
    rw [if_neg (by decide), if_neg (by decide)]
    rw [mapE_map (g := fun p : Str × Sheet => (⟨o.sheetPrefix ++ p.1, rowsOf p.2⟩ : OdsTable))]
    rintro ⟨n, s⟩ hm
    unfold odsTable
    simp only [(hrows s (outSheets_mem hm)).1, title_full (hlen _ hm)]
  let L : List (Str × Sheet) := (outSheets o.mainSheetName st).map (fun p => (o.sheetPrefix ++ p.1, p.2))
  have hL2 : L.map (·.2) = (outSheets o.mainSheetName st).map (·.2) := by simp [L, List.map_map, Function.comp_def]
  have hLk : Dict.keys L = ((outSheets o.mainSheetName st).map (·.1)).map (o.sheetPrefix ++ ·) := by
    simp [L, Dict.keys, List.map_map, Function.comp_def]
  have hLn : (Dict.keys L).Nodup := by
    rw [hLk]
    exact hnodup.map _ (fun a b hab he => hab (by simpa using he))
  let decoded : List (Str × List (List Atom)) := L.map (fun p => (p.1, outOf p.2))
  have hdk : decoded.map (·.1) = Dict.keys L := by simp [decoded, Dict.keys, List.map_map, Function.comp_def]
  have hdec : readTables env.ods tables [] = .ok decoded := by
    rw [readTables_iff]
    · refine ⟨decoded, by simp, ?_⟩
      simp only [tables, decoded, L, List.map_map]
      have key : ∀ l : List (Str × Sheet), (∀ p ∈ l, p.2 ∈ sheetsOf st) →
          All₂ (fun (t : OdsTable) (p : Str × List (List Atom)) => p.1 = t.name ∧ readRows env.ods t.rows = .ok p.2)
            (l.map (fun p => ⟨o.sheetPrefix ++ p.1, rowsOf p.2⟩)) (l.map ((fun p => (p.1, outOf p.2)) ∘ fun p => (o.sheetPrefix ++ p.1, p.2))) := by
        intro l
        induction l with
        | nil => intro _; exact .nil
        | cons x r ih => intro hm; exact .cons ⟨rfl, (hrows _ (hm x (by simp))).2.1⟩ (ih (fun p hp => hm p (by simp [hp])))
      exact key _ (fun p hp => outSheets_mem hp)
    · have : tables.map (·.name) = Dict.keys L := by simp [tables, L, Dict.keys, List.map_map, Function.comp_def]
      simp only [Dict.keys, List.map_nil, List.nil_append]
      rw [this]
      exact hLn
  refine ⟨_, _, tables, decoded, run_written' hpre hst.state hwrite, rfl, hdec, ?_⟩
  intro hwide
  refine htrip (.ods decoded) rfl ?_ ?_
  · intro s hm
    have hm' := (outSheets_perm o.mainSheetName st).mem_iff.2 hm
    rw [← hL2] at hm'
    obtain ⟨⟨n, s'⟩, hn', rfl⟩ := List.mem_map.1 hm'
    obtain ⟨sh, h1, h2, -⟩ := (hrows s' hm).2.2 n
    have hw := hwide (n, outOf s') (List.mem_map.2 ⟨(n, s'), hn', rfl⟩)
    have := ods_width h1 hw h2
    simpa using this
  suffices hh : ((Input.ods decoded).select [] [none]).Perm (Dict.keys L) ∧ ∀ n s, (n, s) ∈ L → ∃ sh, (Input.ods decoded).sheet {} n = .ok sh ∧ SheetHolds (odsCellOf env.ods) s sh by
    obtain ⟨order, sheets, h1, h2, h3⟩ := read_all (rc := {}) (R := SheetHolds (odsCellOf env.ods)) hLn hh.1 hh.2
    exact ⟨order, sheets, h1, h2.trans (hL2 ▸ outSheets_perm _ _), h3⟩
  constructor
  · simp [Input.select, selectSheets, excludeAll, hdk]
  · intro n s hm
    have hsm : s ∈ sheetsOf st := by
      have : s ∈ L.map (·.2) := List.mem_map.2 ⟨_, hm, rfl⟩
      rw [hL2] at this
      exact (outSheets_perm _ _).mem_iff.1 this
    have hg : Dict.get decoded n = some (outOf s) := by
      apply Dict.get_of_mem
      · show (decoded.map (·.1)).Nodup
        rw [hdk]; exact hLn
      · exact List.mem_map.2 ⟨_, hm, rfl⟩
    simp only [Input.sheet, hg, Option.getD_some]
    exact (hrows s hsm).2.2 n

/-- C59: `flatten` to an ODS file and `unflatten` of this file, with matching options, give back the document, up to the order of fields and items;
for every document whose values return from a cell (`odsBack`), with any schemas. -/
theorem C59_ods_round_trip (o : FlOpts) (u : UnOpts) (env : FlEnv) (uenv : Env) (osp usp : Option Parsed) (root : List Json)
    (h : MatchingOptions o u) (hfmt : o.outputFormat = s%"ods" ∧ u.inputFormat = some s%"ods")
    (hos : parseOpt o.schemaCfg o.schema = .ok osp)
    (hus : parseOpt { rollup := true, rootId := u.rootId.getD [], trunc := u.trunc, wkt := u.wkt } u.schema = .ok usp)
    (hk : o.rootIsList = false → OneKey o.rootListPath) (hc : env.content = documentOf o root)
    (hfit : (tripOf o u uenv usp (odsBack env.ods)).FitsRoot root) (hcols : GoodColumns osp) (hhash : NoHash o root)
    (hheads : HeadingsAreTexts o env osp root) (hnames : ShortNames o osp root) :
    ∃ out file tables decoded, runFlatten o env = .ok out ∧ out.written = [.ods file tables] ∧ readTables env.ods tables [] = .ok decoded ∧
      ((∀ t ∈ decoded, WithinZZZ t.2) → ∃ uout doc, runUnflatten u { uenv with input := .ods decoded } = .ok uout ∧ uout.document = .json doc ∧ Rearranged env.content doc) := by
  obtain ⟨st, hst, htrip⟩ := api_trip (cell := odsCellOf env.ods) h hos hus hk hc hfit hcols hhash rfl (.inl rfl)
  exact ods_trip hst (matching_pre h) hfmt.1 (hheads st hst.ok) hnames (Q := fun i => ∃ uout doc, runUnflatten u { uenv with input := i } = .ok uout ∧
    uout.document = .json doc ∧ Rearranged env.content doc) (fun i hi => htrip i (by rw [hfmt.2, hi]))

/-! ### Values that return -/

/-- C59: texts that are no numbers return, in columns without a type, or of type string. -/
theorem C59_texts_return (T : Trip) (lib : OdsLib) (hT : T.write = odsBack lib) (ks : List Str) (s : Str) (hne : s ≠ [])
    (hs : StaysText lib s) (hill : ∀ c ∈ s, illegalChar c = false)
    (ht : T.types (pathText ks) = none ∨ T.types (pathText ks) = some .string) : T.Returns ks (.str s) (.leaf (.str s)) := by
  refine C11_texts_return T ks s hne ?_ ht
  have hf : s.filter (fun c => !illegalChar c) = s := List.filter_eq_self.2 (fun c hc => by simp [hill c hc])
  rw [hT]
  unfold odsBack
  simp only [cleanValue, hf, heading_made hs hne, odsValue, if_neg hne]

/-- C59: whole numbers other than 0 return, in columns without a type, or of type integer; if Python's `float()` is exact. -/
theorem C59_integers_return (T : Trip) (lib : OdsLib) (hT : T.write = odsBack lib) (ks : List Str) (n : Int) (h0 : n ≠ 0)
    (v : Str) (f : PyFloat) (hv : lib.number (.int n) = .ok v ∧ '.' ∈ v ∧ lib.float v = some f) (hf : f.exact = .fin (decide (n < 0)) n.natAbs 0)
    (htext : lib.text (.int n) ≠ []) (ht : T.types (pathText ks) = none ∨ T.types (pathText ks) = some .integer) :
    T.Returns ks (.int n) (.leaf (.int n)) := by
  have hw : T.write (.int n) = .float f := by
    rw [hT]
    unfold odsBack
    have htr : (Atom.int n).truthy = true := by simp [Atom.truthy, h0]
    simp only [cleanValue, odsMake, htr, if_true, hv.1, odsValue, if_neg htext, if_pos hv.2.1, hv.2.2]
  have htd : Py.truncDec (decide (n < 0)) n.natAbs 0 = n := by
    unfold Py.truncDec
    simp
    split <;> omega
  refine ⟨by rw [hw]; rfl, by rcases ht with h | h <;> simp [h], by rcases ht with h | h <;> simp [h], .atom (.int n), [], ?_, rfl, ?_, by simp, rfl⟩
  · rw [hw]
    have hb : (Atom.float f).blank = false := rfl
    rcases ht with h | h
    · simp only [h, Option.getD_none, convertType, hb, Bool.false_eq_true, if_false, hf, htd]
      rw [if_pos]
      simp [Dec.canon, Atom.canon]
    · simp only [h, Option.getD_some, convertType, hb, Bool.false_eq_true, if_false, toInteger, hf, htd]
  · simp [Val.pyEq, Val.canon, Atom.canon]

namespace OdsEx
set_option synthInstance.maxSize 4000

/-- `float()` and `str()` for some texts and numbers. -/
def lib : OdsLib where
  number := fun
    | .str s => if (Py.int? s).isSome then .ok (s ++ s%".0") else if s = s%"nan" then .ok s%"nan" else .error .value
    | .int n => .ok (Py.str (.int n) ++ s%".0")
    | .bool b => .ok (if b then s%"1.0" else s%"0.0")
    | _ => .error .value
  float := fun v => (Py.int? (v.take (v.length - 2))).map (fun n => ⟨v, .fin (decide (n < 0)) n.natAbs 0⟩)

/-- A cell with a text. -/
def t (s : Str) : OdsCell := { text := s }

/-- Two tables: repeated cells, empty cells, numbers. -/
def tables : List OdsTable :=
  [⟨s%"main", [{ cells := [t s%"id", t s%"a", t s%"b", t s%"c"] }, { cells := [t s%"x", { repeated := 2, kind := .float s%"3", text := s%"3" }, { repeated := 9 }] },
      { cells := [{ repeated := 3 }, t s%"y", { repeated := 1020 }] }]⟩,
   ⟨s%"sub", []⟩]

/-- They are read. -/
example : readTables lib tables [] = .ok [(s%"main", [[.str s%"id", .str s%"a", .str s%"b", .str s%"c"], [.str s%"x", .int 3, .int 3], [.none, .none, .none, .str s%"y"]]), (s%"sub", [])] := by
  decide +kernel

/-- The hypotheses of `C60_tables_read` hold. -/
example : (tables.map (·.name)).Nodup ∧ ∀ t ∈ tables, ∀ r ∈ t.rows, r.repeated = 1 ∧ NotMerged r.cells := by
  unfold NotMerged
  decide +kernel

/-- Without the hypothesis about repeated rows: two rows that are the same, stored once as spreadsheet programs do, are read as one. -/
example : rowsShown [{ repeated := 2, cells := [t s%"x"] }, { cells := [t s%"y"] }] = [[t s%"x"], [t s%"x"], [t s%"y"]] ∧
    readRows lib [{ repeated := 2, cells := [t s%"x"] }, { cells := [t s%"y"] }] = .ok [[.str s%"x"], [.str s%"y"]] := by decide +kernel

/-- Without the hypothesis about merged cells: what is to the right of merged cells is read as if it were further left. -/
example : columnsOf [t s%"x", { covered := true }, t s%"y"] = [t s%"x", { covered := true }, t s%"y"] ∧
    readRows lib [{ cells := [t s%"x", { covered := true }, t s%"y"] }] = .ok [[.str s%"x", .str s%"y"]] := by decide +kernel

/-- A text of digits comes back as a number, a boolean as a number; a text that Python reads as a number that is not finite cannot be read at all. -/
example : odsBack lib (.str s%"12") = .float ⟨s%"12.0", .fin false 12 0⟩ ∧ odsBack lib (.bool true) = .float ⟨s%"1.0", .fin false 1 0⟩ ∧
    odsMake lib (some (.leaf (.str s%"nan"))) = .ok { kind := .float s%"nan", text := s%"nan" } ∧
    odsValue lib { kind := .float s%"nan", text := s%"nan" } = .error .value := by decide +kernel

/-- Lists cannot be written. -/
example : odsMake lib (some (.arr [.leaf (.int 1)])) = .error .type := rfl

/-- `C59_integers_return`. -/
example (T : Trip) (hT : T.write = odsBack lib) (ks : List Str) (ht : T.types (pathText ks) = none) : T.Returns ks (.int (-12)) (.leaf (.int (-12))) :=
  C59_integers_return T lib hT ks (-12) (by decide) s%"-12.0" ⟨s%"-12.0", .fin true 12 0⟩ (by decide +kernel) rfl (by decide +kernel) (.inl ht)

/-- `C59_texts_return`. -/
example (T : Trip) (hT : T.write = odsBack lib) (ks : List Str) (ht : T.types (pathText ks) = none) : T.Returns ks (.str s%"12 kg") (.leaf (.str s%"12 kg")) :=
  C59_texts_return T lib hT ks s%"12 kg" (by decide) (by decide +kernel) (by decide +kernel) (.inl ht)

open ApiTripEx

def envO : FlEnv := { content := documentOf o root, ods := lib }

/-- All hypotheses of `C59_ods_round_trip` hold of a document. -/
example : ∃ out file tables decoded, runFlatten { o with outputFormat := s%"ods" } envO = .ok out ∧ out.written = [.ods file tables] ∧
    readTables lib tables [] = .ok decoded ∧
    ∃ uout doc, runUnflatten { u with inputFormat := some s%"ods" } { uenv with input := .ods decoded } = .ok uout ∧ uout.document = .json doc ∧ Rearranged envO.content doc := by
  obtain ⟨out, file, tables, decoded, h1, h2, h3, h4⟩ := C59_ods_round_trip { o with outputFormat := s%"ods" } { u with inputFormat := some s%"ods" } envO uenv none none root
    ⟨matching.flatten, matching.line, matching.unflatten, rfl, rfl, rfl, rfl⟩ ⟨rfl, rfl⟩ rfl rfl (fun _ => by unfold OneKey; decide +kernel) rfl
    (fits _ rfl rfl rfl (by
      intro s hs
      have : ∀ s ∈ [s%"r-1", s%"A", s%"d1", s%"x", s%"z", s%"north", s%"r-2"], odsBack lib (.str s) = .str s := by decide +kernel
      exact this s hs)) trivial
    ⟨by decide +kernel, by decide +kernel, by
      intro fs hm
      simp only [root, List.mem_cons, List.not_mem_nil, or_false, Json.obj.injEq] at hm
      rcases hm with rfl | rfl <;> decide +kernel⟩
    (by
      intro st hst s hs h hh
      have key : (match flatten (FlOpts.parserCfg { o with outputFormat := s%"ods" } envO none []) root with
        | .ok st => (sheetsOf st).all (fun s => s.headings.all (fun h => decide (StaysText lib h)))
        | .error _ => false) = true := by decide +kernel
      rw [hst] at key
      simp only [List.all_eq_true, decide_eq_true_eq] at key
      exact key s hs h hh)
    (by
      refine ⟨by decide +kernel, ?_⟩
      rintro name (⟨p, hp, -⟩ | ⟨fs, a, hm, ha, rfl⟩)
      · cases hp
      · rcases arrays hm ha with rfl | rfl <;> decide +kernel)
  have key : (match runFlatten { o with outputFormat := s%"ods" } envO with
    | .ok out => out.written.all (fun w => match w with
      | .ods _ ts => (match readTables lib ts [] with | .ok d => decide (∀ t ∈ d, ∀ row ∈ t.2, row.length ≤ 18278) | .error _ => false)
      | _ => false)
    | .error _ => false) = true := by decide +kernel
  have h3' : readTables lib tables [] = .ok decoded := h3
  rw [h1] at key
  simp only [h2, h3', List.all_cons, List.all_nil, Bool.and_true, decide_eq_true_eq] at key
  exact ⟨out, file, tables, decoded, h1, h2, h3, h4 key⟩

end OdsEx

end Verif

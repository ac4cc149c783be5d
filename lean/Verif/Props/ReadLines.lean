import Verif.Props.Readers
import Verif.Spec.List
import Verif.Spec.Blank
import Verif.Proofs.DecEq
import Verif.Model.Unflatten
/-! C40, C42: the lines of a sheet, stated with `LineReads` (Spec/Sheets). -/
namespace Verif
open Spec

theorem firsts_filter {α : Type} [DecidableEq α] (p : α → Bool) : ∀ (l : List α), (firsts l).filter p = firsts (l.filter p)
  | [] => rfl
  | a :: r => by
    have ih := firsts_filter p r
    cases hp : p a with
    | true => simp [firsts, hp, List.filter_filter, ← ih, Bool.and_comm]
    | false =>
      simp only [firsts, List.filter_cons, hp, Bool.false_eq_true, if_false, List.filter_filter, ← ih]
      apply List.filter_congr
      intro x _
      by_cases hx : x = a
      · subst hx; simp [hp]
      · simp [hx]

theorem keys_update_firsts {κ α : Type} [DecidableEq κ] : ∀ (ps d : List (κ × α)),
    Dict.keys (Dict.update d ps) = Dict.keys d ++ (firsts (ps.map (·.1))).filter (fun k => !(Dict.keys d).contains k)
  | [], d => by simp [Dict.update, firsts]
  | p :: r, d => by
    have hu : Dict.update d (p :: r) = Dict.update (Dict.set d p.1 p.2) r := rfl
    rw [hu, keys_update_firsts r, Dict.keys_set]
    by_cases h : p.1 ∈ Dict.keys d
    · rw [if_pos h, List.map_cons, firsts, List.filter_cons, if_neg (by simp [h]), List.filter_filter]
      congr 1
      apply List.filter_congr
      intro x _
      by_cases hx : x = p.1
      · subst hx; simp [h]
      · simp [hx]
    · simp only [if_neg h, List.map_cons, firsts, List.filter_cons, List.append_assoc, List.filter_filter]
      simp [h]

theorem lineReads_dictOf (ps : List (Option Str × Atom)) : LineReads ps (dictOf ps) := by
  refine ⟨?_, ?_⟩
  · have := keys_update_firsts ps []
    have ht : ∀ l : List (Option Str), l.filter (fun _ => true) = l := fun l => List.filter_eq_self.2 (fun _ _ => rfl)
    simpa [Dict.keys, dictOf, ht] using this
  · intro i h v hi hl
    apply Dict.get_eq_some_mem
    rw [dictOf_get, get_reverse_zip]
    exact ⟨i, hi, hl⟩

theorem dictReaderRow_eq (header row : List Str) : dictReaderRow header row =
    dictOf (header.zipIdx.map (fun c => (c.1, csvCell row c.2))) := by
  have hl : ((header.zip row).map (fun p => (p.1, Atom.str p.2))) ++ (header.drop row.length).map (fun f => (f, Atom.none)) =
      header.zipIdx.map (fun c => (c.1, csvCell row c.2)) := by
    apply List.ext_getElem?
    intro i
    by_cases hi : i < header.length
    · by_cases hr : i < row.length
      · rw [List.getElem?_append_left (by simp; omega)]
        have : (header.zip row)[i]? = some (header[i], row[i]) := List.getElem?_zip_eq_some.2 ⟨by simp [hi], by simp [hr]⟩
        simp [List.getElem?_eq_getElem, hi, hr, csvCell, this]
      · rw [List.getElem?_append_right (by simp; omega)]
        have : min header.length row.length = row.length := by omega
        simp [List.getElem?_eq_getElem, hi, hr, this, csvCell, show row.length + (i - row.length) = i by omega]
    · rw [List.getElem?_eq_none (by simp; omega), List.getElem?_eq_none (by simp; omega)]
  rw [← hl]
  unfold dictReaderRow dictOf Dict.update
  rw [List.foldl_append]

theorem lineReads_csv (header row : List Str) : LineReads (csvColumns header row)
    (dictOf (header.map (fun f => (some f, (Dict.get (dictReaderRow header row) f).getD Atom.none)))) := by
  have h := lineReads_dictOf (header.map (fun f => (some f, (Dict.get (dictReaderRow header row) f).getD Atom.none)))
  have hfst : (csvColumns header row).map (·.1) = header.map some := by
    unfold csvColumns
    rw [List.map_map]
    have : ((fun x : Option Str × Atom => x.1) ∘ fun c : Str × Nat => (some c.1, csvCell row c.2)) =
        some ∘ Prod.fst := rfl
    rw [this, ← List.map_map]; simp
  refine ⟨?_, ?_⟩
  · rw [h.headings, hfst, List.map_map]; rfl
  · intro i k v hi hl
    have hi' := hi
    simp only [csvColumns, List.getElem?_map, List.getElem?_zipIdx, Option.map_map, Option.map_eq_some_iff, Function.comp] at hi'
    obtain ⟨f, hf, hfv⟩ := hi'
    obtain ⟨rfl, hv⟩ := Prod.mk.inj hfv
    have hg : Dict.get (dictReaderRow header row) f = some v := by
      rw [dictReaderRow_eq, dictOf_get, get_reverse_zip]
      refine ⟨i, ?_, ?_⟩
      · simp only [List.getElem?_map, List.getElem?_zipIdx, hf, Option.map_some, Option.some.injEq, Prod.mk.injEq, true_and]
        exact hv
      · intro j w hj hjj
        apply hl j w hj
        simp only [csvColumns, List.getElem?_map, List.getElem?_zipIdx, Option.map_map, Option.map_eq_some_iff, Function.comp] at hjj ⊢
        obtain ⟨a, ha, hk⟩ := hjj
        exact ⟨a, ha, by simpa using hk⟩
    apply h.values i (some f) v
    · simp [hf, hg]
    · intro j w hj hjj
      simp only [List.getElem?_map, Option.map_eq_some_iff] at hjj
      obtain ⟨a, ha, hk⟩ := hjj
      have hk := (Prod.mk.inj hk).1
      simp only [Option.some.injEq] at hk
      subst hk
      refine hl j (csvCell row j) hj ?_
      simp [csvColumns, List.getElem?_zipIdx, ha]

theorem headingOf_text (a : Atom) : headingOf a = headingText a := by
  cases a <;> rfl

theorem falsy_hasHeading (a : Atom) : a.falsy = !hasHeading a := by
  cases a with
  | none => rfl
  | str s => cases s <;> simp [Atom.falsy, Atom.blank, hasHeading, Val.pyEq, Val.canon, Atom.canon, canonNum]
  | _ => simp [Atom.falsy, Atom.blank, hasHeading]

theorem startsHash_comment (s : Str) : Py.startsWith s%"#" s = commentHeading (.str s) := by
  cases s with
  | nil => rfl
  | cons c r =>
    by_cases h : c = '#'
    · subst h; simp [Py.startsWith, List.isPrefixOf, commentHeading]
    · have : commentHeading (.str (c :: r)) = false := by
        unfold commentHeading
        split
        · rename_i h1; simp at h1; exact absurd h1.1 h
        · rfl
      rw [this]
      simp [Py.startsWith, List.isPrefixOf, Ne.symm h]

theorem xlsxLine_columns (cfg : SheetConfig) (header row : List Atom) :
    xlsxLine cfg header row = dictOf (sheetColumns cfg.hashcomments header row) := by
  unfold xlsxLine sheetColumns
  congr 1
  apply List.map_congr_left
  rintro ⟨h, v⟩ _
  simp only [headingOf_text, falsy_hasHeading, Prod.mk.injEq, true_and]
  cases hh : hasHeading h with
  | false => simp
  | true =>
    cases h with
    | str s => simp only [Bool.not_true, Bool.false_eq_true, if_false, startsHash_comment, Bool.true_and]; cases cfg.hashcomments && commentHeading (.str s) <;> rfl
    | _ => simp [commentHeading]

theorem lineReads_sheet (cfg : SheetConfig) (header row : List Atom) :
    LineReads (sheetColumns cfg.hashcomments header row) (xlsxLine cfg header row) := by
  rw [xlsxLine_columns]; exact lineReads_dictOf _

theorem all₂_of_map {α β : Type} {R : α → β → Prop} (f : α → β) (h : ∀ a, R a (f a)) : ∀ l : List α, All₂ R l (l.map f)
  | [] => .nil
  | a :: r => .cons (h a) (all₂_of_map f h r)

/-- **C40 (CSV).** The headings are the header row, and there is one line for every data row that is not empty, in order: neither skipped rows
nor further header rows are read, and no data row is lost. -/
theorem C40_csv (rc : ReadCfg) (name : Str) (L : Layout (List Str)) (h : L.Fits rc hashRow) (hne : L.header ≠ []) :
    ∃ sheet, csvSheet rc name (L.rows id) = .ok sheet ∧ sheet.name = name ∧ sheet.headings = some (L.header.map some) ∧
      All₂ (fun row line => LineReads (csvColumns L.header row) line) (L.data.filter (· ≠ [])) sheet.lines :=
  ⟨_, csv_layout rc name L h hne, rfl, rfl, all₂_of_map _ (lineReads_csv L.header) _⟩

/-- **C40 (XLSX).** Likewise, with one line for every data row. -/
theorem C40_xlsx (rc : ReadCfg) (name : Str) (w : Nat) (L : Layout (List Atom)) (h : L.Fits rc hashRowA)
    (hv : rc.vertical = false) (hh : (L.config rc).hashcomments = true → Py.startsWith s%"#" name = false) :
    ∃ sheet, xlsxSheet rc name { width := w, rows := L.rows (·.map Atom.str) } = .ok sheet ∧ sheet.name = name ∧
      sheet.headings = some (L.header.map headingText) ∧
      All₂ (fun row line => LineReads (sheetColumns (L.config rc).hashcomments L.header row) line) L.data sheet.lines := by
  refine ⟨_, xlsx_layout rc name w L h hv hh, rfl, ?_, all₂_of_map _ (lineReads_sheet (L.config rc) L.header) _⟩
  simp only [funext headingOf_text]

/-- **C40 (ODS).** Likewise; then lines without any value are left out. -/
theorem C40_ods (rc : ReadCfg) (name : Str) (L : Layout (List Atom)) (h : L.Fits rc hashRowA)
    (hv : rc.vertical = false)
    (hh : (L.config rc).hashcomments = true → Py.startsWith s%"#" name = false ∧ ∀ a ∈ L.header, a = .none ∨ ∃ s, a = .str s)
    (hne : L.header ≠ []) :
    ∃ sheet lines, odsSheet rc name (L.rows (·.map Atom.str)) = .ok sheet ∧ sheet.name = name ∧
      sheet.headings = some (L.header.map headingText) ∧
      All₂ (fun row line => LineReads (sheetColumns (L.config rc).hashcomments L.header row) line) L.data lines ∧
      sheet.lines = lines.filter (fun line => line.any (fun entry => entry.2 ≠ .none)) := by
  refine ⟨_, _, ods_layout rc name L h hv hh hne, rfl, ?_, all₂_of_map _ (lineReads_sheet (L.config rc) L.header) _, ?_⟩
  · simp only [funext headingOf_text]
  · apply List.filter_congr
    intro l _
    rw [List.not_all_eq_any_not]
    congr 1
    funext e
    cases e.2 <;> rfl

/-- **C42 (CSV).** In every line, the value of a heading is that in its last column. -/
theorem C42_csv_last_column_used (rc : ReadCfg) (name : Str) (L : Layout (List Str)) (h : L.Fits rc hashRow) (hne : L.header ≠ []) :
    ∃ sheet, csvSheet rc name (L.rows id) = .ok sheet ∧
      All₂ (fun row line => ∀ (i : Nat) heading v, L.header[i]? = some heading → (∀ j : Nat, i < j → L.header[j]? ≠ some heading) →
        row[i]? = some v → Dict.get line (some heading) = some (.str v)) (L.data.filter (· ≠ [])) sheet.lines := by
  refine ⟨_, csv_layout rc name L h hne, all₂_of_map _ (fun row i k v h1 h2 h3 => ?_) _⟩
  have hr := lineReads_csv L.header row
  refine Dict.get_of_mem (Dict.nodup_keys_update _ List.Pairwise.nil) (hr.values i (some k) (.str v) ?_ ?_)
  · simp [csvColumns, List.getElem?_zipIdx, h1, csvCell, h3]
  · intro j w hj hjj
    simp only [csvColumns, List.getElem?_map, List.getElem?_zipIdx, Option.map_map, Option.map_eq_some_iff, Function.comp] at hjj
    obtain ⟨a, ha, hk⟩ := hjj
    have hk := (Prod.mk.inj hk).1
    simp only [Option.some.injEq] at hk
    subst hk
    exact h2 j hj ha

theorem xlsx_last {cfg : SheetConfig} {header row : List Atom} {i : Nat} {heading : Str} {v : Atom} (h1 : header[i]? = some (.str heading)) (hh : heading ≠ [])
    (hc : cfg.hashcomments = true → Py.startsWith s%"#" heading = false)
    (h2 : ∀ (j : Nat) a, i < j → header[j]? = some a → headingText a ≠ some heading) (h3 : row[i]? = some v) :
    Dict.get (xlsxLine cfg header row) (some heading) = some v := by
  have hr := lineReads_sheet cfg header row
  have hn : (Dict.keys (xlsxLine cfg header row)).Nodup := by
    unfold xlsxLine; exact Dict.nodup_keys_update _ List.Pairwise.nil
  refine Dict.get_of_mem hn (hr.values i (some heading) v ?_ ?_)
  · have hz : (header.zip row)[i]? = some (.str heading, v) := List.getElem?_zip_eq_some.2 ⟨h1, h3⟩
    have hcc : (cfg.hashcomments && commentHeading (.str heading)) = false := by
      rw [← startsHash_comment]
      cases hb : cfg.hashcomments with
      | false => rfl
      | true => simpa using hc hb
    simp only [sheetColumns, List.getElem?_map, hz, Option.map_some, headingText, hasHeading, hcc]; simp [hh]
  · intro j w hj hjj
    simp only [sheetColumns, List.getElem?_map, Option.map_eq_some_iff] at hjj
    obtain ⟨⟨a, b⟩, hab, hk⟩ := hjj
    exact h2 j a hj (List.getElem?_zip_eq_some.1 hab).1 (Prod.mk.inj hk).1

/-- **C42 (XLSX).** Likewise, for every heading that is not a comment. -/
theorem C42_xlsx_last_column_used (rc : ReadCfg) (name : Str) (w : Nat) (L : Layout (List Atom)) (h : L.Fits rc hashRowA)
    (hv : rc.vertical = false) (hh : (L.config rc).hashcomments = true → Py.startsWith s%"#" name = false) :
    ∃ sheet, xlsxSheet rc name { width := w, rows := L.rows (·.map Atom.str) } = .ok sheet ∧
      All₂ (fun row line => ∀ (i : Nat) heading v, L.header[i]? = some (.str heading) → heading ≠ [] →
        ((L.config rc).hashcomments = true → Py.startsWith s%"#" heading = false) →
        (∀ (j : Nat) a, i < j → L.header[j]? = some a → headingText a ≠ some heading) →
        row[i]? = some v → Dict.get line (some heading) = some v) L.data sheet.lines :=
  ⟨_, xlsx_layout rc name w L h hv hh, all₂_of_map _ (fun _ _ _ _ h1 h2 h3 h4 h5 => xlsx_last h1 h2 h3 h4 h5) _⟩

/-- **C42 (ODS).** Likewise. -/
theorem C42_ods_last_column_used (rc : ReadCfg) (name : Str) (L : Layout (List Atom)) (h : L.Fits rc hashRowA)
    (hv : rc.vertical = false)
    (hh : (L.config rc).hashcomments = true → Py.startsWith s%"#" name = false ∧ ∀ a ∈ L.header, a = .none ∨ ∃ s, a = .str s)
    (hne : L.header ≠ []) :
    ∃ sheet, odsSheet rc name (L.rows (·.map Atom.str)) = .ok sheet ∧
      ∀ line ∈ sheet.lines, ∃ row ∈ L.data, ∀ (i : Nat) heading v, L.header[i]? = some (.str heading) → heading ≠ [] →
        ((L.config rc).hashcomments = true → Py.startsWith s%"#" heading = false) →
        (∀ (j : Nat) a, i < j → L.header[j]? = some a → headingText a ≠ some heading) →
        row[i]? = some v → Dict.get line (some heading) = some v := by
  refine ⟨_, ods_layout rc name L h hv hh hne, ?_⟩
  intro line hl
  obtain ⟨row, hr, rfl⟩ := List.mem_map.1 (List.mem_filter.1 hl).1
  exact ⟨row, hr, fun _ _ _ h1 h2 h3 h4 h5 => xlsx_last h1 h2 h3 h4 h5⟩

/-! ### Warnings about headings -/

/-- No warning about duplicate headings. -/
def NoDupWarns (w : List Warn) : Prop := w.filter aboutDuplicates = []

theorem noDup_append {a b : List Warn} (h1 : NoDupWarns a) (h2 : NoDupWarns b) : NoDupWarns (a ++ b) := by
  unfold NoDupWarns at *; rw [List.filter_append, h1, h2]; rfl

theorem noDup_nil : NoDupWarns [] := rfl

theorem noDup_convert {env : ConvEnv} {ty : CType} {v : Atom} {x : Val} {w : List Warn} (h : convertType env ty v = .ok (x, w)) : NoDupWarns w := by
  unfold convertType at h
  dsimp only at h
  repeat' split at h
  all_goals first
    | (cases h; done)
    | (simp only [Except.ok.injEq, Prod.mk.injEq] at h; rw [← h.2]; rfl)

theorem noDup_convertCell {cfg : RowCfg} {ty : Option CType} {v x : Val} {w : List Warn} (h : convertCell cfg ty v = .ok (x, w)) : NoDupWarns w := by
  unfold convertCell at h
  repeat' split at h
  all_goals first
    | (cases h; rfl)
    | exact noDup_convert h

theorem noDup_placeLeaf {cfg : RowCfg} {ty : Option CType} {till item : Str} {cell cell' : Cell} {cur cur' : RFields} {w : List Warn}
    (h : placeLeaf cfg ty till item cell cur = .ok (cur', cell', w)) : NoDupWarns w := by
  unfold placeLeaf at h
  split at h
  · cases h; rfl
  · split at h
    · cases h
    · rename_i v w' hc
      have := noDup_convertCell hc
      dsimp only at h
      repeat' split at h
      all_goals first
        | (cases h; exact this)
        | cases h

theorem noDup_mapW {f : RFields → RFields} {w w' : List Warn} {c : RFields} {r : Except Err (RFields × List Warn)} (hw : NoDupWarns w)
    (hr : ∀ c w', r = .ok (c, w') → NoDupWarns w') (h : mapW f w r = .ok (c, w')) : NoDupWarns w' := by
  cases r with
  | error e => cases h
  | ok p =>
    simp only [mapW, Except.ok.injEq, Prod.mk.injEq] at h
    rw [← h.2]
    exact noDup_append hw (hr _ _ rfl)

theorem noDup_place {cfg : RowCfg} {path : Str} : ∀ (l pre : List Str) (cell : Cell) (cur cur' : RFields) (w : List Warn),
    place cfg path pre l cell cur = .ok (cur', w) → NoDupWarns w
  | [], pre, cell, cur, cur', w, h => by simp only [place, Except.ok.injEq, Prod.mk.injEq] at h; rw [← h.2]; rfl
  | item :: rest, pre, cell, cur, cur', w, h => by
    have ih := noDup_place (cfg := cfg) (path := path) rest
    rw [place] at h
    split at h
    · exact noDup_mapW (by split <;> rfl) (fun _ _ => ih _ _ _ _ _) h
    · dsimp only at h
      split at h
      · cases h
      · split at h
        · split at h
          · cases h; rfl
          · split at h
            · exact noDup_mapW noDup_nil (fun _ _ => ih _ _ _ _ _) h
            · split at h
              · cases h
              · rename_i hl; exact noDup_mapW (noDup_placeLeaf hl) (fun _ _ => ih _ _ _ _ _) h
        · split at h
          · split at h
            · cases h; rfl
            · exact noDup_mapW noDup_nil (fun _ _ => ih _ _ _ _ _) h
          · split at h
            · cases h
            · split at h
              · cases h
              · rename_i hl; exact noDup_mapW (noDup_placeLeaf hl) (fun _ _ => ih _ _ _ _ _) h

theorem noDup_placeAll {cfg : RowCfg} : ∀ (cells : List (Str × Cell)) (cur cur' : RFields) (w : List Warn),
    placeAll cfg cells cur = .ok (cur', w) → NoDupWarns w
  | [], cur, cur', w, h => by simp only [placeAll, Except.ok.injEq, Prod.mk.injEq] at h; rw [← h.2]; rfl
  | (path, cell) :: rest, cur, cur', w, h => by
    rw [placeAll] at h
    split at h
    · exact noDup_placeAll rest _ _ _ h
    · split at h
      · cases h
      · rename_i h1
        split at h
        · cases h
        · rename_i h2
          cases h
          exact noDup_append (noDup_place _ _ _ _ _ _ h1) (noDup_placeAll rest _ _ _ h2)

mutual
theorem noDup_ignored (why : Why) : ∀ t : Tree, NoDupWarns (ignoredWarns why t)
  | .cell c => rfl
  | .obj fs => by rw [ignoredWarns]; exact noDup_ignoredFields why fs
  | .tmp keyed rest => by rw [ignoredWarns]; exact noDup_append (noDup_ignoredKeyed why keyed) (noDup_ignoredItems why rest)
theorem noDup_ignoredFields (why : Why) : ∀ fs : List (Str × Tree), NoDupWarns (ignoredWarnsFields why fs)
  | [] => rfl
  | (_, t) :: r => by rw [ignoredWarnsFields]; exact noDup_append (noDup_ignored why t) (noDup_ignoredFields why r)
theorem noDup_ignoredKeyed (why : Why) : ∀ ks : List (Val × List (Str × Tree)), NoDupWarns (ignoredWarnsKeyed why ks)
  | [] => rfl
  | (_, fs) :: r => by rw [ignoredWarnsKeyed]; exact noDup_append (noDup_ignoredFields why fs) (noDup_ignoredKeyed why r)
theorem noDup_ignoredItems (why : Why) : ∀ is : List (List (Str × Tree)), NoDupWarns (ignoredWarnsItems why is)
  | [] => rfl
  | fs :: r => by rw [ignoredWarnsItems]; exact noDup_append (noDup_ignoredFields why fs) (noDup_ignoredItems why r)
end

theorem noDup_mergeCell (sheet key : Str) (c : Cell) (bv : Tree) : NoDupWarns (mergeCell sheet key c bv).2 := by
  unfold mergeCell
  repeat' split
  all_goals rfl

mutual
theorem noDup_mergeFields (sheet : Str) : ∀ (fs : List (Str × Tree)) (base : Fields), NoDupWarns (mergeFields sheet fs base).2
  | [], base => by rw [mergeFields]; rfl
  | (k, v) :: r, base => by
    rw [mergeFields]
    split
    · exact noDup_mergeFields sheet r _
    · exact noDup_append (noDup_mergeTree sheet k v _) (noDup_mergeFields sheet r _)
theorem noDup_mergeTree (sheet key : Str) : ∀ (v bv : Tree), NoDupWarns (mergeTree sheet key v bv).2
  | .tmp keyed rest, bv => by
    cases bv with
    | tmp bk br => rw [mergeTree]; exact noDup_mergeKeyed sheet keyed _
    | _ => simp only [mergeTree]; exact noDup_append (noDup_ignoredKeyed _ _) (noDup_ignoredItems _ _)
  | .obj fs, bv => by
    cases bv with
    | obj bfs => rw [mergeTree]; exact noDup_mergeFields sheet fs _
    | _ => simp only [mergeTree]; exact noDup_ignoredFields _ _
  | .cell c, bv => by rw [mergeTree]; exact noDup_mergeCell _ _ _ _
theorem noDup_mergeKeyed (sheet : Str) : ∀ (ks : List (Val × List (Str × Tree))) (bk : List (Val × Fields)), NoDupWarns (mergeKeyed sheet ks bk).2
  | [], bk => by rw [mergeKeyed]; rfl
  | (k, fs) :: r, bk => by
    rw [mergeKeyed]
    split
    · exact noDup_mergeKeyed sheet r _
    · exact noDup_append (noDup_mergeFields sheet fs _) (noDup_mergeKeyed sheet r _)
end

theorem noDup_row {cfg : RowCfg} {n : Option Str} {cells : List (Str × Cell)} {fs : Fields} {w : List Warn}
    (h : unflattenRow cfg n cells = .ok (fs, w)) : NoDupWarns w := by
  unfold unflattenRow at h
  split at h
  · cases h
  · rename_i hp
    split at h
    · cases h
    · cases h; exact noDup_placeAll _ _ _ _ hp

theorem noDup_addRow {cfg : UnCfg} {sheet : Str} {root : Val} {fs : Fields} {gs gs' : Groups} {w : List Warn}
    (h : addRow cfg sheet root fs gs = .ok (gs', w)) : NoDupWarns w := by
  unfold addRow at h
  split at h
  · cases h
  · rename_i hg
    cases h
    unfold addToGroup at hg
    dsimp only at hg
    repeat' split at hg
    all_goals first
      | (cases hg; done)
      | (simp only [Except.ok.injEq, Prod.mk.injEq] at hg; rw [← hg.2]; first | exact noDup_nil | exact noDup_mergeFields _ _ _)

theorem noDup_addLines {cfg : UnCfg} {sheet : Str} {hs : Option (List (Option Str))} : ∀ (ls : List Line) (j : Nat) (gs gs' : Groups) (w : List Warn),
    addLines cfg sheet hs j ls gs = .ok (gs', w) → NoDupWarns w
  | [], j, gs, gs', w, h => by simp only [addLines, Except.ok.injEq, Prod.mk.injEq] at h; rw [← h.2]; rfl
  | l :: r, j, gs, gs', w, h => by
    rw [addLines] at h
    split at h
    · cases h
    · rename_i h1
      split at h
      · cases h
      · rename_i h2
        cases h
        refine noDup_append ?_ (noDup_addLines r _ _ _ _ h2)
        unfold addLine at h1
        split at h1
        · cases h1; rfl
        · split at h1
          · cases h1
          · rename_i h3
            split at h1
            · cases h1
            · rename_i h4
              cases h1
              exact noDup_append (noDup_row h3) (noDup_addRow h4)

theorem dup_all (w : List Warn) (h : ∀ x ∈ w, aboutDuplicates x = true) : w.filter aboutDuplicates = w := List.filter_eq_self.2 h

theorem dup_addSheets {cfg : UnCfg} : ∀ (ss : List SheetIn) (gs gs' : Groups) (w : List Warn), addSheets cfg ss gs = .ok (gs', w) →
    w.filter aboutDuplicates = ss.flatMap (fun s => duplicateWarnings s.name (s.headings.getD []))
  | [], gs, gs', w, h => by simp only [addSheets, Except.ok.injEq, Prod.mk.injEq] at h; rw [← h.2]; rfl
  | s :: r, gs, gs', w, h => by
    rw [addSheets] at h
    rw [List.flatMap_cons]
    split at h
    · rename_i he
      rw [he, dup_addSheets r _ _ _ h]; rfl
    · split at h
      · cases h
      · rename_i h1
        split at h
        · cases h
        · rename_i h2
          cases h
          rw [List.filter_append, List.filter_append, noDup_addLines _ _ _ _ _ h1, dup_addSheets r _ _ _ h2]
          congr 1
          cases hh : s.headings with
          | none => rfl
          | some hs =>
            simp only [headingWarns_eq, Option.getD_some]
            apply dup_all
            intro x hx
            simp only [List.mem_filterMap] at hx
            obtain ⟨k, _, hk⟩ := hx
            split at hk
            · cases hk; rfl
            · cases hk

/-- **C42.** The warnings about headings given by a run are: for each sheet in turn, exactly one for every heading that occurs in several columns,
listing exactly all its columns but the last, in order. -/
theorem C42_duplicate_headings_reported (cfg : UnCfg) (sheets : List SheetIn) (result : List Json) (warns : List Warn)
    (h : unflatten cfg sheets = .ok (result, warns)) :
    warns.filter aboutDuplicates = sheets.flatMap (fun s => duplicateWarnings s.name (s.headings.getD [])) := by
  unfold unflatten doUnflatten at h
  split at h
  · cases h
  · rename_i hd
    split at hd
    · cases hd
    · rename_i ha
      cases hd
      cases h
      exact dup_addSheets _ _ _ _ ha

example : duplicateWarnings s%"s" [some s%"a", some s%"b", some s%"a", none, some s%"a"] = [.dupHeading s%"a" [0, 2] s%"s"] := by rfl

/-- A concrete case: a configuration line, a skipped row, two header rows, and a heading twice. -/
def readLayout : Layout (List Str) :=
  { conf := some [s%"skipRows 1", s%"headerRows 2"], skipped := [[s%"title"]],
    header := [s%"id", s%"a", s%"id"], extra := [[s%"The id", s%"The a"]], data := [[s%"1", s%"x", s%"3"], [], [s%"2"]] }

example : readLayout.Fits {} hashRow where
  skip := by decide +kernel
  hdrs := by decide +kernel
  conf := by intro items h; cases h; decide +kernel
  noconf := by intro h; cases h
  keep := by decide +kernel

example : (csvSheet {} s%"s" (readLayout.rows id)).toOption.map (·.lines) =
    some [[(some s%"id", .str s%"3"), (some s%"a", .str s%"x")], [(some s%"id", .none), (some s%"a", .none)]] := by decide +kernel

end Verif

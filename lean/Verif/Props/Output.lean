import Verif.Props.Flatten
import Verif.Props.Readers
import Verif.Model.Output
/-! C31, C33: written sheets. -/
namespace Verif
open Spec
set_option synthInstance.maxSize 4000

/-! ### C33 -/

theorem update_nodup {κ α : Type} [DecidableEq κ] : ∀ (ps d : List (κ × α)), (Dict.keys (d ++ ps)).Nodup → Dict.update d ps = d ++ ps := by
  intro ps
  induction ps with
  | nil => intro d _; simp [Dict.update]
  | cons e r ih =>
    intro d h
    obtain ⟨k, v⟩ := e
    have hk : Dict.get d k = none := by
      rw [Dict.get_none_iff]
      simp only [Dict.keys, List.map_append, List.map_cons] at h
      intro hm
      exact (List.nodup_append.1 h).2.2 k hm k (by simp) rfl
    have h1 : Dict.update d ((k, v) :: r) = Dict.update (Dict.set d k v) r := rfl
    rw [h1, Dict.set_of_get_none d k v hk, ih _ (by simpa using h)]
    simp

theorem dictOf_nodup {κ α : Type} [DecidableEq κ] (ps : List (κ × α)) (h : (Dict.keys ps).Nodup) : dictOf ps = ps := by
  simpa [dictOf] using update_nodup ps [] (by simpa using h)

theorem get_zip {hs vs : List Str} (hn : hs.Nodup) (f : Str → Str) (hv : vs = hs.map f) (h : Str) (hm : h ∈ hs) :
    Dict.get ((hs.zip vs).map (fun p => (p.1, Atom.str p.2))) h = some (Atom.str (f h)) := by
  subst hv
  apply Dict.get_of_mem
  · have : Dict.keys ((hs.zip (hs.map f)).map (fun p => (p.1, Atom.str p.2))) = hs := by
      simp only [Dict.keys, List.map_map, Function.comp_def]
      rw [List.map_fst_zip]; simp
    rw [this]; exact hn
  · simp only [List.mem_map, Prod.mk.injEq]
    refine ⟨(h, f h), ?_, rfl, rfl⟩
    rw [List.zip_map_right, List.mem_map]
    refine ⟨(h, h), ?_, rfl⟩
    clear hn
    induction hs with
    | nil => cases hm
    | cons a r ih =>
      rcases List.mem_cons.1 hm with rfl | hm
      · simp
      · simp [ih hm]

theorem dictReaderRow_full {hs : List Str} (hn : hs.Nodup) (f : Str → Str) (h : Str) (hm : h ∈ hs) :
    Dict.get (dictReaderRow hs (hs.map f)) h = some (Atom.str (f h)) := by
  unfold dictReaderRow
  have hk : (Dict.keys ((hs.zip (hs.map f)).map (fun p => (p.1, Atom.str p.2)))).Nodup := by
    have : Dict.keys ((hs.zip (hs.map f)).map (fun p => (p.1, Atom.str p.2))) = hs := by
      simp only [Dict.keys, List.map_map, Function.comp_def]
      rw [List.map_fst_zip]; simp
    rw [this]; exact hn
  rw [dictOf_nodup _ hk]
  simp only [List.length_map, List.drop_length, List.map_nil]
  exact get_zip hn f rfl h hm

/-- C33: writing a sheet as CSV succeeds exactly when every value has a column. -/
theorem C33_csv_writes (strOf : Json → Str) (s : Sheet) :
    (∃ g, csvGrid strOf s = .ok g) ↔ ∀ line ∈ s.lines, ∀ k ∈ Dict.keys line, k ∈ s.headings := by
  have : (∃ g, csvGrid strOf s = .ok g) ↔ ∃ rows, csvRows s = .ok rows := by
    unfold csvGrid
    cases csvRows s with
    | error e => simp
    | ok r => simp
  rw [this]
  unfold csvRows
  constructor
  · rintro ⟨rows, h⟩ line hl k hk
    split at h
    · next hall =>
      simp only [List.all_eq_true, List.contains_iff_mem] at hall
      simp only [Dict.keys, List.mem_map] at hk
      obtain ⟨e, he, rfl⟩ := hk
      exact hall line hl e he
    · cases h
  · intro h
    rw [if_pos]
    · exact ⟨_, rfl⟩
    · simp only [List.all_eq_true, List.contains_iff_mem]
      intro line hl e he
      exact h line hl _ (Dict.mem_keys_of_mem he)

theorem csv_reads_back (strOf : Json → Str) (s : Sheet) (name : Str) (g : List (List Str)) (hg : csvGrid strOf s = .ok g)
    (hn : s.headings.Nodup) (hne : s.headings ≠ []) (hh : s.headings.head? ≠ some s%"#") :
    csvSheet {} name g = .ok
      { name, headings := some (s.headings.map some),
        lines := s.lines.map (fun l => s.headings.map (fun h => (some h, Atom.str (csvText strOf (Dict.get l h))))) } := by
  have hrows : g = s.headings :: s.lines.map (fun l => s.headings.map (fun h => csvText strOf (Dict.get l h))) := by
    unfold csvGrid csvRows at hg
    split at hg
    · cases hg
    · next rows hr =>
      split at hr
      · simp only [Except.ok.injEq] at hr hg
        rw [← hg, ← hr]
        simp [List.map_map, Function.comp_def]
      · cases hr
  have hL := csv_layout {} name 
    { conf := none, skipped := [], header := s.headings, extra := [],
      data := s.lines.map (fun l => s.headings.map (fun h => csvText strOf (Dict.get l h))) } ⟨rfl, rfl, by simp, by
      intro _
      show hashRow s.headings = false
      cases hs : s.headings with
      | nil => rfl
      | cons a r => rw [hs] at hh; simpa [hashRow] using hh, rfl⟩ hne
  have hfil : (s.lines.map (fun l => s.headings.map (fun h => csvText strOf (Dict.get l h)))).filter (· ≠ []) =
      s.lines.map (fun l => s.headings.map (fun h => csvText strOf (Dict.get l h))) := by
    rw [List.filter_eq_self]
    intro r hr
    simp only [List.mem_map] at hr
    obtain ⟨l, -, rfl⟩ := hr
    simpa using hne
  simp only [Layout.rows, List.nil_append] at hL
  rw [hrows, hL, hfil]
  simp only [List.map_map, Except.ok.injEq, SheetIn.mk.injEq, true_and]
  apply List.map_congr_left
  intro l _
  simp only [Function.comp_def]
  rw [dictOf_nodup]
  · apply List.map_congr_left
    intro h hm
    rw [dictReaderRow_full hn _ h hm]; rfl
  · simp only [Dict.keys, List.map_map, Function.comp_def]
    exact hn.map _ (fun a b hab he => hab (by simpa using he))

theorem flatten_csv_reads_back (cfg : FCfg) (hs : FromSchemaParser cfg)
    (hh : ∀ sp, cfg.schema = some sp → sp.main.headings.Nodup ∧ ∀ n s, (n, s) ∈ sp.subs → s.headings.Nodup)
    (root : List Json) (st : FState) (h : flatten cfg root = .ok st) (s : Sheet) (hm : s ∈ sheetsOf st)
    (hne : s.headings ≠ []) (hhash : s.headings.head? ≠ some s%"#") (strOf : Json → Str) (name : Str) :
    ∃ g, csvGrid strOf s = .ok g ∧ csvSheet {} name g = .ok
      { name, headings := some (s.headings.map some),
        lines := s.lines.map (fun l => s.headings.map (fun h => (some h, Atom.str (csvText strOf (Dict.get l h))))) } := by
  obtain ⟨g, hg⟩ := (C33_csv_writes strOf s).2 (C25_every_value_has_a_column cfg hs root st h s hm).1
  exact ⟨g, hg, csv_reads_back strOf s name g hg (C26_no_repeated_headings cfg hs hh root st h s hm) hne hhash⟩

theorem csvText_written (strOf : Json → Str) (v : Option Json) : csvText strOf v = writtenText strOf v := by
  unfold csvText writtenText
  split <;> simp_all

/-- C33: reading back a written CSV sheet gives the sheet's headings and, in order, one line per line of the sheet, which has
under each heading the text of the value the line has there (the empty text for null), or the empty text. -/
theorem C33_csv_reads_back (strOf : Json → Str) (s : Sheet) (name : Str) (g : List (List Str)) (hg : csvGrid strOf s = .ok g)
    (hn : s.headings.Nodup) (hne : s.headings ≠ []) (hh : s.headings.head? ≠ some s%"#") :
    csvSheet {} name g = .ok
      { name, headings := some (s.headings.map some),
        lines := s.lines.map (fun l => s.headings.map (fun h => (some h, Atom.str (writtenText strOf (Dict.get l h))))) } := by
  simpa only [csvText_written] using csv_reads_back strOf s name g hg hn hne hh

/-- C33: every sheet of a flattened document can be written as CSV and read back. -/
theorem C33_flatten_csv_reads_back (cfg : FCfg) (hs : FromSchemaParser cfg)
    (hh : ∀ sp, cfg.schema = some sp → sp.main.headings.Nodup ∧ ∀ n s, (n, s) ∈ sp.subs → s.headings.Nodup)
    (root : List Json) (st : FState) (h : flatten cfg root = .ok st) (s : Sheet) (hm : s ∈ sheetsOf st)
    (hne : s.headings ≠ []) (hhash : s.headings.head? ≠ some s%"#") (strOf : Json → Str) (name : Str) :
    ∃ g, csvGrid strOf s = .ok g ∧ csvSheet {} name g = .ok
      { name, headings := some (s.headings.map some),
        lines := s.lines.map (fun l => s.headings.map (fun h => (some h, Atom.str (writtenText strOf (Dict.get l h))))) } := by
  simpa only [csvText_written] using flatten_csv_reads_back cfg hs hh root st h s hm hne hhash strOf name

/-- A value as written to a worksheet: texts lose the characters that are not allowed there. -/
def sheetAtom : Option Json → Atom
  | some (.leaf (.str t)) => .str (t.filter (fun c => !illegalChar c))
  | some (.leaf a) => a
  | _ => .none

/-- C33: reading back a written worksheet gives the sheet's headings and, in order, one line per line of the sheet, which has
under each heading the value the line has there (texts without illegal characters), or nothing; provided the values are scalars. -/
theorem C33_xlsx_reads_back (s : Sheet) (name : Str) (hn : s.headings.Nodup) (hne : ∀ h ∈ s.headings, h ≠ [])
    (hh : s.headings.head? ≠ some s%"#") (hv : ∀ line ∈ s.lines, ∀ k v, Dict.get line k = some v → ∃ a, v = .leaf a) :
    ∃ g, xlsxGrid s = .ok g ∧ xlsxSheet {} name g = .ok
      { name, headings := some (s.headings.map some),
        lines := s.lines.map (fun l => s.headings.map (fun h => (some h, sheetAtom (Dict.get l h)))) } := by
  have hcell : ∀ line ∈ s.lines, ∀ h, xlsxCell (cleanValue (Dict.get line h)) = .ok (sheetAtom (Dict.get line h)) := by
    intro line hl h
    cases hg : Dict.get line h with
    | none => rfl
    | some v =>
      obtain ⟨a, rfl⟩ := hv line hl h v hg
      cases a <;> rfl
  have hmap : (xlsxRows s).mapM (fun r => r.mapM xlsxCell) =
      .ok (s.lines.map (fun l => s.headings.map (fun h => sheetAtom (Dict.get l h)))) := by
    unfold xlsxRows
    have : s.lines.map (fun l => s.headings.map (fun h => sheetAtom (Dict.get l h))) =
        (s.lines.map (fun l => s.headings.map (fun h => cleanValue (Dict.get l h)))).map
          (fun r => r.map (fun c => match xlsxCell c with | .ok a => a | .error _ => .none)) := by
      rw [List.map_map]
      apply List.map_congr_left
      intro l hl
      simp only [Function.comp_def, List.map_map]
      apply List.map_congr_left
      intro h _
      rw [hcell l hl h]
    rw [this]
    apply mapM_ok
    intro r hr
    simp only [List.mem_map] at hr
    obtain ⟨l, hl, rfl⟩ := hr
    apply mapM_ok
    intro c hc
    simp only [List.mem_map] at hc
    obtain ⟨h, -, rfl⟩ := hc
    rw [hcell l hl h]
  refine ⟨{ width := s.headings.length, rows := s.headings.map Atom.str ::
    s.lines.map (fun l => s.headings.map (fun h => sheetAtom (Dict.get l h))) }, by rw [xlsxGrid, hmap], ?_⟩
  have hL := xlsx_layout {} name s.headings.length 
    { conf := none, skipped := [], header := s.headings.map Atom.str, extra := [],
      data := s.lines.map (fun l => s.headings.map (fun h => sheetAtom (Dict.get l h))) } ⟨rfl, rfl, by simp, by
      intro _
      show hashRowA (s.headings.map Atom.str) = false
      cases hs : s.headings with
      | nil => rfl
      | cons a r => rw [hs] at hh; simpa [hashRowA] using hh, rfl⟩ rfl (by intro h; cases h)
  simp only [Layout.rows, List.nil_append] at hL
  rw [hL]
  simp only [List.map_map, Except.ok.injEq, SheetIn.mk.injEq, true_and, Option.some.injEq]
  constructor
  · rfl
  · apply List.map_congr_left
    intro l _
    have hz : (s.headings.map Atom.str).zip (s.headings.map (fun h => sheetAtom (Dict.get l h))) =
        s.headings.map (fun h => (Atom.str h, sheetAtom (Dict.get l h))) := by
      generalize s.headings = hs
      induction hs with
      | nil => rfl
      | cons a r ih => simp [ih]
    simp only [Function.comp_def, xlsxLine, hz, List.map_map]
    rw [dictOf_nodup]
    · apply List.map_congr_left
      intro h hm
      have hf : (Atom.str h).falsy = false := by
        have := hne h hm
        cases h with
        | nil => exact absurd rfl this
        | cons c r => rfl
      simp only [hf, Bool.false_eq_true, if_false, headingOf]
      rfl
    · simp only [Dict.keys, List.map_map, Function.comp_def, headingOf]
      exact hn.map _ (fun a b hab he => hab (by simpa [Py.str] using he))

/-! ### C31 -/

theorem insertSheet_perm (x : Str × Sheet) (l : List (Str × Sheet)) : (insertSheet x l).Perm (x :: l) := by
  induction l with
  | nil => exact .refl _
  | cons y r ih =>
    rw [insertSheet]
    split
    · exact .refl _
    · exact (ih.cons y).trans (.swap x y r)

theorem sortSheets_perm (l : List (Str × Sheet)) : (sortSheets l).Perm l := by
  induction l with
  | nil => exact .refl _
  | cons x r ih => exact (insertSheet_perm x _).trans (ih.cons x)

theorem subs_nodup {cfg : FCfg} (hs : FromSchemaParser cfg) {root : List Json} {st : FState} (h : flatten cfg root = .ok st) :
    (Dict.keys st.subs).Nodup := by
  obtain ⟨ev, -, rfl⟩ := flatten_ok.1 h
  have hn := nodup_run_subs cfg ev _ (nodup_init hs)
  rw [finish_subs]
  split
  · unfold Dict.keys at hn ⊢
    exact (List.filter_sublist.map _).nodup hn
  · exact hn

theorem csvFile_inj {pfx a b : Str} (h : csvFile pfx a = csvFile pfx b) : a = b := by
  simpa [csvFile] using h

theorem fold_set (f : Str → Str) (hf : ∀ a b, f a = f b → a = b) (l : List (Str × Sheet)) (d : List (Str × Sheet))
    (hn : (l.map (·.1)).Nodup) :
    ∀ k, Dict.get (l.foldl (fun d p => Dict.set d (f p.1) p.2) d) k =
      ((l.find? (fun p => f p.1 = k)).map (·.2)).or (Dict.get d k) := by
  induction l generalizing d with
  | nil => intro k; simp
  | cons e r ih =>
    intro k
    simp only [List.map_cons, List.nodup_cons] at hn
    rw [List.foldl_cons, ih _ hn.2, List.find?_cons]
    by_cases hk : f e.1 = k
    · have : r.find? (fun p => decide (f p.1 = k)) = none := by
        rw [List.find?_eq_none]
        intro p hp hc
        have : p.1 = e.1 := hf _ _ (by rw [hk]; simpa using hc)
        exact hn.1 (by rw [← this]; exact List.mem_map_of_mem hp)
      simp [hk, this]
    · rw [Dict.get_set_other _ _ hk]
      simp [hk]

/-- C31: if no sub-sheet has the name of the main sheet, then writing the sheets of a flattened document to a directory creates a file for
each of them, with that sheet: no sheet overwrites another. -/
theorem C31_csv_files (cfg : FCfg) (hs : FromSchemaParser cfg) (root : List Json) (st : FState) (h : flatten cfg root = .ok st)
    (pfx mainName : Str) (hm : mainName ∉ Dict.keys st.subs) :
    Dict.get (writeCsv pfx mainName st) (pfx ++ mainName ++ s%".csv") = some st.main ∧
    ∀ name s, (name, s) ∈ st.subs → Dict.get (writeCsv pfx mainName st) (pfx ++ name ++ s%".csv") = some s := by
  have hn := subs_nodup hs h
  have hp := sortSheets_perm st.subs
  have hnd : ((outSheets mainName st).map (·.1)).Nodup := by
    simp only [outSheets, List.map_cons, List.nodup_cons]
    constructor
    · intro hc
      exact hm ((hp.map (fun x : Str × Sheet => x.1)).mem_iff.1 hc)
    · exact (hp.map (fun x : Str × Sheet => x.1)).nodup_iff.2 hn
  have key : ∀ name s, (name, s) ∈ outSheets mainName st →
      Dict.get (writeCsv pfx mainName st) (pfx ++ name ++ s%".csv") = some s := by
    intro name s hmem
    unfold writeCsv
    rw [fold_set (csvFile pfx) (fun _ _ => csvFile_inj) _ _ hnd]
    have hfile : pfx ++ name ++ s%".csv" = csvFile pfx name := by simp [csvFile]
    have hspec : ∀ l : List (Str × Sheet), (l.map (·.1)).Nodup → (name, s) ∈ l →
        l.find? (fun p => csvFile pfx p.1 = csvFile pfx name) = some (name, s) := by
      intro l hl hm
      induction l with
      | nil => cases hm
      | cons e r ih =>
        simp only [List.map_cons, List.nodup_cons] at hl
        rw [List.find?_cons]
        rcases List.mem_cons.1 hm with rfl | hm
        · simp
        · have : csvFile pfx e.1 ≠ csvFile pfx name := by
            intro hc
            have := csvFile_inj hc
            exact hl.1 (by rw [this]; exact List.mem_map_of_mem (f := (·.1)) hm)
          simp [this, ih hl.2 hm]
    rw [hfile, hspec _ hnd hmem]
    rfl
  refine ⟨key _ _ (by simp [outSheets]), ?_⟩
  intro name s hm
  exact key _ _ (by simp only [outSheets, List.mem_cons]; exact Or.inr (hp.mem_iff.2 hm))

/-- C31: the worksheets have distinct titles if the names (with prefix) have at most 31 characters. -/
theorem C31_worksheet_titles (cfg : FCfg) (hs : FromSchemaParser cfg) (root : List Json) (st : FState) (h : flatten cfg root = .ok st)
    (pfx mainName : Str) (hm : mainName ∉ Dict.keys st.subs)
    (hlen : ∀ name ∈ mainName :: Dict.keys st.subs, (pfx ++ name).length ≤ 31) :
    ((outSheets mainName st).map (fun p => sheetTitle pfx p.1)).Nodup ∧
    (outSheets mainName st).Perm ((mainName, st.main) :: st.subs) := by
  have hn := subs_nodup hs h
  have hp := sortSheets_perm st.subs
  refine ⟨?_, (hp.cons _)⟩
  have hnd : ((outSheets mainName st).map (·.1)).Nodup := by
    simp only [outSheets, List.map_cons, List.nodup_cons]
    constructor
    · intro hc
      exact hm ((hp.map (fun x : Str × Sheet => x.1)).mem_iff.1 hc)
    · exact (hp.map (fun x : Str × Sheet => x.1)).nodup_iff.2 hn
  have hle : ∀ p ∈ outSheets mainName st, sheetTitle pfx p.1 = pfx ++ p.1 := by
    intro p hpm
    unfold sheetTitle
    rw [List.take_of_length_le]
    apply hlen
    simp only [outSheets, List.mem_cons] at hpm ⊢
    rcases hpm with rfl | hpm
    · exact Or.inl rfl
    · exact Or.inr (List.mem_map_of_mem (hp.mem_iff.1 hpm))
  rw [List.map_congr_left hle]
  have : (outSheets mainName st).map (fun p => pfx ++ p.1) = ((outSheets mainName st).map (·.1)).map (pfx ++ ·) := by
    simp [List.map_map, Function.comp_def]
  rw [this]
  exact hnd.map _ (fun a b hab he => hab (by simpa using he))

/-! ### Concrete cases -/

/-- Two sheets, two files. -/
example : (flatten {} [.obj [(s%"id", .leaf (.str s%"1")), (s%"l", .arr [.obj [(s%"x", .leaf (.int 2))]])]]).map
      (fun st => (Dict.keys (writeCsv s%"p-" s%"main" st), decide (s%"main" ∉ Dict.keys st.subs))) =
    .ok ([s%"p-main.csv", s%"p-l.csv"], true) := by
  decide +kernel

/-- Why the hypothesis: a list called like the main sheet overwrites it. -/
example : (flatten {} [.obj [(s%"id", .leaf (.str s%"1")), (s%"main", .arr [.obj [(s%"x", .leaf (.int 2))]])]]).map
      (fun st => (writeCsv [] s%"main" st).map (fun p => (p.1, p.2.lines))) =
    .ok [(s%"main.csv", [[(s%"id", .leaf (.str s%"1")), (s%"main/0/x", .leaf (.int 2))]])] := by
  decide +kernel

/-- The sheet of C33: two lines with different keys. -/
def exampleSheet : Sheet :=
  { columns := [s%"a", s%"b"], lines := [[(s%"b", .leaf (.int 3)), (s%"a", .leaf (.str s%"x"))], [(s%"a", .leaf .none)]] }

/-- Its hypotheses hold, and what is written and read back. -/
example : exampleSheet.headings.Nodup ∧ exampleSheet.headings.head? ≠ some s%"#" ∧
    csvGrid (fun _ => []) exampleSheet = .ok [[s%"a", s%"b"], [s%"x", s%"3"], [[], []]] ∧
    (csvSheet {} s%"n" [[s%"a", s%"b"], [s%"x", s%"3"], [[], []]]).map (·.lines) =
      .ok [[(some s%"a", .str s%"x"), (some s%"b", .str s%"3")], [(some s%"a", .str []), (some s%"b", .str [])]] := by
  decide +kernel

/-- A line with an unknown key cannot be written. -/
example : (csvGrid (fun _ => []) { exampleSheet with columns := [s%"a"] }).isOk = false := by
  decide +kernel

end Verif

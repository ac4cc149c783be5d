import Verif.Proofs.Letters
import Verif.Proofs.ApiTrip
import Verif.Proofs.DecEq
/-! C58: `flatten` followed by `unflatten`. -/
namespace Verif
open Spec Api

theorem mapE_map {α β : Type} {f : α → Except Err β} {g : α → β} : ∀ {l : List α}, (∀ a ∈ l, f a = .ok (g a)) → mapE f l = .ok (l.map g)
  | [], _ => rfl
  | a :: r, h => by
    rw [mapE, h a (by simp)]
    simp only [mapE_map (l := r) (g := g) (fun b hb => h b (by simp [hb])), List.map_cons]

theorem outSheets_mem {mainName : Str} {st : FState} {n : Str} {s : Sheet} (h : (n, s) ∈ outSheets mainName st) : s ∈ sheetsOf st := by
  rcases List.mem_cons.1 h with h | h
  · cases h; simp [sheetsOf]
  · simp only [sheetsOf, List.mem_cons]
    exact .inr (List.mem_map.2 ⟨_, (sortSheets_perm st.subs).mem_iff.1 h, rfl⟩)

theorem outSheets_perm (mainName : Str) (st : FState) : ((outSheets mainName st).map (·.2)).Perm (sheetsOf st) := by
  simp only [outSheets, sheetsOf, List.map_cons]
  exact ((sortSheets_perm st.subs).map _).cons _

theorem outSheets_nodup {mainName : Str} {st : FState} (hn : (Dict.keys st.subs).Nodup) (hm : mainName ∉ Dict.keys st.subs) :
    ((outSheets mainName st).map (·.1)).Nodup := by
  have hp := sortSheets_perm st.subs
  simp only [outSheets, List.map_cons, List.nodup_cons]
  constructor
  · intro hc
    exact hm ((hp.map (fun x : Str × Sheet => x.1)).mem_iff.1 hc)
  · exact (hp.map (fun x : Str × Sheet => x.1)).nodup_iff.2 hn

theorem writeCsv_eq {pfx mainName : Str} {st : FState} (hn : ((outSheets mainName st).map (·.1)).Nodup) :
    writeCsv pfx mainName st = (outSheets mainName st).map (fun p => (csvFile pfx p.1, p.2)) := by
  have h1 : writeCsv pfx mainName st = dictOf ((outSheets mainName st).map (fun p => (csvFile pfx p.1, p.2))) := by
    unfold writeCsv dictOf Dict.update
    rw [List.foldl_map]
  rw [h1]
  apply dictOf_nodup
  have : Dict.keys ((outSheets mainName st).map (fun p => (csvFile pfx p.1, p.2))) = ((outSheets mainName st).map (·.1)).map (csvFile pfx) := by
    simp [Dict.keys, List.map_map, Function.comp_def]
  rw [this]
  exact hn.map _ (fun a b hab he => hab (csvFile_inj he))

theorem template_good {o : FlOpts} {env : FlEnv} {osp : Option Parsed} (h : GoodColumns osp) {name : Option Str} {k : Str}
    (hk : k ∈ templateColumns (tripCfg o env osp) name) : k ≠ [] ∧ k ≠ s%"#" := by
  have hkept : ∀ s : Sheet, k ∈ keptColumns (tripCfg o env osp) s → k ∈ s.headings := by
    intro s hs
    unfold keptColumns at hs
    unfold Sheet.headings
    simp only [List.mem_append] at hs ⊢
    rcases hs with hs | hs | hs
    · left
      cases hr : s.rootId with
      | nil => simp [hr] at hs
      | cons a b => simpa [hr] using hs
    · exact .inr (.inl hs)
    · right; right
      split at hs
      · cases hs
      · exact hs
  have hex : ∃ p, osp = some p ∧ ∃ s, (s = p.main ∨ ∃ n, (n, s) ∈ p.subs) ∧ k ∈ s.headings := by
    unfold templateColumns at hk
    have hsch : (tripCfg o env osp).schema = osp := rfl
    rw [hsch] at hk
    cases osp with
    | none => cases name <;> cases hk
    | some p =>
      refine ⟨p, rfl, ?_⟩
      cases name with
      | none => exact ⟨p.main, .inl rfl, hkept _ hk⟩
      | some n =>
        simp only at hk
        split at hk
        · next s hs => exact ⟨s, .inr ⟨n, Dict.get_eq_some_mem hs⟩, hkept _ hk⟩
        · cases hk
  obtain ⟨p, rfl, s, hs, hks⟩ := hex
  obtain ⟨-, h1, h2⟩ := h s hs
  exact ⟨fun e => h1 (e ▸ hks), fun e => h2 (e ▸ hks)⟩

/-- What is known of the flattened sheets (of the parser with the settings `cfg`, for the objects `root`; `names` are the names of sub-sheets). -/
structure FlatFacts (o : FlOpts) (env : FlEnv) (cfg : FCfg) (sw : List SWarn) (names : Str → Prop) (root : List Json) (cell : Option Json → Atom) (st : FState) : Prop where
  schema : FromSchemaParser cfg
  ok : flatten cfg root = .ok st
  state : flattenState o env = .ok (st, sw, false)
  nodup : ∀ s ∈ sheetsOf st, s.headings.Nodup
  good : ∀ s ∈ sheetsOf st, ∀ h ∈ s.headings, h ≠ [] ∧ h ≠ s%"#"
  empty : ∀ s ∈ sheetsOf st, s.headings = [] → s.lines = []
  scalars : ∀ s ∈ sheetsOf st, ∀ line ∈ s.lines, ∀ k v, Dict.get line k = some v → ∃ a, v = .leaf a
  names : ∀ n ∈ Dict.keys st.subs, names n
  distinct : (Dict.keys st.subs).Nodup
  back : ∀ s ∈ sheetsOf st, ∀ line ∈ s.lines, ∀ k a, Dict.get line k = some (.leaf a) → (cell (some (.leaf a))).blank = false

theorem objects_mem {root : List Json} {fs : List (Str × Json)} (h : fs ∈ objects root) : .obj fs ∈ root := by
  induction root with
  | nil => cases h
  | cons x r ih =>
    cases x with
    | obj gs =>
      rcases List.mem_cons.1 h with rfl | h
      · simp
      · simp [ih h]
    | leaf a => simp [ih h]
    | arr l => simp [ih h]

theorem holds_letters {cell : Option Json → Atom} {s : Sheet} {sh : SheetIn} (h : SheetHolds cell s sh) (hw : s.headings.length ≤ 18278) :
    lettersFail false sh = false := by
  obtain ⟨h1, ls, h2, h3⟩ := h
  apply lettersFail_false
  · intro hs he
    rw [h1] at he
    injection he with he
    subst he
    simpa using hw
  · intro _ l hl hb
    have hd : hasData l = true := by
      simpa [hasData, blankLine] using hb
    have : l ∈ ls.filter hasData := by rw [← h3]; exact List.mem_filter.2 ⟨hl, hd⟩
    obtain ⟨x, -, rest, e, -⟩ := all₂_mem_right h2 (List.mem_filter.1 this).1
    have := congrArg List.length e
    simp at this
    omega

theorem sheetOf_plain {cfg : FCfg} (h : cfg.useTitles = false) (a : List Str) : sheetOf cfg a = sheetName cfg.trunc a := by
  simp [sheetOf, h]

/-- The round trip, up to the file format. -/
theorem api_trip {o : FlOpts} {u : UnOpts} {env : FlEnv} {uenv : Env} {osp usp : Option Parsed} {root : List Json} {cell : Option Json → Atom}
    (h : MatchingOptions o u) (hos : parseOpt o.schemaCfg o.schema = .ok osp)
    (hus : parseOpt { rollup := true, rootId := u.rootId.getD [], trunc := u.trunc, wkt := u.wkt } u.schema = .ok usp)
    (hk : o.rootIsList = false → OneKey o.rootListPath) (hc : env.content = documentOf o root)
    (hfit : (tripOf o u uenv usp (fun a => cell (some (.leaf a)))).FitsRoot root) (hcols : GoodColumns osp) (hhash : NoHash o root)
    (hb : (cell none).blank = true)
    (hroot : cell none = .none ∨ ∀ rid, given o.rootId = some rid → ∀ fs ∈ objects root, Dict.get fs rid ≠ none) :
    ∃ st, FlatFacts o env (tripCfg o env osp) (schemaWarnsOf osp) (SubSheetName o osp root) root cell st ∧ ∀ (i : Input), u.inputFormat = some i.format → (∀ s ∈ sheetsOf st, s.headings.length ≤ 18278) →
      (∃ order sheets, i.read {} [] [none] = .ok sheets ∧ order.Perm (sheetsOf st) ∧ All₂ (SheetHolds cell) order sheets) →
      ∃ uout doc, runUnflatten u { uenv with input := i } = .ok uout ∧ uout.document = .json doc ∧ Rearranged env.content doc := by
  obtain ⟨hp, hf, hpr⟩ := tripCfg_plain h env osp
  have hs : FromSchemaParser (tripCfg o env osp) := tripCfg_schema hos
  have hreads : (tripOf o u uenv usp (fun a => cell (some (.leaf a)))).Reads
      { row := rowCfg u uenv usp, idName := some (u.idName.getD s%"id"), rootId := given u.rootId } :=
    ⟨h.unflatten.1, rfl, rfl, by simp [tripOf, h.idName], h.rootId⟩
  obtain ⟨st, hst, hmain⟩ := C11_round_trip_of_held (tripOf o u uenv usp (fun a => cell (some (.leaf a)))) (tripCfg o env osp)
    { row := rowCfg u uenv usp, idName := some (u.idName.getD s%"id"), rootId := given u.rootId } hp hf hpr hs rfl rfl hreads cell
    (fun _ => rfl) hb root hfit hroot
  have hh : ∀ sp, (tripCfg o env osp).schema = some sp → sp.main.headings.Nodup ∧ ∀ n s, (n, s) ∈ sp.subs → s.headings.Nodup := by
    intro sp hsp
    have hsp : osp = some sp := hsp
    subst hsp
    exact ⟨(hcols _ (.inl rfl)).1, fun n s hm => (hcols s (.inr ⟨n, hm⟩)).1⟩
  have hn : ∀ s ∈ sheetsOf st, s.headings.Nodup := fun s hm => C26_no_repeated_headings _ hs hh root st hst s hm
  refine ⟨st, ⟨hs, hst, flattenState_eq h hos hk hc hst, hn, ?_, ?_, ?_, ?_, subs_nodup hs hst, ?_⟩, ?_⟩
  · intro s hm k hk'
    rcases heading_cases hp hf hpr hs rfl rfl hfit hst hm hk' with ⟨name, h1⟩ | h1 | ⟨fs, h1, h2⟩ | h1 | h1
    · exact template_good hcols h1
    · constructor
      · rintro rfl; cases h1
      · rintro rfl; simp at h1
    · refine ⟨((fitsRoot_mem hfit h1).1.2.2.1 k h2).1, ?_⟩
      rintro rfl
      exact hhash.2.2 fs (objects_mem h1) h2
    · subst h1
      exact ⟨hfit.idName.1, hhash.1⟩
    · obtain ⟨h1, h2⟩ := given_some.1 h1
      exact ⟨h2, fun e => hhash.2.1 (e ▸ h1)⟩
  · exact fun s hm => no_lines hp hf hpr hs rfl rfl hfit hst hm
  · exact fun s hm => line_scalars hp hf hpr hs rfl rfl hfit hst hm
  · intro n hm
    rcases (C57_sub_sheets _ hp.wkt hp.xml hf hpr root st hst n).1 hm with h1 | h1
    · left
      unfold templateSheets at h1
      have hsch : (tripCfg o env osp).schema = osp := rfl
      rw [hsch] at h1
      cases osp with
      | none => cases h1
      | some p => exact ⟨p, rfl, h1⟩
    · obtain ⟨fs, a, h2, h3, rfl⟩ := h1
      exact .inr ⟨fs, a, h2, h3, (sheetOf_plain hp.titles a).symm⟩
  · exact fun s hm => line_back hp hf hpr hs rfl rfl hfit hst hm
  · rintro i hi hw ⟨order, sheets, h1, h2, h3⟩
    obtain ⟨out, w, h4, h5⟩ := hmain hn order sheets h2 h3
    rw [hc]
    refine unflatten_side h hus hi h1 h4 h5 ?_
    rw [List.any_eq_false]
    intro sh hsh
    obtain ⟨s, hs, hr⟩ := all₂_mem_right h3 hsh
    rw [holds_letters hr (hw s (h2.mem_iff.1 hs))]
    simp

theorem run_written' {o : FlOpts} (hpre : flattenPreChecks o.filterField o.filterValue o.lineTerminator = .ok ()) {env : FlEnv} {st : FState} {sw : List SWarn} {ig : Bool}
    (hst : flattenState o env = .ok (st, sw, ig)) {w : List Written}
    (hw : writeAll env o.sheetPrefix o.mainSheetName o.outputName s%"flattened" o.outputFormat st = .ok w) :
    runFlatten o env = .ok { written := w, warns := st.warns, schemaWarns := sw, rollupIgnored := ig
                             preserveUnknown := unknownPreserved o o.parsedSchema
                             removed := removedAll o.mainSheetName o.outputFormat st } := by
  unfold runFlatten
  rw [hpre]
  simp only
  rw [hst]
  simp only
  rw [hw]

theorem matching_pre {o : FlOpts} {u : UnOpts} (h : MatchingOptions o u) : flattenPreChecks o.filterField o.filterValue o.lineTerminator = .ok () := by
  obtain ⟨h1, h2, h3, h4, h5, h6, h7⟩ := h.flatten
  have hl : o.lineTerminator ∈ lineTerminators := h.line
  simp [flattenPreChecks, h5, h6, hl]

theorem run_written {o : FlOpts} {u : UnOpts} (h : MatchingOptions o u) {env : FlEnv} {st : FState} {sw : List SWarn} {ig : Bool}
    (hst : flattenState o env = .ok (st, sw, ig)) {w : List Written}
    (hw : writeAll env o.sheetPrefix o.mainSheetName o.outputName s%"flattened" o.outputFormat st = .ok w) :
    runFlatten o env = .ok { written := w, warns := st.warns, schemaWarns := sw, rollupIgnored := ig
                             preserveUnknown := unknownPreserved o o.parsedSchema
                             removed := removedAll o.mainSheetName o.outputFormat st } :=
  run_written' (matching_pre h) hst hw

/-- The text that a scalar becomes in a CSV file. -/
def csvWrite (env : FlEnv) (a : Atom) : Atom := .str (csvText env.strOf (some (.leaf a)))

/-- What is written to CSV files is read from them. -/
theorem csv_trip {o : FlOpts} {env : FlEnv} {cfg : FCfg} {sw : List SWarn} {names : Str → Prop} {root : List Json} {st : FState}
    (hst : FlatFacts o env cfg sw names root (fun v => .str (csvText env.strOf v)) st)
    (hpre : flattenPreChecks o.filterField o.filterValue o.lineTerminator = .ok ()) (hfmt : o.outputFormat = s%"csv")
    (hmain : ∀ name, names name → name ≠ o.mainSheetName) {Q : Input → Prop}
    (htrip : ∀ i : Input, i.format = s%"csv" → (∀ s ∈ sheetsOf st, s.headings.length ≤ 18278) →
      (∃ order sheets, i.read {} [] [none] = .ok sheets ∧ order.Perm (sheetsOf st) ∧ All₂ (SheetHolds (fun v => .str (csvText env.strOf v))) order sheets) → Q i) :
    ∃ out dir files, runFlatten o env = .ok out ∧ out.written = [.csv dir files] ∧
      ∀ files', files'.Perm files → (∀ f ∈ files, WithinZZZ f.2) → Q (.csv files') := by
  have hnames : ((outSheets o.mainSheetName st).map (·.1)).Nodup :=
    outSheets_nodup hst.distinct (fun hm => hmain _ (hst.names _ hm) rfl)
  let gridOf : Sheet → List (List Str) := fun s => match csvGrid env.strOf s with | .ok g => g | .error _ => []
  have hgrid : ∀ s ∈ sheetsOf st, csvGrid env.strOf s = .ok (gridOf s) := by
    intro s hm
    obtain ⟨g, hg⟩ := (C33_csv_writes env.strOf s).2 (C25_every_value_has_a_column _ hst.schema root st hst.ok s hm).1
    simp only [gridOf, hg]
  let files : List (Str × List (List Str)) := (outSheets o.mainSheetName st).map (fun p => (csvFile o.sheetPrefix p.1, gridOf p.2))
  have hfiles : ∀ name, writeFormat env o.sheetPrefix o.mainSheetName name st s%"csv" = .ok (.csv name files) := by
    intro name
    unfold writeFormat
    rw [if_pos rfl, writeCsv_eq hnames]
    rw [mapE_map (g := fun p : Str × Sheet => (p.1, gridOf p.2))]
    · simp [files, List.map_map, Function.comp_def]
    · intro p hp
      obtain ⟨⟨n, s⟩, hm, rfl⟩ := List.mem_map.1 hp
      simp only
      rw [hgrid s (outSheets_mem hm)]
  have hwrite : writeAll env o.sheetPrefix o.mainSheetName o.outputName s%"flattened" o.outputFormat st =
      .ok [.csv (outputNameOf o.outputName s%"flattened" o.outputFormat s%"csv") files] := by
    have hof : outputFormats s%"csv" = .ok [s%"csv"] := by decide +kernel
    unfold writeAll
    rw [hfmt, hof]
    simp only [mapE, hfiles]
  refine ⟨_, _, files, run_written' hpre hst.state hwrite, rfl, ?_⟩
  intro files' hperm hwide
  refine htrip (.csv files') rfl ?_ ?_
  · intro s hm
    have hm' := (outSheets_perm o.mainSheetName st).mem_iff.2 hm
    obtain ⟨⟨n, s'⟩, hn', rfl⟩ := List.mem_map.1 hm'
    refine hwide (csvFile o.sheetPrefix n, gridOf s') (List.mem_map.2 ⟨(n, s'), hn', rfl⟩) s'.headings ?_
    have hg := hgrid s' hm
    unfold csvGrid at hg
    split at hg
    · cases hg
    · injection hg with hg
      rw [← hg]
      simp
  -- the sheets by the names under which they are read
  let L : List (Str × Sheet) := (outSheets o.mainSheetName st).map (fun p => (o.sheetPrefix ++ p.1, p.2))
  have hL2 : L.map (·.2) = (outSheets o.mainSheetName st).map (·.2) := by simp [L, List.map_map, Function.comp_def]
  have hLk : Dict.keys L = ((outSheets o.mainSheetName st).map (·.1)).map (o.sheetPrefix ++ ·) := by
    simp [L, Dict.keys, List.map_map, Function.comp_def]
  have hLn : (Dict.keys L).Nodup := by
    rw [hLk]
    exact hnames.map _ (fun a b hab he => hab (by simpa using he))
  have hfk : files.map (·.1) = (Dict.keys L).map (· ++ s%".csv") := by
    rw [hLk]
    simp [files, csvFile, List.map_map, Function.comp_def]
  have hfn : (files.map (·.1)).Nodup := by
    rw [hfk]
    exact hLn.map _ (fun a b hab he => hab (csvName_inj he))
  have hfn' : (files'.map (·.1)).Nodup := (hperm.map _).nodup_iff.2 hfn
  suffices hh : ((Input.csv files').select [] [none]).Perm (Dict.keys L) ∧ ∀ n s, (n, s) ∈ L → ∃ sh, (Input.csv files').sheet {} n = .ok sh ∧ SheetReads (fun v => .str (csvText env.strOf v)) s sh by
    obtain ⟨order, sheets, h1, h2, h3⟩ := read_all (rc := {}) (R := SheetReads (fun v => .str (csvText env.strOf v))) hLn hh.1 hh.2
    exact ⟨order, sheets, h1, h2.trans (hL2 ▸ outSheets_perm _ _), All₂.imp h3 (fun _ _ h => h.holds)⟩
  constructor
  · obtain ⟨a1, a2⟩ := C41_csv_selection (files'.map (·.1)) [] [none] hfn'
    apply perm_of_nodup (sorted_nodup a1) hLn
    intro n
    rw [a2, (hperm.map _).mem_iff, hfk]
    simp only [List.mem_map, List.mem_singleton, reduceCtorEq, not_false_eq_true, and_true, true_or]
    constructor
    · rintro ⟨m, hm, e⟩
      rwa [csvName_inj e] at hm
    · intro hm
      exact ⟨n, hm, rfl⟩
  · intro n s hm
    obtain ⟨⟨n', s'⟩, hm', e⟩ := List.mem_map.1 hm
    simp only [Prod.mk.injEq] at e
    obtain ⟨rfl, rfl⟩ := e
    have hsm := outSheets_mem hm'
    have hg : Dict.get files' (o.sheetPrefix ++ n' ++ s%".csv") = some (gridOf s') := by
      apply Dict.get_of_mem hfn'
      rw [hperm.mem_iff]
      exact List.mem_map.2 ⟨_, hm', by simp [csvFile]⟩
    simp only [Input.sheet, hg, Option.getD_some]
    by_cases hne : s'.headings = []
    · have hl := hst.empty s' hsm hne
      have hgr : gridOf s' = [[]] := by
        have := hgrid s' hsm
        unfold csvGrid csvRows at this
        rw [hl, hne] at this
        simp at this
        exact this.symm
      rw [hgr]
      exact ⟨_, rfl, by simp [SheetReads, hne, hl]⟩
    · refine ⟨_, csv_reads_back env.strOf s' _ _ (hgrid s' hsm) (hst.nodup s' hsm) hne ?_, rfl, rfl⟩
      intro he
      exact (hst.good s' hsm s%"#" (List.mem_of_mem_head? he)).2 rfl

/-- C58: `flatten` to CSV files and `unflatten` of these files, with matching options, give back the document, up to the order of fields and items;
for every document that fits, with any schemas, if no sheet has more than 18278 columns.  (Files may be listed in any order.  Every root object must have the
root id, if there is one.) -/
theorem C58_csv_round_trip (o : FlOpts) (u : UnOpts) (env : FlEnv) (uenv : Env) (osp usp : Option Parsed) (root : List Json)
    (h : MatchingOptions o u) (hfmt : o.outputFormat = s%"csv" ∧ u.inputFormat = some s%"csv")
    (hos : parseOpt o.schemaCfg o.schema = .ok osp)
    (hus : parseOpt { rollup := true, rootId := u.rootId.getD [], trunc := u.trunc, wkt := u.wkt } u.schema = .ok usp)
    (hk : o.rootIsList = false → OneKey o.rootListPath) (hc : env.content = documentOf o root)
    (hfit : (tripOf o u uenv usp (csvWrite env)).FitsRoot root) (hcols : GoodColumns osp) (hhash : NoHash o root)
    (hmain : ∀ name, SubSheetName o osp root name → name ≠ o.mainSheetName)
    (hroot : ∀ rid, given o.rootId = some rid → ∀ fs, .obj fs ∈ root → Dict.get fs rid ≠ none) :
    ∃ out dir files, runFlatten o env = .ok out ∧ out.written = [.csv dir files] ∧
      ∀ files', files'.Perm files → (∀ f ∈ files, WithinZZZ f.2) → ∃ uout doc, runUnflatten u { uenv with input := .csv files' } = .ok uout ∧
        uout.document = .json doc ∧ Rearranged env.content doc := by
  obtain ⟨st, hst, htrip⟩ := api_trip (cell := fun v => .str (csvText env.strOf v)) h hos hus hk hc hfit hcols hhash rfl
    (.inr (fun rid hr fs hm => hroot rid hr fs (objects_mem hm)))
  exact csv_trip hst (matching_pre h) hfmt.1 hmain (Q := fun i => ∃ uout doc, runUnflatten u { uenv with input := i } = .ok uout ∧
    uout.document = .json doc ∧ Rearranged env.content doc) (fun i hi => htrip i (by rw [hfmt.2, hi]))

/-- The titles that are given to worksheets are new. -/
def NewTitles (env : FlEnv) : Prop := ∀ used t t', env.title used t = .ok t' → t' ∉ used

/-- A title can be given to every sheet. -/
def AllTitled (o : FlOpts) (env : FlEnv) (schema : Option Parsed) (root : List Json) : Prop :=
  ∀ used n, n = o.mainSheetName ∨ SubSheetName o schema root n → ∃ t, env.title used (sheetTitle o.sheetPrefix n) = .ok t

theorem writeXlsx_ok {title : List Str → Str → Except Err Str} (hnew : ∀ used t t', title used t = .ok t' → t' ∉ used) {pfx : Str} {gridOf : Sheet → Grid} :
    ∀ (l : List (Str × Sheet)) (used : List Str), (∀ p ∈ l, xlsxGrid p.2 = .ok (gridOf p.2) ∧ ∀ used, ∃ t, title used (sheetTitle pfx p.1) = .ok t) →
    ∃ L : List (Str × Sheet), L.map (·.2) = l.map (·.2) ∧ (Dict.keys L).Nodup ∧ (∀ n ∈ Dict.keys L, n ∉ used) ∧
      writeXlsx title pfx used l = .ok (L.map (fun p => (p.1, gridOf p.2)))
  | [], used, _ => ⟨[], rfl, by simp [Dict.keys], by simp [Dict.keys], rfl⟩
  | (n, s) :: r, used, h => by
    obtain ⟨h1, h2⟩ := h (n, s) (by simp)
    obtain ⟨t, ht⟩ := h2 used
    obtain ⟨L, h3, h4, h5, h6⟩ := writeXlsx_ok hnew r (used ++ [t]) (fun p hp => h p (by simp [hp]))
    refine ⟨(t, s) :: L, by simp [h3], ?_, ?_, ?_⟩
    · simp only [Dict.keys, List.map_cons, List.nodup_cons]
      exact ⟨fun hm => h5 t hm (by simp), h4⟩
    · intro m hm
      simp only [Dict.keys, List.map_cons, List.mem_cons] at hm
      rcases hm with rfl | hm
      · exact hnew _ _ _ ht
      · intro hu
        exact h5 m hm (by simp [hu])
    · rw [writeXlsx]
      simp only [ht, h6]
      simp only at h1
      rw [h1]
      rfl

/-- What is written to an XLSX file is read from it. -/
theorem xlsx_trip {o : FlOpts} {env : FlEnv} {cfg : FCfg} {sw : List SWarn} {names : Str → Prop} {root : List Json} {st : FState}
    (hst : FlatFacts o env cfg sw names root sheetAtom st)
    (hpre : flattenPreChecks o.filterField o.filterValue o.lineTerminator = .ok ()) (hfmt : o.outputFormat = s%"xlsx") (hnew : NewTitles env)
    (htit : ∀ used n, n = o.mainSheetName ∨ names n → ∃ t, env.title used (sheetTitle o.sheetPrefix n) = .ok t) {Q : Input → Prop}
    (htrip : ∀ i : Input, i.format = s%"xlsx" → (∀ s ∈ sheetsOf st, s.headings.length ≤ 18278) →
      (∃ order sheets, i.read {} [] [none] = .ok sheets ∧ order.Perm (sheetsOf st) ∧ All₂ (SheetHolds sheetAtom) order sheets) → Q i) :
    ∃ out file sheets, runFlatten o env = .ok out ∧ out.written = [.xlsx file sheets] ∧
      ∀ sheets', sheets'.Perm sheets → (∀ s ∈ sheets, WithinZZZ s.2.rows) → Q (.xlsx sheets') := by
  let gridOf : Sheet → Grid := fun s => match xlsxGrid s with | .ok g => g | .error _ => ⟨0, []⟩
  have hgrid : ∀ s ∈ sheetsOf st, xlsxGrid s = .ok (gridOf s) ∧ ∀ name, xlsxSheet {} name (gridOf s) = .ok
      { name, headings := some (s.headings.map some),
        lines := s.lines.map (fun l => s.headings.map (fun h => (some h, sheetAtom (Dict.get l h)))) } := by
    intro s hm
    have key := fun name => C33_xlsx_reads_back s name (hst.nodup s hm) (fun h hh => (hst.good s hm h hh).1)
      (fun he => (hst.good s hm s%"#" (List.mem_of_mem_head? he)).2 rfl) (hst.scalars s hm)
    refine ⟨?_, fun name => ?_⟩
    · obtain ⟨g, hg, -⟩ := key []
      simp only [gridOf, hg]
    · obtain ⟨g, hg, h2⟩ := key name
      simp only [gridOf, hg]
      exact h2
  obtain ⟨L, hL2, hLn, -, hw⟩ := writeXlsx_ok (title := env.title) hnew (pfx := o.sheetPrefix) (gridOf := gridOf) (outSheets o.mainSheetName st) [] (by
    rintro ⟨n, s⟩ hm
    refine ⟨(hgrid s (outSheets_mem hm)).1, fun used => htit used n ?_⟩
    rcases List.mem_cons.1 hm with e | hm
    · cases e; exact .inl rfl
    · exact .inr (hst.names n (List.mem_map.2 ⟨_, (sortSheets_perm st.subs).mem_iff.1 hm, rfl⟩)))
  have hwrite : writeAll env o.sheetPrefix o.mainSheetName o.outputName s%"flattened" o.outputFormat st =
      .ok [.xlsx (outputNameOf o.outputName s%"flattened" o.outputFormat s%"xlsx") (L.map (fun p => (p.1, gridOf p.2)))] := by
    have hof : outputFormats s%"xlsx" = .ok [s%"xlsx"] := by decide +kernel
    unfold writeAll
    rw [hfmt, hof]
    simp only [mapE]
    unfold writeFormat
    rw [if_neg (by decide), if_pos rfl, hw]
  refine ⟨_, _, _, run_written' hpre hst.state hwrite, rfl, ?_⟩
  intro sheets' hperm hwide
  refine htrip (.xlsx sheets') rfl ?_ ?_
  · intro s hm
    have hm' := (outSheets_perm o.mainSheetName st).mem_iff.2 hm
    rw [← hL2] at hm'
    obtain ⟨⟨n, s'⟩, hn', rfl⟩ := List.mem_map.1 hm'
    have := hwide (n, gridOf s') (List.mem_map.2 ⟨(n, s'), hn', rfl⟩) (s'.headings.map Atom.str) ?_
    · simpa using this
    have hg := (hgrid s' hm).1
    unfold xlsxGrid at hg
    split at hg
    · cases hg
    · injection hg with hg
      rw [← hg]
      simp
  have hsn : (sheets'.map (·.1)).Perm (Dict.keys L) := by
    have := hperm.map (·.1)
    rwa [List.map_map] at this
  suffices hh : ((Input.xlsx sheets').select [] [none]).Perm (Dict.keys L) ∧ ∀ n s, (n, s) ∈ L → ∃ sh, (Input.xlsx sheets').sheet {} n = .ok sh ∧ SheetReads sheetAtom s sh by
    obtain ⟨order, sheets, h1, h2, h3⟩ := read_all (rc := {}) (R := SheetReads sheetAtom) hLn hh.1 hh.2
    exact ⟨order, sheets, h1, h2.trans (hL2 ▸ outSheets_perm _ _), All₂.imp h3 (fun _ _ h => h.holds)⟩
  constructor
  · simpa [Input.select, selectSheets, excludeAll] using hsn
  · intro n s hm
    have hsm : s ∈ sheetsOf st := by
      have : s ∈ L.map (·.2) := List.mem_map.2 ⟨_, hm, rfl⟩
      rw [hL2] at this
      exact (outSheets_perm _ _).mem_iff.1 this
    have hg : Dict.get sheets' n = some (gridOf s) := by
      apply Dict.get_of_mem (hsn.nodup_iff.2 hLn)
      rw [hperm.mem_iff]
      exact List.mem_map.2 ⟨_, hm, rfl⟩
    simp only [Input.sheet, hg, Option.getD_some]
    exact ⟨_, (hgrid s hsm).2 n, rfl, rfl⟩

/-- C58: the same for XLSX files, whose worksheets get distinct titles.  (Worksheets may be in any order.) -/
theorem C58_xlsx_round_trip (o : FlOpts) (u : UnOpts) (env : FlEnv) (uenv : Env) (osp usp : Option Parsed) (root : List Json)
    (h : MatchingOptions o u) (hfmt : o.outputFormat = s%"xlsx" ∧ u.inputFormat = some s%"xlsx")
    (hos : parseOpt o.schemaCfg o.schema = .ok osp)
    (hus : parseOpt { rollup := true, rootId := u.rootId.getD [], trunc := u.trunc, wkt := u.wkt } u.schema = .ok usp)
    (hk : o.rootIsList = false → OneKey o.rootListPath) (hc : env.content = documentOf o root)
    (hfit : (tripOf o u uenv usp (fun a => sheetAtom (some (.leaf a)))).FitsRoot root) (hcols : GoodColumns osp) (hhash : NoHash o root)
    (hnew : NewTitles env) (htit : AllTitled o env osp root) :
    ∃ out file sheets, runFlatten o env = .ok out ∧ out.written = [.xlsx file sheets] ∧
      ∀ sheets', sheets'.Perm sheets → (∀ s ∈ sheets, WithinZZZ s.2.rows) → ∃ uout doc, runUnflatten u { uenv with input := .xlsx sheets' } = .ok uout ∧
        uout.document = .json doc ∧ Rearranged env.content doc := by
  obtain ⟨st, hst, htrip⟩ := api_trip (cell := sheetAtom) h hos hus hk hc hfit hcols hhash rfl (.inl rfl)
  exact xlsx_trip hst (matching_pre h) hfmt.1 hnew htit (Q := fun i => ∃ uout doc, runUnflatten u { uenv with input := i } = .ok uout ∧
    uout.document = .json doc ∧ Rearranged env.content doc) (fun i hi => htrip i (by rw [hfmt.2, hi]))

namespace ApiTripEx
set_option synthInstance.maxSize 4000

/-- `[{"ocid": "r-1", "id": "A", "dishes": [{"id": "d1", "ing": [{"n": "x"}, {"n": "x"}]}, {"name": "z"}], "geo": {"lat": "north"}}, {"ocid": "r-2", "id": "A"}]` -/
def root : List Json :=
  [.obj [(s%"ocid", .leaf (.str s%"r-1")), (s%"id", .leaf (.str s%"A")),
      (s%"dishes", .arr [.obj [(s%"id", .leaf (.str s%"d1")), (s%"ing", .arr [.obj [(s%"n", .leaf (.str s%"x"))], .obj [(s%"n", .leaf (.str s%"x"))]])],
        .obj [(s%"name", .leaf (.str s%"z"))]]),
      (s%"geo", .obj [(s%"lat", .leaf (.str s%"north"))])],
    .obj [(s%"ocid", .leaf (.str s%"r-2")), (s%"id", .leaf (.str s%"A"))]]

/-- Options. -/
def o : FlOpts := { outputFormat := s%"csv", rootId := some s%"ocid", rootListPath := s%"releases", sheetPrefix := s%"p-" }
def u : UnOpts := { inputFormat := some s%"csv", rootId := some s%"ocid", rootListPath := some s%"releases" }
def env : FlEnv := { content := documentOf o root }
def uenv : Env := { input := .csv [] }

theorem matching : MatchingOptions o u := ⟨⟨rfl, rfl, rfl, rfl, rfl, rfl, rfl⟩, by decide +kernel, ⟨rfl, rfl, rfl, rfl, rfl, rfl, rfl⟩, rfl, rfl, rfl, rfl⟩

/-- The document fits, if texts are written as they are. -/
theorem fits (T : Trip) (ht : T.types = fun _ => none) (hid : T.idName = s%"id") (hr : T.rootId = some s%"ocid") (hw : ∀ s, s ∈ [s%"r-1", s%"A", s%"d1", s%"x", s%"z", s%"north", s%"r-2"] → T.write (.str s) = .str s) :
    T.FitsRoot root where
  idName := by rw [hid]; decide +kernel
  rootName := by
    intro rid h
    rw [hr] at h; cases h
    rw [hid]
    decide +kernel
  each := by
    have text : ∀ (ks : List Str) (s : Str), s ∈ [s%"r-1", s%"A", s%"d1", s%"x", s%"z", s%"north", s%"r-2"] → T.Fits ks (.leaf (.str s)) := by
      intro ks s h1
      simp only [Trip.Fits]
      refine ⟨rfl, C11_texts_return T ks s ?_ (hw s h1) (.inl (by rw [ht]))⟩
      rintro rfl; revert h1; decide
    have nr : ∀ fs : List (Str × Json), s%"ocid" ∉ Dict.keys fs → T.NoRoot fs := by
      intro fs h rid hrid
      rw [hr] at hrid; cases hrid
      exact Dict.get_none_iff.2 h
    have ob : ∀ fs : List (Str × Json), fs ≠ [] → (Dict.keys fs).Nodup → (∀ k ∈ Dict.keys fs, GoodKey k) →
        (∀ v, Dict.get fs s%"id" = some v → ∃ s, v = .leaf (.str s)) → T.Object fs := by
      intro fs h1 h2 h3 h4
      refine ⟨h1, h2, h3, fun v hv => ?_⟩
      unfold Trip.idOf
      rw [hid] at hv ⊢
      obtain ⟨s, rfl⟩ := h4 v hv
      rw [hv]; simp
    have nm : ∀ (fs : List (Str × Json)) (s : Str), Dict.get fs s%"id" = some (.leaf (.str s)) → T.Named fs := by
      intro fs s h _
      unfold Trip.idOf
      rw [hid, h]; simp
    have hrt : ∀ (fs : List (Str × Json)) (s : Str), s ∈ [s%"r-1", s%"A", s%"d1", s%"x", s%"z", s%"north", s%"r-2"] → Dict.get fs s%"ocid" = some (.leaf (.str s)) →
        ∀ rid v, T.rootId = some rid → Dict.get fs rid = some v → ∃ a, v = .leaf a ∧ (Val.atom (T.write a)).pyEq (.atom (T.write a)) = true := by
      intro fs s hs h rid v hrid hv
      rw [hr] at hrid; cases hrid
      rw [h] at hv; cases hv
      refine ⟨_, rfl, ?_⟩
      rw [hw s hs]
      simp [Val.pyEq, Val.canon, Atom.canon]
    intro x hx
    simp only [root, List.mem_cons, List.not_mem_nil, or_false] at hx
    rcases hx with rfl | rfl
    · refine ⟨_, rfl, ob _ (by simp) (by decide +kernel) (by decide +kernel) (by intro v hv; cases hv; exact ⟨_, rfl⟩), nm _ _ rfl, ?_, hrt _ s%"r-1" (by decide) rfl⟩
      simp only [Trip.FitsFields, and_true]
      refine ⟨text _ _ (by decide), text _ _ (by decide), ?_, ?_⟩
      · simp only [Trip.Fits]
        right
        refine ⟨by decide +kernel, .inl (by rw [ht]), ?_, ?_⟩
        · simp only [Trip.FitsItems, and_true]
          refine ⟨⟨ob _ (by simp) (by decide +kernel) (by decide +kernel) (by intro v hv; cases hv; exact ⟨_, rfl⟩), nr _ (by decide +kernel), nm _ _ rfl, ?_⟩,
            ob _ (by simp) (by decide +kernel) (by decide +kernel) (by intro v hv; cases hv), nr _ (by decide +kernel), by intro h; exact absurd rfl h, ?_⟩
          · simp only [Trip.FitsFields, and_true]
            refine ⟨text _ _ (by decide), ?_⟩
            simp only [Trip.Fits]
            right
            refine ⟨by decide +kernel, .inl (by rw [ht]), ?_, ?_⟩
            · have hi : ∀ ks, T.Object [(s%"n", .leaf (.str s%"x"))] ∧ T.NoRoot [(s%"n", .leaf (.str s%"x"))] ∧
                  T.Named [(s%"n", .leaf (.str s%"x"))] ∧ T.FitsFields ks [(s%"n", .leaf (.str s%"x"))] := by
                intro ks
                refine ⟨ob _ (by simp) (by decide +kernel) (by decide +kernel) (by intro v hv; cases hv), nr _ (by decide +kernel),
                  by intro h; exact absurd rfl h, ?_⟩
                simp only [Trip.FitsFields, and_true]
                exact text _ _ (by decide)
              simp only [Trip.FitsItems, and_true]
              exact ⟨hi _, hi _⟩
            · refine List.Pairwise.cons ?_ (List.pairwise_singleton _ _)
              intro y hy a b ha
              simp only [Trip.idOfValue, Trip.idOf, hid] at ha
              cases ha
          · simp only [Trip.FitsFields, and_true]
            exact text _ _ (by decide)
        · refine List.Pairwise.cons ?_ (List.pairwise_singleton _ _)
          intro y hy
          simp only [List.mem_singleton] at hy
          subst hy
          intro a b _ hb
          simp only [Trip.idOfValue, Trip.idOf, hid] at hb
          cases hb
      · simp only [Trip.Fits]
        refine ⟨.inl (by rw [ht]), ob _ (by simp) (by decide +kernel) (by decide +kernel) (by intro v hv; cases hv), nr _ (by decide +kernel), ?_⟩
        simp only [Trip.FitsFields, and_true]
        exact text _ _ (by decide)
    · refine ⟨_, rfl, ob _ (by simp) (by decide +kernel) (by decide +kernel) (by intro v hv; cases hv; exact ⟨_, rfl⟩), nm _ _ rfl, ?_, hrt _ s%"r-2" (by decide) rfl⟩
      simp only [Trip.FitsFields, and_true]
      exact ⟨text _ _ (by decide), text _ _ (by decide)⟩
  distinct := by
    refine List.Pairwise.cons ?_ (List.pairwise_singleton _ _)
    intro y hy h
    cases hy with
    | tail _ hy => cases hy
    | head =>
      exfalso
      have h1 : ∀ (fs : List (Str × Json)) (s : Str), s ∈ [s%"r-1", s%"A", s%"d1", s%"x", s%"z", s%"north", s%"r-2"] → Dict.get fs s%"ocid" = some (.leaf (.str s)) →
          T.rootCell fs = .atom (.str s) := by
        intro fs s hs hg
        unfold Trip.rootCell
        rw [hr]
        simp only
        rw [hg]
        simp only [hw s hs]
      rw [h1 _ s%"r-1" (by decide) rfl, h1 _ s%"r-2" (by decide) rfl] at h
      revert h
      decide +kernel

/-- The names of the sheets for arrays. -/
theorem arrays {fs : List (Str × Json)} {a : List Str} (hm : .obj fs ∈ root) (h : HasArray [] fs a) : a = [s%"dishes"] ∨ a = [s%"dishes", s%"0", s%"ing"] := by
  have leafy : ∀ {p : List Str} {gs : List (Str × Json)} {a : List Str}, HasArray p gs a → (∀ e ∈ gs, ∃ b, e.2 = .leaf b) → False := by
    intro p gs a h hl
    cases h with
    | here h _ => obtain ⟨b, hb⟩ := hl _ h; cases hb
    | deep h _ => obtain ⟨b, hb⟩ := hl _ h; cases hb
    | item h _ _ _ => obtain ⟨b, hb⟩ := hl _ h; cases hb
  simp only [root, List.mem_cons, List.not_mem_nil, or_false, Json.obj.injEq] at hm
  rcases hm with rfl | rfl
  · cases h with
    | here h _ => simp at h; left; simp [h.1]
    | deep h h' =>
      simp at h
      obtain ⟨rfl, rfl⟩ := h
      exact (leafy h' (by simp)).elim
    | item h _ hi h' =>
      simp at h
      obtain ⟨rfl, rfl⟩ := h
      simp at hi
      rcases hi with rfl | rfl
      · cases h' with
        | here h _ => simp at h; right; simp [h.1]
        | deep h _ => simp at h
        | item h _ hi h' =>
          simp at h
          obtain ⟨rfl, rfl⟩ := h
          simp at hi
          subst hi
          exact (leafy h' (by simp)).elim
      · exact (leafy h' (by simp)).elim
  · exact (leafy h (by simp)).elim

/-- All hypotheses hold of the document with these options. -/
example : ∃ out dir files, runFlatten o env = .ok out ∧ out.written = [.csv dir files] ∧
    ∀ files', files'.Perm files → ∃ uout doc, runUnflatten u { uenv with input := .csv files' } = .ok uout ∧
      uout.document = .json doc ∧ Rearranged env.content doc := by
  obtain ⟨out, dir, files, h1, h2, h3⟩ := C58_csv_round_trip o u env uenv none none root matching ⟨rfl, rfl⟩ rfl rfl (fun _ => by unfold OneKey; decide +kernel) rfl (fits _ rfl rfl rfl (fun _ _ => rfl)) trivial
    ⟨by decide +kernel, by decide +kernel, by
      intro fs hm
      simp only [root, List.mem_cons, List.not_mem_nil, or_false, Json.obj.injEq] at hm
      rcases hm with rfl | rfl <;> decide +kernel⟩
    (by
      rintro name (⟨p, hp, -⟩ | ⟨fs, a, hm, ha, rfl⟩)
      · cases hp
      · rcases arrays hm ha with rfl | rfl <;> decide +kernel)
    (by
      intro rid hrid fs hm
      cases hrid
      simp only [root, List.mem_cons, List.not_mem_nil, or_false, Json.obj.injEq] at hm
      rcases hm with rfl | rfl <;> simp [Dict.get_cons])
  have key : (match runFlatten o env with
    | .ok out => out.written.all (fun w => match w with | .csv _ fs => decide (∀ f ∈ fs, ∀ row ∈ f.2, row.length ≤ 18278) | _ => false)
    | .error _ => false) = true := by decide +kernel
  rw [h1] at key
  simp only [h2, List.all_cons, List.all_nil, Bool.and_true, decide_eq_true_eq] at key
  exact ⟨out, dir, files, h1, h2, fun files' hp => h3 files' hp key⟩

/-- The same for XLSX, with titles that get a number if they are taken. -/
def envX : FlEnv := { content := documentOf o root, title := fun used t => .ok (if t ∈ used then used.flatten ++ s%"1" else t) }

theorem flatten_not_mem {l : List Str} : l.flatten ++ s%"1" ∉ l := by
  intro h
  have key : ∀ (m : List Str) (x : Str), x ∈ m → x.length ≤ m.flatten.length := by
    intro m x hx
    induction m with
    | nil => cases hx
    | cons y r ih =>
      rcases List.mem_cons.1 hx with rfl | hx
      · simp
      · have := ih hx; simp only [List.flatten_cons, List.length_append]; omega
  have := key l _ h
  simp at this
  omega

example : ∃ out file sheets, runFlatten { o with outputFormat := s%"xlsx" } envX = .ok out ∧ out.written = [.xlsx file sheets] ∧
    ∀ sheets', sheets'.Perm sheets → ∃ uout doc, runUnflatten { u with inputFormat := some s%"xlsx" } { uenv with input := .xlsx sheets' } = .ok uout ∧
      uout.document = .json doc ∧ Rearranged envX.content doc := by
  obtain ⟨out, file, sheets, h1, h2, h3⟩ := C58_xlsx_round_trip { o with outputFormat := s%"xlsx" } { u with inputFormat := some s%"xlsx" } envX uenv none none root
    ⟨⟨rfl, rfl, rfl, rfl, rfl, rfl, rfl⟩, by decide +kernel, ⟨rfl, rfl, rfl, rfl, rfl, rfl, rfl⟩, rfl, rfl, rfl, rfl⟩ ⟨rfl, rfl⟩ rfl rfl (fun _ => by unfold OneKey; decide +kernel) rfl
    (fits _ rfl rfl rfl (by intro s hs; simp only [List.mem_cons, List.not_mem_nil, or_false] at hs; rcases hs with rfl | rfl | rfl | rfl | rfl | rfl | rfl <;> decide +kernel)) trivial
    ⟨by decide +kernel, by decide +kernel, by
      intro fs hm
      simp only [root, List.mem_cons, List.not_mem_nil, or_false, Json.obj.injEq] at hm
      rcases hm with rfl | rfl <;> decide +kernel⟩
    (by
      intro used t t' h
      simp only [envX, Except.ok.injEq] at h
      subst h
      split
      · exact flatten_not_mem
      · assumption)
    (fun used n _ => ⟨_, rfl⟩)
  have key : (match runFlatten { o with outputFormat := s%"xlsx" } envX with
    | .ok out => out.written.all (fun w => match w with | .xlsx _ fs => decide (∀ f ∈ fs, ∀ row ∈ f.2.rows, row.length ≤ 18278) | _ => false)
    | .error _ => false) = true := by decide +kernel
  rw [h1] at key
  simp only [h2, List.all_cons, List.all_nil, Bool.and_true, decide_eq_true_eq] at key
  exact ⟨out, file, sheets, h1, h2, fun sheets' hp => h3 sheets' hp key⟩

/-- The files. -/
example : (runFlatten o env).toOption.map (fun out => out.written.map (fun w => match w with | .csv d fs => (d, fs) | _ => ([], []))) =
    some [(s%"flattened", [
      (s%"p-main.csv", [[s%"ocid", s%"id", s%"geo/lat"], [s%"r-1", s%"A", s%"north"], [s%"r-2", s%"A", []]]),
      (s%"p-dis_ing.csv", [[s%"ocid", s%"id", s%"dishes/0/id", s%"dishes/0/ing/0/n"], [s%"r-1", s%"A", s%"d1", s%"x"], [s%"r-1", s%"A", s%"d1", s%"x"]]),
      (s%"p-dishes.csv", [[s%"ocid", s%"id", s%"dishes/0/id", s%"dishes/0/name"], [s%"r-1", s%"A", s%"d1", []], [s%"r-1", s%"A", [], s%"z"]])])] := by
  decide +kernel

/-- With a root list path of two keys the document does not come back: `unflatten` writes the key `a/b`. -/
example : (runUnflatten { inputFormat := some s%"csv", rootListPath := some s%"a/b" } { input := .csv [(s%"m.csv", [[s%"x"], [s%"r-1"]])] }).toOption.map (fun out =>
      match out.document with | .json j => j | _ => .leaf .none) =
    some (.obj [(s%"a/b", .arr [.obj [(s%"x", .leaf (.str s%"r-1"))]])]) := by
  decide +kernel

end ApiTripEx

end Verif

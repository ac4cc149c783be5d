import Verif.Props.TitledTrip
import Verif.Props.TemplateTitles
import Verif.Props.CsvTrip
import Verif.Proofs.Narrow
import Verif.Props.Ods
/-! C71: `flatten` with titles followed by `unflatten` with converted titles, through files. -/
namespace Verif
open Spec Api Csv

variable {scfg rcfg : SchemaCfg} {s : Schema} {sp su : Parsed}

/-- An array of a described document is described. -/
theorem array_described {p : List Str} {fs : List (Str × Json)} {a : List Str} (h : HasArray p fs a) :
    ∀ {steps : List Hop} {q : Schema}, Trail scfg s steps q → p = indexed steps → DescribedFields scfg q fs →
      ∃ pre y m x, Trail scfg s pre y ∧ Field scfg y m x ∧ kind scfg.wkt x = .objects ∧ a = indexed pre ++ [m] := by
  have field : ∀ {q : Schema} {fs : List (Str × Json)} {k : Str} {v : Json}, DescribedFields scfg q fs → (k, v) ∈ fs → ∃ p, Field scfg q k p ∧ Described scfg p v := by
    intro q fs k v hd hm
    induction fs with
    | nil => cases hm
    | cons e r ih =>
      obtain ⟨k', w⟩ := e
      simp only [DescribedFields] at hd
      rcases List.mem_cons.1 hm with e | hm
      · cases e; exact hd.1
      · exact ih hd.2 hm
  have item : ∀ {q : Schema} {l : List Json} {gs : List (Str × Json)}, DescribedItems scfg q l → .obj gs ∈ l → DescribedFields scfg q gs := by
    intro q l gs hd hm
    induction l with
    | nil => cases hm
    | cons x r ih =>
      cases x with
      | leaf a => simp [DescribedItems] at hd
      | arr a => simp [DescribedItems] at hd
      | obj fs =>
        simp only [DescribedItems] at hd
        rcases List.mem_cons.1 hm with e | hm
        · cases e; exact hd.1
        · exact ih hd.2 hm
  have arr : ∀ {x : Schema} {l : List Json}, Described scfg x (.arr l) → joinArray l = none → kind scfg.wkt x = .objects ∧ ∃ i, x.items = some i ∧ DescribedItems scfg i l := by
    intro x l h hj
    simp only [Described] at h
    rcases h with ⟨h1, _⟩ | ⟨_, h2⟩
    · exact absurd hj h1
    · exact h2
  induction h with
  | here hm hj =>
    rintro steps q ht rfl hd
    obtain ⟨x, hf, hx⟩ := field hd hm
    exact ⟨steps, q, _, x, ht, hf, (arr hx hj).1, rfl⟩
  | @deep p fs k gs a hm _ ih =>
    rintro steps q ht rfl hd
    obtain ⟨x, hf, hx⟩ := field hd hm
    simp only [Described] at hx
    exact ih (Trail.append ht (.object hf hx.1 (.here x))) (by rw [indexed_append]; simp [indexed]) hx.2
  | @item p fs k l gs a hm hj hi _ ih =>
    rintro steps q ht rfl hd
    obtain ⟨x, hf, hx⟩ := field hd hm
    obtain ⟨h1, i, h2, h3⟩ := arr hx hj
    exact ih (Trail.append ht (.list hf h1 h2 (.here i))) (by rw [indexed_append]; simp [indexed]) (item h3 hi)

/-- The sub-sheets of a described document are those of the schema. -/
theorem titled_names {T : Trip} {cfg : FCfg} (ht : Titled T cfg sp) (hu : scfg.useTitles = true) (h : TitlesReturn scfg s T.idName T.rootId)
    (hp : parseRoot scfg s = .ok sp) {root : List Json} (hd : ∀ fs ∈ objects root, DescribedFields scfg s fs) {st : FState} (hst : flatten cfg root = .ok st)
    {n : Str} (hn : n ∈ Dict.keys st.subs) : n ∈ Dict.keys sp.subs := by
  rcases (C57_sub_sheets cfg ht.wkt ht.xml ht.filter ht.preserve root st hst n).1 hn with h1 | ⟨fs, a, h1, h2, rfl⟩
  · unfold templateSheets at h1
    rw [ht.schema] at h1
    exact h1
  · obtain ⟨pre, y, m, x, g1, g2, g3, rfl⟩ := array_described h2 (.here s) rfl (hd fs (by
      clear hd hst h2
      induction root with
      | nil => cases h1
      | cons x r ih =>
        cases x with
        | obj gs =>
          rcases List.mem_cons.1 h1 with e | h1
          · cases e; exact List.mem_cons_self
          · exact List.mem_cons_of_mem _ (ih h1)
        | leaf a => rcases List.mem_cons.1 h1 with e | h1; cases e; exact ih h1
        | arr a => rcases List.mem_cons.1 h1 with e | h1; cases e; exact ih h1))
    have hs := (parsed_titles h hu hp).2.2 pre y m x g1 g2 g3
    rw [← subSheetName_sheetOf, subSheetName, if_pos ht.titles, ht.schema]
    simp only [Option.bind_some, hs]
    rw [← Dict.get_isSome_iff, Option.isSome_iff_exists, (sub_event hp _).1]
    exact ⟨s, h.start, pev_trail.2 ⟨pre, y, m, x, g1, g2, .sheet g3⟩⟩

theorem titlePath_ne_nil {steps : List Hop} {p : Schema} {c : Str} (h : titlePath steps p = some c) : c ≠ [] := by
  cases steps with
  | nil =>
    have : titleOf p = some c := by simpa [titlePath, titlesText] using h
    unfold titleOf at this
    obtain ⟨t, _, ht⟩ := Option.bind_eq_some_iff.1 this
    split at ht
    · cases ht
    · cases ht; assumption
  | cons w r =>
    rw [titlePath_cons] at h
    cases ha : titleOf w.prop with
    | none => rw [ha] at h; cases h
    | some a =>
      rw [ha] at h
      cases hb : titlePath r p with
      | none => rw [hb] at h; cases h
      | some b =>
        rw [hb] at h
        simp only [Option.bind_some, Option.map_some, Option.some.injEq] at h
        rw [← h]
        simp

/-- Headings by titles of columns are not `#`, if those of the schema's sheets are not. -/
theorem titled_hash (h : TitlesReturn scfg s idName rootId) (hu : scfg.useTitles = true) (hp : parseRoot scfg s = .ok sp) (hcols : GoodColumns (some sp)) {x : Str}
    (hx : HasTitle scfg s x) : tau scfg s x ≠ [] ∧ tau scfg s x ≠ s%"#" := by
  obtain ⟨steps, n, p, c, ty, h1, h2, rfl, h3⟩ := hx
  rw [tau_of h ⟨steps, n, p, h1, h2, rfl⟩]
  refine ⟨titlePath_ne_nil h2, ?_⟩
  rintro rfl
  cases steps with
  | nil =>
    obtain ⟨r, q, hr, ht, hf⟩ := h1
    cases ht
    have ha : titleOf p = some s%"#" := by simpa [titlePath, titlesText] using h2
    have hm : s%"#" ∈ sp.main.columns := (C34_main_titles scfg s sp hp hu _).2 ⟨r, n, hr, by rw [← ha]; exact .own hf h3⟩
    exact (hcols sp.main (.inl rfl)).2.2 (by simp [Sheet.headings, hm])
  | cons w r =>
    have : ':' ∈ s%"#" := by
      unfold titlePath at h2
      cases r with
      | nil => exact titlesText_colon h2
      | cons => exact titlesText_colon h2
    revert this
    decide

/-- The settings of the parser inside of `flatten` use the titles. -/
theorem tripCfg_titled {o : FlOpts} {u : UnOpts} {s : Schema} (h : TitledOptions o u s) (env : FlEnv) (uenv : Env) (write : Atom → Atom) :
    Titled (tripOf o u uenv (some su) write) (tripCfg o env (some sp)) sp := by
  obtain ⟨h1, h2, h3, h4, h5, h6, h7⟩ := h.flatten
  refine ⟨rfl, h2, h3, h1, rfl, ?_, ?_, rfl, rfl⟩
  · simp [tripCfg, FlOpts.parserCfg, h7, preserveSet]
  · simp [tripCfg, FlOpts.parserCfg, h5, given]

theorem titled_letters {cell : Option Json → Atom} {order : List Sheet} {sheets : List SheetIn} (h : All₂ (SheetHolds cell) order sheets)
    (hw : ∀ s ∈ order, s.headings.length ≤ 18278) (t : TitleTree) : (titleSheets t sheets).any (lettersFail false) = false := by
  have key : ∀ sh ∈ sheets, (∀ hs, sh.headings = some hs → hs.length ≤ 18278) ∧ ∀ l ∈ sh.lines, blankLine l = false → l.length ≤ 18278 := by
    intro sh hsh
    obtain ⟨s, hs, h1, ls, h2, h3⟩ := all₂_mem_right h hsh
    constructor
    · intro hs' he
      rw [h1] at he
      injection he with he
      subst he
      simpa using hw s hs
    · intro l hl hb
      have hd : hasData l = true := by simpa [hasData, blankLine] using hb
      have : l ∈ ls.filter hasData := by rw [← h3]; exact List.mem_filter.2 ⟨hl, hd⟩
      obtain ⟨x, -, rest, e, -⟩ := all₂_mem_right h2 (List.mem_filter.1 this).1
      have := congrArg List.length e
      have := hw s hs
      simp at *
      omega
  rw [List.any_eq_false]
  intro sh hsh
  rw [lettersFail_false (s := sh)]
  · simp
  · unfold titleSheets at hsh
    split at hsh
    · exact (key sh hsh).1
    · obtain ⟨sh', h1, rfl⟩ := List.mem_map.1 hsh
      exact (key sh' h1).1
  · intro _ l hl hb
    unfold titleSheets at hsh
    split at hsh
    · exact (key sh hsh).2 l hl hb
    · obtain ⟨sh', h1, rfl⟩ := List.mem_map.1 hsh
      obtain ⟨l', h2, rfl⟩ := List.mem_map.1 hl
      have h3 : hasData l' = true := hasData_converted (by simpa [hasData, blankLine] using hb)
      have h4 := (key sh' h1).2 l' h2 (by simpa [hasData, blankLine] using h3)
      have h5 := dictOf_length_le (l'.map (fun p => (p.1.map (lookupHeader t), p.2)))
      rw [List.length_map] at h5
      unfold convertTitles
      omega

/-- The round trip with titles, up to the file format. -/
theorem titled_api_trip {o : FlOpts} {u : UnOpts} {env : FlEnv} {uenv : Env} {s : Schema} {sp su : Parsed} {root : List Json} {cell : Option Json → Atom}
    (h : TitledOptions o u s) (hos : parseRoot o.schemaCfg s = .ok sp)
    (hus : parseRoot { rollup := true, rootId := u.rootId.getD [], trunc := u.trunc, wkt := u.wkt } s = .ok su)
    (hret : TitlesReturn o.schemaCfg s o.idName (given o.rootId))
    (hids : ∀ steps n p, Reached o.schemaCfg s steps n p → n = s%"id" → titleOf p ≠ none)
    (hk : o.rootIsList = false → OneKey o.rootListPath) (hc : env.content = documentOf o root)
    (hfit : (tripOf o u uenv (some su) (fun a => cell (some (.leaf a)))).FitsRoot root) (hd : ∀ fs, .obj fs ∈ root → DescribedFields o.schemaCfg s fs)
    (hcols : GoodColumns (some sp)) (hb : (cell none).blank = true)
    (hroot : cell none = .none ∨ ∀ rid, given o.rootId = some rid → ∀ fs ∈ objects root, Dict.get fs rid ≠ none) :
    ∃ st, FlatFacts o env (tripCfg o env (some sp)) (schemaWarnsOf (some sp)) (· ∈ Dict.keys sp.subs) root cell st ∧
      ∀ (i : Input), u.inputFormat = some i.format → (∀ s ∈ sheetsOf st, s.headings.length ≤ 18278) →
        (∃ order sheets, i.read {} [] [none] = .ok sheets ∧ order.Perm (sheetsOf st) ∧ All₂ (SheetHolds cell) order sheets) →
        ∃ uout doc, runUnflatten u { uenv with input := i } = .ok uout ∧ uout.document = .json doc ∧ Rearranged env.content doc := by
  have ht : Titled (tripOf o u uenv (some su) (fun a => cell (some (.leaf a)))) (tripCfg o env (some sp)) sp := tripCfg_titled h env uenv _
  have hu : o.schemaCfg.useTitles = true := h.flatten.2.1
  have hd' : ∀ fs ∈ objects root, DescribedFields o.schemaCfg s fs := fun fs hm => hd fs (objects_mem hm)
  have hwkt : u.wkt = o.wkt := by rw [h.unflatten.2.2.1, h.flatten.2.2.1]
  have hreads : (tripOf o u uenv (some su) (fun a => cell (some (.leaf a)))).Reads
      { row := rowCfg u uenv (some su), idName := some (u.idName.getD s%"id"), rootId := given u.rootId } :=
    ⟨h.unflatten.1, rfl, rfl, by simp [tripOf, h.idName], h.rootId⟩
  have hopt : parseOpt o.schemaCfg o.schema = .ok (some sp) := by rw [h.schema.1]; simp [parseOpt, hos]
  have hopt' : parseOpt { rollup := true, rootId := u.rootId.getD [], trunc := u.trunc, wkt := u.wkt } u.schema = .ok (some su) := by
    rw [h.schema.2]; simp [parseOpt, hus]
  have hs : FromSchemaParser (tripCfg o env (some sp)) := tripCfg_schema hopt
  have hh : sp.main.headings.Nodup ∧ ∀ n sh, (n, sh) ∈ sp.subs → sh.headings.Nodup :=
    ⟨(hcols _ (.inl rfl)).1, fun n s hm => (hcols s (.inr ⟨n, hm⟩)).1⟩
  have hknow := knows (sp := sp) (su := su) hret hos hus rfl hwkt
  obtain ⟨st, hst, hleaf, hmain⟩ := C71_round_trip_of_held (tripOf o u uenv (some su) (fun a => cell (some (.leaf a)))) o.schemaCfg _ s sp su
    (tripCfg o env (some sp)) _ hos hu hus rfl hwkt hret hids hh ht hreads rfl cell (fun _ => rfl) hb root hfit hd' hroot
  obtain ⟨st', hst', h1, h2, hheads⟩ := titled_lines ht hu hret hos hfit hd'
  rw [hst] at hst'
  cases hst'
  have hinj : ∀ a b, HasTitle o.schemaCfg s a → HasTitle o.schemaCfg s b → tau o.schemaCfg s a = tau o.schemaCfg s b → a = b :=
    fun a b ha hb e => hknow.inj ha hb (by rw [e])
  have hspot : ∀ sh ∈ sheetsOf st, ∀ l ∈ sh.lines, ∃ p ∈ spots (tripOf o u uenv (some su) (fun a => cell (some (.leaf a)))) root,
      mapKeys (tau o.schemaCfg s) (spotLine (tripOf o u uenv (some su) (fun a => cell (some (.leaf a)))) p) = l := by
    intro sh hm l hl
    exact List.mem_map.1 (h1.mem_iff.1 (List.mem_flatMap.2 ⟨sh, hm, hl⟩))
  have hn : ∀ sh ∈ sheetsOf st, sh.headings.Nodup := fun sh hm => C26_no_repeated_headings _ hs (by
    intro sp' e
    cases e
    exact hh) root st hst sh hm
  refine ⟨st, ⟨hs, hst, flattenState_eq' h.flatten.1 h.flatten.2.2.2.1 hopt hk hc hst, hn, ?_, ?_, hleaf, ?_, subs_nodup hs hst, ?_⟩, ?_⟩
  · intro sh hm k hk'
    obtain ⟨name, rest, e1, e2⟩ := hheads sh hm
    rw [e1] at hk'
    rcases List.mem_append.1 hk' with hk' | hk'
    · exact template_good hcols hk'
    · obtain ⟨x, hx, rfl⟩ := e2 k hk'
      exact titled_hash hret hu hos hcols hx
  · intro sh hm he
    cases hl : sh.lines with
    | nil => rfl
    | cons l r =>
      exfalso
      have hl' : l ∈ sh.lines := by simp [hl]
      obtain ⟨p, hp', rfl⟩ := hspot sh hm l hl'
      obtain ⟨ho, hnm, hff, hrt⟩ := fitsRoot_mem hfit (List.mem_of_getElem? (mem_spots.1 hp').1)
      obtain ⟨P, b, hon⟩ := (lineOf ho hff (spot_fine hfit hp')).some
      have hg := (spot_line hfit hp').complete P b hon
      have hkey := h2 p hp' _ (Dict.get_isSome_iff.1 (by rw [hg]; rfl))
      have hg' : Dict.get (mapKeys (tau o.schemaCfg s) (spotLine (tripOf o u uenv (some su) (fun a => cell (some (.leaf a)))) p)) (tau o.schemaCfg s (pathText (strs P))) = some (.leaf b) := by
        rw [mapKeys_get hinj (h2 p hp') hkey]; exact hg
      have := (C25_every_value_has_a_column _ hs root st hst sh hm).1 _ hl' _ (List.mem_map.2 ⟨_, Dict.get_eq_some_mem hg', rfl⟩)
      rw [he] at this
      cases this
  · exact fun n hm => titled_names ht hu hret hos hd' hst hm
  · intro sh hm l hl k a hg
    obtain ⟨p, hp', rfl⟩ := hspot sh hm l hl
    obtain ⟨x, hx, rfl, h3⟩ := mapKeys_get_some hinj (h2 p hp') hg
    obtain ⟨P, b, hon, -, e⟩ := (spot_line hfit hp').sound x _ h3
    cases e
    obtain ⟨ho, hnm, hff, hrt⟩ := fitsRoot_mem hfit (List.mem_of_getElem? (mem_spots.1 hp').1)
    obtain ⟨-, ⟨j, hj⟩, -⟩ := (lineOf ho hff (spot_fine hfit hp')).cell P a hon
    exact hj.1
  · rintro i hi hw ⟨order, sheets, g1, g2, g3⟩
    obtain ⟨out, w, g4, g5⟩ := hmain order sheets g2 g3
    have hut := h.unflatten
    have hwt : withTitles u.convertTitles (some su) sheets = .ok (titleSheets su.lookup sheets) := by
      unfold withTitles
      rw [hut.2.1]
      cases sheets with
      | nil => simp [titleSheets]
      | cons => rfl
    rw [hc]
    exact unflatten_side' ⟨hut.1, hut.2.2.2.1, hut.2.2.2.2.1, hut.2.2.2.2.2.1, hut.2.2.2.2.2.2.1, hut.2.2.2.2.2.2.2⟩ h.isList h.path hopt' hi g1 hwt g4 g5
      (titled_letters g3 (fun s hs => hw s (g2.mem_iff.1 hs)) su.lookup)

theorem titled_pre {o : FlOpts} {u : UnOpts} {s : Schema} (h : TitledOptions o u s) : flattenPreChecks o.filterField o.filterValue o.lineTerminator = .ok () := by
  obtain ⟨h1, h2, h3, h4, h5, h6, h7⟩ := h.flatten
  have hl : o.lineTerminator ∈ lineTerminators := h.line
  simp [flattenPreChecks, h5, h6, hl]

/-- C71, the two functions: `flatten` to CSV files with titles, and `unflatten` of these files with converted titles, give back the document, up to the order of fields
and items; for every document that fits and that the schema, whose titles return, describes.  (Files may be in any order.  Every root object must have the root id, if there is one.) -/
theorem C71_files_csv (o : FlOpts) (u : UnOpts) (env : FlEnv) (uenv : Env) (s : Schema) (sp su : Parsed) (root : List Json)
    (h : TitledOptions o u s) (hfmt : o.outputFormat = s%"csv" ∧ u.inputFormat = some s%"csv") (hos : parseRoot o.schemaCfg s = .ok sp)
    (hus : parseRoot { rollup := true, rootId := u.rootId.getD [], trunc := u.trunc, wkt := u.wkt } s = .ok su)
    (hret : TitlesReturn o.schemaCfg s o.idName (given o.rootId))
    (hids : ∀ steps n p, Reached o.schemaCfg s steps n p → n = s%"id" → titleOf p ≠ none)
    (hk : o.rootIsList = false → OneKey o.rootListPath) (hc : env.content = documentOf o root)
    (hfit : (tripOf o u uenv (some su) (csvWrite env)).FitsRoot root) (hd : ∀ fs, .obj fs ∈ root → DescribedFields o.schemaCfg s fs)
    (hcols : GoodColumns (some sp)) (hmain : o.mainSheetName ∉ Dict.keys sp.subs)
    (hroot : ∀ rid, given o.rootId = some rid → ∀ fs, .obj fs ∈ root → Dict.get fs rid ≠ none) :
    ∃ out dir files, runFlatten o env = .ok out ∧ out.written = [.csv dir files] ∧
      ∀ files', files'.Perm files → (∀ f ∈ files, WithinZZZ f.2) → ∃ uout doc, runUnflatten u { uenv with input := .csv files' } = .ok uout ∧
        uout.document = .json doc ∧ Rearranged env.content doc := by
  obtain ⟨st, hst, htrip⟩ := titled_api_trip (cell := fun v => .str (csvText env.strOf v)) h hos hus hret hids hk hc hfit hd hcols rfl
    (.inr (fun rid hr fs hm => hroot rid hr fs (objects_mem hm)))
  exact csv_trip hst (titled_pre h) hfmt.1 (fun n hn e => hmain (e ▸ hn)) (Q := fun i => ∃ uout doc, runUnflatten u { uenv with input := i } = .ok uout ∧
    uout.document = .json doc ∧ Rearranged env.content doc) (fun i hi => htrip i (by rw [hfmt.2, hi]))

/-- C71: the same for XLSX files, whose worksheets get distinct titles.  (Worksheets may be in any order.) -/
theorem C71_files_xlsx (o : FlOpts) (u : UnOpts) (env : FlEnv) (uenv : Env) (s : Schema) (sp su : Parsed) (root : List Json)
    (h : TitledOptions o u s) (hfmt : o.outputFormat = s%"xlsx" ∧ u.inputFormat = some s%"xlsx") (hos : parseRoot o.schemaCfg s = .ok sp)
    (hus : parseRoot { rollup := true, rootId := u.rootId.getD [], trunc := u.trunc, wkt := u.wkt } s = .ok su)
    (hret : TitlesReturn o.schemaCfg s o.idName (given o.rootId))
    (hids : ∀ steps n p, Reached o.schemaCfg s steps n p → n = s%"id" → titleOf p ≠ none)
    (hk : o.rootIsList = false → OneKey o.rootListPath) (hc : env.content = documentOf o root)
    (hfit : (tripOf o u uenv (some su) (fun a => sheetAtom (some (.leaf a)))).FitsRoot root) (hd : ∀ fs, .obj fs ∈ root → DescribedFields o.schemaCfg s fs)
    (hcols : GoodColumns (some sp)) (hnew : NewTitles env)
    (htit : ∀ used n, n = o.mainSheetName ∨ n ∈ Dict.keys sp.subs → ∃ t, env.title used (sheetTitle o.sheetPrefix n) = .ok t) :
    ∃ out file sheets, runFlatten o env = .ok out ∧ out.written = [.xlsx file sheets] ∧
      ∀ sheets', sheets'.Perm sheets → (∀ s ∈ sheets, WithinZZZ s.2.rows) → ∃ uout doc, runUnflatten u { uenv with input := .xlsx sheets' } = .ok uout ∧
        uout.document = .json doc ∧ Rearranged env.content doc := by
  obtain ⟨st, hst, htrip⟩ := titled_api_trip (cell := sheetAtom) h hos hus hret hids hk hc hfit hd hcols rfl (.inl rfl)
  exact xlsx_trip hst (titled_pre h) hfmt.1 hnew htit (Q := fun i => ∃ uout doc, runUnflatten u { uenv with input := i } = .ok uout ∧
    uout.document = .json doc ∧ Rearranged env.content doc) (fun i hi => htrip i (by rw [hfmt.2, hi]))

/-- C71: the same for ODS files, whose headings are texts that stay texts (titles such as `12` would be read as numbers). -/
theorem C71_files_ods (o : FlOpts) (u : UnOpts) (env : FlEnv) (uenv : Env) (s : Schema) (sp su : Parsed) (root : List Json)
    (h : TitledOptions o u s) (hfmt : o.outputFormat = s%"ods" ∧ u.inputFormat = some s%"ods") (hos : parseRoot o.schemaCfg s = .ok sp)
    (hus : parseRoot { rollup := true, rootId := u.rootId.getD [], trunc := u.trunc, wkt := u.wkt } s = .ok su)
    (hret : TitlesReturn o.schemaCfg s o.idName (given o.rootId))
    (hids : ∀ steps n p, Reached o.schemaCfg s steps n p → n = s%"id" → titleOf p ≠ none)
    (hk : o.rootIsList = false → OneKey o.rootListPath) (hc : env.content = documentOf o root)
    (hfit : (tripOf o u uenv (some su) (odsBack env.ods)).FitsRoot root) (hd : ∀ fs, .obj fs ∈ root → DescribedFields o.schemaCfg s fs)
    (hcols : GoodColumns (some sp)) (hheads : HeadingsAreTexts o env (some sp) root)
    (hnames : (o.sheetPrefix ++ o.mainSheetName).length ≤ 31 ∧ ∀ n ∈ Dict.keys sp.subs, n ≠ o.mainSheetName ∧ (o.sheetPrefix ++ n).length ≤ 31) :
    ∃ out file tables decoded, runFlatten o env = .ok out ∧ out.written = [.ods file tables] ∧ readTables env.ods tables [] = .ok decoded ∧
      ((∀ t ∈ decoded, WithinZZZ t.2) → ∃ uout doc, runUnflatten u { uenv with input := .ods decoded } = .ok uout ∧ uout.document = .json doc ∧ Rearranged env.content doc) := by
  obtain ⟨st, hst, htrip⟩ := titled_api_trip (cell := odsCellOf env.ods) h hos hus hret hids hk hc hfit hd hcols rfl (.inl rfl)
  exact ods_trip hst (titled_pre h) hfmt.1 (hheads st hst.ok) hnames (Q := fun i => ∃ uout doc, runUnflatten u { uenv with input := i } = .ok uout ∧
    uout.document = .json doc ∧ Rearranged env.content doc) (fun i hi => htrip i (by rw [hfmt.2, hi]))

/-- C71: the same when what goes from one function to the other are the texts of the CSV files, if no cell has a carriage return, a null character or more than 131072
characters, and no sheet more than 18278 columns. -/
theorem C71_texts_csv (o : FlOpts) (u : UnOpts) (env : FlEnv) (uenv : Env) (s : Schema) (sp su : Parsed) (root : List Json)
    (h : TitledOptions o u s) (hfmt : o.outputFormat = s%"csv" ∧ u.inputFormat = some s%"csv") (hos : parseRoot o.schemaCfg s = .ok sp)
    (hus : parseRoot { rollup := true, rootId := u.rootId.getD [], trunc := u.trunc, wkt := u.wkt } s = .ok su)
    (hret : TitlesReturn o.schemaCfg s o.idName (given o.rootId))
    (hids : ∀ steps n p, Reached o.schemaCfg s steps n p → n = s%"id" → titleOf p ≠ none)
    (hk : o.rootIsList = false → OneKey o.rootListPath) (hc : env.content = documentOf o root)
    (hfit : (tripOf o u uenv (some su) (csvWrite env)).FitsRoot root) (hd : ∀ fs, .obj fs ∈ root → DescribedFields o.schemaCfg s fs)
    (hcols : GoodColumns (some sp)) (hmain : o.mainSheetName ∉ Dict.keys sp.subs)
    (hroot : ∀ rid, given o.rootId = some rid → ∀ fs, .obj fs ∈ root → Dict.get fs rid ≠ none) :
    ∃ out dir files, runFlatten o env = .ok out ∧ out.written = [.csv dir files] ∧
      ((∀ f ∈ files, ∀ row ∈ f.2, CsvExact row) → (∀ f ∈ files, WithinZZZ f.2) →
        ∀ texts : List (Str × Str), texts.Perm (files.map (fun f => (f.1, writeText (terminator o.lineTerminator) f.2))) →
          ∃ files' uout doc, readFiles texts = some files' ∧ runUnflatten u { uenv with input := .csv files' } = .ok uout ∧
            uout.document = .json doc ∧ Rearranged env.content doc) := by
  obtain ⟨out, dir, files, h1, h2, h3⟩ := C71_files_csv o u env uenv s sp su root h hfmt hos hus hret hids hk hc hfit hd hcols hmain hroot
  refine ⟨out, dir, files, h1, h2, ?_⟩
  intro hex hwide texts hp
  obtain ⟨files', hp', rfl⟩ := perm_map_inv hp
  obtain ⟨uout, doc, h4, h5, h6⟩ := h3 files' hp' hwide
  refine ⟨files', uout, doc, readFiles_write ?_ files' (fun f hf => hex f (hp'.mem_iff.1 hf)), h4, h5, h6⟩
  unfold terminator
  split
  · exact .inl rfl
  · exact .inr rfl

/-! The shop of `TitledTrip`, through the two functions. -/
namespace TitledApiEx

set_option synthInstance.maxSize 4000

def o : FlOpts := { outputFormat := s%"csv", schema := some shop, useTitles := true, rootId := some s%"ocid" }
def u : UnOpts := { inputFormat := some s%"csv", schema := some shop, convertTitles := true, rootId := some s%"ocid" }
def env : FlEnv := { content := documentOf o shopDoc }
def uenv : Env := { input := .csv [] }

theorem options : TitledOptions o u shop :=
  ⟨⟨rfl, rfl, rfl, rfl, rfl, rfl, rfl⟩, by decide +kernel, ⟨rfl, rfl, rfl, rfl, rfl, rfl, rfl, rfl⟩, ⟨rfl, rfl⟩, rfl, rfl, rfl, rfl⟩

/-- All hypotheses hold of the shop and its document, and the document comes back. -/
example : ∃ out dir files, runFlatten o env = .ok out ∧ out.written = [.csv dir files] ∧
    ∀ files', files'.Perm files → ∃ uout doc, runUnflatten u { uenv with input := .csv files' } = .ok uout ∧
      uout.document = .json doc ∧ Rearranged env.content doc := by
  have hgood : ∀ a ∈ (shopParsed shopTitles).subs, a.2.headings.Nodup ∧ [] ∉ a.2.headings ∧ s%"#" ∉ a.2.headings := by decide +kernel
  obtain ⟨out, dir, files, h1, h2, h3⟩ := C71_files_csv o u env uenv shop (shopParsed shopTitles) (shopParsed { rollup := true, rootId := s%"ocid" }) shopDoc options ⟨rfl, rfl⟩
    (by with_unfolding_all rfl) (by with_unfolding_all rfl) shop_return (by
      rintro steps n p ⟨r, q, hr, ht, hf⟩ rfl
      have : ∀ x ∈ inside shop, ∀ a ∈ x.properties.getD [], titleOf a.2 ≠ none := by decide +kernel
      exact this q (inside_starts hr (inside_trail ht (inside_self q))) _ hf.1)
    (fun _ => by unfold OneKey; decide +kernel) rfl shopDoc_fits (fun fs hm => shopDoc_described fs (by simpa [shopDoc, objects] using hm))
    (by
      rintro sh (rfl | ⟨n, hm⟩)
      · decide +kernel
      · exact hgood _ hm)
    (by decide +kernel) (by
      intro rid h fs hm
      cases h
      simp only [shopDoc, List.mem_cons, List.not_mem_nil, or_false, Json.obj.injEq] at hm
      rcases hm with rfl | rfl <;> decide +kernel)
  have key : (match runFlatten o env with
    | .ok out => out.written.all (fun w => match w with | .csv _ fs => decide (∀ f ∈ fs, ∀ row ∈ f.2, row.length ≤ 18278) | _ => false)
    | .error _ => false) = true := by decide +kernel
  rw [h1] at key
  simp only [h2, List.all_cons, List.all_nil, Bool.and_true, decide_eq_true_eq] at key
  exact ⟨out, dir, files, h1, h2, fun files' hp => h3 files' hp key⟩

/-- The files. -/
example : (runFlatten o env).toOption.map (fun out => out.written.map (fun w => match w with | .csv d fs => (d, fs) | _ => ([], []))) =
    some [(s%"flattened", [
      (s%"main.csv", [[s%"Contract", s%"Identifier", s%"All Tags", s%"The Buyer:Full Name"], [s%"1", s%"A", s%"x;y", s%"B"], [s%"2", s%"A", [], []]]),
      (s%"Order Lines.csv", [[s%"ocid", s%"Identifier", s%"Order Lines:Line Id", s%"Order Lines:How Many", s%"Contract"],
        [[], s%"A", s%"l1", s%"12", s%"1"], [[], s%"A", [], s%"3", s%"1"]])])] := by
  decide +kernel

end TitledApiEx

end Verif

import Verif.Props.MainMaps
import Verif.Spec.Covered
/-! C54: the locations in the cell source map are cells of the file. -/
namespace Verif
open Spec Api

/-- Reading without any configuration. -/
def plainReading : ReadCfg := { base := {}, useConfig := true, vertical := false }

theorem headingOf_nodup : ∀ {l : List Atom}, l.Nodup → (∀ a ∈ l, a = .none ∨ ∃ s, a = .str s) → (l.map Verif.headingOf).Nodup := by
  intro l hl ht
  apply nodup_map_on hl
  intro a ha b hb e
  rcases ht a ha with rfl | ⟨s, rfl⟩ <;> rcases ht b hb with rfl | ⟨t, rfl⟩
  · rfl
  · simp [Verif.headingOf] at e
  · simp [Verif.headingOf] at e
  · simp only [Verif.headingOf, Py.str, Option.some.injEq] at e; rw [e]

/-- What is known of a sheet read just as it stands. -/
def ReadAsIs (rows : List (List Atom)) (s : SheetIn) : Prop :=
  ∀ r line c own a, s.lines[r]? = some line → line[c]? = some (own, a) → a.blank = false →
    (rows[r + 1]?).bind (·[c]?) = some a ∧ ∃ h, (rows[0]?).bind (·[c]?) = some (.str h) ∧ own = some h ∧ Spec.headingOf s c own = h

theorem zip_fst (l : List Atom) : ∀ m : List Atom, (l.zip m).map (·.1) = l.take m.length := by
  induction l with
  | nil => simp
  | cons a r ih =>
    intro m
    cases m with
    | nil => simp
    | cons b s => simp only [List.zip_cons_cons, List.map_cons, List.length_cons, List.take_succ_cons, ih]

theorem dictOf_zip {l m : List Atom} (g : Atom × Atom → Option Str × Atom) (hg : ∀ p, (g p).1 = Verif.headingOf p.1)
    (h : (l.map Verif.headingOf).Nodup) : dictOf ((l.zip m).map g) = (l.zip m).map g := by
  apply dictOf_nodup
  have : Dict.keys ((l.zip m).map g) = ((l.zip m).map (·.1)).map Verif.headingOf := by
    simp [Dict.keys, List.map_map, Function.comp_def, hg]
  rw [this, zip_fst]
  exact List.Sublist.nodup ((List.take_sublist _ _).map _) h

theorem xlsxLine_get {header row : List Atom} (hn : header.Nodup) (ht : ∀ a ∈ header, a = .none ∨ ∃ s, a = .str s) {c : Nat} {own : Option Str}
    {a : Atom} (hl : (xlsxLine {} header row)[c]? = some (own, a)) (hb : a.blank = false) :
    row[c]? = some a ∧ ∃ h, header[c]? = some (.str h) ∧ own = some h := by
  unfold xlsxLine at hl
  rw [dictOf_zip _ (fun _ => rfl) (headingOf_nodup hn ht)] at hl
  rw [List.getElem?_map, Option.map_eq_some_iff] at hl
  obtain ⟨⟨h, v⟩, hz, e⟩ := hl
  obtain ⟨z1, z2⟩ := List.getElem?_zip_eq_some.1 hz
  simp only [Prod.mk.injEq] at e
  obtain ⟨rfl, rfl⟩ := e
  rcases ht h (List.mem_of_getElem? z1) with rfl | ⟨s, rfl⟩
  · simp [Atom.falsy, Atom.blank] at hb
  · by_cases hf : (Atom.str s).falsy = true
    · rw [if_pos hf] at hb; simp [Atom.blank] at hb
    · rw [if_neg hf]
      exact ⟨by simpa using z2, s, z1, rfl⟩

theorem config_plain {own : SheetConfig} (h : own = {}) : resolveConfig plainReading own = ({}, 0) := by
  subst h; rfl

theorem xlsx_asIs {name : Str} {g : Grid} {s : SheetIn} (hc : ∀ own, xlsxConfig g = .ok own → own = {})
    (hh : ∀ first rest, g.rows = first :: rest → first.Nodup ∧ ∀ a ∈ first, a = .none ∨ ∃ s, a = .str s)
    (h : xlsxSheet plainReading name g = .ok s) : s.name = name ∧ ReadAsIs g.rows s := by
  unfold xlsxSheet at h
  split at h
  · cases h
  · next own ho =>
    have hp : xlsxParts plainReading own g = (g.row 0, g.rows.drop 1) := by
      unfold xlsxParts; rw [config_plain (hc own ho)]; rfl
    simp only [config_plain (hc own ho), hp] at h
    rw [if_neg (by simp [ignoredSheet])] at h
    injection h with h
    subst h
    refine ⟨rfl, ?_⟩
    intro r line c own a hline hcell hb
    simp only [List.getElem?_map, List.getElem?_drop, Option.map_eq_some_iff] at hline
    obtain ⟨row, hr, rfl⟩ := hline
    cases hrows : g.rows with
    | nil => rw [hrows] at hr; simp at hr
    | cons first rest =>
      obtain ⟨h1, h2⟩ := hh first rest hrows
      have hfirst : g.row 0 = first := by simp [Grid.row, hrows]
      rw [hfirst] at hcell
      obtain ⟨k1, hd, k2, k3⟩ := xlsxLine_get h1 h2 hcell hb
      rw [hrows] at hr
      rw [Nat.add_comm] at hr
      refine ⟨by rw [hr]; exact k1, hd, by simpa using k2, k3, ?_⟩
      simp only [Spec.headingOf, hfirst, List.getElem?_map, k2, Option.map_some, Option.getD_some, Verif.headingOf, Py.str]

theorem odsLine_plain {header row : List Atom} : odsLine {} header row = .ok (xlsxLine {} header row) := by
  unfold odsLine xlsxLine
  rw [if_neg (by simp)]

theorem ods_asIs {name : Str} {rows : List (List Atom)} {s : SheetIn} (hc : ∀ own, odsConfig rows = .ok own → own = {})
    (hh : ∀ first rest, rows = first :: rest → first.Nodup ∧ ∀ a ∈ first, a = .none ∨ ∃ s, a = .str s)
    (hk : ∀ first rest, rows = first :: rest → ∀ row ∈ rest, KeptRow (.ods []) first row)
    (h : odsSheet plainReading name rows = .ok s) : s.name = name ∧ ReadAsIs rows s := by
  unfold odsSheet at h
  split at h
  · cases h
  · next own ho =>
    have hp : odsParts plainReading own rows = ((rows[0]?).getD [], rows.drop 1) := by
      unfold odsParts; rw [config_plain (hc own ho)]; rfl
    simp only [config_plain (hc own ho), hp] at h
    split at h
    · injection h with h; subst h
      exact ⟨rfl, by intro r line c own a hl; simp at hl⟩
    · rw [mapM_ok _ (xlsxLine {} _) _ (fun r _ => odsLine_plain)] at h
      injection h with h
      subst h
      refine ⟨rfl, ?_⟩
      cases hrows : rows with
      | nil => intro r line c own a hl; simp at hl
      | cons first rest =>
        obtain ⟨h1, h2⟩ := hh first rest hrows
        have hall : ((rest.map (xlsxLine {} first)).filter (fun l => !l.all (fun kv => kv.2 == .none))) = rest.map (xlsxLine {} first) := by
          rw [List.filter_eq_self]
          intro l hl
          obtain ⟨row, hrow, rfl⟩ := List.mem_map.1 hl
          obtain ⟨c, t, v, e1, e2, e3, e4⟩ := hk first rest hrows row hrow
          simp only [Bool.not_eq_true', List.all_eq_false]
          refine ⟨(some t, v), ?_, by simpa using e4⟩
          unfold xlsxLine
          rw [dictOf_zip _ (fun _ => rfl) (headingOf_nodup h1 h2)]
          apply List.mem_of_getElem? (i := c)
          have hz : (first.zip row)[c]? = some (.str t, v) := List.getElem?_zip_eq_some.2 ⟨e1, e3⟩
          have hf : (Atom.str t).falsy = false := by
            cases t with
            | nil => exact absurd rfl e2
            | cons a x => simp [Atom.falsy, Atom.blank, Val.pyEq, Val.canon, Atom.canon, canonNum]
          rw [List.getElem?_map, hz]
          simp [Verif.headingOf, Py.str, hf]
        intro r line c own a hline hcell hb
        simp only [List.getElem?_cons_zero, Option.getD_some, List.drop_one, List.tail_cons] at hline
        rw [hall, List.getElem?_map, Option.map_eq_some_iff] at hline
        obtain ⟨row, hr, rfl⟩ := hline
        obtain ⟨k1, hd, k2, k3⟩ := xlsxLine_get h1 h2 hcell hb
        refine ⟨by rw [List.getElem?_cons_succ, hr]; exact k1, hd, by simpa using k2, k3, ?_⟩
        simp only [Spec.headingOf, List.getElem?_cons_zero, Option.getD_some, List.getElem?_map, k2, Option.map_some, Verif.headingOf, Py.str]

theorem dictReaderRow_get {header row : List Str} (hn : header.Nodup) {c : Nat} {f : Str} (hf : header[c]? = some f) :
    (Dict.get (dictReaderRow header row) f).getD Atom.none = ((row[c]?).map Atom.str).getD Atom.none := by
  have hkeys : (Dict.keys ((header.zip row).map (fun p => (p.1, Atom.str p.2)))).Nodup := by
    have : Dict.keys ((header.zip row).map (fun p => (p.1, Atom.str p.2))) = header.take row.length := by
      clear hn hf
      induction header generalizing row with
      | nil => simp [Dict.keys]
      | cons a r ih =>
        cases row with
        | nil => simp [Dict.keys]
        | cons b s =>
          have := ih (row := s)
          simp only [Dict.keys] at this
          simp only [Dict.keys, List.zip_cons_cons, List.map_cons, List.length_cons, List.take_succ_cons, this]
    rw [this]
    exact (List.take_sublist _ _).nodup hn
  unfold dictReaderRow
  rw [Dict.get_update]
  by_cases hc : c < row.length
  · have hno : Dict.get ((header.drop row.length).map (fun f => (f, Atom.none))).reverse f = none := by
      rw [Dict.get_none_iff]
      simp only [Dict.keys, List.map_reverse, List.map_map, List.mem_reverse, List.mem_map, Function.comp]
      rintro ⟨g, hg, e⟩
      subst e
      obtain ⟨k, hk⟩ := List.mem_iff_getElem?.1 hg
      rw [List.getElem?_drop] at hk
      have hlt : c < header.length := (List.getElem?_eq_some_iff.1 hf).1
      have := (List.getElem?_inj hlt hn).1 (hf.trans hk.symm)
      omega
    rw [hno]
    rw [dictOf_nodup _ hkeys]
    have hz : (header.zip row)[c]? = some (f, row[c]) := List.getElem?_zip_eq_some.2 ⟨hf, by simp [hc]⟩
    have hm : (f, Atom.str row[c]) ∈ (header.zip row).map (fun p => (p.1, Atom.str p.2)) :=
      List.mem_map.2 ⟨_, List.mem_of_getElem? hz, rfl⟩
    rw [Dict.get_of_mem hkeys hm]
    simp [hc]
  · have hy : Dict.get ((header.drop row.length).map (fun f => (f, Atom.none))).reverse f = some .none := by
      have hk : (Dict.keys ((header.drop row.length).map (fun f => (f, Atom.none))).reverse).Nodup := by
        simp only [Dict.keys, List.map_reverse, List.map_map]
        rw [List.Nodup, List.pairwise_reverse]
        have : (fun f : Str => f) = id := rfl
        simp only [Function.comp_def, this, List.map_id]
        exact ((List.drop_sublist _ _).nodup hn).imp (fun h => Ne.symm h)
      apply Dict.get_of_mem hk
      simp only [List.mem_reverse, List.mem_map]
      refine ⟨f, List.mem_of_getElem? (i := c - row.length) ?_, rfl⟩
      rw [List.getElem?_drop]
      rw [← hf]; congr 1; omega
    rw [hy]
    simp [List.getElem?_eq_none (Nat.le_of_not_lt hc)]

theorem csv_asIs {name : Str} {rows : List (List Str)} {s : SheetIn} (hc : ∀ own, csvConfig rows = .ok own → own = {})
    (hh : ∀ first rest, rows = first :: rest → first.Nodup)
    (hk : ∀ first rest, rows = first :: rest → ∀ row ∈ rest, row ≠ [])
    (h : csvSheet plainReading name rows = .ok s) : s.name = name ∧ ReadAsIs (rows.map (·.map Atom.str)) s := by
  unfold csvSheet at h
  split at h
  · cases h
  · next own ho =>
    have hp : csvHeadings plainReading own rows = (rows[0]?).getD [] := by
      unfold csvHeadings; rw [config_plain (hc own ho)]; rfl
    simp only [hp] at h
    split at h
    · injection h with h; subst h
      exact ⟨rfl, by intro r line c own a hl; simp at hl⟩
    · split at h
      · cases h
      · next lines hl =>
        injection h with h; subst h
        refine ⟨rfl, ?_⟩
        unfold csvLines at hl
        rw [config_plain (hc own ho)] at hl
        cases hrows : rows with
        | nil => rw [hrows] at hl; simp at hl
        | cons first rest =>
          have h1 := hh first rest hrows
          have h2 := hk first rest hrows
          rw [hrows] at hl
          have hs : SheetConfig.skip {} = 0 := rfl
          have hd : SheetConfig.hdrs {} = 1 := rfl
          simp only [hs, hd, Nat.add_zero, List.drop_zero, Nat.sub_self, Nat.not_lt_zero, if_false, Except.ok.injEq] at hl
          have hf : rest.filter (· ≠ []) = rest := by
            rw [List.filter_eq_self]; intro row hr; simpa using h2 row hr
          rw [hf] at hl
          subst hl
          intro r line c own a hline hcell hb
          simp only [List.getElem?_map, Option.map_eq_some_iff] at hline
          obtain ⟨row, hr, rfl⟩ := hline
          have hkeys : (Dict.keys (first.map (fun f => (some f, (Dict.get (dictReaderRow first row) f).getD Atom.none)))).Nodup := by
            simp only [Dict.keys, List.map_map, Function.comp_def]
            exact nodup_map_on h1 (fun a _ b _ e => by simpa using e)
          rw [dictOf_nodup _ hkeys, List.getElem?_map, Option.map_eq_some_iff] at hcell
          obtain ⟨f, hfc, e⟩ := hcell
          simp only [Prod.mk.injEq] at e
          obtain ⟨rfl, rfl⟩ := e
          rw [dictReaderRow_get h1 hfc] at hb ⊢
          cases hrc : row[c]? with
          | none => rw [hrc] at hb; simp [Atom.blank] at hb
          | some v =>
            simp only [List.map_cons, List.getElem?_cons_succ, List.getElem?_map, hr, Option.map_some, Option.bind_some, hrc, Option.getD_some,
              List.getElem?_cons_zero, hfc, true_and]
            exact ⟨f, rfl, rfl, by simp [Spec.headingOf, hfc]⟩

theorem sheet_asIs {i : Input} {name : Str} {s : SheetIn} (hp : PlainSheet i name) (h : i.sheet plainReading name = .ok s) :
    s.name = name ∧ ReadAsIs (fileRows i name) s := by
  have hc := fun own => config_none (own := own) hp.noConfig
  cases i with
  | csv files =>
    refine csv_asIs hc ?_ ?_ h
    · intro first rest e
      have := (hp.headings (first.map Atom.str) (rest.map (·.map Atom.str)) (by simp [fileRows, e])).1
      exact List.Pairwise.of_map _ (by intro a b hab e; exact hab (by rw [e])) this
    · intro first rest e row hr h0
      have := hp.kept (first.map Atom.str) (rest.map (·.map Atom.str)) (by simp [fileRows, e]) _ (List.mem_map_of_mem hr)
      exact this (by simp [h0])
  | xlsx sheets => exact xlsx_asIs hc hp.headings h
  | ods sheets => exact ods_asIs hc hp.headings hp.kept h

theorem mapE_mem {α β : Type} {f : α → Except Err β} : ∀ {l : List α} {m : List β}, Api.mapE f l = .ok m → ∀ b ∈ m, ∃ a ∈ l, f a = .ok b
  | [], m, h, b, hb => by simp only [Api.mapE, Except.ok.injEq] at h; subst h; cases hb
  | a :: r, m, h, b, hb => by
    simp only [Api.mapE] at h
    split at h
    · cases h
    · next b' h1 =>
      split at h
      · cases h
      · next bs h2 =>
        injection h with h; subst h
        rcases List.mem_cons.1 hb with rfl | hb
        · exact ⟨a, by simp, h1⟩
        · obtain ⟨a', ha', e⟩ := mapE_mem h2 b hb; exact ⟨a', by simp [ha'], e⟩

/-- The key of the root list in the document (none if the document is that list), without configuration. -/
def rootKeyOf (o : UnOpts) : Option Str := if o.rootIsList then none else some (o.rootListPath.getD s%"main")

/-- C54.  For a file whose sheets are read just as they stand (and no metatab, no default configuration, titles or vertical sheets): every location in the
cell source map is a cell of the file: in the given sheet, row and column the file has a content that converts, by the type that the schema gives (if there
is one), to a value equal to the one found in the written document at the path of the entry; and the first row of the file has in that column the heading
that the location gives. -/
theorem C54_locations_in_the_file (o : UnOpts) (env : Env) (out : UnOut) (doc : Json) (hM : o.metatabName.getD [] = [])
    (hfull : o.metatabOnly = false) (hx : o.xml = false) (hcfg : o.defaultConfig = []) (ht : o.convertTitles = false) (hv : o.vertical = false)
    (hroot : o.rootIsList = true ∨ ∃ b, BaseFields o env b) (hcm : o.cellSourceMap = true)
    (hplain : ∀ name, PlainSheet env.input name)
    (hparts : ∀ name first rest, fileRows env.input name = first :: rest → ∀ h, .str h ∈ first → [] ∉ (pathList h).tail)
    (h : runUnflatten o env = .ok out) (hdoc : out.document = .json doc) :
    ∃ schema, parseOpt { rollup := true, rootId := o.rootId.getD [], trunc := o.trunc, wkt := o.wkt } o.schema = .ok schema ∧
    ∀ key locs, (key, locs) ∈ cellEntries out.cellMap → ∃ path value,
      key = stepsText (rootSteps (rootKeyOf o) ++ path) ∧ valueAt doc (rootSteps (rootKeyOf o) ++ path) = some value.toJson ∧
      ∀ loc ∈ locs, ∃ content v w,
        fileCell env.input loc.sheet loc.row loc.col = some content ∧
        fileCell env.input loc.sheet 1 loc.col = some (.str loc.heading) ∧
        convertType { wkt := o.wkt, geoLib := env.geoLib, wktLoads := env.wktLoads }
          ((schema.bind (·.types (keysText path))).getD .untyped) content = .ok (v, w) ∧
        EqualVal v value := by
  rw [run_full (by simp [hfull])] at h
  obtain ⟨_, _, s, m, doc', d, h3, h4, h5, h6, rfl⟩ := h
  rw [stage1_plain (Or.inl (given_none.2 hM))] at h3
  injection h3 with h3; subst h3
  rw [render_json hx] at h6
  injection h6 with h6; subst h6
  simp only [Document.json.injEq] at hdoc
  subst hdoc
  obtain ⟨schema, hs, hp⟩ := mainPass_inv h4
  obtain ⟨s1, s2, cm, hm, p1, p2, p3, p4, p5, _⟩ := pass_inv hp
  simp only [hcfg] at p1
  have hdc : defaultConfiguration [] = {} := rfl
  rw [hdc, hv] at p1
  have p1 : env.input.read plainReading [] [o.metatabName] = .ok s1 := p1
  rw [ht] at p2
  simp only [withTitles, Bool.not_false, Bool.true_or, if_true, Except.ok.injEq] at p2
  subst p2
  refine ⟨schema, hs, ?_⟩
  rw [hcm] at p3
  obtain ⟨cm', rfl⟩ : ∃ c, cm = some c := by
    obtain ⟨tree, ht', hr⟩ := fancy_inv p3
    obtain ⟨_, _, _, _, hh⟩ := fancy_ok ht' (if o.rootIsList = true then none else some (rootPathOf o (defaultConfiguration o.defaultConfig)))
    rw [hh] at p3
    simp only [Bool.not_true, Bool.false_and, Bool.false_eq_true, if_false, if_true, Except.ok.injEq, Prod.mk.injEq] at p3
    exact ⟨_, p3.2.1.symm⟩
  have hread : ∀ sh ∈ s1, ReadAsIs (fileRows env.input sh.name) sh := by
    intro sh hsh
    obtain ⟨name, _, e⟩ := mapE_mem p1 sh hsh
    obtain ⟨e1, e2⟩ := sheet_asIs (hplain name) e
    rw [e1]; exact e2
  have h14 := C14_locations (by exact hx) (by
    intro sh hsh line hl c hc hb
    obtain ⟨r, hr⟩ := List.mem_iff_getElem?.1 hl
    obtain ⟨k, hk⟩ := List.mem_iff_getElem?.1 hc
    obtain ⟨_, hd, e1, e2, _⟩ := hread sh hsh r line k c.1 c.2 hr hk hb
    rw [e2]
    simp only [Option.bind_eq_some_iff] at e1
    obtain ⟨first, e3, e4⟩ := e1
    cases hrows : fileRows env.input sh.name with
    | nil => rw [hrows] at e3; simp at e3
    | cons f rest =>
      rw [hrows] at e3
      simp only [List.getElem?_cons_zero, Option.some.injEq] at e3
      subst e3
      exact hparts _ _ _ hrows hd (List.mem_of_getElem? e4)) p3
  have hmap : Dict.update [] m.cells = cm' := by
    obtain ⟨rs, _, _, c, _⟩ := maps_records p3
    have : Dict.update [] m.cells = m.cells := by
      refine dictOf_nodup _ ?_
      rw [p4]; exact (c rfl).once
    rw [this, p4]; rfl
  simp only
  rw [hmap]
  intro key locs hk
  obtain ⟨path, value, e1, e2, e3⟩ := h14 key locs hk
  have hrk : (if o.rootIsList = true then none else some (rootPathOf o (defaultConfiguration o.defaultConfig))) = rootKeyOf o := by
    unfold rootKeyOf rootPathOf; rw [hcfg]; rfl
  rw [hrk] at e1
  refine ⟨path, value, e1, ?_, ?_⟩
  · rw [← hrk]
    cases hl : o.rootIsList with
    | true =>
      rw [addResult_list hl] at h5
      injection h5 with h5; subst h5
      simpa [rootSteps] using e2
    | false =>
      rcases hroot with hr | ⟨b, hb⟩
      · rw [hr] at hl; cases hl
      · simp only at h5
        rw [baseDocument_fields hl hb, addResult_obj hl] at h5
        injection h5 with h5; subst h5
        simp only [Bool.false_eq_true, if_false, rootSteps, List.singleton_append, valueAt, Dict.get_set_same]
        exact e2
  · intro loc hloc
    obtain ⟨own, content, v, w', ⟨sh, hsh, _, hname, line, hrow, hline, hcol, hcell, hhead⟩, hb, hconv, heq⟩ := e3 loc hloc
    obtain ⟨f1, hd, f2, f3, f4⟩ := hread sh hsh _ line _ own content hline hcell hb
    refine ⟨content, v, w', ?_, ?_, by cases schema <;> exact hconv, heq⟩
    · unfold fileCell
      rw [if_neg (by omega), ← hname]
      rw [show loc.row - 1 = loc.row - 2 + 1 by omega]
      exact f1
    · unfold fileCell
      rw [if_neg (by omega), ← hname, ← hhead, f4]
      exact f2

namespace FileEx

/-- A workbook with two sheets, and the same as CSV files. -/
def xlsx : Input := .xlsx
  [(s%"sale", ⟨3, [[.str s%"id", .str s%"line/0/id", .none], [.str s%"S1", .int 1, .none], [.str s%"S1", .int 2, .str s%"note"]]⟩),
   (s%"more", ⟨2, [[.str s%"id", .str s%"title"], [.str s%"S1", .str s%"Sale"]]⟩)]

def opts : UnOpts := { inputFormat := some s%"xlsx", cellSourceMap := true }

theorem xlsx_plain : ∀ name, PlainSheet xlsx name := by
  intro name
  by_cases h1 : name = s%"sale"
  · subst h1
    refine ⟨?_, ?_, ?_⟩
    · intro g hg; simp [xlsx] at hg; subst hg; decide +kernel
    · intro first rest h
      have : fileRows xlsx s%"sale" = [[.str s%"id", .str s%"line/0/id", .none], [.str s%"S1", .int 1, .none], [.str s%"S1", .int 2, .str s%"note"]] := by
        decide +kernel
      rw [this] at h
      injection h with h _
      subst h
      exact ⟨by decide +kernel, by simp⟩
    · intro _ _ _ _ _; exact trivial
  · by_cases h2 : name = s%"more"
    · subst h2
      refine ⟨?_, ?_, ?_⟩
      · intro g hg; simp [xlsx] at hg; subst hg; decide +kernel
      · intro first rest h
        have : fileRows xlsx s%"more" = [[.str s%"id", .str s%"title"], [.str s%"S1", .str s%"Sale"]] := by decide +kernel
        rw [this] at h
        injection h with h _
        subst h
        exact ⟨by decide +kernel, by simp⟩
      · intro _ _ _ _ _; exact trivial
    · have he : fileRows xlsx name = [] := by
        simp [fileRows, xlsx, Dict.get, List.find?_cons, Ne.symm h1, Ne.symm h2]
      refine ⟨?_, by simp [he], by simp [he]⟩
      intro g hg
      simp [xlsx, h1, h2] at hg

example : (runUnflatten opts { input := xlsx }).map (fun o => cellEntries o.cellMap) = .ok
    [(s%"main/0/id", [⟨s%"sale", 1, 2, s%"id"⟩, ⟨s%"sale", 1, 3, s%"id"⟩, ⟨s%"more", 1, 2, s%"id"⟩]),
     (s%"main/0/line/0/id", [⟨s%"sale", 2, 2, s%"line/0/id"⟩]), (s%"main/0/line/1/id", [⟨s%"sale", 2, 3, s%"line/0/id"⟩]),
     (s%"main/0/title", [⟨s%"more", 2, 2, s%"title"⟩])] := by decide +kernel

/-- Findings: with a configuration line, or with an empty CSV line, the rows reported are not those of the file: the value is in row 3. -/
example : (runUnflatten { opts with inputFormat := some s%"csv", rootIsList := true }
    { input := .csv [(s%"a.csv", [[s%"x"], [], [s%"1"]])] }).map (fun o => cellEntries o.cellMap) =
    .ok [(s%"0/x", [⟨s%"a", 1, 2, s%"x"⟩])] := by decide +kernel
example : (runUnflatten { opts with inputFormat := some s%"csv", rootIsList := true }
    { input := .csv [(s%"a.csv", [[s%"#", s%"headerRows 1"], [s%"x"], [s%"1"]])] }).map (fun o => cellEntries o.cellMap) =
    .ok [(s%"0/x", [⟨s%"a", 1, 2, s%"x"⟩])] := by decide +kernel

end FileEx

end Verif

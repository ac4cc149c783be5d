import Verif.Spec.Files
import Verif.Props.FileCells
import Verif.Props.DefaultConfig
import Verif.Props.ApiTrip
/-! Reading sheets from files. -/
namespace Verif
open Spec Api

theorem zip_some_nodup {header : List Str} (hn : header.Nodup) (r : List Atom) : (Dict.keys ((header.map some).zip r)).Nodup := by
  have h1 : Dict.keys ((header.map some).zip r) = (header.map some).take r.length := by
    simp only [Dict.keys]
    generalize header.map some = l
    induction l generalizing r with
    | nil => simp
    | cons a l ih =>
      cases r with
      | nil => simp
      | cons b s => simp only [List.zip_cons_cons, List.map_cons, List.length_cons, List.take_succ_cons, ih]
  rw [h1]
  exact List.Sublist.nodup (List.take_sublist _ _) (hn.map _ (by intro a b hab he; exact hab (Option.some.inj he)))

theorem str_truthy {s : Str} (h : s ≠ []) : (Atom.str s).falsy = false := by
  cases s with
  | nil => exact absurd rfl h
  | cons a b => simp [Atom.falsy, Atom.blank, Val.pyEq, Val.canon, Atom.canon, canonNum]

theorem xlsxLine_zip {header : List Str} (hn : header.Nodup) (hne : [] ∉ header) (r : List Atom) :
    xlsxLine {} (header.map .str) r = (header.map some).zip r := by
  have h1 : ((header.map Atom.str).zip r).map (fun (h, v) => (Verif.headingOf h, if h.falsy then Atom.none else match h with
      | .str s => if ({} : SheetConfig).hashcomments && Py.startsWith s%"#" s then Atom.none else v | _ => v)) = (header.map some).zip r := by
    clear hn
    induction header generalizing r with
    | nil => simp
    | cons a l ih =>
      cases r with
      | nil => simp
      | cons b s =>
        simp only [List.map_cons, List.zip_cons_cons, List.cons.injEq]
        refine ⟨?_, ih (by simp_all) s⟩
        rw [str_truthy (fun e => hne (by simp [e]))]
        rfl
  exact (congrArg dictOf h1).trans (dictOf_nodup _ (zip_some_nodup hn r))

theorem csvLine_zip {header : List Str} (hn : header.Nodup) {r : List Str} (hl : r.length = header.length) :
    dictOf (header.map (fun f => (some f, (Dict.get (dictReaderRow header r) f).getD Atom.none))) = (header.map some).zip (r.map .str) := by
  have h1 : header.map (fun f => (some f, (Dict.get (dictReaderRow header r) f).getD Atom.none)) = (header.map some).zip (r.map .str) := by
    apply List.ext_getElem?
    intro c
    rw [List.getElem?_map]
    cases hf : header[c]? with
    | none =>
      rw [Option.map_none]
      symm
      rw [List.getElem?_eq_none_iff] at hf ⊢
      simp; omega
    | some f =>
      rw [Option.map_some, dictReaderRow_get hn hf]
      have hlt : c < r.length := by rw [hl]; exact (List.getElem?_eq_some_iff.1 hf).1
      symm
      rw [List.getElem?_zip_eq_some]
      simp [hf, hlt]
  rw [h1]
  exact dictOf_nodup _ (zip_some_nodup hn _)

theorem headings_map (l : List Str) : (l.map Atom.str).map Verif.headingOf = l.map some := by
  simp [List.map_map, Function.comp_def, Verif.headingOf, Py.str]

theorem xlsxLine_plain {c : SheetConfig} (h : c.hashcomments = false) (header row : List Atom) : xlsxLine c header row = xlsxLine {} header row := by
  unfold xlsxLine
  rw [h]

theorem xlsx_plain {base : SheetConfig} {t : DataSheet} (h : t.Proper) {g : Grid} (hg : ShownIn base t g.rows) : xlsxSheet { base := base } t.name g = .ok t.lines := by
  obtain ⟨L, e1, e2, e3, e4, e5⟩ := hg
  obtain ⟨w, rows⟩ := g
  simp only at e1
  subst e1
  rw [xlsx_layout { base := base } t.name w L e4 rfl (by rw [e5]; intro he; cases he), e2, e3]
  simp only [headings_map, DataSheet.lines]
  congr 2
  apply List.map_congr_left
  intro r _
  rw [xlsxLine_plain e5]
  exact xlsxLine_zip h.distinct h.named r

theorem ods_plain {base : SheetConfig} {t : DataSheet} (h : t.Proper) {rows : List (List Atom)} (hg : ShownIn base t rows) (hv : ∀ r ∈ t.rows, ∃ a ∈ r, a ≠ .none) :
    odsSheet { base := base } t.name rows = .ok t.lines := by
  obtain ⟨L, rfl, e2, e3, e4, e5⟩ := hg
  have hne : L.header ≠ [] := by rw [e2]; simpa using h.columns
  rw [ods_layout { base := base } t.name L e4 rfl (by rw [e5]; intro he; cases he) hne, e2, e3]
  simp only [headings_map, DataSheet.lines]
  have e : List.map (xlsxLine (L.config { base := base }) (t.header.map Atom.str)) t.rows =
      t.rows.map (fun r => (t.header.map some).zip r) := List.map_congr_left (fun r _ => by rw [xlsxLine_plain e5]; exact xlsxLine_zip h.distinct h.named r)
  rw [e]
  congr 2
  rw [List.filter_eq_self]
  intro l hl
  obtain ⟨r, hr, rfl⟩ := List.mem_map.1 hl
  obtain ⟨a, ha, hn⟩ := hv r hr
  obtain ⟨c, hc, rfl⟩ := List.mem_iff_getElem.1 ha
  have hlt : c < t.header.length := by rw [← h.full r hr]; exact hc
  simp only [Bool.not_eq_true', List.all_eq_false]
  refine ⟨(some t.header[c], r[c]), List.mem_iff_getElem?.2 ⟨c, ?_⟩, by simpa using hn⟩
  rw [List.getElem?_zip_eq_some]
  simp [hc, hlt]

theorem csv_plain {base : SheetConfig} {t : DataSheet} (h : t.Proper) {rows : List (List Str)} (hg : ShownInText base t rows) :
    csvSheet { base := base } t.name rows = .ok t.lines := by
  obtain ⟨L, rfl, e2, e3, e4⟩ := hg
  rw [csv_layout { base := base } t.name L e4 (by rw [e2]; exact h.columns), e2]
  have hl : ∀ r ∈ L.data, r.length = t.header.length := by
    intro r hr
    simpa using h.full (r.map .str) (by rw [← e3]; exact List.mem_map_of_mem hr)
  have hf : L.data.filter (· ≠ []) = L.data := by
    rw [List.filter_eq_self]
    intro r hr
    have := hl r hr
    have h2 := h.columns
    cases r with
    | nil => simp only [List.length_nil] at this; exact absurd (List.length_eq_zero_iff.1 this.symm) h2
    | cons => simp
  simp only [DataSheet.lines, hf, ← e3, List.map_map]
  congr 2
  apply List.map_congr_left
  intro r hr
  exact csvLine_zip h.distinct (hl r hr)

theorem names_sorted_unique {l m : List Str} (hl : l.Pairwise NameLt) (hm : m.Pairwise NameLt) (h : ∀ n, n ∈ l ↔ n ∈ m) : l = m := by
  apply List.Perm.eq_of_pairwise (le := NameLt) _ hl hm (perm_of_nodup (sorted_nodup hl) (sorted_nodup hm) h)
  intro a b _ _ h1 h2
  exact absurd (nameLt_trans h1 h2) (nameLt_irrefl a)

theorem all₂_partner {α β : Type} {R : α → β → Prop} {l : List α} {m : List β} (h : All₂ R l m) {a : α} (ha : a ∈ l) : ∃ b ∈ m, R a b := by
  induction h with
  | nil => cases ha
  | @cons x y _ _ hxy _ ih =>
    rcases List.mem_cons.1 ha with rfl | ha
    · exact ⟨y, by simp, hxy⟩
    · obtain ⟨b, hb, hr⟩ := ih ha
      exact ⟨b, by simp [hb], hr⟩

/-- The sheets are read just as they stand. -/
theorem read_tables {base : SheetConfig} {ts : List DataSheet} {i : Input} (hi : InFile base ts i) (hp : ∀ t ∈ ts, t.Proper) :
    i.read { base := base } [] [none] = .ok (ts.map (·.lines)) := by
  unfold Input.read
  have key : i.select [] [none] = ts.map (·.name) → (∀ t ∈ ts, i.sheet { base := base } t.name = .ok t.lines) →
      mapE (i.sheet { base := base }) (i.select [] [none]) = .ok (ts.map (·.lines)) := by
    intro h1 h2
    rw [h1]
    clear h1 hi hp
    induction ts with
    | nil => rfl
    | cons t r ih =>
      simp only [List.map_cons, mapE]
      rw [h2 t (by simp), ih (fun x hx => h2 x (by simp [hx]))]
  have names : ∀ {α : Type} {R : DataSheet → α → Prop} {sheets : List (Str × α)}, All₂ (fun t s => s.1 = t.name ∧ R t s.2) ts sheets → sheets.map (·.1) = ts.map (·.name) := by
    intro α R sheets h
    clear hi hp key
    induction h with
    | nil => rfl
    | cons h _ ih => simp [h.1, ih]
  have find : ∀ {α : Type} {R : DataSheet → α → Prop} {sheets : List (Str × α)}, All₂ (fun t s => s.1 = t.name ∧ R t s.2) ts sheets → (ts.map (·.name)).Nodup →
      ∀ t ∈ ts, ∃ x, Dict.get sheets t.name = some x ∧ R t x := by
    intro α R sheets h hn t ht
    obtain ⟨⟨n, x⟩, hm, h1, h2⟩ := all₂_partner h ht
    simp only at h1
    subst h1
    exact ⟨x, Dict.get_of_mem (by rw [Dict.keys, names h]; exact hn) hm, h2⟩
  cases hi with
  | @csv files hd hs hpr ho =>
    apply key
    · obtain ⟨a1, a2⟩ := C41_csv_selection (files.map (·.1)) [] [none] hd
      refine names_sorted_unique a1 hs ?_
      intro n
      show n ∈ selectCsv _ _ _ ↔ _
      rw [a2]
      simp only [List.mem_map, true_or, List.mem_cons, List.not_mem_nil, or_false, reduceCtorEq, not_false_eq_true, and_true, Prod.exists, exists_and_right, exists_eq_right]
      constructor
      · rintro ⟨grid, hg⟩; exact ho n grid hg
      · rintro ⟨t, ht, rfl⟩
        obtain ⟨grid, h1, -⟩ := hpr t ht
        exact ⟨_, h1⟩
    · intro t ht
      obtain ⟨grid, h1, h2⟩ := hpr t ht
      show csvSheet _ t.name ((Dict.get files (t.name ++ s%".csv")).getD []) = _
      rw [Dict.get_of_mem hd h1]
      exact csv_plain (hp t ht) h2
  | xlsx hd hsh =>
    apply key
    · simp [Input.select, selectSheets, excludeAll, names (R := fun t (g : Grid) => ShownIn base t g.rows) hsh]
    · intro t ht
      obtain ⟨g, h1, h2⟩ := find (R := fun t (g : Grid) => ShownIn base t g.rows) hsh hd t ht
      show xlsxSheet _ t.name ((Dict.get _ t.name).getD _) = _
      rw [h1]
      exact xlsx_plain (hp t ht) h2
  | ods hd hsh hv =>
    apply key
    · simp [Input.select, selectSheets, excludeAll, names hsh]
    · intro t ht
      obtain ⟨g, h1, h2⟩ := find (R := fun t g => ShownIn base t g) hsh hd t ht
      show odsSheet _ t.name ((Dict.get _ t.name).getD _) = _
      rw [h1]
      exact ods_plain (hp t ht) h2 (hv t ht)

theorem lines_letters {t : DataSheet} (h : t.Proper) : lettersFail false t.lines = false := by
  apply lettersFail_false
  · intro hs he
    simp only [DataSheet.lines, Option.some.injEq] at he
    subst he
    simpa using h.letters
  · intro _ l hl _
    obtain ⟨r, hr, rfl⟩ := List.mem_map.1 hl
    have := h.letters
    simp only [List.length_zip, List.length_map]
    omega

theorem defaults_eq (u : UnOpts) : defaultConfiguration u.defaultConfig = defaults u := parseConfig_strip _

/-- `unflatten` on a file: what it writes are the objects of the sheets, and the warnings about them. -/
theorem run_tables {u : UnOpts} {uenv : Env} {usp : Option Parsed} {ts : List DataSheet} {b : List (Str × Json)} (hu : PlainUse u)
    (hus : parseOpt { rollup := true, rootId := u.rootId.getD [], trunc := u.trunc, wkt := u.wkt } u.schema = .ok usp)
    (hi : u.inputFormat = some uenv.input.format) (ht : InFile (defaults u) ts uenv.input) (hp : ∀ t ∈ ts, t.Proper) (hb : u.rootIsList = true ∨ BaseFields u uenv b)
    {items : List Json} {w : List Warn} (hun : unflatten (settings u uenv usp) (ts.map (·.lines)) = .ok (items, w)) :
    ∃ out, runUnflatten u uenv = .ok out ∧ out.document = .json (documentWith u b items) ∧ out.warns = w ∧ out.schemaWarns = schemaWarnsOf usp := by
  have hread := read_tables ht hp
  have hdc := defaults_eq u
  have hcfg : stage1 u uenv = .ok { base := baseDocument u uenv, config := defaults u } := by
    rw [stage1_plain (.inl (by rw [hu.metatab]; rfl)), hdc]
  obtain ⟨tree, hd, rfl⟩ : ∃ tree, doUnflatten (settings u uenv usp) (ts.map (·.lines)) = .ok (tree, w) ∧ items = listToValue tree := by
    unfold unflatten at hun
    split at hun
    · cases hun
    · next t w' hd =>
      simp only [Except.ok.injEq, Prod.mk.injEq] at hun
      exact ⟨t, by rw [hd, hun.2], hun.1.symm⟩
  obtain ⟨p, hp1, hp2, hp3, hp4⟩ := pass_ok (o := u) (env := uenv) (schema := usp) (rc := { base := defaults u })
    (root := if u.rootIsList then none else some (rootPathOf u (defaults u))) hread (s2 := ts.map (·.lines)) (by rw [hu.titles]; rfl) hd (by
      rw [List.any_eq_false]
      intro s hs
      obtain ⟨t, ht, rfl⟩ := List.mem_map.1 hs
      rw [lines_letters (hp t ht)]
      simp)
  have hmp : mainPass u uenv (defaults u) (rootPathOf u (defaults u)) (idNameOf u (defaults u)) = .ok p := by
    unfold mainPass
    rw [hus]
    simp only
    rw [← hp1, hu.metatab, hu.horizontal]
    rfl
  have hchk : unflattenChecks u.inputFormat u.metatabName u.baseJson = .ok () := by
    rw [hi, hu.metatab]
    cases uenv.input <;> rfl
  have hrp : rootPathOf u (defaults u) = u.rootListPath.getD ((defaults u).rootListPath.getD s%"main") := rfl
  cases hl : u.rootIsList with
  | true =>
    refine ⟨_, (run_full (by simp [hu.metaOnly])).2 ⟨hchk, hi, _, p, .arr p.result, .json (.arr p.result), hcfg, hmp, addResult_list hl, render_json hu.json, rfl⟩, ?_, ?_, ?_⟩
    · simp [documentWith, hl, hp2]
    · simp [hp3]
    · simp [hp4]
  | false =>
    have hb' := baseDocument_fields hl (hb.resolve_left (by simp [hl]))
    refine ⟨_, (run_full (by simp [hu.metaOnly])).2 ⟨hchk, hi, _, p, _, .json _, hcfg, hmp, (by rw [hb']; exact addResult_obj hl), render_json hu.json, rfl⟩, ?_, ?_, ?_⟩
    · simp [documentWith, hl, hp2, hrp]
    · simp [hp3]
    · simp [hp4]

end Verif

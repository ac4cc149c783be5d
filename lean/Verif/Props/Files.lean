import Verif.Proofs.Files
import Verif.Proofs.SaidDoc
import Verif.Props.Describes
import Verif.Props.ReadLines
/-! C85: spreadsheets in files. -/
namespace Verif
open Spec Api

/-- C85: `unflatten` on a file (or directory) with sheets writes exactly what the rows of the sheets, each cell taken with its heading, give with the settings of the
options; with the warnings about them. -/
theorem C85_file (u : UnOpts) (env : Env) (schema : Option Parsed) (ts : List DataSheet) (base : List (Str × Json)) (hu : PlainUse u)
    (hs : parseOpt { rollup := true, rootId := u.rootId.getD [], trunc := u.trunc, wkt := u.wkt } u.schema = .ok schema)
    (hf : u.inputFormat = some env.input.format) (ht : InFile (defaults u) ts env.input) (hp : ∀ t ∈ ts, t.Proper) (hb : u.rootIsList = true ∨ BaseFields u env base) :
    (∀ out, runUnflatten u env = .ok out → ∃ items, unflatten (settings u env schema) (ts.map (·.lines)) = .ok (items, out.warns) ∧
      out.document = .json (documentWith u base items)) ∧
    ∀ items w, unflatten (settings u env schema) (ts.map (·.lines)) = .ok (items, w) →
      ∃ out, runUnflatten u env = .ok out ∧ out.document = .json (documentWith u base items) ∧ out.warns = w := by
  have h2 : ∀ items w, unflatten (settings u env schema) (ts.map (·.lines)) = .ok (items, w) →
      ∃ out, runUnflatten u env = .ok out ∧ out.document = .json (documentWith u base items) ∧ out.warns = w := by
    intro items w h
    obtain ⟨out, a1, a2, a3, -⟩ := run_tables hu hs hf ht hp hb h
    exact ⟨out, a1, a2, a3⟩
  refine ⟨?_, h2⟩
  intro out hout
  have hok : ∃ items w, unflatten (settings u env schema) (ts.map (·.lines)) = .ok (items, w) := by
    obtain ⟨-, -, s, m, -, -, h3, h4, -, -, -⟩ := (run_full (by simp [hu.metaOnly])).1 hout
    rw [stage1_plain (.inl (by rw [hu.metatab]; rfl)), defaults_eq] at h3
    cases h3
    obtain ⟨sch, p1, p2⟩ := mainPass_inv h4
    rw [hs] at p1
    cases p1
    obtain ⟨s1, s2, cm, hm, q1, q2, q3, -⟩ := pass_inv p2
    rw [hu.metatab, hu.horizontal] at q1
    have q1' := q1.symm.trans (read_tables ht hp)
    cases q1'
    rw [hu.titles] at q2
    simp only [withTitles, Bool.not_false, Bool.true_or, if_true, Except.ok.injEq] at q2
    subst q2
    unfold fancyUnflatten at q3
    unfold unflatten
    split at q3
    · cases q3
    · next tree w hd =>
      have hd' : doUnflatten (settings u env schema) (ts.map (·.lines)) = .ok (tree, w) := hd
      rw [hd']
      exact ⟨_, _, rfl⟩
  obtain ⟨items, w, h⟩ := hok
  obtain ⟨out', a1, a2, a3⟩ := h2 items w h
  rw [hout] at a1
  cases a1
  exact ⟨items, by rw [h, a3], a2⟩

/-- C85: the format of the file makes no difference: the same sheets in a directory of CSV files, in an XLSX file or in an ODS file are unflattened to the same document,
with the same warnings and source maps (or fail with the same error); also to XML. -/
theorem C85_formats (u : UnOpts) (env : Env) (ts : List DataSheet) (i j : Input) (hm : u.metatabName = none) (hv : u.vertical = false)
    (hp : ∀ t ∈ ts, t.Proper) (hi : InFile (defaults u) ts i) (hj : InFile (defaults u) ts j) :
    runUnflatten { u with inputFormat := some i.format } { env with input := i } = runUnflatten { u with inputFormat := some j.format } { env with input := j } := by
  have hchk : ∀ k : Input, unflattenChecks (some k.format) u.metatabName u.baseJson = .ok () := by
    intro k
    rw [hm]
    cases k <;> rfl
  have hst : ∀ k : Input, stage1 { u with inputFormat := some k.format } { env with input := k } = .ok { base := baseDocument u env, config := defaults u } := by
    intro k
    rw [stage1_plain (.inl (by simp only; rw [hm]; rfl))]
    simp only [defaults_eq]
    rfl
  have hmp : ∀ k : Input, InFile (defaults u) ts k → mainPass { u with inputFormat := some k.format } { env with input := k } (defaults u) (rootPathOf u (defaults u)) (idNameOf u (defaults u)) =
      (match parseOpt { rollup := true, rootId := u.rootId.getD [], trunc := u.trunc, wkt := u.wkt } u.schema with
      | .error e => .error e
      | .ok schema =>
        match withTitles u.convertTitles schema (ts.map (·.lines)) with
        | .error e => .error e
        | .ok sheets =>
          if sheets.any (lettersFail false) then .error .value
          else match fancyUnflatten { row := rowCfg u env schema, idName := some (idNameOf u (defaults u)), rootId := given u.rootId } (if u.rootIsList then none else some (rootPathOf u (defaults u)))
              u.cellSourceMap u.headingSourceMap sheets with
          | .error e => .error e
          | .ok (result, cm, hm, w) => .ok { result, cells := cm.getD [], headings := hm.getD [], warns := w, schemaWarns := schemaWarnsOf schema }) := by
    intro k hk
    unfold mainPass
    cases parseOpt { rollup := true, rootId := u.rootId.getD [], trunc := u.trunc, wkt := u.wkt } u.schema with
    | error e => rfl
    | ok schema =>
      simp only
      unfold pass
      simp only [hm, hv]
      rw [read_tables hk hp]
      rfl
  unfold runUnflatten
  simp only [hchk, hst, ne_eq, not_true_eq_false, if_false]
  have e1 : ∀ k : Input, rootPathOf { u with inputFormat := some k.format } (defaults u) = rootPathOf u (defaults u) := fun _ => rfl
  have e2 : ∀ k : Input, idNameOf { u with inputFormat := some k.format } (defaults u) = idNameOf u (defaults u) := fun _ => rfl
  simp only [e1, e2, hmp i hi, hmp j hj]
  rfl

theorem positions_nodup {hs : List (Option Str)} (hn : hs.Nodup) (h : Str) : (positions h hs).length < 2 := by
  rcases hl : positions h hs with _ | ⟨a, _ | ⟨b, r⟩⟩
  · simp
  · simp
  · exfalso
    have h1 : a ∈ positions h hs := by simp [hl]
    have h2 : b ∈ positions h hs := by simp [hl]
    have hnd : (positions h hs).Nodup := List.Pairwise.filter _ List.nodup_range
    rw [hl] at hnd
    simp only [positions, List.mem_filter, List.mem_range, decide_eq_true_eq] at h1 h2
    have := (List.getElem?_inj h1.1 hn).1 (h1.2.trans h2.2.symm)
    subst this
    simp at hnd

theorem no_duplicates {t : DataSheet} (h : t.Proper) (sheet : Str) : duplicateWarnings sheet ((t.lines.headings).getD []) = [] := by
  unfold duplicateWarnings
  rw [List.filterMap_eq_nil_iff]
  intro x _
  have : (t.header.map some).Nodup := h.distinct.map _ (by intro a b hab he; exact hab (Option.some.inj he))
  have := positions_nodup this x
  have this : (positions x ((t.lines.headings).getD [])).length < 2 := this
  rw [if_neg (by omega)]

/-- C85: a file whose rows describe objects is unflattened to these objects (up to the order of objects, fields and array items): if the rows name everything they speak
about, say all that the objects hold, and nothing else, in whatever rows, sheets and format.  The only warnings are those about cells that do not fit their types. -/
theorem C85_described (u : UnOpts) (env : Env) (schema : Option Parsed) (ts : List DataSheet) (base : List (Str × Json)) (hu : PlainUse u)
    (hs : parseOpt { rollup := true, rootId := u.rootId.getD [], trunc := u.trunc, wkt := u.wkt } u.schema = .ok schema)
    (hf : u.inputFormat = some env.input.format) (ht : InFile (defaults u) ts env.input) (hp : ∀ t ∈ ts, t.Proper) (hb : u.rootIsList = true ∨ BaseFields u env base)
    (hn : ∀ r ∈ rowsIn (ts.map (·.lines)), NamesAll (settings u env schema) (idInForce u) r.line)
    (docs : List (Atom × List (Str × Json))) (hd : Describes (settings u env schema) (idInForce u) (ts.map (·.lines)) docs) :
    ∃ out items, runUnflatten u env = .ok out ∧ out.document = .json (documentWith u base items) ∧ SameJson (.arr (docs.map (fun d => .obj d.2))) (.arr items) ∧
      ∀ y ∈ out.warns, ∃ r ∈ rowsIn (ts.map (·.lines)), ∃ c ∈ columns r.line, ∃ v cw, c.value (settings u env schema).row = .ok (v, cw) ∧ y ∈ cw := by
  obtain ⟨items, w, h1, h2⟩ := C80_describes (settings u env schema) hu.json _ rfl _ hn docs hd
  obtain ⟨out, a1, a2, a3⟩ := (C85_file u env schema ts base hu hs hf ht hp hb).2 items w h1
  refine ⟨out, items, a1, a2, h2, ?_⟩
  rw [a3]
  obtain ⟨gs, w', r1, -, -, -, -, r2⟩ := run_exact hu.json rfl _ hn hd.agree
  have hw : w = w' := by
    unfold unflatten at h1
    rw [r1] at h1
    simp only [Except.ok.injEq, Prod.mk.injEq] at h1
    exact h1.2.symm
  subst hw
  intro y hy
  rcases r2 y hy with ⟨s, -, heading, cols, rfl⟩ | h
  · exfalso
    have hdup := C42_duplicate_headings_reported _ _ _ _ h1
    have hm : Warn.dupHeading heading cols s.name ∈ w.filter aboutDuplicates := List.mem_filter.2 ⟨hy, rfl⟩
    rw [hdup] at hm
    obtain ⟨s', hs', hm⟩ := List.mem_flatMap.1 hm
    obtain ⟨t, htm, rfl⟩ := List.mem_map.1 hs'
    rw [no_duplicates (hp t htm)] at hm
    cases hm
  · exact h

namespace FilesEx

/-- Two sheets: projects, and their parts in several rows. -/
def sheets : List DataSheet := [⟨s%"main", [s%"id", s%"t"], [[.str s%"A", .str s%"T"], [.str s%"B", .str s%"U"]]⟩,
  ⟨s%"parts", [s%"id", s%"l/0/id", s%"l/0/x"], [[.str s%"A", .str s%"1", .str s%"p"], [.str s%"A", .str s%"2", .str s%"q"]]⟩]

theorem proper : ∀ t ∈ sheets, t.Proper := by
  intro t ht
  simp only [sheets, List.mem_cons, List.not_mem_nil, or_false] at ht
  rcases ht with rfl | rfl <;> exact ⟨by decide +kernel, by decide +kernel, by decide +kernel, by decide +kernel, by decide +kernel⟩

/-- In the order of the directory, with another file; one with a configuration line, a row to be skipped and a second header row. -/
def files : List (Str × List (List Str)) := [
  (s%"parts.csv", [[s%"#", s%"skiprows 1", s%"headerRows 2"], [s%"Parts"], [s%"id", s%"l/0/id", s%"l/0/x"], [s%"project", s%"number"], [s%"A", s%"1", s%"p"], [s%"A", s%"2", s%"q"]]),
  (s%"note.txt", []), (s%"main.csv", [[s%"id", s%"t"], [s%"A", s%"T"], [s%"B", s%"U"]])]

theorem inCsv : InFile {} sheets (.csv files) := by
  refine .csv (by decide +kernel) (by simp [sheets, NameLt]) ?_ ?_
  · intro t ht
    simp only [sheets, List.mem_cons, List.not_mem_nil, or_false] at ht
    rcases ht with rfl | rfl
    · refine ⟨[[s%"id", s%"t"], [s%"A", s%"T"], [s%"B", s%"U"]], by decide +kernel, ⟨none, [], [s%"id", s%"t"], [], [[s%"A", s%"T"], [s%"B", s%"U"]]⟩, rfl, rfl, rfl, ?_⟩
      exact ⟨rfl, rfl, (by intro _ he; cases he), fun _ => rfl, rfl⟩
    · refine ⟨[[s%"#", s%"skiprows 1", s%"headerRows 2"], [s%"Parts"], [s%"id", s%"l/0/id", s%"l/0/x"], [s%"project", s%"number"], [s%"A", s%"1", s%"p"], [s%"A", s%"2", s%"q"]],
        by decide +kernel, ⟨some [s%"skiprows 1", s%"headerRows 2"], [[s%"Parts"]], [s%"id", s%"l/0/id", s%"l/0/x"], [[s%"project", s%"number"]],
          [[s%"A", s%"1", s%"p"], [s%"A", s%"2", s%"q"]]⟩, rfl, rfl, rfl, ?_⟩
      refine ⟨by decide +kernel, by decide +kernel, ?_, (by intro he; cases he), by decide +kernel⟩
      intro items he
      cases he
      decide +kernel
  · intro n grid h
    simp only [files, List.mem_cons, Prod.mk.injEq, List.not_mem_nil, or_false] at h
    rcases h with h | h | h
    · exact ⟨_, List.mem_cons_of_mem _ (List.mem_cons_self), (List.append_cancel_right (h.1.trans (show _ = s%"parts" ++ s%".csv" from rfl))).symm⟩
    · have := congrArg (fun l => l.reverse.head?) h.1
      simp at this
    · exact ⟨_, List.mem_cons_self, (List.append_cancel_right (h.1.trans (show _ = s%"main" ++ s%".csv" from rfl))).symm⟩

/-- The same as a workbook, without configuration. -/
def workbook : List (Str × Grid) := sheets.map (fun t => (t.name, { width := t.header.length, rows := t.header.map .str :: t.rows }))

theorem inXlsx : InFile {} sheets (.xlsx workbook) := by
  refine .xlsx (by decide +kernel) (.cons ⟨rfl, ?_⟩ (.cons ⟨rfl, ?_⟩ .nil))
  · exact ⟨⟨none, [], _, [], _⟩, rfl, rfl, rfl, ⟨rfl, rfl, (by intro _ he; cases he), fun _ => rfl, rfl⟩, rfl⟩
  · exact ⟨⟨none, [], _, [], _⟩, rfl, rfl, rfl, ⟨rfl, rfl, (by intro _ he; cases he), fun _ => rfl, rfl⟩, rfl⟩

/-- What the rows say. -/
def objects : List (List (Str × Json)) := [[(s%"id", .leaf (.str s%"A")), (s%"t", .leaf (.str s%"T")), (s%"l", .arr [
    .obj [(s%"id", .leaf (.str s%"1")), (s%"x", .leaf (.str s%"p"))], .obj [(s%"id", .leaf (.str s%"2")), (s%"x", .leaf (.str s%"q"))]])],
  [(s%"id", .leaf (.str s%"B")), (s%"t", .leaf (.str s%"U"))]]

/-- Options, and what the directory contains. -/
def opts : UnOpts := { inputFormat := some s%"csv" }
def env : Env := { input := .csv files }

theorem names : ∀ r ∈ rowsIn (sheets.map (·.lines)), NamesAll (settings opts env none) (idInForce opts) r.line := namesAll_all (by decide +kernel)

set_option synthInstance.maxSize 2000 in
theorem describes : ∃ docs : List (Atom × List (Str × Json)), docs.map (·.2) = objects ∧ Describes (settings opts env none) (idInForce opts) (sheets.map (·.lines)) docs := by
  obtain ⟨out, w, docs, h1, h2, h3⟩ := describes_own (settings opts env none) rfl (idInForce opts) rfl _ names (agree_all (by decide +kernel))
  have h : unflatten (settings opts env none) (sheets.map (·.lines)) = .ok (objects.map .obj, []) := by decide +kernel
  rw [h] at h1
  simp only [Except.ok.injEq, Prod.mk.injEq] at h1
  refine ⟨docs, ?_, h3⟩
  rw [← h1.1] at h2
  have := congrArg (List.map (fun j : Json => match j with | .obj fs => fs | _ => [])) h2
  simpa [List.map_map, Function.comp_def] using this

/-- The directory gives the objects. -/
example : ∃ out items, runUnflatten opts env = .ok out ∧ out.document = .json (.obj [(s%"main", .arr items)]) ∧ SameJson (.arr (objects.map .obj)) (.arr items) := by
  obtain ⟨docs, d1, d2⟩ := describes
  obtain ⟨out, items, h1, h2, h3, -⟩ := C85_described opts env none sheets [] ⟨rfl, rfl, rfl, rfl, rfl⟩ rfl rfl inCsv proper (.inr (.inl ⟨rfl, rfl⟩)) names docs d2
  refine ⟨out, items, h1, h2, ?_⟩
  rw [← d1, List.map_map]
  exact h3

/-- The directory and the workbook say the same. -/
example : runUnflatten { inputFormat := some s%"csv" } { input := .csv files } = runUnflatten { inputFormat := some s%"xlsx" } { input := .xlsx workbook } :=
  C85_formats {} { input := .csv [] } sheets _ _ rfl rfl proper inCsv inXlsx

end FilesEx

end Verif

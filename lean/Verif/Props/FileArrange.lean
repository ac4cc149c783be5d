import Verif.Spec.FileArrange
import Verif.Props.Files
import Verif.Props.Blank
import Verif.Props.OrderAny
import Verif.Props.Spread
/-! C01, C06 and C78 for spreadsheets in files. -/
namespace Verif
open Spec Api

theorem zipIdx_filter_map {α : Type} (p : α → Bool) (l : List α) (n : Nat) : ((l.zipIdx n).filter (fun q => p q.1)).map (·.1) = l.filter p := by
  induction l generalizing n with
  | nil => rfl
  | cons a r ih =>
    rw [List.zipIdx_cons, List.filter_cons, List.filter_cons]
    by_cases h : p a = true
    · rw [if_pos h, if_pos h, List.map_cons, ih]
    · rw [if_neg h, if_neg h, ih]

theorem rowsIn_tables {T : List DataSheet} (hp : ∀ t ∈ T, t.Proper) : (rowsIn (T.map (·.lines))).map (·.line) = dataRows T := by
  unfold rowsIn dataRows
  induction T with
  | nil => rfl
  | cons t T ih =>
    rw [List.map_cons, List.flatMap_cons, List.map_append, ih (fun x hx => hp x (.tail _ hx)), List.flatMap_cons]
    congr 1
    rw [if_neg (by
      have := (hp t (.head _)).columns
      simpa [DataSheet.lines] using this), List.map_map]
    exact zipIdx_filter_map hasData (t.rows.map t.line) 0

/-- With distinct headings no warning is about duplicate headings. -/
theorem no_dups_of_proper {cfg : UnCfg} {T : List DataSheet} (hp : ∀ t ∈ T, t.Proper) {items : List Json} {w : List Warn}
    (h : unflatten cfg (T.map (·.lines)) = .ok (items, w)) : ∀ y ∈ w, aboutDuplicates y = false := by
  intro y hy
  cases hd : aboutDuplicates y with
  | false => rfl
  | true =>
    exfalso
    have hdup := C42_duplicate_headings_reported _ _ _ _ h
    have hm : y ∈ w.filter aboutDuplicates := List.mem_filter.2 ⟨hy, hd⟩
    rw [hdup] at hm
    obtain ⟨s', hs', hm⟩ := List.mem_flatMap.1 hm
    obtain ⟨t, htm, rfl⟩ := List.mem_map.1 hs'
    rw [no_duplicates (hp t htm)] at hm
    cases hm

/-- C06 for files, with ids: let all rows name what they speak about with ids and not contradict each other.  Then any file, in any format, that has the same rows - arranged
into sheets in any way, in any order, repeated or not - is unflattened too, to the same data, up to the order of objects, fields and array items. -/
theorem C06_file (u : UnOpts) (env : Env) (i j : Input) (schema : Option Parsed) (base : List (Str × Json)) (hu : PlainUse u)
    (hs : parseOpt { rollup := true, rootId := u.rootId.getD [], trunc := u.trunc, wkt := u.wkt } u.schema = .ok schema) (hb : u.rootIsList = true ∨ BaseFields u env base)
    (T T' : List DataSheet) (hi : InFile (defaults u) T i) (hj : InFile (defaults u) T' j) (hp : ∀ t ∈ T, t.Proper) (hp' : ∀ t ∈ T', t.Proper)
    (hid : ∀ r ∈ rowsIn (T.map (·.lines)), AllIdentified (settings u env schema) r) (hcon : Consistent (settings u env schema) (rowsIn (T.map (·.lines))))
    (hl : ∀ l, l ∈ dataRows T' ↔ l ∈ dataRows T)
    (out : UnOut) (h : runUnflatten { u with inputFormat := some i.format } { env with input := i } = .ok out) :
    ∃ out' items items', runUnflatten { u with inputFormat := some j.format } { env with input := j } = .ok out' ∧
      out.document = .json (documentWith u base items) ∧ out'.document = .json (documentWith u base items') ∧ SameJson (.arr items) (.arr items') := by
  obtain ⟨items, a1, a2⟩ := (C85_file { u with inputFormat := some i.format } { env with input := i } schema T base
    ⟨hu.json, hu.titles, hu.metatab, hu.metaOnly, hu.horizontal⟩ hs rfl hi hp hb).1 out h
  obtain ⟨items', w', b1, b2⟩ := C06_any_order_json (settings u env schema) _ (T'.map (·.lines)) items _ a1 hid hcon (by
    rw [rowsIn_tables hp, rowsIn_tables hp']; exact hl)
  obtain ⟨out', c1, c2, -⟩ := (C85_file { u with inputFormat := some j.format } { env with input := j } schema T' base
    ⟨hu.json, hu.titles, hu.metatab, hu.metaOnly, hu.horizontal⟩ hs rfl hj hp' hb).2 items' w' b1
  exact ⟨out', items, items', c1, a2, c2, b2⟩

/-- C06 for files, without ids: the same for rows whose values equal themselves (no NaN, no geometries), if each row occurs as often as before. -/
theorem C06_file_without_ids (u : UnOpts) (env : Env) (i j : Input) (schema : Option Parsed) (base : List (Str × Json)) (hu : PlainUse u)
    (hs : parseOpt { rollup := true, rootId := u.rootId.getD [], trunc := u.trunc, wkt := u.wkt } u.schema = .ok schema) (hb : u.rootIsList = true ∨ BaseFields u env base)
    (T T' : List DataSheet) (hi : InFile (defaults u) T i) (hj : InFile (defaults u) T' j) (hp : ∀ t ∈ T, t.Proper) (hp' : ∀ t ∈ T', t.Proper)
    (hv : ∀ r ∈ rowsIn (T.map (·.lines)), Comparable (settings u env schema) r) (hcon : Consistent (settings u env schema) (rowsIn (T.map (·.lines))))
    (hl : (dataRows T').Perm (dataRows T))
    (out : UnOut) (h : runUnflatten { u with inputFormat := some i.format } { env with input := i } = .ok out) :
    ∃ out' items items', runUnflatten { u with inputFormat := some j.format } { env with input := j } = .ok out' ∧
      out.document = .json (documentWith u base items) ∧ out'.document = .json (documentWith u base items') ∧ SameJson (.arr items) (.arr items') := by
  obtain ⟨items, a1, a2⟩ := (C85_file { u with inputFormat := some i.format } { env with input := i } schema T base
    ⟨hu.json, hu.titles, hu.metatab, hu.metaOnly, hu.horizontal⟩ hs rfl hi hp hb).1 out h
  obtain ⟨items', w', b1, b2⟩ := C06_any_order_without_ids_json (settings u env schema) _ (T'.map (·.lines)) items _ a1 hv hcon (by
    rw [rowsIn_tables hp, rowsIn_tables hp']; exact hl)
  obtain ⟨out', c1, c2, -⟩ := (C85_file { u with inputFormat := some j.format } { env with input := j } schema T' base
    ⟨hu.json, hu.titles, hu.metatab, hu.metaOnly, hu.horizontal⟩ hs rfl hj hp' hb).2 items' w' b1
  exact ⟨out', items, items', c1, a2, c2, b2⟩

/-- C78 for files: if the rows of two spreadsheets name what they speak about, say the same and do not contradict each other, both files, of whatever formats, are unflattened
to the same data, up to the order of objects, fields and array items, and the warnings are about cells that do not fit their types only. -/
theorem C78_file (u : UnOpts) (env : Env) (i j : Input) (schema : Option Parsed) (base : List (Str × Json)) (hu : PlainUse u)
    (hs : parseOpt { rollup := true, rootId := u.rootId.getD [], trunc := u.trunc, wkt := u.wkt } u.schema = .ok schema) (hb : u.rootIsList = true ∨ BaseFields u env base)
    (T T' : List DataSheet) (hi : InFile (defaults u) T i) (hj : InFile (defaults u) T' j) (hp : ∀ t ∈ T, t.Proper) (hp' : ∀ t ∈ T', t.Proper)
    (hn : ∀ r ∈ rowsIn (T.map (·.lines)), NamesAll (settings u env schema) (idInForce u) r.line)
    (hn' : ∀ r ∈ rowsIn (T'.map (·.lines)), NamesAll (settings u env schema) (idInForce u) r.line)
    (hag : ∀ x y, Said (settings u env schema) (idInForce u) (T.map (·.lines)) x → Said (settings u env schema) (idInForce u) (T.map (·.lines)) y → x.Agree y)
    (hsame : SameSaid (settings u env schema) (idInForce u) (T.map (·.lines)) (T'.map (·.lines))) :
    ∃ out out' items items', runUnflatten { u with inputFormat := some i.format } { env with input := i } = .ok out ∧
      runUnflatten { u with inputFormat := some j.format } { env with input := j } = .ok out' ∧
      out.document = .json (documentWith u base items) ∧ out'.document = .json (documentWith u base items') ∧ SameJson (.arr items) (.arr items') ∧
      ∀ y ∈ out'.warns, ∃ r ∈ rowsIn (T'.map (·.lines)), ∃ c ∈ columns r.line, ∃ v cw, c.value (settings u env schema).row = .ok (v, cw) ∧ y ∈ cw := by
  obtain ⟨items, w, items', w', g1, g2, g3, g4⟩ := C78_same_said (settings u env schema) hu.json (idInForce u) rfl _ _ hn hn' hag hsame
  obtain ⟨out, a1, a2, -⟩ := (C85_file { u with inputFormat := some i.format } { env with input := i } schema T base
    ⟨hu.json, hu.titles, hu.metatab, hu.metaOnly, hu.horizontal⟩ hs rfl hi hp hb).2 items w g1
  obtain ⟨out', b1, b2, b3⟩ := (C85_file { u with inputFormat := some j.format } { env with input := j } schema T' base
    ⟨hu.json, hu.titles, hu.metatab, hu.metaOnly, hu.horizontal⟩ hs rfl hj hp' hb).2 items' w' g2
  refine ⟨out, out', items, items', a1, b1, a2, b2, g3, ?_⟩
  rw [b3]
  intro y hy
  rcases g4 y hy with ⟨s, -, heading, cols, rfl⟩ | h
  · exact absurd (no_dups_of_proper hp' g2 _ hy) (by simp [aboutDuplicates])
  · exact h

/-! #### Blanks -/

theorem cells_filled {hs : List (Option Str)} (h r : List _) (k : Nat) (hk : ∀ n : Nat, n < h.length → hs[k + n]? = (h[n]?).map some) :
    cellsFrom (some hs) k ((h.map some).zip r) = ((h.zip r).filter (fun c : Str × Atom => !c.2.blank)).map (fun c => (some c.1, some c.1, c.2)) := by
  induction h generalizing r k with
  | nil => simp [cellsFrom]
  | cons x h ih =>
    cases r with
    | nil => simp [cellsFrom]
    | cons a r =>
      have h0 := hk 0 (by simp)
      rw [List.map_cons, List.zip_cons_cons, List.zip_cons_cons, cellsFrom, List.filter_cons]
      have hih := ih r (k + 1) (by
        intro n hn
        have := hk (n + 1) (by simpa using hn)
        rw [show k + 1 + n = k + (n + 1) by omega]
        simpa using this)
      cases hb : a.blank with
      | true => simpa using hih
      | false =>
        simp only [Bool.false_eq_true, if_false, Bool.not_false, if_true, List.map_cons, hih, headingAt]
        simp at h0
        rw [h0]; rfl

theorem content_tables {rootId : Option Str} {t : DataSheet} :
    Spec.content rootId t.lines = ((t.rows.filter (fun r => hasData (t.line r))).map (fun r => (rootCell rootId (t.line r), t.filled r))).map
      (fun p => (p.1, p.2.map (fun c => (some c.1, some c.1, c.2)))) := by
  unfold Spec.content DataSheet.lines
  simp only
  have e : (t.rows.map (fun r => (t.header.map some).zip r)) = t.rows.map t.line := rfl
  rw [e, List.filter_map, List.map_map, List.map_map]
  refine List.map_congr_left ?_
  intro r _
  simp only [Function.comp]
  refine Prod.ext rfl ?_
  exact cells_filled t.header r 0 (by intro n hn; simp)

/-- C01 for files: if the sheets of two spreadsheets differ only in rows without data, blank cells (other than root ids) and columns without data, then the files, of whatever
formats, are unflattened to the same document with the same warnings, or neither is unflattened. -/
theorem C01_file (u : UnOpts) (env : Env) (i j : Input) (schema : Option Parsed) (base : List (Str × Json)) (hu : PlainUse u)
    (hs : parseOpt { rollup := true, rootId := u.rootId.getD [], trunc := u.trunc, wkt := u.wkt } u.schema = .ok schema) (hb : u.rootIsList = true ∨ BaseFields u env base)
    (T T' : List DataSheet) (hi : InFile (defaults u) T i) (hj : InFile (defaults u) T' j) (hp : ∀ t ∈ T, t.Proper) (hp' : ∀ t ∈ T', t.Proper)
    (h : All₂ (SameButEmpty (given u.rootId)) T T')
    (out : UnOut) (hout : runUnflatten { u with inputFormat := some i.format } { env with input := i } = .ok out) :
    ∃ out', runUnflatten { u with inputFormat := some j.format } { env with input := j } = .ok out' ∧ out'.document = out.document ∧ out'.warns = out.warns := by
  obtain ⟨items, a1, a2⟩ := (C85_file { u with inputFormat := some i.format } { env with input := i } schema T base
    ⟨hu.json, hu.titles, hu.metatab, hu.metaOnly, hu.horizontal⟩ hs rfl hi hp hb).1 out hout
  have hall : All₂ (SameButBlanks (settings u env schema).rootId) (T.map (·.lines)) (T'.map (·.lines)) := by
    clear hi hj a1
    induction h with
    | nil => exact .nil
    | @cons t t' T T' h1 _ ih =>
      refine .cons ⟨h1.name, ?_, ?_⟩ (ih (fun x hx => hp x (.tail _ hx)) (fun x hx => hp' x (.tail _ hx)))
      · have e1 := (hp t (.head _)).columns
        have e2 := (hp' t' (.head _)).columns
        simp [DataSheet.lines, e1, e2]
      · rw [content_tables, content_tables]
        exact congrArg _ h1.rows
  have key := C01_blank_columns_are_inert (settings u env schema) _ _ hall
  have a1' : unflatten (settings u env schema) (T.map (·.lines)) = .ok (items, out.warns) := a1
  rw [a1'] at key
  cases e : unflatten (settings u env schema) (T'.map (·.lines)) with
  | error x => rw [e] at key; cases key
  | ok p =>
    obtain ⟨items', w'⟩ := p
    rw [e] at key
    simp only [Except.map, Except.ok.injEq, Prod.mk.injEq] at key
    obtain ⟨rfl, k2⟩ := key
    have f1 : out.warns.filter (fun w => !aboutDuplicates w) = out.warns := List.filter_eq_self.2 (fun y hy => by rw [no_dups_of_proper hp a1' y hy]; rfl)
    have f2 : w'.filter (fun w => !aboutDuplicates w) = w' := List.filter_eq_self.2 (fun y hy => by rw [no_dups_of_proper hp' e y hy]; rfl)
    rw [f1, f2] at k2
    obtain ⟨out', c1, c2, c3⟩ := (C85_file { u with inputFormat := some j.format } { env with input := j } schema T' base
      ⟨hu.json, hu.titles, hu.metatab, hu.metaOnly, hu.horizontal⟩ hs rfl hj hp' hb).2 items w' e
    refine ⟨out', c1, ?_, by rw [c3, k2]⟩
    rw [c2, a2]; rfl

namespace FileArrangeEx

/-- Two sheets; their rows on one sheet per row, in another order; and the same with an empty column and an empty row. -/
def sheets : List DataSheet := [⟨s%"main", [s%"id", s%"t"], [[.str s%"A", .str s%"T"], [.str s%"B", .str s%"U"]]⟩,
  ⟨s%"parts", [s%"id", s%"l/0/id", s%"l/0/x"], [[.str s%"A", .str s%"1", .str s%"p"], [.str s%"A", .str s%"2", .str s%"q"]]⟩]
def others : List DataSheet := [⟨s%"a", [s%"id", s%"l/0/id", s%"l/0/x"], [[.str s%"A", .str s%"2", .str s%"q"]]⟩, ⟨s%"b", [s%"id", s%"t"], [[.str s%"B", .str s%"U"]]⟩,
  ⟨s%"c", [s%"id", s%"t"], [[.str s%"A", .str s%"T"]]⟩, ⟨s%"d", [s%"id", s%"l/0/id", s%"l/0/x"], [[.str s%"A", .str s%"1", .str s%"p"]]⟩]
def wider : List DataSheet := [⟨s%"main", [s%"e", s%"id", s%"t"], [[.str [], .str s%"A", .str s%"T"], [.none, .none, .none], [.none, .str s%"B", .str s%"U"]]⟩,
  ⟨s%"parts", [s%"id", s%"l/0/id", s%"l/0/x"], [[.str s%"A", .str s%"1", .str s%"p"], [.str s%"A", .str s%"2", .str s%"q"]]⟩]
/-- And in one wide row per object. -/
def wide : List DataSheet := [⟨s%"main", [s%"id", s%"t", s%"l/0/id", s%"l/0/x", s%"l/1/id", s%"l/1/x"],
  [[.str s%"A", .str s%"T", .str s%"1", .str s%"p", .str s%"2", .str s%"q"], [.str s%"B", .str s%"U", .none, .none, .none, .none]]⟩]

theorem proper_of {T : List DataSheet} (h : ∀ t ∈ T, t.header ≠ [] ∧ [] ∉ t.header ∧ t.header.Nodup ∧ (∀ r ∈ t.rows, r.length = t.header.length) ∧ t.header.length ≤ 18278) :
    ∀ t ∈ T, t.Proper := fun t ht => ⟨(h t ht).1, (h t ht).2.1, (h t ht).2.2.1, (h t ht).2.2.2.1, (h t ht).2.2.2.2⟩

def book (l : List DataSheet) : List (Str × Grid) := l.map (fun t => (t.name, { width := t.header.length, rows := t.header.map .str :: t.rows }))

theorem shown (t : DataSheet) (h : hashRowA (t.header.map .str) = false) : ShownIn {} t (t.header.map .str :: t.rows) :=
  ⟨⟨none, [], _, [], _⟩, rfl, rfl, rfl, ⟨rfl, rfl, (by intro _ he; cases he), fun _ => h, rfl⟩, rfl⟩

theorem inXlsx {T : List DataSheet} (hd : (T.map (·.name)).Nodup) (hh : ∀ t ∈ T, hashRowA (t.header.map .str) = false) : InFile {} T (.xlsx (book T)) := by
  refine .xlsx hd ?_
  clear hd
  induction T with
  | nil => exact .nil
  | cons t T ih => exact .cons ⟨rfl, shown t (hh t (.head _))⟩ (ih (fun x hx => hh x (.tail _ hx)))

/-- A workbook of two sheets, and one of a wide sheet, say the same: both are unflattened to the same data. -/
example : ∃ out out' items items', runUnflatten { inputFormat := some s%"xlsx" } { input := .xlsx (book sheets) } = .ok out ∧
    runUnflatten { inputFormat := some s%"xlsx" } { input := .xlsx (book wide) } = .ok out' ∧
    out.document = .json (.obj [(s%"main", .arr items)]) ∧ out'.document = .json (.obj [(s%"main", .arr items')]) ∧ SameJson (.arr items) (.arr items') := by
  obtain ⟨out, out', items, items', h1, h2, h3, h4, h5, -⟩ := C78_file {} { input := .csv [] } (.xlsx (book sheets)) (.xlsx (book wide)) none [] ⟨rfl, rfl, rfl, rfl, rfl⟩ rfl (.inr (.inl ⟨rfl, rfl⟩))
    sheets wide (inXlsx (by decide +kernel) (by decide +kernel)) (inXlsx (by decide +kernel) (by decide +kernel)) (proper_of (by decide +kernel)) (proper_of (by decide +kernel))
    (namesAll_all (by decide +kernel)) (namesAll_all (by decide +kernel)) (agree_all (by decide +kernel))
    (sameSaid_all (by decide +kernel) (by decide +kernel) (by decide +kernel) (by decide +kernel))
  exact ⟨out, out', items, items', h1, h2, h3, h4, h5⟩

/-- The sheets with the empty column and the empty row differ from the first ones only in blanks. -/
example : All₂ (SameButEmpty (given none)) sheets wider := .cons ⟨rfl, rfl⟩ (.cons ⟨rfl, rfl⟩ .nil)

/-- So this workbook is unflattened to the same document. -/
example (out : UnOut) (h : runUnflatten { inputFormat := some s%"xlsx" } { input := .xlsx (book sheets) } = .ok out) :
    ∃ out', runUnflatten { inputFormat := some s%"xlsx" } { input := .xlsx (book wider) } = .ok out' ∧ out'.document = out.document ∧ out'.warns = out.warns :=
  C01_file {} { input := .csv [] } (.xlsx (book sheets)) (.xlsx (book wider)) none [] ⟨rfl, rfl, rfl, rfl, rfl⟩ rfl (.inr (.inl ⟨rfl, rfl⟩)) sheets wider
    (inXlsx (by decide +kernel) (by decide +kernel)) (inXlsx (by decide +kernel) (by decide +kernel)) (proper_of (by decide +kernel)) (proper_of (by decide +kernel))
    (.cons ⟨rfl, rfl⟩ (.cons ⟨rfl, rfl⟩ .nil)) out h

/-- The rows of the second spreadsheet are those of the first. -/
example : (dataRows others).Perm (dataRows sheets) := by decide +kernel

/-- The rows of the parts, once as they are and once the other way round, on two sheets. -/
def parts : List DataSheet := [⟨s%"parts", [s%"id", s%"l/0/id", s%"l/0/x"], [[.str s%"A", .str s%"1", .str s%"p"], [.str s%"A", .str s%"2", .str s%"q"]]⟩]
def partsOther : List DataSheet := [⟨s%"a", [s%"id", s%"l/0/id", s%"l/0/x"], [[.str s%"A", .str s%"2", .str s%"q"]]⟩,
  ⟨s%"b", [s%"id", s%"l/0/id", s%"l/0/x"], [[.str s%"A", .str s%"1", .str s%"p"]]⟩]
def cfg : UnCfg := settings {} { input := .csv [] } none

def alones : List (List (Str × CTree)) := [
  [(s%"id", .cell ⟨.atom (.str s%"A"), ⟨s%"parts", 1, 2, s%"id"⟩, []⟩),
      (s%"l", .list [[(s%"id", .cell ⟨.atom (.str s%"1"), ⟨s%"parts", 2, 2, s%"l/0/id"⟩, []⟩), (s%"x", .cell ⟨.atom (.str s%"p"), ⟨s%"parts", 3, 2, s%"l/0/x"⟩, []⟩)]])],
  [(s%"id", .cell ⟨.atom (.str s%"A"), ⟨s%"parts", 1, 3, s%"id"⟩, []⟩),
      (s%"l", .list [[(s%"id", .cell ⟨.atom (.str s%"2"), ⟨s%"parts", 2, 3, s%"l/0/id"⟩, []⟩), (s%"x", .cell ⟨.atom (.str s%"q"), ⟨s%"parts", 3, 3, s%"l/0/x"⟩, []⟩)]])]]

theorem alones_eq : ∀ r ∈ rowsIn (parts.map (·.lines)), ∃ o ∈ alones, doUnflatten cfg [alone r] = .ok ([o], []) := by
  have e : rowsIn (parts.map (·.lines)) = [(rowsIn (parts.map (·.lines)))[0], (rowsIn (parts.map (·.lines)))[1]] := rfl
  intro r hr
  rw [e] at hr
  simp only [List.mem_cons, List.not_mem_nil, or_false] at hr
  rcases hr with rfl | rfl
  · exact ⟨_, .head _, by with_unfolding_all rfl⟩
  · exact ⟨_, .tail _ (.head _), by with_unfolding_all rfl⟩

theorem parts_identified : ∀ r ∈ rowsIn (parts.map (·.lines)), AllIdentified cfg r := by
  intro r hr
  refine ⟨?_, ?_⟩
  · have e : rowsIn (parts.map (·.lines)) = [(rowsIn (parts.map (·.lines)))[0], (rowsIn (parts.map (·.lines)))[1]] := rfl
    rw [e] at hr
    simp only [List.mem_cons, List.not_mem_nil, or_false] at hr
    rcases hr with rfl | rfl <;> decide +kernel
  intro o w h
  obtain ⟨o', ho', e⟩ := alones_eq r hr
  rw [e] at h
  simp only [Except.ok.injEq, Prod.mk.injEq, List.cons.injEq, and_true] at h
  rw [← h.1]
  clear e h
  revert o'
  simp only [alones, List.mem_cons, List.not_mem_nil, or_false, forall_eq_or_imp, forall_eq]
  simp only [IdentifiedFields, Identified, IdentifiedItems, ne_eq, reduceCtorEq, not_false_eq_true, implies_true, and_true]
  decide +kernel

theorem parts_consistent : Consistent cfg (rowsIn (parts.map (·.lines))) := by
  intro r hr r' hr' _ o w o' w' h h'
  obtain ⟨a, ha, e⟩ := alones_eq r hr
  obtain ⟨a', ha', e'⟩ := alones_eq r' hr'
  rw [e] at h; rw [e'] at h'
  simp only [Except.ok.injEq, Prod.mk.injEq, List.cons.injEq, and_true] at h h'
  rw [← h.1, ← h'.1]
  clear e e' h h'
  revert a a'
  have hc : cfg.idName = some s%"id" := rfl
  have hx : cfg.row.xml = false := rfl
  rw [hc, hx]
  simp only [alones, List.mem_cons, List.not_mem_nil, or_false, forall_eq_or_imp, forall_eq]
  simp [AgreeItems, AgreeFields, Agree, Dict.get_cons, cellId]
  decide +kernel

/-- All hypotheses hold for them. -/
example (out : UnOut) (h : runUnflatten { inputFormat := some s%"xlsx" } { input := .xlsx (book parts) } = .ok out) :
    ∃ out' items items', runUnflatten { inputFormat := some s%"xlsx" } { input := .xlsx (book partsOther) } = .ok out' ∧
      out.document = .json (.obj [(s%"main", .arr items)]) ∧ out'.document = .json (.obj [(s%"main", .arr items')]) ∧ SameJson (.arr items) (.arr items') :=
  C06_file {} { input := .csv [] } (.xlsx (book parts)) (.xlsx (book partsOther)) none [] ⟨rfl, rfl, rfl, rfl, rfl⟩ rfl (.inr (.inl ⟨rfl, rfl⟩)) parts partsOther
    (inXlsx (by decide +kernel) (by decide +kernel)) (inXlsx (by decide +kernel) (by decide +kernel)) (proper_of (by decide +kernel)) (proper_of (by decide +kernel))
    parts_identified parts_consistent (fun l => (show (dataRows partsOther).Perm (dataRows parts) by decide +kernel).mem_iff) out h

end FileArrangeEx

end Verif

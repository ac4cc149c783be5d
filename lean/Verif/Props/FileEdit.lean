import Verif.Spec.FileEdit
import Verif.Props.Files
import Verif.Props.EditCell
/-! C82 for spreadsheets in files. -/
namespace Verif
open Spec Api

theorem replaced_lines {t : DataSheet} {n : Nat} {r r' : List Atom} {T T' : List DataSheet} (h : RowReplaced t n r r' T T') :
    LineReplaced t.lines n (t.line r) (t.line r') (T.map (·.lines)) (T'.map (·.lines)) := by
  cases h with
  | intro hn =>
    simp only [List.map_append, List.map_cons, DataSheet.lines, DataSheet.line]
    exact .intro (by simpa using hn)

theorem added_lines {t : DataSheet} {r : List Atom} {T T' : List DataSheet} (h : RowAdded t r T T') :
    LineAdded t.lines (t.line r) (T.map (·.lines)) (T'.map (·.lines)) := by
  cases h with
  | intro =>
    simp only [List.map_append, List.map_cons, DataSheet.lines, DataSheet.line, List.map_nil]
    exact .intro (sh := t.lines)

theorem changed_line {t : DataSheet} {h : Str} {a a' : Atom} {r r' : List Atom} (hc : RowCellChanged t.header h a a' r r') (hl : r.length = t.header.length) :
    CellChanged (some h) a a' (t.line r) (t.line r') := by
  cases hc with
  | @intro left right h1 h2 h3 =>
    have hlt := (List.getElem?_eq_some_iff.1 h3).1
    have e : t.header = t.header.take left.length ++ h :: t.header.drop (left.length + 1) := by
      have h4 := (List.getElem?_eq_some_iff.1 h3).2
      conv => lhs; rw [← List.take_append_drop left.length t.header, List.drop_eq_getElem_cons hlt, h4]
    have key : ∀ b : Atom, t.line (left ++ b :: right) =
        ((t.header.take left.length).map some).zip left ++ (some h, b) :: ((t.header.drop (left.length + 1)).map some).zip right := by
      intro b
      unfold DataSheet.line
      conv => lhs; rw [e]
      rw [List.map_append, List.map_cons, List.zip_append (by simp; omega), List.zip_cons_cons]
    rw [key, key]
    exact .intro h1 h2

/-- C82 for files: whatever is changed in one row of a spreadsheet in a file, as long as the row keeps its id and its root id, the document has as many objects as before, and
all of them but one (at most) are exactly as before, at the same places.  (The two files may have different formats.) -/
theorem C82_file (u : UnOpts) (env : Env) (i j : Input) (schema : Option Parsed) (base : List (Str × Json)) (hu : PlainUse u)
    (hs : parseOpt { rollup := true, rootId := u.rootId.getD [], trunc := u.trunc, wkt := u.wkt } u.schema = .ok schema) (hb : u.rootIsList = true ∨ BaseFields u env base)
    (t : DataSheet) (n : Nat) (r r' : List Atom) (T T' : List DataSheet) (h : RowReplaced t n r r' T T')
    (hi : InFile (defaults u) T i) (hj : InFile (defaults u) T' j) (hp : ∀ t ∈ T, t.Proper) (hp' : ∀ t ∈ T', t.Proper)
    (hd : hasData (t.line r) = true) (hd' : hasData (t.line r') = true)
    (hid : rowId (settings u env schema) ⟨t.lines, n, t.line r⟩ = rowId (settings u env schema) ⟨t.lines, n, t.line r'⟩)
    (hroot : rootCell (given u.rootId) (t.line r) = rootCell (given u.rootId) (t.line r'))
    (out out' : UnOut) (h1 : runUnflatten { u with inputFormat := some i.format } { env with input := i } = .ok out)
    (h2 : runUnflatten { u with inputFormat := some j.format } { env with input := j } = .ok out') :
    ∃ items items', out.document = .json (documentWith u base items) ∧ out'.document = .json (documentWith u base items') ∧
      items.length = items'.length ∧ ∃ n : Nat, ∀ k : Nat, k ≠ n → items[k]? = items'[k]? := by
  obtain ⟨items, a1, a2⟩ := (C85_file { u with inputFormat := some i.format } { env with input := i } schema T base
    ⟨hu.json, hu.titles, hu.metatab, hu.metaOnly, hu.horizontal⟩ hs rfl hi hp hb).1 out h1
  obtain ⟨items', b1, b2⟩ := (C85_file { u with inputFormat := some j.format } { env with input := j } schema T' base
    ⟨hu.json, hu.titles, hu.metatab, hu.metaOnly, hu.horizontal⟩ hs rfl hj hp' hb).1 out' h2
  exact ⟨items, items', a2, b2, C82_other_objects (settings u env schema) t.lines n _ _ _ _ (replaced_lines h) hd hd' hid hroot items items' _ _ a1 b1⟩

/-- C82 for files: a row added at the end of the last sheet leaves all objects as they are, at their places, but for one: either there is one object more, or one object has got
more in it and kept all that it had (or nothing changes). -/
theorem C82_file_added (u : UnOpts) (env : Env) (i j : Input) (schema : Option Parsed) (base : List (Str × Json)) (hu : PlainUse u)
    (hs : parseOpt { rollup := true, rootId := u.rootId.getD [], trunc := u.trunc, wkt := u.wkt } u.schema = .ok schema) (hb : u.rootIsList = true ∨ BaseFields u env base)
    (t : DataSheet) (r : List Atom) (T T' : List DataSheet) (h : RowAdded t r T T')
    (hi : InFile (defaults u) T i) (hj : InFile (defaults u) T' j) (hp : ∀ t ∈ T, t.Proper) (hp' : ∀ t ∈ T', t.Proper)
    (out out' : UnOut) (h1 : runUnflatten { u with inputFormat := some i.format } { env with input := i } = .ok out)
    (h2 : runUnflatten { u with inputFormat := some j.format } { env with input := j } = .ok out') :
    ∃ items items', out.document = .json (documentWith u base items) ∧ out'.document = .json (documentWith u base items') ∧
      (items' = items ∨ (∃ A o B, items = A ++ B ∧ items' = A ++ o :: B) ∨ (∃ A j o B, items = A ++ j :: B ∧ items' = A ++ o :: B ∧ Embeds j o)) := by
  obtain ⟨items, a1, a2⟩ := (C85_file { u with inputFormat := some i.format } { env with input := i } schema T base
    ⟨hu.json, hu.titles, hu.metatab, hu.metaOnly, hu.horizontal⟩ hs rfl hi hp hb).1 out h1
  obtain ⟨items', b1, b2⟩ := (C85_file { u with inputFormat := some j.format } { env with input := j } schema T' base
    ⟨hu.json, hu.titles, hu.metatab, hu.metaOnly, hu.horizontal⟩ hs rfl hj hp' hb).1 out' h2
  exact ⟨items, items', a2, b2, C82_added_line (settings u env schema) t.lines _ _ _ (added_lines h) items items' _ _ a1 b1⟩

/-- C82 for files: let the rows name everything they speak about without contradicting each other, and still do so after one cell, that is not an id, has got another value (neither
is blank).  Then both files are unflattened, and only one object changes: the one with the id of the edited row.  It held the old value at the position of the cell and holds the
new one now, and at all other positions it holds what it held before, and nothing else. -/
theorem C82_file_cell (u : UnOpts) (env : Env) (i j : Input) (schema : Option Parsed) (base : List (Str × Json)) (hu : PlainUse u)
    (hs : parseOpt { rollup := true, rootId := u.rootId.getD [], trunc := u.trunc, wkt := u.wkt } u.schema = .ok schema) (hb : u.rootIsList = true ∨ BaseFields u env base)
    (t : DataSheet) (n : Nat) (heading : Str) (a a' : Atom) (r r' : List Atom) (T T' : List DataSheet) (h : RowReplaced t n r r' T T')
    (hl : RowCellChanged t.header heading a a' r r')
    (hi : InFile (defaults u) T i) (hj : InFile (defaults u) T' j) (hp : ∀ t ∈ T, t.Proper) (hp' : ∀ t ∈ T', t.Proper)
    (hn : ∀ r ∈ rowsIn (T.map (·.lines)), NamesAll (settings u env schema) (idInForce u) r.line)
    (hag : ∀ x y, Said (settings u env schema) (idInForce u) (T.map (·.lines)) x → Said (settings u env schema) (idInForce u) (T.map (·.lines)) y → x.Agree y)
    (hn' : ∀ r ∈ rowsIn (T'.map (·.lines)), NamesAll (settings u env schema) (idInForce u) r.line)
    (hag' : ∀ x y, Said (settings u env schema) (idInForce u) (T'.map (·.lines)) x → Said (settings u env schema) (idInForce u) (T'.map (·.lines)) y → x.Agree y)
    (p : Addr) (hpos : (⟨heading, a⟩ : Column).addr (settings u env schema).row = some p) (hid : ∀ A, p ≠ A ++ [(idInForce u, none)])
    (hroot : rootCell (given u.rootId) (t.line r) = rootCell (given u.rootId) (t.line r')) :
    ∃ out out' items items' id pos v cw v' cw', runUnflatten { u with inputFormat := some i.format } { env with input := i } = .ok out ∧
      runUnflatten { u with inputFormat := some j.format } { env with input := j } = .ok out' ∧
      out.document = .json (documentWith u base items) ∧ out'.document = .json (documentWith u base items') ∧
      contentOf (settings u env schema).row (columns (t.line r)) [(idInForce u, none)] = some id ∧
      namedPos (idInForce u) (contentOf (settings u env schema).row (columns (t.line r))) p = some pos ∧
      (⟨heading, a⟩ : Column).value (settings u env schema).row = .ok (v, cw) ∧ (⟨heading, a'⟩ : Column).value (settings u env schema).row = .ok (v', cw') ∧
      items.length = items'.length ∧ ∃ (k : Nat) (fs fs' : List (Str × Json)), (∀ i : Nat, i ≠ k → items[i]? = items'[i]?) ∧ items[k]? = some (.obj fs) ∧
        items'[k]? = some (.obj fs') ∧ HasId (idInForce u) id fs ∧ HasId (idInForce u) id fs' ∧
        (∃ j, HoldsAt (idInForce u) fs pos j ∧ ShowsVal j v) ∧ (∃ j, HoldsAt (idInForce u) fs' pos j ∧ ShowsVal j v') ∧
        ∀ q, ¬ SameNamed q pos → (∀ j, HoldsAt (idInForce u) fs q j → ∃ j', HoldsAt (idInForce u) fs' q j' ∧ SameShown j j') ∧
          (∀ j', HoldsAt (idInForce u) fs' q j' → ∃ j, HoldsAt (idInForce u) fs q j ∧ SameShown j' j) := by
  have ht : t.header ≠ [] := by
    rintro he
    cases hl with
    | intro _ _ h3 => rw [he] at h3; simp at h3
  have hlen : r.length = t.header.length := by
    cases h with
    | @intro before after above below _ =>
      exact (hp { t with rows := above ++ r :: below } (by simp)).full r (by simp)
  obtain ⟨items, w, items', w', id, pos, v, cw, v', cw', g1, g2, g3⟩ := C82_cell (settings u env schema) hu.json (idInForce u) rfl t.lines (by simp [DataSheet.lines, ht]) n (some heading)
    a a' _ _ _ _ (replaced_lines h) (changed_line hl hlen) hn hag hn' hag' p hpos hid hroot
  obtain ⟨out, a1, a2, -⟩ := (C85_file { u with inputFormat := some i.format } { env with input := i } schema T base
    ⟨hu.json, hu.titles, hu.metatab, hu.metaOnly, hu.horizontal⟩ hs rfl hi hp hb).2 items w g1
  obtain ⟨out', b1, b2, -⟩ := (C85_file { u with inputFormat := some j.format } { env with input := j } schema T' base
    ⟨hu.json, hu.titles, hu.metatab, hu.metaOnly, hu.horizontal⟩ hs rfl hj hp' hb).2 items' w' g2
  exact ⟨out, out', items, items', id, pos, v, cw, v', cw', a1, b1, a2, b2, g3⟩

namespace FileEditEx

/-- The sheets of the example, with the value of the cell to be edited. -/
def parts (x : Str) : DataSheet := ⟨s%"parts", [s%"id", s%"l/0/id", s%"l/0/x"], [[.str s%"A", .str s%"1", .str s%"p"], [.str s%"A", .str s%"2", .str x]]⟩
def sheets (x : Str) : List DataSheet := [⟨s%"main", [s%"id", s%"t"], [[.str s%"A", .str s%"T"], [.str s%"B", .str s%"U"]]⟩, parts x]
def row (x : Str) : List Atom := [.str s%"A", .str s%"2", .str x]

theorem proper (x : Str) : ∀ t ∈ sheets x, t.Proper := by
  intro t ht
  simp only [sheets, List.mem_cons, List.not_mem_nil, or_false] at ht
  rcases ht with rfl | rfl <;> refine ⟨by simp [parts], by simp [parts], by simp [parts], ?_, by simp [parts]⟩ <;> intro r hr <;> simp [parts] at hr <;>
    rcases hr with rfl | rfl <;> simp [parts]

def book (l : List DataSheet) : List (Str × Grid) := l.map (fun t => (t.name, { width := t.header.length, rows := t.header.map .str :: t.rows }))

theorem inXlsx (x : Str) : InFile {} (sheets x) (.xlsx (book (sheets x))) := by
  refine .xlsx (by simp [sheets, parts]) (.cons ⟨rfl, ?_⟩ (.cons ⟨rfl, ?_⟩ .nil))
  · exact ⟨⟨none, [], _, [], _⟩, rfl, rfl, rfl, ⟨rfl, rfl, (by intro _ he; cases he), fun _ => rfl, rfl⟩, rfl⟩
  · exact ⟨⟨none, [], _, [], _⟩, rfl, rfl, rfl, ⟨rfl, rfl, (by intro _ he; cases he), fun _ => rfl, rfl⟩, rfl⟩

theorem replaced (x y : Str) : RowReplaced (parts x) 1 (row x) (row y) (sheets x) (sheets y) :=
  .intro (t := parts x) (before := [⟨s%"main", [s%"id", s%"t"], [[.str s%"A", .str s%"T"], [.str s%"B", .str s%"U"]]⟩]) (after := [])
    (above := [[.str s%"A", .str s%"1", .str s%"p"]]) (below := []) rfl

/-- One cell of a workbook is edited: all hypotheses hold, so only the object A changes. -/
example : ∃ out out' items items', runUnflatten { inputFormat := some s%"xlsx" } { input := .xlsx (book (sheets s%"q")) } = .ok out ∧
    runUnflatten { inputFormat := some s%"xlsx" } { input := .xlsx (book (sheets s%"new")) } = .ok out' ∧
    out.document = .json (.obj [(s%"main", .arr items)]) ∧ out'.document = .json (.obj [(s%"main", .arr items')]) ∧ items.length = items'.length ∧
    ∃ k : Nat, ∀ i : Nat, i ≠ k → items[i]? = items'[i]? := by
  have h := C82_file_cell {} { input := .csv [] } (.xlsx (book (sheets s%"q"))) (.xlsx (book (sheets s%"new"))) none [] ⟨rfl, rfl, rfl, rfl, rfl⟩ rfl (.inr (.inl ⟨rfl, rfl⟩))
    (parts s%"q") 1 s%"l/0/x" (.str s%"q") (.str s%"new") (row s%"q") (row s%"new") _ _ (replaced _ _)
    (.intro (left := [.str s%"A", .str s%"2"]) (right := []) rfl rfl rfl) (inXlsx _) (inXlsx _) (proper _) (proper _)
    (namesAll_all (by decide +kernel)) (agree_all (by decide +kernel)) (namesAll_all (by decide +kernel)) (agree_all (by decide +kernel))
    [(s%"l", some 0), (s%"x", none)] (by decide +kernel) (by
      intro A he
      have h1 := congrArg List.getLast? he
      simp at h1
      exact absurd h1 (by decide +kernel)) rfl
  obtain ⟨out, out', items, items', id, pos, v, cw, v', cw', h1, h2, h3, h4, -, -, -, -, h5, k, fs, fs', h6, -⟩ := h
  exact ⟨out, out', items, items', h1, h2, h3, h4, h5, k, h6⟩

/-- A row added. -/
example (x : Str) : RowAdded (parts x) (row s%"z") (sheets x) [⟨s%"main", [s%"id", s%"t"], [[.str s%"A", .str s%"T"], [.str s%"B", .str s%"U"]]⟩, { parts x with rows := (parts x).rows ++ [row s%"z"] }] :=
  .intro (t := parts x) (before := [⟨s%"main", [s%"id", s%"t"], [[.str s%"A", .str s%"T"], [.str s%"B", .str s%"U"]]⟩]) (rows := (parts x).rows)

end FileEditEx

end Verif

import Verif.Props.JsonText
import Verif.Proofs.MapLocs
import Verif.Spec.MapFile
import Verif.Props.FileCells
/-! C72: column letters and source map files. -/
namespace Verif
open Spec Api

/-! #### Letters -/

theorem letter_inj {c : Char} {d e : Nat} (h1 : Letter c d) (h2 : Letter c e) : d = e := by
  cases h1 with
  | mk d hd1 hd2 =>
    generalize hc : Char.ofNat (64 + d) = c at h2
    cases h2 with
    | mk e he1 he2 =>
      interval_cases d <;> interval_cases e <;> first | rfl | (exfalso; revert hc; decide)

theorem columnName_pos {s : Str} {n : Nat} (h : ColumnName s n) : 0 < n ∧ s ≠ [] := by
  induction h with
  | one h => cases h; exact ⟨by omega, by simp⟩
  | more h1 h2 ih => exact ⟨by omega, by simp⟩

theorem letter_unique {c c' : Char} {d : Nat} (h1 : Letter c d) (h2 : Letter c' d) : c = c' := by
  cases h1; cases h2; rfl

theorem letter_range {c : Char} {d : Nat} (h : Letter c d) : 1 ≤ d ∧ d ≤ 26 := by cases h; exact ⟨by assumption, by assumption⟩

/-- A number is the number of one name only. -/
theorem columnName_unique {s t : Str} {n : Nat} (h1 : ColumnName s n) (h2 : ColumnName t n) : s = t := by
  induction h1 generalizing t with
  | one h =>
    have := letter_range h
    cases h2 with
    | one h' => rw [letter_unique h h']
    | more h' h'' =>
      have := (columnName_pos h').1
      have := letter_range h''
      omega
  | @more s n c d h h0 ih =>
    have hn := (columnName_pos h).1
    have hr := letter_range h0
    generalize hm : 26 * n + d = m at h2
    cases h2 with
    | one h' => have := letter_range h'; omega
    | @more s' n' c' d' h' h'' =>
      have := letter_range h''
      obtain rfl : n = n' := by omega
      obtain rfl : d = d' := by omega
      rw [ih h', letter_unique h0 h'']

/-- A name has one number only. -/
theorem columnName_value {s : Str} {n m : Nat} (h1 : ColumnName s n) (h2 : ColumnName s m) : n = m := by
  induction h1 generalizing m with
  | one h =>
    generalize hs : ([_] : Str) = s at h2
    cases h2 with
    | one h' => simp only [List.cons.injEq, and_true] at hs; subst hs; exact letter_inj h h'
    | more h' h'' =>
      have := (columnName_pos h').2
      have hl := congrArg List.length hs
      simp only [List.length_singleton, List.length_append] at hl
      exact absurd (List.eq_nil_of_length_eq_zero (by omega)) this
  | @more s n c d h h0 ih =>
    generalize hs : s ++ [c] = s' at h2
    cases h2 with
    | one h' =>
      have := (columnName_pos h).2
      have hl := congrArg List.length hs
      simp only [List.length_singleton, List.length_append] at hl
      exact absurd (List.eq_nil_of_length_eq_zero (by omega)) this
    | more h' h'' =>
      obtain ⟨rfl, e⟩ := List.append_inj' hs rfl
      simp only [List.cons.injEq, and_true] at e
      subst e
      rw [ih h', letter_inj h0 h'']

theorem columnLetters_acc (n : Nat) : ∀ acc, columnLetters n acc = columnLetters n [] ++ acc := by
  induction n using Nat.strongRecOn with
  | ind n ih =>
    intro acc
    rw [columnLetters]
    conv_rhs => rw [columnLetters]
    split
    · simp
    · split
      · rw [ih _ (by omega), ih _ (by omega) ['Z']]; simp
      · rw [ih _ (by omega), ih _ (by omega) [_]]; simp

theorem columnLetters_name (n : Nat) (h : 0 < n) : ColumnName (columnLetters n []) n := by
  induction n using Nat.strongRecOn with
  | ind n ih =>
    rw [columnLetters, dif_neg (by omega)]
    split
    · next hz =>
      rw [columnLetters_acc]
      have hZ : Letter 'Z' 26 := .mk 26 (by omega) (by omega)
      by_cases h0 : n / 26 - 1 = 0
      · rw [h0, columnLetters, dif_pos rfl]
        obtain rfl : n = 26 := by omega
        exact .one hZ
      · have := ColumnName.more (ih (n / 26 - 1) (by omega) (by omega)) hZ
        rwa [show 26 * (n / 26 - 1) + 26 = n by omega] at this
    · next hz =>
      rw [columnLetters_acc]
      have hL : Letter (Char.ofNat (n % 26 + 64)) (n % 26) := by
        rw [Nat.add_comm]; exact .mk _ (by omega) (by omega)
      by_cases h0 : n / 26 = 0
      · rw [h0, columnLetters, dif_pos rfl]
        have := ColumnName.one hL
        rwa [show n % 26 = n by omega] at this ⊢
      · have := ColumnName.more (ih (n / 26) (by omega) (by omega)) hL
        rwa [show 26 * (n / 26) + n % 26 = n by omega] at this

/-- **C72.** Columns 1 to 18278 are given their names as spreadsheets count columns, which no other column
has; for all others naming fails with `ValueError`. -/
theorem C72_column_letters (n : Nat) :
    (1 ≤ n → n ≤ 18278 → ∃ s, columnLetter n = .ok s ∧ ColumnName s n ∧ (∀ m, ColumnName s m → m = n) ∧ ∀ t, ColumnName t n → t = s) ∧
    (n = 0 ∨ 18278 < n → columnLetter n = .error .value) := by
  refine ⟨fun h1 h2 => ⟨_, columnLetter_ok h1 h2, columnLetters_name n h1, ?_, ?_⟩, columnLetter_error⟩
  · exact fun m hm => columnName_value hm (columnLetters_name n h1)
  · exact fun t ht => columnName_unique ht (columnLetters_name n h1)

example : columnLetter 1 = .ok s%"A" ∧ columnLetter 26 = .ok s%"Z" ∧ columnLetter 27 = .ok s%"AA" ∧ columnLetter 702 = .ok s%"ZZ" ∧
    columnLetter 703 = .ok s%"AAA" ∧ columnLetter 18278 = .ok s%"ZZZ" := by decide +kernel

/-! #### Files -/

theorem columnText_ok {o : UnOpts} {l : Loc} (h : LocOk o l) : ∃ c, columnText (verticalSheet o l.sheet) l.col = .ok c ∧
    if verticalSheet o l.sheet then IntPart c l.col else ColumnName c l.col := by
  unfold columnText
  cases hv : verticalSheet o l.sheet with
  | true => exact ⟨_, rfl, by simpa using intPart_natStr l.col⟩
  | false => exact ⟨_, columnLetter_ok h.1 (h.2 hv), by simpa using columnLetters_name l.col h.1⟩

/-- The document is written as this value and no other. -/
def Means (j : Json) (v : JVal) : Prop := ∀ v', Denotes j v' ↔ v' = v
def MeanItems (js : List Json) (vs : List JVal) : Prop := ∀ vs', AllDenote js vs' ↔ vs' = vs
def MeanFields (fs : List (Str × Json)) (vs : List (Str × JVal)) : Prop := ∀ vs', FieldsDenote fs vs' ↔ vs' = vs

theorem means_str (s : Str) : Means (.leaf (.str s)) (.str s) := fun v' =>
  ⟨fun h => by cases h with | leaf h => cases h; rfl, by rintro rfl; exact .leaf .str⟩

theorem means_nat (n : Nat) : Means (.leaf (.int n)) (.num n) := fun v' =>
  ⟨fun h => by cases h with | leaf h => cases h; simp, by
    rintro rfl
    have := Denotes.leaf (AtomDenotes.int (i := (n : Int)))
    simpa using this⟩

theorem means_arr {js : List Json} {vs : List JVal} (h : MeanItems js vs) : Means (.arr js) (.arr vs) := fun v' =>
  ⟨fun h' => by cases h' with | arr h' => rw [(h _).1 h'], by rintro rfl; exact .arr ((h _).2 rfl)⟩

theorem means_obj {fs : List (Str × Json)} {vs : List (Str × JVal)} (h : MeanFields fs vs) : Means (.obj fs) (.obj vs) := fun v' =>
  ⟨fun h' => by cases h' with | obj h' => rw [(h _).1 h'], by rintro rfl; exact .obj ((h _).2 rfl)⟩

theorem meanItems_nil : MeanItems [] [] := fun vs' => ⟨fun h => by cases h; rfl, by rintro rfl; exact .nil⟩

theorem meanItems_cons {j : Json} {v : JVal} {js : List Json} {vs : List JVal} (h1 : Means j v) (h2 : MeanItems js vs) :
    MeanItems (j :: js) (v :: vs) := fun vs' =>
  ⟨fun h => by cases h with | cons a b => rw [(h1 _).1 a, (h2 _).1 b], by rintro rfl; exact .cons ((h1 _).2 rfl) ((h2 _).2 rfl)⟩

theorem meanFields_nil : MeanFields [] [] := fun vs' => ⟨fun h => by cases h; rfl, by rintro rfl; exact .nil⟩

theorem meanFields_cons {k : Str} {j : Json} {v : JVal} {fs : List (Str × Json)} {vs : List (Str × JVal)} (h1 : Means j v) (h2 : MeanFields fs vs) :
    MeanFields ((k, j) :: fs) ((k, v) :: vs) := fun vs' =>
  ⟨fun h => by cases h with | cons a b => rw [(h1 _).1 a, (h2 _).1 b], by rintro rfl; exact .cons ((h1 _).2 rfl) ((h2 _).2 rfl)⟩

theorem text_means {j : Json} {v : JVal} (h : Means j v) : ∃ t, dumpJson j = .ok t ∧ ∀ v', JsonText t v' ↔ v' = v := by
  obtain ⟨t, v', h4, h5, h6⟩ := C64_json_text j ⟨v, (h v).2 rfl⟩
  obtain rfl := (h v').1 h5
  exact ⟨t, h4, h6⟩

theorem loc_written {o : UnOpts} {l : Loc} (h : LocOk o l) : ∃ j v, locJson o l = .ok j ∧ Means j v ∧ LocWritten (verticalSheet o) l v := by
  obtain ⟨c, h1, h2⟩ := columnText_ok h
  refine ⟨.arr [.leaf (.str l.sheet), .leaf (.str c), .leaf (.int l.row), .leaf (.str l.heading)],
    .arr [.str l.sheet, .str c, .num l.row, .str l.heading], ?_, ?_, ⟨c, rfl, h2⟩⟩
  · unfold locJson; rw [h1]
  · exact means_arr (meanItems_cons (means_str _) (meanItems_cons (means_str _) (meanItems_cons (means_nat _) (meanItems_cons (means_str _) meanItems_nil))))

theorem locs_written {o : UnOpts} : ∀ {ls : List Loc}, (∀ l ∈ ls, LocOk o l) →
    ∃ js vs, mapE (locJson o) ls = .ok js ∧ MeanItems js vs ∧ All₂ (LocWritten (verticalSheet o)) ls vs
  | [], _ => ⟨[], [], rfl, meanItems_nil, .nil⟩
  | l :: r, h => by
    obtain ⟨j, v, h1, h2, h3⟩ := loc_written (h l (by simp))
    obtain ⟨js, vs, h4, h5, h6⟩ := locs_written (ls := r) (fun x hx => h x (by simp [hx]))
    refine ⟨j :: js, v :: vs, ?_, meanItems_cons h2 h5, .cons h3 h6⟩
    rw [mapE, h1]; simp only [h4]

theorem rows_mean : ∀ l : List (Str × Nat), MeanItems (l.map (fun r => .arr [.leaf (.str r.1), .leaf (.int r.2)]))
    (l.map (fun r => .arr [.str r.1, .num r.2]))
  | [] => meanItems_nil
  | _ :: l => meanItems_cons (means_arr (meanItems_cons (means_str _) (meanItems_cons (means_nat _) meanItems_nil))) (rows_mean l)

theorem entries_written {o : UnOpts} : ∀ {m : List (Str × MapEntry)}, (∀ k ls, (k, MapEntry.cells ls) ∈ m → ∀ l ∈ ls, LocOk o l) →
    ∃ fs vs, mapE (fieldJson o) m = .ok fs ∧ MeanFields fs vs ∧
      All₂ (fun (e : Str × MapEntry) (f : Str × JVal) => f.1 = e.1 ∧ EntryWritten (verticalSheet o) e.2 f.2) m vs
  | [], _ => ⟨[], [], rfl, meanFields_nil, .nil⟩
  | (k, e) :: r, h => by
    obtain ⟨fs, vs, h4, h5, h6⟩ := entries_written (m := r) (fun k' ls hx => h k' ls (by simp [hx]))
    cases e with
    | cells ls =>
      obtain ⟨js, ws, h1, h2, h3⟩ := locs_written (h k ls (by simp))
      refine ⟨(k, .arr js) :: fs, (k, .arr ws) :: vs, ?_, meanFields_cons (means_arr h2) h5, .cons ⟨rfl, .cells h3⟩ h6⟩
      rw [mapE, h4]; simp only [fieldJson, entryJson, h1]
    | rows l =>
      refine ⟨(k, .arr _) :: fs, (k, .arr _) :: vs, ?_, meanFields_cons (means_arr (rows_mean l)) h5, .cons ⟨rfl, .rows⟩ h6⟩
      rw [mapE, h4]; simp only [fieldJson, entryJson]

/-- **C72.** If `unflatten` succeeds, the cell source map file can be written; it is a JSON text with the keys of the map in order, and under each
key the list of the locations (sheet, name of the column, number of the row, heading) or of the rows (sheet, number).
Columns of sheets read with vertical orientation are numbers. -/
theorem C72_cell_map_file (o : UnOpts) (env : Env) (out : UnOut) (hd : DistinctSheets env.input) (h : runUnflatten o env = .ok out) :
    ∃ text fields, cellMapFile o out = .ok text ∧ (∀ v, JsonText text v ↔ v = .obj fields) ∧
      All₂ (fun (e : Str × MapEntry) (f : Str × JVal) => f.1 = e.1 ∧
        EntryWritten (fun sheet => if o.metatabName = some sheet then o.metatabVertical else o.vertical) e.2 f.2) out.cellMap fields := by
  obtain ⟨fs, vs, h1, h2, h3⟩ := entries_written (run_locs hd h)
  have hj : cellMapJson o out.cellMap = .ok (.obj fs) := by unfold cellMapJson; rw [h1]
  obtain ⟨t, h4, h5⟩ := text_means (means_obj h2)
  refine ⟨t, vs, ?_, h5, h3⟩
  unfold cellMapFile; rw [hj]; exact h4

theorem pairs_mean : ∀ l : List (Str × Str), MeanItems (l.map (fun r => .arr [.leaf (.str r.1), .leaf (.str r.2)]))
    (l.map (fun r => .arr [.str r.1, .str r.2]))
  | [] => meanItems_nil
  | _ :: l => meanItems_cons (means_arr (meanItems_cons (means_str _) (meanItems_cons (means_str _) meanItems_nil))) (pairs_mean l)

theorem headings_mean : ∀ m : List (Str × List (Str × Str)),
    MeanFields (m.map (fun e => (e.1, .arr (e.2.map (fun h => .arr [.leaf (.str h.1), .leaf (.str h.2)])))))
      (m.map (fun e => (e.1, .arr (e.2.map (fun h => .arr [.str h.1, .str h.2])))))
  | [] => meanFields_nil
  | _ :: m => meanFields_cons (means_arr (pairs_mean _)) (headings_mean m)

/-- **C72.** The heading source map file can always be written; it is a JSON text with the keys of the map in order, and under each the list
of the headings (sheet, heading). -/
theorem C72_heading_map_file (out : UnOut) :
    ∃ text, headingMapFile out = .ok text ∧ ∀ v, JsonText text v ↔
      v = .obj (out.headingMap.map (fun e => (e.1, .arr (e.2.map (fun h => .arr [.str h.1, .str h.2]))))) :=
  text_means (means_obj (headings_mean _))

theorem all₂_right {α β : Type} {R : α → β → Prop} {l : List α} {m : List β} (h : All₂ R l m) : ∀ b ∈ m, ∃ a ∈ l, R a b := by
  induction h with
  | nil => simp
  | cons h _ ih =>
    intro b hb
    rcases List.mem_cons.1 hb with rfl | hb
    · exact ⟨_, by simp, h⟩
    · obtain ⟨a, ha, hr⟩ := ih b hb
      exact ⟨a, by simp [ha], hr⟩

/-- **C72.** Every location in the cell source map file names a cell of the input file, by sheet, letters and number, from which the value at
the key's path was made, and the heading over it.  (Hypotheses as in `C54_locations_in_the_file`.) -/
theorem C72_file_names_cells (o : UnOpts) (env : Env) (out : UnOut) (doc : Json) (hd : DistinctSheets env.input) (hM : o.metatabName = none)
    (hfull : o.metatabOnly = false) (hx : o.xml = false) (hcfg : o.defaultConfig = []) (ht : o.convertTitles = false) (hv : o.vertical = false)
    (hroot : o.rootIsList = true ∨ ∃ b, BaseFields o env b) (hcm : o.cellSourceMap = true)
    (hplain : ∀ name, PlainSheet env.input name)
    (hparts : ∀ name first rest, fileRows env.input name = first :: rest → ∀ h, .str h ∈ first → [] ∉ (pathList h).tail)
    (h : runUnflatten o env = .ok out) (hdoc : out.document = .json doc) :
    ∃ text fields schema, cellMapFile o out = .ok text ∧ JsonText text (.obj fields) ∧
      parseOpt { rollup := true, rootId := o.rootId.getD [], trunc := o.trunc, wkt := o.wkt } o.schema = .ok schema ∧
      ∀ key entries sheet column (row : ℚ) heading, (key, .arr entries) ∈ fields →
        .arr [.str sheet, .str column, .num row, .str heading] ∈ entries →
        ∃ (r c : Nat) (path : List PStep) (value content : _) (v : Val) (w : List Warn),
          row = r ∧ ColumnName column c ∧
          key = stepsText (rootSteps (rootKeyOf o) ++ path) ∧ valueAt doc (rootSteps (rootKeyOf o) ++ path) = some (Val.toJson value) ∧
          fileCell env.input sheet r c = some content ∧ fileCell env.input sheet 1 c = some (.str heading) ∧
          convertType { wkt := o.wkt, geoLib := env.geoLib, wktLoads := env.wktLoads }
            ((schema.bind (·.types (keysText path))).getD .untyped) content = .ok (v, w) ∧
          EqualVal v value := by
  obtain ⟨text, fields, h1, h2, h3⟩ := C72_cell_map_file o env out hd h
  obtain ⟨schema, h4, h5⟩ := C54_locations_in_the_file o env out doc (by rw [hM]; rfl) hfull hx hcfg ht hv hroot hcm hplain hparts h hdoc
  refine ⟨text, fields, schema, h1, (h2 _).2 rfl, h4, ?_⟩
  intro key entries sheet column row heading hk he
  obtain ⟨⟨k, e⟩, hm, rfl, hw⟩ := all₂_right h3 _ hk
  simp only at hw he
  generalize hj : JVal.arr entries = j at hw
  cases hw with
  | rows =>
    injection hj with hj
    subst hj
    obtain ⟨x, -, hx⟩ := List.mem_map.1 he
    simp at hx
  | @cells ls vs hall =>
    injection hj with hj
    subst hj
    obtain ⟨l, hl, col, e1, e2⟩ := all₂_right hall _ he
    simp only [JVal.arr.injEq, List.cons.injEq, JVal.str.injEq, JVal.num.injEq, and_true] at e1
    obtain ⟨rfl, rfl, rfl, rfl⟩ := e1
    obtain ⟨path, value, a1, a2, a3⟩ := h5 _ ls (List.mem_filterMap.2 ⟨_, hm, rfl⟩)
    obtain ⟨content, v, w, b1, b2, b3, b4⟩ := a3 l hl
    refine ⟨l.row, l.col, path, value, content, v, w, rfl, ?_, a1, a2, b1, b2, b3, b4⟩
    simpa [hM, hv] using e2

/-- The hypotheses are met by a workbook, and this is its cell source map file. -/
example : (runUnflatten FileEx.opts { input := FileEx.xlsx }).bind (cellMapFile FileEx.opts) = .ok
    (s%"{\n    \"main/0/id\": [\n        [\n            \"sale\",\n            \"A\",\n            2,\n            \"id\"\n        ],\n" ++
     s%"        [\n            \"sale\",\n            \"A\",\n            3,\n            \"id\"\n        ],\n" ++
     s%"        [\n            \"more\",\n            \"A\",\n            2,\n            \"id\"\n        ]\n    ],\n" ++
     s%"    \"main/0/line/0/id\": [\n        [\n            \"sale\",\n            \"B\",\n            2,\n            \"line/0/id\"\n        ]\n    ],\n" ++
     s%"    \"main/0/line/1/id\": [\n        [\n            \"sale\",\n            \"B\",\n            3,\n            \"line/0/id\"\n        ]\n    ],\n" ++
     s%"    \"main/0/title\": [\n        [\n            \"more\",\n            \"B\",\n            2,\n            \"title\"\n        ]\n    ],\n" ++
     s%"    \"main/0\": [\n        [\n            \"sale\",\n            2\n        ],\n        [\n            \"sale\",\n            3\n        ],\n        [\n            \"more\",\n            2\n        ]\n    ],\n" ++
     s%"    \"main/0/line/0\": [\n        [\n            \"sale\",\n            2\n        ]\n    ],\n" ++
     s%"    \"main/0/line/1\": [\n        [\n            \"sale\",\n            3\n        ]\n    ]\n}") := by decide +kernel

example : ∃ out doc, runUnflatten FileEx.opts { input := FileEx.xlsx } = .ok out ∧ out.document = .json doc ∧
    DistinctSheets FileEx.xlsx ∧ (∀ name, PlainSheet FileEx.xlsx name) := by
  have h : (runUnflatten FileEx.opts { input := FileEx.xlsx }).isOk = true := by decide +kernel
  cases hr : runUnflatten FileEx.opts { input := FileEx.xlsx } with
  | error e => rw [hr] at h; cases h
  | ok out =>
    cases hd : out.document with
    | json doc => exact ⟨out, doc, rfl, hd, by simp [DistinctSheets, FileEx.xlsx], FileEx.xlsx_plain⟩
    | xml e =>
      exfalso
      have : (runUnflatten FileEx.opts { input := FileEx.xlsx }).map (fun o => match o.document with | .json _ => true | .xml _ => false) = .ok true := by
        decide +kernel
      rw [hr] at this
      simp [Except.map, hd] at this

/-- With vertical orientation the column is a number. -/
example : (runUnflatten { FileEx.opts with vertical := true, rootIsList := true }
    { input := .xlsx [(s%"m", ⟨2, [[.str s%"a", .int 5]]⟩)] }).bind (cellMapFile { FileEx.opts with vertical := true, rootIsList := true }) = .ok
    (s%"{\n    \"0/a\": [\n        [\n            \"m\",\n            \"1\",\n            2,\n            \"a\"\n        ]\n    ],\n" ++
     s%"    \"0\": [\n        [\n            \"m\",\n            2\n        ]\n    ]\n}") := by decide +kernel

end Verif

import Verif.Spec.Sheets
import Verif.Spec.Layout
import Verif.Proofs.Dict
import Verif.Props.Config
import Verif.Model.Readers
/-! C40–C43: which part of a sheet is read, which sheets, duplicate headings, the formats. -/
namespace Verif
open Spec

/-! ### C40 -/

theorem Layout.Fits.skip' {row : Type} {rc : ReadCfg} {sh : row → Bool} {L : Layout row} (h : L.Fits rc sh) :
    (L.config rc).skip = L.skipped.length := by
  have := h.skip; unfold SheetConfig.skip; omega

theorem Layout.Fits.hdrs' {row : Type} {rc : ReadCfg} {sh : row → Bool} {L : Layout row} (h : L.Fits rc sh) :
    (L.config rc).hdrs = L.extra.length + 1 := by
  have := h.hdrs; unfold SheetConfig.hdrs; omega

theorem Layout.drop_rows {row : Type} (f : List Str → row) (L : Layout row) :
    (L.rows f).drop (L.skipped.length + (if L.conf.isSome then 1 else 0)) = L.header :: (L.extra ++ L.data) := by
  unfold Layout.rows
  cases L.conf with
  | none => simp
  | some items => simp

theorem Layout.drop_data {row : Type} (f : List Str → row) (L : Layout row) :
    (L.rows f).drop (L.skipped.length + (if L.conf.isSome then 1 else 0) + (L.extra.length + 1)) = L.data := by
  rw [← List.drop_drop, L.drop_rows]
  simp

theorem Layout.get_header {row : Type} (f : List Str → row) (L : Layout row) :
    (L.rows f)[L.skipped.length + (if L.conf.isSome then 1 else 0)]? = some L.header := by
  have := L.drop_rows f
  rw [List.getElem?_eq_some_iff]
  have hlt : L.skipped.length + (if L.conf.isSome then 1 else 0) < (L.rows f).length := by
    have h2 := congrArg List.length this
    rw [List.length_drop] at h2; simp at h2; omega
  refine ⟨hlt, ?_⟩
  have h3 := List.drop_eq_getElem_cons hlt
  rw [this] at h3
  exact (List.cons.inj h3).1.symm

theorem words_nil : Py.words [] = [] := rfl

theorem configItem_blank (c : SheetConfig) : configItem c [] = c := by
  unfold configItem; rw [words_nil]

theorem parseConfig_filter (items : List Str) : parseConfig (items.filter (· ≠ [])) = parseConfig items := by
  have : ∀ (l : List Str) c, (l.filter (· ≠ [])).foldl configItem c = l.foldl configItem c := by
    intro l
    induction l with
    | nil => intro c; rfl
    | cons x r ih =>
      intro c
      cases x with
      | nil =>
        simp only [List.filter_cons, ne_eq, not_true_eq_false, decide_false, Bool.false_eq_true, if_false, List.foldl_cons, configItem_blank]
        exact ih c
      | cons a x => simp only [List.filter_cons, ne_eq, reduceCtorEq, not_false_eq_true, decide_true, if_true, List.foldl_cons]; exact ih _
  exact this items {}

theorem mapM_strs (items : List Str) :
    (items.map Atom.str).mapM cellText = some items := by
  induction items with
  | nil => rfl
  | cons x r ih => simp only [List.map_cons, List.mapM_cons, ih]; rfl

theorem filter_falsy (items : List Str) :
    (items.map Atom.str).filter (fun c => !c.falsy) = (items.filter (· ≠ [])).map Atom.str := by
  induction items with
  | nil => rfl
  | cons x r ih =>
    have h : (Atom.str x).falsy = decide (x = []) := by
      cases x with
      | nil => rfl
      | cons a x =>
        simp [Atom.falsy, Atom.blank, Val.pyEq, Val.canon, Atom.canon, canonNum]
    simp only [List.map_cons, List.filter_cons, h]
    cases x with
    | nil => simpa using ih
    | cons a x => simpa using ih

theorem resolve_config {row : Type} (rc : ReadCfg) (L : Layout row) (own : SheetConfig)
    (hown : own = (match L.conf with | some items => parseConfig items | none => {}))
    (hc : ∀ items, L.conf = some items → (parseConfig items).nonEmpty = true) :
    resolveConfig rc own = (L.config rc, if L.conf.isSome then 1 else 0) := by
  unfold resolveConfig Layout.config
  subst hown
  cases h : L.conf with
  | none => simp [SheetConfig.nonEmpty]
  | some items => simp [hc items h]

theorem head_rows_noconf {row : Type} (f : List Str → row) (L : Layout row) (h : L.conf = none) :
    ∃ r, L.rows f = (L.skipped ++ [L.header]).headD L.header :: r := by
  unfold Layout.rows; rw [h]
  cases L.skipped <;> simp

/-- The headings are the header row and the lines are exactly the (non-empty) data
rows, in order: neither skipped rows nor further header rows are read, and no data row is
lost. -/
theorem csv_layout (rc : ReadCfg) (name : Str) (L : Layout (List Str)) (h : L.Fits rc hashRow)
    (hne : L.header ≠ []) :
    csvSheet rc name (L.rows id) = .ok
      { name, headings := some (L.header.map some),
        lines := (L.data.filter (· ≠ [])).map (fun row =>
          dictOf (L.header.map (fun f => (some f, (Dict.get (dictReaderRow L.header row) f).getD Atom.none)))) } := by
  have hcfg : csvConfig (L.rows id) = .ok (match L.conf with | some items => parseConfig items | none => {}) := by
    cases hc : L.conf with
    | some items => unfold Layout.rows; rw [hc]; simp [csvConfig]
    | none =>
      obtain ⟨r, hr⟩ := head_rows_noconf id L hc
      have hh := h.noconf hc
      rw [hr]
      cases hd : (L.skipped ++ [L.header]).headD L.header with
      | nil => rfl
      | cons a t => rw [hd] at hh; simp [hashRow] at hh; simp [csvConfig, hh]
  have hres := resolve_config rc L _ rfl h.conf
  unfold csvSheet
  rw [hcfg]
  simp only [csvHeadings, csvLines, hres, h.keep, h.skip', h.hdrs', L.get_header, L.drop_rows]
  have : ¬ (L.extra.length + L.data.length < L.extra.length) := by omega
  simp [hne, this]

/-- Likewise. -/
theorem xlsx_layout (rc : ReadCfg) (name : Str) (w : Nat) (L : Layout (List Atom)) (h : L.Fits rc hashRowA)
    (hv : rc.vertical = false) (hh : (L.config rc).hashcomments = true → Py.startsWith s%"#" name = false) :
    xlsxSheet rc name { width := w, rows := L.rows (·.map Atom.str) } = .ok
      { name, headings := some (L.header.map headingOf),
        lines := L.data.map (xlsxLine (L.config rc) L.header) } := by
  have hrow0 : ∀ r rest, L.rows (·.map Atom.str) = r :: rest →
      Grid.row { width := w, rows := L.rows (·.map Atom.str) } 0 = r := by
    intro r rest hr; simp [Grid.row, hr]
  have hcfg : xlsxConfig { width := w, rows := L.rows (·.map Atom.str) } =
      .ok (match L.conf with | some items => parseConfig items | none => {}) := by
    unfold xlsxConfig
    cases hc : L.conf with
    | some items =>
      have hr : L.rows (·.map Atom.str) = (Atom.str s%"#" :: items.map Atom.str) ::
          (L.skipped ++ (L.header :: (L.extra ++ L.data))) := by
        unfold Layout.rows; rw [hc]; simp
      rw [hrow0 _ _ hr]
      simp only [if_true, filter_falsy, mapM_strs, parseConfig_filter]
    | none =>
      obtain ⟨r, hr⟩ := head_rows_noconf (·.map Atom.str) L hc
      rw [hrow0 _ _ hr]
      have hh := h.noconf hc
      cases hd : (L.skipped ++ [L.header]).headD L.header with
      | nil => rfl
      | cons a t => rw [hd] at hh; simp [hashRowA] at hh; simp [hh]
  have hres := resolve_config rc L _ rfl h.conf
  unfold xlsxSheet
  rw [hcfg]
  have hi : ignoredSheet (L.config rc) name = false := by
    simp only [ignoredSheet, h.keep, Bool.false_or, Bool.and_eq_false_iff]
    cases hc : (L.config rc).hashcomments with
    | false => exact Or.inl rfl
    | true => exact Or.inr (hh hc)
  simp only [xlsxParts, hres, hv, hi, h.skip', h.hdrs', Bool.false_eq_true, if_false, L.drop_data, Grid.row, L.get_header,
    Option.getD_some]

theorem mapM_ok {α β : Type} (f : α → Except Err β) (g : α → β) (l : List α)
    (h : ∀ a ∈ l, f a = .ok (g a)) : l.mapM f = .ok (l.map g) := by
  induction l with
  | nil => rfl
  | cons a r ih =>
    simp only [List.mapM_cons, h a (by simp), ih (fun b hb => h b (by simp [hb]))]; rfl

/-- Likewise; lines without any value are left out. -/
theorem ods_layout (rc : ReadCfg) (name : Str) (L : Layout (List Atom)) (h : L.Fits rc hashRowA)
    (hv : rc.vertical = false)
    (hh : (L.config rc).hashcomments = true → Py.startsWith s%"#" name = false ∧ ∀ a ∈ L.header, a = .none ∨ ∃ s, a = .str s)
    (hne : L.header ≠ []) :
    odsSheet rc name (L.rows (·.map Atom.str)) = .ok
      { name, headings := some (L.header.map headingOf),
        lines := (L.data.map (xlsxLine (L.config rc) L.header)).filter
          (fun l => !l.all (fun kv => kv.2 == .none)) } := by
  have hcfg : odsConfig (L.rows (·.map Atom.str)) =
      .ok (match L.conf with | some items => parseConfig items | none => {}) := by
    unfold odsConfig
    cases hc : L.conf with
    | some items =>
      have hr : L.rows (·.map Atom.str) = (Atom.str s%"#" :: items.map Atom.str) ::
          (L.skipped ++ (L.header :: (L.extra ++ L.data))) := by
        unfold Layout.rows; rw [hc]; simp
      rw [hr]
      have : (Atom.str s%"#" :: items.map Atom.str) = (s%"#" :: items).map Atom.str := by simp
      rw [this]
      simp only [List.map_cons, if_true]
      rw [← List.map_cons (f := Atom.str), mapM_strs]
      simp only [parseConfig, List.foldl_cons]
      have : configItem {} s%"#" = {} := by decide +kernel
      rw [this]
    | none =>
      obtain ⟨r, hr⟩ := head_rows_noconf (·.map Atom.str) L hc
      rw [hr]
      have hh := h.noconf hc
      cases hd : (L.skipped ++ [L.header]).headD L.header with
      | nil => rfl
      | cons a t => rw [hd] at hh; simp [hashRowA] at hh; simp [hh]
  have hres := resolve_config rc L _ rfl h.conf
  unfold odsSheet
  rw [hcfg]
  have hi : ignoredSheet (L.config rc) name = false := by
    simp only [ignoredSheet, h.keep, Bool.false_or, Bool.and_eq_false_iff]
    cases hc : (L.config rc).hashcomments with
    | false => exact Or.inl rfl
    | true => exact Or.inr (hh hc).1
  simp only [odsParts, hres, hv, hi, h.skip', h.hdrs', Bool.false_or, Bool.false_eq_true, if_false, L.drop_data, L.get_header,
    Option.getD_some]
  rw [mapM_ok _ (xlsxLine (L.config rc) L.header)]
  · simp [hne]
  · intro a _
    unfold odsLine
    rw [if_neg]
    · rfl
    · cases hc : (L.config rc).hashcomments with
      | false => simp
      | true =>
        simp only [Bool.true_and, List.any_eq_true, not_exists, not_and]
        rintro ⟨x, y⟩ hp
        have hx := (List.of_mem_zip hp).1
        rcases (hh hc).2 x hx with rfl | ⟨s, rfl⟩
        · simp [Atom.falsy, Atom.blank]
        · simp

/-- A layout with a configuration line, a skipped row and two header rows. -/
def exLayout : Layout (List Str) :=
  { conf := some [s%"skipRows 1", s%"headerRows 2"], skipped := [[s%"title"]],
    header := [s%"id", s%"a"], extra := [[s%"The id", s%"The a"]], data := [[s%"1", s%"x"], [s%"2", s%"y"]] }
example : exLayout.Fits {} hashRow := by
  refine ⟨by decide +kernel, by decide +kernel, ?_, by simp [exLayout], by decide +kernel⟩
  intro items h; simp [exLayout] at h; subst h; decide +kernel

/-! ### C41 -/

/-- **C41 (XLSX, ODS).** Exactly the sheets of the file that are included (if an include list is
given) and not excluded, in file order. -/
theorem C41_sheet_selection (names incl : List Str) (excl : List (Option Str)) :
    selectSheets names incl excl =
      names.filter (fun n => (incl.isEmpty || incl.contains n) && !excl.contains (some n)) := by
  unfold selectSheets
  simp only
  have fold : ∀ (ex : List (Option Str)) (l : List Str),
      ex.foldl excludeAll l =
        l.filter (fun n => !ex.contains (some n)) := by
    intro ex
    induction ex with
    | nil => intro l; exact (List.filter_eq_self.2 (by simp)).symm
    | cons e r ih =>
      intro l
      rw [List.foldl_cons, ih]
      cases e with
      | none =>
        simp [excludeAll]
      | some x =>
        simp only [excludeAll, List.filter_filter]
        apply List.filter_congr
        intro n _
        simp
        grind
  rw [fold]
  cases incl with
  | nil => simp
  | cons a r =>
    simp only [List.isEmpty_cons, Bool.false_eq_true, if_false, Bool.false_or, List.filter_filter]
    apply List.filter_congr
    intro n _
    rw [Bool.and_comm]

example : selectSheets [s%"b", s%"a", s%"c"] [s%"c", s%"b", s%"zz"] [none, some s%"b"] = [s%"c"] := rfl

theorem strLe_total (a b : Str) : strLe a b = true ∨ strLe b a = true := by
  induction a generalizing b with
  | nil => simp [strLe]
  | cons x xs ih =>
    cases b with
    | nil => simp [strLe]
    | cons y ys =>
      unfold strLe
      by_cases h : x = y
      · subst h; simpa using ih ys
      · have h' : ¬ y = x := fun e => h e.symm
        have : x.toNat ≠ y.toNat := fun e => h (Char.toNat_inj.1 e)
        simp [h, h']; omega

theorem strLe_iff (a b : Str) : strLe a b = true ↔ a = b ∨ NameLt a b := by
  induction a generalizing b with
  | nil => cases b <;> simp [strLe, NameLt]
  | cons x xs ih =>
    cases b with
    | nil => simp [strLe, NameLt]
    | cons y ys =>
      unfold strLe NameLt
      by_cases h : x = y
      · subst h; simp [ih]
      · simp [h]

theorem nameLt_trans {a b c : Str} (h1 : NameLt a b) (h2 : NameLt b c) : NameLt a c := by
  induction a generalizing b c with
  | nil =>
    cases b with
    | nil => cases h1
    | cons y ys => cases c with
      | nil => cases h2
      | cons => trivial
  | cons x xs ih =>
    cases b with
    | nil => cases h1
    | cons y ys =>
      cases c with
      | nil => cases h2
      | cons z zs =>
        rcases h1 with h1 | ⟨rfl, h1⟩ <;> rcases h2 with h2 | ⟨rfl, h2⟩
        · exact Or.inl (by omega)
        · exact Or.inl h1
        · exact Or.inl h2
        · exact Or.inr ⟨rfl, ih h1 h2⟩

theorem mem_insertName {x n : Str} {l : List Str} : n ∈ insertName x l ↔ n = x ∨ n ∈ l := by
  induction l with
  | nil => simp [insertName]
  | cons y r ih =>
    unfold insertName; split
    · simp
    · simp only [List.mem_cons, ih]; grind

theorem mem_sortNames {n : Str} {l : List Str} : n ∈ sortNames l ↔ n ∈ l := by
  induction l with
  | nil => simp [sortNames]
  | cons x r ih => simp [sortNames, mem_insertName, ih]

theorem insertName_sorted {x : Str} {l : List Str} (hl : l.Pairwise NameLt) (hx : x ∉ l) :
    (insertName x l).Pairwise NameLt := by
  induction l with
  | nil => simp [insertName]
  | cons y r ih =>
    have hxy : x ≠ y := by simp at hx; exact hx.1
    rw [List.pairwise_cons] at hl
    unfold insertName
    split
    · next h =>
      rw [strLe_iff] at h
      have h : NameLt x y := by rcases h with h | h; exact absurd h hxy; exact h
      refine List.pairwise_cons.2 ⟨?_, List.pairwise_cons.2 hl⟩
      intro n hn
      rcases List.mem_cons.1 hn with rfl | hn
      · exact h
      · exact nameLt_trans h (hl.1 n hn)
    · next h =>
      have h2 : NameLt y x := by
        rcases strLe_total x y with h' | h'
        · exact absurd h' h
        · rw [strLe_iff] at h'
          rcases h' with h' | h'
          · exact absurd h'.symm hxy
          · exact h'
      refine List.pairwise_cons.2 ⟨?_, ih hl.2 (by simp at hx; exact hx.2)⟩
      intro n hn
      rcases mem_insertName.1 hn with rfl | hn
      · exact h2
      · exact hl.1 n hn

theorem sortNames_sorted {l : List Str} (hl : l.Nodup) : (sortNames l).Pairwise NameLt := by
  induction l with
  | nil => exact List.Pairwise.nil
  | cons x r ih =>
    rw [List.nodup_cons] at hl
    exact insertName_sorted (ih hl.2) (fun h => hl.1 (mem_sortNames.1 h))

theorem nameLt_irrefl (a : Str) : ¬ NameLt a a := by
  induction a with
  | nil => exact id
  | cons x xs ih => rintro (h | ⟨_, h⟩); omega; exact ih h

theorem sorted_nodup {l : List Str} (h : l.Pairwise NameLt) : l.Nodup :=
  List.Pairwise.imp (S := (· ≠ ·)) (fun {a b} hab (e : a = b) => nameLt_irrefl a (by rw [← e] at hab; exact hab)) h

theorem removeFirst_nodup {x : Str} {l : List Str} (h : l.Nodup) : removeFirst x l = l.filter (· ≠ x) := by
  induction l with
  | nil => rfl
  | cons y r ih =>
    rw [List.nodup_cons] at h
    unfold removeFirst
    split
    · next e =>
      subst e
      simp only [List.filter_cons, ne_eq, not_true_eq_false, decide_false, Bool.false_eq_true, if_false]
      rw [List.filter_eq_self.2]
      intro a ha; simp; rintro rfl; exact h.1 ha
    · next e => simp [e, ih h.2]

theorem endsWith_iff (p s : Str) : Py.endsWith p s = true ↔ ∃ t, s = t ++ p := by
  unfold Py.endsWith
  rw [List.isPrefixOf_iff_prefix, List.reverse_prefix]
  constructor
  · rintro ⟨t, rfl⟩; exact ⟨t, rfl⟩
  · rintro ⟨t, rfl⟩; exact ⟨t, rfl⟩

/-- **C41 (CSV).** The sheets are the files `NAME.csv` of the directory, in ascending order of
name, each once: exactly those included (if an include list is given) and not excluded. -/
theorem C41_csv_selection (files incl : List Str) (excl : List (Option Str)) (hf : files.Nodup) :
    (selectCsv files incl excl).Pairwise NameLt ∧
    ∀ n, n ∈ selectCsv files incl excl ↔
      n ++ s%".csv" ∈ files ∧ (incl = [] ∨ n ∈ incl) ∧ some n ∉ excl := by
  let stem : Str → Str := fun f => f.take (f.length - 4)
  have hstem : ∀ t : Str, stem (t ++ s%".csv") = t := by
    intro t; simp [stem]
  have hmem : ∀ n, n ∈ (files.filter (Py.endsWith s%".csv")).map stem ↔ n ++ s%".csv" ∈ files := by
    intro n
    simp only [List.mem_map, List.mem_filter, endsWith_iff]
    constructor
    · rintro ⟨f, ⟨hf, t, rfl⟩, h⟩; rw [hstem] at h; subst h; exact hf
    · intro h; exact ⟨_, ⟨h, n, rfl⟩, hstem n⟩
  have hnod : ((files.filter (Py.endsWith s%".csv")).map stem).Nodup := by
    rw [List.nodup_iff_pairwise_ne, List.pairwise_map]
    have h1 : (files.filter (Py.endsWith s%".csv")).Nodup := hf.filter _
    refine List.Pairwise.imp_of_mem ?_ h1
    intro a b ha hb hab e
    obtain ⟨_, ha⟩ := List.mem_filter.1 ha
    obtain ⟨_, hb⟩ := List.mem_filter.1 hb
    obtain ⟨t, rfl⟩ := (endsWith_iff _ _).1 ha
    obtain ⟨u, rfl⟩ := (endsWith_iff _ _).1 hb
    rw [hstem, hstem] at e; exact hab (by rw [e])
  have hsort := sortNames_sorted hnod
  have fold : ∀ (ex : List (Option Str)) (l : List Str), l.Nodup →
      ex.foldl excludeFirst l =
        l.filter (fun n => !ex.contains (some n)) := by
    intro ex
    induction ex with
    | nil => intro l _; exact (List.filter_eq_self.2 (by simp)).symm
    | cons e r ih =>
      intro l hl
      rw [List.foldl_cons]
      cases e with
      | none => simp only [excludeFirst]; rw [ih _ hl]; simp
      | some x =>
        simp only [excludeFirst]
        rw [removeFirst_nodup hl, ih _ (hl.filter _), List.filter_filter]
        apply List.filter_congr
        intro n _
        simp
        grind
  have hsel : selectCsv files incl excl =
      (sortNames ((files.filter (Py.endsWith s%".csv")).map stem)).filter
        (fun n => (incl.isEmpty || incl.contains n) && !excl.contains (some n)) := by
    unfold selectCsv
    simp only
    rw [fold]
    · cases incl with
      | nil => simp [stem]
      | cons a r =>
        simp only [List.isEmpty_cons, Bool.false_eq_true, if_false, Bool.false_or, List.filter_filter]
        apply List.filter_congr
        intro n _
        rw [Bool.and_comm]
    · split
      · exact sorted_nodup hsort
      · exact (sorted_nodup hsort).filter _
  rw [hsel]
  refine ⟨hsort.filter _, ?_⟩
  intro n
  simp only [List.mem_filter, mem_sortNames, hmem]
  simp

example : selectCsv [s%"b.csv", s%"x.txt", s%"a.csv"] [] [none] = [s%"a", s%"b"] := by decide +kernel

/-! ### C42 -/

theorem dictOf_get {κ α : Type} [DecidableEq κ] (ps : List (κ × α)) (k : κ) :
    Dict.get (dictOf ps) k = Dict.get ps.reverse k := by
  unfold dictOf
  rw [Dict.get_update]; simp

theorem get_reverse_zip {κ α : Type} [DecidableEq κ] (ps : List (κ × α)) (k : κ) (v : α) :
    Dict.get ps.reverse k = some v ↔
      ∃ i : Nat, ps[i]? = some (k, v) ∧ ∀ (j : Nat) w, i < j → ps[j]? ≠ some (k, w) := by
  induction ps with
  | nil => simp
  | cons p r ih =>
    rw [List.reverse_cons, Dict.get_append]
    cases hr : Dict.get r.reverse k with
    | some w =>
      have := ih
      rw [hr] at this
      rw [Option.some_or, this]
      constructor
      · rintro ⟨i, h1, h2⟩
        refine ⟨i + 1, by simpa using h1, ?_⟩
        intro j w' hj
        cases j with
        | zero => omega
        | succ j => simpa using h2 j w' (by omega)
      · rintro ⟨i, h1, h2⟩
        cases i with
        | zero =>
          exfalso
          have hm := Dict.get_eq_some_mem hr
          rw [List.mem_reverse] at hm
          obtain ⟨j, hj⟩ := List.getElem?_of_mem hm
          exact h2 (j + 1) w (by omega) (by simpa using hj)
        | succ i =>
          refine ⟨i, by simpa using h1, ?_⟩
          intro j w' hj
          have := h2 (j + 1) w' (by omega)
          simpa using this
    | none =>
      have hnone : ∀ (j : Nat) w, r[j]? ≠ some (k, w) := by
        intro j w hj
        have hm : (k, w) ∈ r.reverse := by
          rw [List.mem_reverse]; exact List.mem_of_getElem? hj
        exact (Dict.get_none_iff.1 hr) (Dict.mem_keys_of_mem hm)
      simp only [Option.none_or]
      obtain ⟨k', v'⟩ := p
      rw [Dict.get_cons]
      by_cases hk : k' = k
      · subst hk
        simp only [if_true, Option.some.injEq]
        constructor
        · rintro rfl
          refine ⟨0, rfl, ?_⟩
          intro j w hj
          cases j with
          | zero => omega
          | succ j => simpa using hnone j w
        · rintro ⟨i, h1, h2⟩
          cases i with
          | zero => simp at h1; exact h1
          | succ i => exact absurd (by simpa using h1) (hnone i v)
      · simp only [hk, if_false]
        constructor
        · intro h; simp at h
        · rintro ⟨i, h1, _⟩
          cases i with
          | zero => simp at h1; exact absurd h1.1 hk
          | succ i => exact absurd (by simpa using h1) (hnone i v)

/-- XLSX and ODS: the value of a heading in a line is the value in the last column with
that heading. -/
theorem xlsxLine_last (cfg : SheetConfig) (header row : List Atom) (h : Str) (v : Atom)
    (hh : h ≠ []) (hc : cfg.hashcomments = false) (i : Nat)
    (hi : header[i]? = some (.str h)) (hlast : ∀ j a, i < j → header[j]? = some a → headingOf a ≠ some h)
    (hv : row[i]? = some v) :
    Dict.get (xlsxLine cfg header row) (some h) = some v := by
  unfold xlsxLine
  rw [dictOf_get, get_reverse_zip]
  refine ⟨i, ?_, ?_⟩
  · have hf : (Atom.str h).falsy = false := by
      cases h with
      | nil => exact absurd rfl hh
      | cons a x => simp [Atom.falsy, Atom.blank, Val.pyEq, Val.canon, Atom.canon, canonNum]
    have hz : (header.zip row)[i]? = some (.str h, v) := List.getElem?_zip_eq_some.2 ⟨hi, hv⟩
    rw [List.getElem?_map, hz]
    simp [headingOf, hf, hc, Py.str]
  · intro j w hj hjj
    simp only [List.getElem?_map, Option.map_eq_some_iff] at hjj
    obtain ⟨⟨a, b⟩, hab, hk⟩ := hjj
    have := (List.getElem?_zip_eq_some.1 hab).1
    exact hlast j a hj this (by simpa using (Prod.mk.inj hk).1)

/-- Likewise. -/
theorem csvLine_last (header row : List Str) (h v : Str) (hlen : row.length = header.length)
    (i : Nat) (hi : header[i]? = some h) (hlast : ∀ j, i < j → header[j]? ≠ some h) (hv : row[i]? = some v) :
    Dict.get (dictOf (header.map (fun f => (some f, (Dict.get (dictReaderRow header row) f).getD Atom.none))))
      (some h) = some (Atom.str v) := by
  have h1 : Dict.get (dictReaderRow header row) h = some (.str v) := by
    unfold dictReaderRow
    have : header.drop row.length = [] := by simp [hlen]
    rw [this]
    simp only [List.map_nil, Dict.update, List.foldl_nil]
    rw [dictOf_get, get_reverse_zip]
    have hz : (header.zip row)[i]? = some (h, v) := List.getElem?_zip_eq_some.2 ⟨hi, hv⟩
    refine ⟨i, by rw [List.getElem?_map, hz]; rfl, ?_⟩
    intro j w hj hjj
    simp only [List.getElem?_map, Option.map_eq_some_iff] at hjj
    obtain ⟨⟨a, b⟩, hab, hk⟩ := hjj
    have := (List.getElem?_zip_eq_some.1 hab).1
    have hk := (Prod.mk.inj hk).1
    simp only at hk
    subst hk
    exact hlast j hj this
  rw [dictOf_get, get_reverse_zip]
  refine ⟨i, by simp [hi, h1], ?_⟩
  intro j w hj hjj
  simp only [List.getElem?_map, Option.map_eq_some_iff] at hjj
  obtain ⟨a, ha, hk⟩ := hjj
  have hk := (Prod.mk.inj hk).1
  simp only [Option.some.injEq] at hk
  subst hk
  exact hlast j hj ha

theorem findHeadings_append (n i : Nat) (a b : List (Option Str)) (f : List (Str × List Nat)) :
    findHeadings n i (a ++ b) f = findHeadings n (i + a.length) b (findHeadings n i a f) := by
  induction a generalizing i f with
  | nil => simp [findHeadings]
  | cons x r ih =>
    cases x with
    | none =>
      simp only [List.cons_append, findHeadings, List.length_cons]
      rw [ih]; congr 1; omega
    | some h =>
      simp only [List.cons_append, findHeadings, List.length_cons]
      cases Dict.get f h <;> (simp only; rw [ih]; congr 1; omega)

/-- Positions in a list whose first element has number `off`. -/
def posFrom (h : Str) : Nat → List (Option Str) → List Nat
  | _, [] => []
  | off, x :: r => if x = some h then off :: posFrom h (off + 1) r else posFrom h (off + 1) r

theorem posFrom_eq (h : Str) (off : Nat) (hs : List (Option Str)) :
    posFrom h off hs = ((List.range' off hs.length).filter (fun i => hs[i - off]? = some (some h))) := by
  induction hs generalizing off with
  | nil => rfl
  | cons x r ih =>
    rw [posFrom, List.length_cons, List.range'_succ, List.filter_cons, ih]
    have : (List.range' (off + 1) r.length).filter (fun i => decide ((x :: r)[i - off]? = some (some h))) =
        (List.range' (off + 1) r.length).filter (fun i => decide (r[i - (off + 1)]? = some (some h))) := by
      apply List.filter_congr
      intro i hi
      rw [List.mem_range'_1] at hi
      have : i - off = (i - (off + 1)) + 1 := by omega
      rw [this, List.getElem?_cons_succ]
    rw [this]
    simp

theorem positions_eq (h : Str) (hs : List (Option Str)) : positions h hs = posFrom h 0 hs := by
  rw [posFrom_eq]; simp [positions, List.range_eq_range']

theorem posFrom_nil_iff (h : Str) (off : Nat) (hs : List (Option Str)) : posFrom h off hs = [] ↔ some h ∉ hs := by
  induction hs generalizing off with
  | nil => simp [posFrom]
  | cons x r ih =>
    unfold posFrom; split
    · next e => simp [e]
    · next e => simp [ih, Ne.symm e]

theorem mem_distinctByLast {h : Str} {hs : List (Option Str)} : h ∈ distinctByLast hs ↔ some h ∈ hs := by
  induction hs with
  | nil => simp [distinctByLast]
  | cons x r ih =>
    cases x with
    | none => simp [distinctByLast, ih]
    | some g =>
      unfold distinctByLast
      split
      · next e => simp only [ih, List.mem_cons, Option.some.injEq]; constructor
                  · exact Or.inr
                  · rintro (rfl | h'); exact e; exact h'
      · simp [ih]

theorem nodup_distinctByLast (hs : List (Option Str)) : (distinctByLast hs).Nodup := by
  induction hs with
  | nil => exact List.Pairwise.nil
  | cons x r ih =>
    cases x with
    | none => exact ih
    | some g =>
      unfold distinctByLast
      split
      · exact ih
      · next e => exact List.nodup_cons.2 ⟨fun h => e (mem_distinctByLast.1 h), ih⟩

theorem set_map_same {α : Type} (f g : Str → α) (l : List Str) (k : Str) (hk : k ∈ l) (hn : l.Nodup)
    (hfg : ∀ x ∈ l, x ≠ k → f x = g x) :
    Dict.set (l.map (fun x => (x, f x))) k (g k) = l.map (fun x => (x, g x)) := by
  induction l with
  | nil => simp at hk
  | cons y r ih =>
    rw [List.nodup_cons] at hn
    simp only [List.map_cons, Dict.set]
    by_cases e : y = k
    · subst e
      simp only [if_true, List.cons.injEq, true_and]
      apply List.map_congr_left
      intro x hx
      rw [hfg x (by simp [hx]) (by rintro rfl; exact hn.1 hx)]
    · simp only [e, if_false]
      rw [hfg y (by simp) e, ih (by simpa [Ne.symm e] using hk) hn.2 (fun x hx => hfg x (by simp [hx]))]

theorem findHeadings_spec (n : Nat) (suf : List (Option Str)) (off : Nat) (hn : off + suf.length = n) :
    ∃ g : Str → Nat, findHeadings n 0 suf.reverse [] =
      ((distinctByLast suf).reverse).map (fun h => (h, g h :: (posFrom h off suf).dropLast.reverse)) := by
  induction suf generalizing off with
  | nil => exact ⟨fun _ => 0, rfl⟩
  | cons x r ih =>
    obtain ⟨g, hg⟩ := ih (off + 1) (by simp at hn; omega)
    rw [List.reverse_cons, findHeadings_append, hg]
    cases x with
    | none =>
      refine ⟨g, ?_⟩
      simp [findHeadings, distinctByLast, posFrom]
    | some h =>
      have hpos : ∀ k, posFrom k off (some h :: r) = if h = k then off :: posFrom k (off + 1) r else posFrom k (off + 1) r := by
        intro k; simp [posFrom]
      simp only [findHeadings]
      by_cases hin : some h ∈ r
      · have hmem : h ∈ (distinctByLast r).reverse := by simpa using mem_distinctByLast.2 hin
        have hnod : ((distinctByLast r).reverse).Nodup := by
          have := nodup_distinctByLast r
          unfold List.Nodup at *
          rw [List.pairwise_reverse]; exact this.imp (fun h => Ne.symm h)
        have hget : Dict.get (((distinctByLast r).reverse).map
            (fun k => (k, g k :: (posFrom k (off + 1) r).dropLast.reverse))) h =
            some (g h :: (posFrom h (off + 1) r).dropLast.reverse) := by
          apply Dict.get_of_mem
          · simpa [Dict.keys, Function.comp_def] using hnod
          · exact List.mem_map.2 ⟨h, hmem, rfl⟩
        refine ⟨g, ?_⟩
        rw [hget]
        simp only
        have hd : distinctByLast (some h :: r) = distinctByLast r := by simp [distinctByLast, hin]
        rw [hd]
        have hcol : n - (0 + r.reverse.length) - 1 = off := by simp at hn ⊢; omega
        rw [hcol]
        have hval : (g h :: (posFrom h (off + 1) r).dropLast.reverse) ++ [off] =
            g h :: (posFrom h off (some h :: r)).dropLast.reverse := by
          rw [hpos, if_pos rfl]
          have hne : posFrom h (off + 1) r ≠ [] := by rw [Ne, posFrom_nil_iff]; simpa using hin
          rw [List.dropLast_cons_of_ne_nil hne]
          simp
        rw [hval]
        apply set_map_same _ (fun k => g k :: (posFrom k off (some h :: r)).dropLast.reverse) _ _ hmem hnod
        intro k _ hk
        rw [hpos, if_neg (Ne.symm hk)]
      · have hget : Dict.get (((distinctByLast r).reverse).map
            (fun k => (k, g k :: (posFrom k (off + 1) r).dropLast.reverse))) h = none := by
          rw [Dict.get_none_iff]
          simp [Dict.keys, Function.comp_def, mem_distinctByLast, hin]
        refine ⟨fun k => if k = h then 0 + r.reverse.length else g k, ?_⟩
        rw [hget]
        simp only
        have hd : distinctByLast (some h :: r) = h :: distinctByLast r := by simp [distinctByLast, hin]
        rw [Dict.set_of_get_none _ _ _ hget, hd, List.reverse_cons, List.map_append]
        congr 1
        · apply List.map_congr_left
          intro k hk
          have hk : some k ∈ r := by simpa [mem_distinctByLast] using hk
          have hkh : k ≠ h := by rintro rfl; exact hin hk
          rw [hpos, if_neg (Ne.symm hkh), if_neg hkh]
        · have : posFrom h (off + 1) r = [] := (posFrom_nil_iff _ _ _).2 hin
          rw [List.map_cons, List.map_nil, hpos, if_pos rfl, this]; simp

theorem filterMap_map' {α β γ : Type} (f : α → β) (g : β → Option γ) (l : List α) :
    (l.map f).filterMap g = l.filterMap (fun a => g (f a)) := by
  rw [List.filterMap_map]; rfl

/-- Exactly one warning for every heading that occurs in several columns, listing
exactly all its columns but the last, in order; no other heading is reported. -/
theorem headingWarns_eq (sheet : Str) (hs : List (Option Str)) :
    headingWarns sheet hs =
      (distinctByLast hs).filterMap (fun h =>
        if 2 ≤ (positions h hs).length then some (.dupHeading h (positions h hs).dropLast sheet) else none) := by
  obtain ⟨g, hg⟩ := findHeadings_spec hs.length hs 0 (by simp)
  unfold headingWarns
  rw [hg, ← List.map_reverse, List.reverse_reverse, filterMap_map']
  congr 1
  funext h
  simp only [positions_eq, List.tail_cons, List.reverse_reverse, List.length_cons, List.length_reverse, List.length_dropLast]
  by_cases h2 : 2 ≤ (posFrom h 0 hs).length
  · simp [h2]; omega
  · simp [h2]; omega

example : headingWarns s%"s" [some s%"a", some s%"b", some s%"a", none, some s%"a"] =
    [.dupHeading s%"a" [0, 2] s%"s"] := by
  rw [headingWarns_eq]; rfl

/-! ### C43 -/

/-- How a text cell is stored in XLSX and ODS files: an empty one is no value at all. -/
def cellOf (s : Str) : Atom := if s = [] then .none else .str s

/-- The same value with the empty text replaced by no value. -/
def blankNone (a : Atom) : Atom := if a.blank then .none else a

/-- A text layout as XLSX/ODS cells. -/
def Layout.cells (L : Layout (List Str)) : Layout (List Atom) :=
  { conf := L.conf, skipped := L.skipped.map (·.map cellOf), header := L.header.map cellOf,
    extra := L.extra.map (·.map cellOf), data := L.data.map (·.map cellOf) }

theorem dictOf_map {κ α β : Type} [DecidableEq κ] (f : α → β) (ps : List (κ × α)) :
    (dictOf ps).map (fun p => (p.1, f p.2)) = dictOf (ps.map (fun p => (p.1, f p.2))) := by
  have hset : ∀ (d : List (κ × α)) k v, (Dict.set d k v).map (fun p => (p.1, f p.2)) =
      Dict.set (d.map (fun p => (p.1, f p.2))) k (f v) := by
    intro d k v
    induction d with
    | nil => rfl
    | cons p r ih =>
      obtain ⟨k', v'⟩ := p
      simp only [Dict.set, List.map_cons]
      by_cases e : k' = k <;> simp [e, ih]
  have : ∀ (ps d : List (κ × α)), (Dict.update d ps).map (fun p => (p.1, f p.2)) =
      Dict.update (d.map (fun p => (p.1, f p.2))) (ps.map (fun p => (p.1, f p.2))) := by
    intro ps
    induction ps with
    | nil => intro d; rfl
    | cons p r ih =>
      intro d
      have hu : ∀ {α : Type} (d : List (κ × α)) p r, Dict.update d (p :: r) = Dict.update (Dict.set d p.1 p.2) r := fun _ _ _ => rfl
      rw [hu, ih, List.map_cons, hu, hset]
  exact this ps []

theorem set_fst {κ α β : Type} [DecidableEq κ] (g : κ → β) :
    ∀ (d : List (κ × α)) k v, ((Dict.set d k v).map (fun p => (p.1, g p.1))) =
      Dict.set (d.map (fun p => (p.1, g p.1))) k (g k) := by
  intro d k v
  induction d with
  | nil => rfl
  | cons p r ih =>
    obtain ⟨k', v'⟩ := p
    simp only [Dict.set, List.map_cons]
    by_cases e : k' = k
    · subst e; simp
    · simp [e, ih]

/-- A dict from pairs is its keys (first occurrences) with the looked up values. -/
theorem dictOf_keys_get {κ α : Type} [DecidableEq κ] (ps : List (κ × α)) (dflt : α) :
    dictOf ps = dictOf (ps.map (fun p => (p.1, (Dict.get ps.reverse p.1).getD dflt))) := by
  have hkeys : ∀ (g : κ → α) (ps d : List (κ × α)), (Dict.update d ps).map (fun p => (p.1, g p.1)) =
      Dict.update (d.map (fun p => (p.1, g p.1))) (ps.map (fun p => (p.1, g p.1))) := by
    intro g ps
    induction ps with
    | nil => intro d; rfl
    | cons p r ih =>
      intro d
      have hu : ∀ (d : List (κ × α)) p r, Dict.update d (p :: r) = Dict.update (Dict.set d p.1 p.2) r := fun _ _ _ => rfl
      rw [hu, ih, List.map_cons, hu, set_fst]
  have h := hkeys (fun k => (Dict.get ps.reverse k).getD dflt) ps []
  simp only [List.map_nil] at h
  unfold dictOf
  rw [← h]
  have hn : (Dict.keys (Dict.update ([] : List (κ × α)) ps)).Nodup := Dict.nodup_keys_update ps List.Pairwise.nil
  conv => lhs; rw [← List.map_id (Dict.update [] ps)]
  apply List.map_congr_left
  rintro ⟨k, v⟩ hm
  have := Dict.get_of_mem hn hm
  have h2 := dictOf_get ps k
  unfold dictOf at h2
  rw [this] at h2
  simp [← h2]

theorem blankNone_str (s : Str) : blankNone (.str s) = cellOf s := by cases s <;> rfl

/-- **C43.** The same rectangular text grid (with the same configuration, no hash comments, and
no empty heading) read from CSV, XLSX and ODS: the same headings; and the same lines, up to empty
texts being no value, and up to ODS leaving out lines without any value. -/
theorem C43_formats_agree (rc : ReadCfg) (name : Str) (w : Nat) (L : Layout (List Str))
    (h : L.Fits rc hashRow) (hv : rc.vertical = false) (hh : (L.config rc).hashcomments = false)
    (hne : L.header ≠ []) (hhead : ∀ x ∈ L.header, x ≠ [])
    (hrect : ∀ r ∈ L.data, r.length = L.header.length) :
    ∃ c x o, csvSheet rc name (L.rows id) = .ok c ∧
      xlsxSheet rc name { width := w, rows := L.cells.rows (·.map Atom.str) } = .ok x ∧
      odsSheet rc name (L.cells.rows (·.map Atom.str)) = .ok o ∧
      c.headings = x.headings ∧ o.headings = x.headings ∧
      x.lines = c.lines.map (fun l => l.map (fun p => (p.1, blankNone p.2))) ∧
      o.lines = x.lines.filter (fun l => !l.all (fun kv => kv.2 == .none)) := by
  have hcell : ∀ s, cellOf s = Atom.str s%"#" ↔ s = s%"#" := by
    intro s; unfold cellOf; split
    · next e => subst e; simp
    · simp
  have hfit : L.cells.Fits rc hashRowA := by
    refine ⟨?_, ?_, h.conf, ?_, h.keep⟩
    · have : L.cells.skipped.length = L.skipped.length := by simp [Layout.cells]
      rw [this]; exact h.skip
    · have : L.cells.extra.length = L.extra.length := by simp [Layout.cells]
      rw [this]; exact h.hdrs
    · intro hc
      have := h.noconf hc
      have e : (L.cells.skipped ++ [L.cells.header]).headD L.cells.header =
          ((L.skipped ++ [L.header]).headD L.header).map cellOf := by
        simp only [Layout.cells]
        cases L.skipped <;> simp
      rw [e]
      cases hx : (L.skipped ++ [L.header]).headD L.header with
      | nil => rfl
      | cons a t =>
        rw [hx] at this
        simp only [hashRow, decide_eq_false_iff_not] at this
        simp [hashRowA, hcell, this]
  have hcfg : L.cells.config rc = L.config rc := rfl
  have hdata : L.data.filter (· ≠ []) = L.data := by
    rw [List.filter_eq_self]
    intro r hr
    have := hrect r hr
    have h0 : 0 < L.header.length := by
      cases hx : L.header with
      | nil => exact absurd hx hne
      | cons => simp
    cases r with
    | nil => simp at this; omega
    | cons => simp
  refine ⟨_, _, _, csv_layout rc name L h hne, xlsx_layout rc name w L.cells hfit hv (fun h => by rw [hcfg, hh] at h; cases h),
    ods_layout rc name L.cells hfit hv (fun h => by rw [hcfg, hh] at h; cases h) (by simpa [Layout.cells] using hne), ?_, rfl, ?_, rfl⟩
  · simp only [Layout.cells, List.map_map]
    congr 1
    apply List.map_congr_left
    intro x hx
    simp [headingOf, cellOf, hhead x hx, Py.str]
  · simp only [hdata, List.map_map, Layout.cells]
    apply List.map_congr_left
    intro row hrow
    simp only [Function.comp]
    rw [dictOf_map, List.map_map]
    unfold xlsxLine
    have hlen := hrect row hrow
    have hget : ∀ f, Dict.get (dictReaderRow L.header row) f =
        Dict.get (((L.header.zip row).map (fun p => (p.1, Atom.str p.2))).reverse) f := by
      intro f
      unfold dictReaderRow
      have : L.header.drop row.length = [] := by simp [hlen]
      rw [this]
      simp only [List.map_nil, Dict.update, List.foldl_nil]
      rw [dictOf_get]
    -- the XLSX pairs
    have hp : ((L.header.map cellOf).zip (row.map cellOf)).map (fun (h, v) =>
        (headingOf h, if h.falsy then Atom.none
          else match h with
            | .str s => if (L.cells.config rc).hashcomments && Py.startsWith s%"#" s then Atom.none else v
            | _ => v)) =
        (L.header.zip row).map (fun p => (some p.1, cellOf p.2)) := by
      rw [List.zip_map, List.map_map]
      apply List.map_congr_left
      rintro ⟨a, b⟩ hab
      have ha : a ≠ [] := hhead a (List.of_mem_zip hab).1
      have hf : (Atom.str a).falsy = false := by
        cases a with
        | nil => exact absurd rfl ha
        | cons a x => simp [Atom.falsy, Atom.blank, Val.pyEq, Val.canon, Atom.canon, canonNum]
      have hca : cellOf a = .str a := by simp [cellOf, ha]
      simp [hca, headingOf, hf, Py.str, hcfg, hh]
    have hz : L.header = (L.header.zip row).map (·.1) := by
      rw [List.map_fst_zip (by omega)]
    have goal : dictOf ((L.header.zip row).map (fun p => (some p.1, cellOf p.2))) =
        dictOf (L.header.map (fun f => (some f, blankNone ((Dict.get (dictReaderRow L.header row) f).getD Atom.none)))) := by
      rw [dictOf_keys_get _ Atom.none]
      conv => rhs; rw [hz]
      rw [List.map_map, List.map_map]
      congr 1
      apply List.map_congr_left
      rintro ⟨a, b⟩ _
      simp only [Function.comp, ← hz]
      congr 1
      rw [hget]
      have h1 : ((L.header.zip row).map (fun p => (some p.1, cellOf p.2))).reverse =
          (((L.header.zip row).map (fun p => (p.1, Atom.str p.2))).reverse).map (fun q => (some q.1, blankNone q.2)) := by
        rw [← List.map_reverse, ← List.map_reverse, List.map_map]
        apply List.map_congr_left
        rintro ⟨x, y⟩ _
        simp [blankNone_str]
      rw [h1]
      have h2 : ∀ (d : List (Str × Atom)) k, Dict.get (d.map (fun q => (some q.1, blankNone q.2))) (some k) =
          (Dict.get d k).map blankNone := by
        intro d k
        induction d with
        | nil => rfl
        | cons q r ih =>
          obtain ⟨k', v'⟩ := q
          simp only [List.map_cons, Dict.get_cons, Option.some.injEq]
          by_cases e : k' = k <;> simp [e, ih]
      rw [h2]
      cases Dict.get _ a <;> rfl
    exact (congrArg dictOf hp).trans goal

example : (xlsxSheet {} s%"s" { width := 2, rows := exLayout.cells.rows (·.map Atom.str) }).toOption.map (·.lines) =
    some [[(some s%"id", .str s%"1"), (some s%"a", .str s%"x")], [(some s%"id", .str s%"2"), (some s%"a", .str s%"y")]] := by
  decide +kernel

end Verif

import Verif.Spec.Main
import Verif.Props.Readers
import Verif.Props.SourceMaps
/-! Lemmas about the functions as a whole. -/
namespace Verif
open Spec Api

/-! ### Dicts -/

theorem set_comm_of_mem {κ α : Type} [DecidableEq κ] {d : List (κ × α)} {k k' : κ} {v v' : α} (hne : k ≠ k') (hk : k ∈ Dict.keys d) :
    Dict.set (Dict.set d k' v') k v = Dict.set (Dict.set d k v) k' v' := by
  induction d with
  | nil => simp [Dict.keys] at hk
  | cons e r ih =>
    obtain ⟨a, x⟩ := e
    by_cases h1 : a = k
    · subst h1
      simp [Dict.set, hne]
    · have hk' : k ∈ Dict.keys r := by
        simp only [Dict.keys, List.map_cons, List.mem_cons] at hk
        rcases hk with e | e
        · exact absurd e.symm h1
        · exact e
      by_cases h2 : a = k'
      · subst h2; simp [Dict.set, h1]
      · simp [Dict.set, h1, h2, ih hk']

theorem set_update_of_mem {κ α : Type} [DecidableEq κ] {k : κ} {v : α} : ∀ {r a : List (κ × α)}, k ∈ Dict.keys a → k ∉ Dict.keys r →
    Dict.set (Dict.update a r) k v = Dict.update (Dict.set a k v) r
  | [], _, _, _ => rfl
  | (k1, v1) :: r, a, ha, hr => by
    have h1 : k ≠ k1 := by rintro rfl; exact hr (by simp [Dict.keys])
    have h2 : k ∉ Dict.keys r := fun h => hr (by simp only [Dict.keys, List.map_cons, List.mem_cons]; exact Or.inr h)
    have := set_update_of_mem (v := v) (r := r) (a := Dict.set a k1 v1) (Dict.mem_keys_set.2 (Or.inr ha)) h2
    show Dict.set (Dict.update (Dict.set a k1 v1) r) k v = Dict.update (Dict.set (Dict.set a k v) k1 v1) r
    rw [this, set_comm_of_mem h1 ha]

theorem update_set {κ α : Type} [DecidableEq κ] {k : κ} {v : α} : ∀ {d a : List (κ × α)}, (Dict.keys d).Nodup →
    Dict.update a (Dict.set d k v) = Dict.set (Dict.update a d) k v
  | [], _, _ => rfl
  | (k1, v1) :: r, a, hd => by
    have hd' : k1 ∉ Dict.keys r ∧ (Dict.keys r).Nodup := List.nodup_cons.1 hd
    by_cases h : k1 = k
    · subst h
      have e : Dict.set ((k1, v1) :: r) k1 v = (k1, v) :: r := by simp [Dict.set]
      rw [e]
      show Dict.update (Dict.set a k1 v) r = Dict.set (Dict.update (Dict.set a k1 v1) r) k1 v
      rw [set_update_of_mem (Dict.mem_keys_set.2 (Or.inl rfl)) hd'.1]
      congr 1
      clear hd hd' e
      induction a with
      | nil => simp [Dict.set]
      | cons e a ih =>
        obtain ⟨b, x⟩ := e
        by_cases hb : b = k1 <;> simp [Dict.set, hb, ih]
    · have e : Dict.set ((k1, v1) :: r) k v = (k1, v1) :: Dict.set r k v := by simp [Dict.set, h]
      rw [e]
      show Dict.update (Dict.set a k1 v1) (Dict.set r k v) = Dict.set (Dict.update (Dict.set a k1 v1) r) k v
      exact update_set hd'.2

theorem update_update {κ α : Type} [DecidableEq κ] (a : List (κ × α)) : ∀ (m d : List (κ × α)), (Dict.keys d).Nodup →
    Dict.update a (Dict.update d m) = Dict.update (Dict.update a d) m
  | [], _, _ => rfl
  | (k, v) :: m, d, hd => by
    show Dict.update a (Dict.update (Dict.set d k v) m) = Dict.update (Dict.set (Dict.update a d) k v) m
    rw [update_update a m _ (Dict.nodup_keys_set k v hd), update_set hd]

theorem update_dictOf {κ α : Type} [DecidableEq κ] (a m : List (κ × α)) : Dict.update a (Dict.update [] m) = Dict.update a m :=
  update_update a m [] (by simp [Dict.keys])

/-! ### Inversion -/

theorem run_full {o : UnOpts} {env : Env} {out : UnOut} (hm : (o.metatabOnly && !o.rootIsList) = false) :
    runUnflatten o env = .ok out ↔
      unflattenChecks o.inputFormat o.metatabName o.baseJson = .ok () ∧ o.inputFormat = some env.input.format ∧
      ∃ s m doc d, stage1 o env = .ok s ∧ mainPass o env s.config (rootPathOf o s.config) (idNameOf o s.config) = .ok m ∧
        addResult o (rootPathOf o s.config) s.base m.result = .ok doc ∧
        render o env s.config (rootPathOf o s.config) doc = .ok d ∧
        out = { document := d, cellMap := Dict.update s.md.cells m.cells,
                headingMap := Dict.update s.md.headings m.headings, warns := s.md.warns ++ m.warns,
                schemaWarns := s.md.schemaWarns ++ m.schemaWarns } := by
  constructor
  · intro h
    unfold runUnflatten at h
    split at h
    · cases h
    · next h1 =>
      split at h
      · cases h
      · next h2 =>
        refine ⟨h1, Classical.not_not.1 h2, ?_⟩
        split at h
        · cases h
        · next s h3 =>
          rw [hm] at h
          simp only [Bool.false_eq_true, if_false] at h
          split at h
          · cases h
          · next m h4 =>
            split at h
            · cases h
            · next doc h5 =>
              split at h
              · cases h
              · next d h6 =>
                injection h with h
                exact ⟨s, m, doc, d, h3, h4, h5, h6, h.symm⟩
  · rintro ⟨h1, h2, s, m, doc, d, h3, h4, h5, h6, rfl⟩
    unfold runUnflatten
    rw [h1]
    simp only [h2, h3, h4, h5, h6, hm, ne_eq, not_true_eq_false, if_false, Bool.false_eq_true]

theorem run_metaOnly {o : UnOpts} {env : Env} {out : UnOut} (hm : (o.metatabOnly && !o.rootIsList) = true) :
    runUnflatten o env = .ok out ↔
      unflattenChecks o.inputFormat o.metatabName o.baseJson = .ok () ∧ o.inputFormat = some env.input.format ∧
      ∃ s d, stage1 o env = .ok s ∧ render o env s.config (rootPathOf o s.config) s.base = .ok d ∧
        out = { document := d, cellMap := s.md.cells, headingMap := s.md.headings, warns := s.md.warns,
                schemaWarns := s.md.schemaWarns } := by
  constructor
  · intro h
    unfold runUnflatten at h
    split at h
    · cases h
    · next h1 =>
      split at h
      · cases h
      · next h2 =>
        refine ⟨h1, Classical.not_not.1 h2, ?_⟩
        split at h
        · cases h
        · next s h3 =>
          try rw [hm] at h
          try simp only [if_true] at h
          split at h
          · cases h
          · next d h6 =>
            injection h with h
            exact ⟨s, d, h3, h6, h.symm⟩
  · rintro ⟨h1, h2, s, d, h3, h6, rfl⟩
    unfold runUnflatten
    rw [h1]
    simp only [h2, h3, h6, hm, ne_eq, not_true_eq_false, if_false, if_true]

theorem stage1_plain {o : UnOpts} {env : Env} (h : given o.metatabName = none ∨ o.rootIsList = true) :
    stage1 o env = .ok { base := baseDocument o env, config := defaultConfiguration o.defaultConfig } := by
  unfold stage1
  simp only
  rcases h with h | h
  · rw [h]
  · cases given o.metatabName <;> simp [h]

theorem stage1_meta {o : UnOpts} {env : Env} {name : Str} {s : Stage} (h : given o.metatabName = some name) (hr : o.rootIsList = false) :
    stage1 o env = .ok s ↔ ∃ m own base, metaPass o env name = .ok m ∧ metaConfig env name = .ok own ∧
      addMeta (baseDocument o env) m.result = .ok base ∧
      s = { base, config := SheetConfig.update (defaultConfiguration o.defaultConfig) own,
            md := { m with cells := stripKeys 7 m.cells, headings := stripKeys 5 m.headings } } := by
  constructor
  · intro h0
    unfold stage1 at h0
    simp only [h, hr, Bool.false_eq_true, if_false] at h0
    split at h0
    · cases h0
    · next m h1 =>
      split at h0
      · cases h0
      · next own h2 =>
        split at h0
        · cases h0
        · next b h3 =>
          injection h0 with h0
          exact ⟨m, own, b, h1, h2, h3, h0.symm⟩
  · rintro ⟨m, own, b, h1, h2, h3, rfl⟩
    unfold stage1
    simp only [h, hr, h1, h2, h3, Bool.false_eq_true, if_false]

theorem update_empty (c : SheetConfig) : SheetConfig.update c {} = c := by
  cases c; rfl

theorem given_some {o : Option Str} {n : Str} : given o = some n ↔ o = some n ∧ n ≠ [] := by
  unfold given
  cases o with
  | none => simp
  | some t =>
    simp only [Option.filter_some]
    split
    · next h => simp only [Option.some.injEq]; constructor
                · rintro rfl; exact ⟨rfl, by simpa using h⟩
                · exact And.left
    · next h => simp only [Option.some.injEq, reduceCtorEq, false_iff, not_and]; rintro rfl; simpa using h

theorem given_none {o : Option Str} : given o = none ↔ o.getD [] = [] := by
  unfold given
  cases o with
  | none => simp
  | some t => simp [Option.filter_some]

/-! ### Selecting sheets -/

theorem sorted_ext {l m : List Str} (hl : l.Pairwise NameLt) (hm : m.Pairwise NameLt) (h : ∀ n, n ∈ l ↔ n ∈ m) : l = m := by
  induction l generalizing m with
  | nil =>
    cases m with
    | nil => rfl
    | cons a r => exact absurd ((h a).2 (by simp)) (by simp)
  | cons a l ih =>
    cases m with
    | nil => exact absurd ((h a).1 (by simp)) (by simp)
    | cons b m =>
      rw [List.pairwise_cons] at hl hm
      have hab : a = b := by
        rcases List.mem_cons.1 ((h a).1 (by simp)) with e | e
        · exact e
        · rcases List.mem_cons.1 ((h b).2 (by simp)) with e' | e'
          · exact e'.symm
          · exact absurd (nameLt_trans (hl.1 b e') (hm.1 a e)) (nameLt_irrefl a)
      subst hab
      refine congrArg _ (ih hl.2 hm.2 ?_)
      intro n
      constructor
      · intro hn
        rcases List.mem_cons.1 ((h n).1 (by simp [hn])) with e | e
        · subst e; exact absurd (hl.1 n hn) (nameLt_irrefl n)
        · exact e
      · intro hn
        rcases List.mem_cons.1 ((h n).2 (by simp [hn])) with e | e
        · subst e; exact absurd (hm.1 n hn) (nameLt_irrefl n)
        · exact e

theorem csvName_inj {a b : Str} (h : a ++ s%".csv" = b ++ s%".csv") : a = b := List.append_cancel_right h

theorem map_filter_fst {α : Type} (p : Str → Bool) (l : List (Str × α)) :
    (l.filter (fun f => p f.1)).map (·.1) = (l.map (·.1)).filter p := by
  rw [List.filter_map]; rfl

theorem select_only (i : Input) (M : Str) (hd : DistinctSheets i) : (onlySheet M i).select [M] [] = i.select [M] [] := by
  cases i with
  | csv files =>
    simp only [onlySheet, Input.select, DistinctSheets] at *
    rw [map_filter_fst (fun n => decide (n = M ++ s%".csv"))]
    obtain ⟨a1, a2⟩ := C41_csv_selection (files.map Prod.fst) [M] [] hd
    obtain ⟨b1, b2⟩ := C41_csv_selection ((files.map Prod.fst).filter (fun n => decide (n = M ++ s%".csv"))) [M] [] (hd.filter _)
    apply sorted_ext b1 a1
    intro n
    rw [a2, b2]
    simp only [List.mem_filter, decide_eq_true_eq, List.cons_ne_self, List.mem_singleton, false_or, reduceCtorEq]
    constructor
    · rintro ⟨⟨h1, h2⟩, h3, h4⟩; exact ⟨h1, h3, h4⟩
    · rintro ⟨h1, h3, h4⟩; exact ⟨⟨h1, by rw [h3]⟩, h3, h4⟩
  | xlsx sheets =>
    simp only [onlySheet, Input.select, selectSheets, map_filter_fst (fun n => decide (n = M)), List.isEmpty_cons, Bool.false_eq_true, if_false, List.foldl_nil, List.filter_filter]
    apply List.filter_congr
    intro n _
    by_cases h : n = M <;> simp [h]
  | ods sheets =>
    simp only [onlySheet, Input.select, selectSheets, map_filter_fst (fun n => decide (n = M)), List.isEmpty_cons, Bool.false_eq_true, if_false, List.foldl_nil, List.filter_filter]
    apply List.filter_congr
    intro n _
    by_cases h : n = M <;> simp [h]

theorem select_without (i : Input) (M : Str) (hd : DistinctSheets i) : (withoutSheet M i).select [] [none] = i.select [] [some M] := by
  cases i with
  | csv files =>
    simp only [withoutSheet, Input.select, DistinctSheets] at *
    rw [map_filter_fst (fun n => decide (n ≠ M ++ s%".csv"))]
    obtain ⟨a1, a2⟩ := C41_csv_selection (files.map Prod.fst) [] [some M] hd
    obtain ⟨b1, b2⟩ := C41_csv_selection ((files.map Prod.fst).filter (fun n => decide (n ≠ M ++ s%".csv"))) [] [none] (hd.filter _)
    apply sorted_ext b1 a1
    intro n
    rw [a2, b2]
    simp only [List.mem_filter, decide_eq_true_eq, true_or, true_and, List.mem_singleton, reduceCtorEq, not_false_eq_true, and_true, Option.some.injEq]
    exact and_congr_right (fun _ => not_congr ⟨fun h => csvName_inj h, fun h => by rw [h]⟩)
  | xlsx sheets =>
    simp only [withoutSheet, Input.select, selectSheets, map_filter_fst (fun n => decide (n ≠ M)), List.isEmpty_nil, if_true, List.foldl_cons, List.foldl_nil, excludeAll]
  | ods sheets =>
    simp only [withoutSheet, Input.select, selectSheets, map_filter_fst (fun n => decide (n ≠ M)), List.isEmpty_nil, if_true, List.foldl_cons, List.foldl_nil, excludeAll]

theorem get_filter_key {α : Type} (p : Str → Bool) (k : Str) (hk : p k = true) (l : List (Str × α)) :
    Dict.get (l.filter (fun f => p f.1)) k = Dict.get l k := by
  induction l with
  | nil => rfl
  | cons e r ih =>
    obtain ⟨a, v⟩ := e
    by_cases hp : p a = true
    · rw [List.filter_cons_of_pos (by simpa using hp), Dict.get_cons, Dict.get_cons, ih]
    · rw [List.filter_cons_of_neg (by simpa using hp), Dict.get_cons, ih, if_neg]
      rintro rfl; exact hp hk

theorem sheet_only (i : Input) (M : Str) (rc : ReadCfg) : (onlySheet M i).sheet rc M = i.sheet rc M := by
  cases i with
  | csv files => simp only [onlySheet, Input.sheet]; rw [get_filter_key (fun n => decide (n = M ++ s%".csv")) _ (by simp)]
  | xlsx sheets => simp only [onlySheet, Input.sheet]; rw [get_filter_key (fun n => decide (n = M)) _ (by simp)]
  | ods sheets => simp only [onlySheet, Input.sheet]; rw [get_filter_key (fun n => decide (n = M)) _ (by simp)]

theorem config_only (i : Input) (M : Str) : (onlySheet M i).config M = i.config M := by
  cases i with
  | csv files => simp only [onlySheet, Input.config]; rw [get_filter_key (fun n => decide (n = M ++ s%".csv")) _ (by simp)]
  | xlsx sheets => simp only [onlySheet, Input.config]; rw [get_filter_key (fun n => decide (n = M)) _ (by simp)]
  | ods sheets => simp only [onlySheet, Input.config]; rw [get_filter_key (fun n => decide (n = M)) _ (by simp)]

theorem sheet_without (i : Input) (M n : Str) (h : n ≠ M) (rc : ReadCfg) : (withoutSheet M i).sheet rc n = i.sheet rc n := by
  cases i with
  | csv files =>
    simp only [withoutSheet, Input.sheet]
    rw [get_filter_key (fun n => decide (n ≠ M ++ s%".csv")) _ (by simpa using h)]
  | xlsx sheets => simp only [withoutSheet, Input.sheet]; rw [get_filter_key (fun n => decide (n ≠ M)) _ (by simpa using h)]
  | ods sheets => simp only [withoutSheet, Input.sheet]; rw [get_filter_key (fun n => decide (n ≠ M)) _ (by simpa using h)]

theorem mapE_congr {α β : Type} {f g : α → Except Err β} : ∀ {l : List α}, (∀ a ∈ l, f a = g a) → Api.mapE f l = Api.mapE g l
  | [], _ => rfl
  | a :: r, h => by
    rw [Api.mapE, Api.mapE, h a (by simp), mapE_congr (fun b hb => h b (by simp [hb]))]

theorem select_incl (i : Input) (M n : Str) (hd : DistinctSheets i) (h : n ∈ i.select [M] []) : n = M := by
  cases i with
  | csv files => simpa using (((C41_csv_selection (files.map Prod.fst) [M] [] hd).2 n).1 h).2.1
  | xlsx sheets => simp only [Input.select, selectSheets, List.isEmpty_cons, Bool.false_eq_true, if_false, List.foldl_nil, List.mem_filter] at h; simpa using h.2
  | ods sheets => simp only [Input.select, selectSheets, List.isEmpty_cons, Bool.false_eq_true, if_false, List.foldl_nil, List.mem_filter] at h; simpa using h.2

theorem select_excl (i : Input) (M n : Str) (hd : DistinctSheets i) (h : n ∈ i.select [] [some M]) : n ≠ M := by
  cases i with
  | csv files =>
    have := (((C41_csv_selection (files.map Prod.fst) [] [some M] hd).2 n).1 h).2.2
    simpa using this
  | xlsx sheets =>
    simp only [Input.select, selectSheets, List.isEmpty_nil, if_true, List.foldl_cons, List.foldl_nil, excludeAll, List.mem_filter] at h
    simpa using h.2
  | ods sheets =>
    simp only [Input.select, selectSheets, List.isEmpty_nil, if_true, List.foldl_cons, List.foldl_nil, excludeAll, List.mem_filter] at h
    simpa using h.2

theorem read_only (i : Input) (M : Str) (hd : DistinctSheets i) (rc : ReadCfg) : (onlySheet M i).read rc [M] [] = i.read rc [M] [] := by
  unfold Input.read
  rw [select_only i M hd]
  apply mapE_congr
  intro n hn
  rw [select_incl i M n hd hn]
  exact sheet_only i M rc

theorem read_without (i : Input) (M : Str) (hd : DistinctSheets i) (rc : ReadCfg) :
    (withoutSheet M i).read rc [] [none] = i.read rc [] [some M] := by
  unfold Input.read
  rw [select_without i M hd]
  exact mapE_congr (fun n hn => sheet_without i M n (select_excl i M n hd hn) rc)

theorem format_only (i : Input) (M : Str) : (onlySheet M i).format = i.format := by cases i <;> rfl
theorem format_without (i : Input) (M : Str) : (withoutSheet M i).format = i.format := by cases i <;> rfl

theorem head_cons {α : Type} {a : α} {l : List α} (h : a ∈ l.head?) : ∃ r, l = a :: r := by
  cases l with
  | nil => simp at h
  | cons b r => simp at h; subst h; exact ⟨r, rfl⟩

/-- A sheet without configuration line has no configuration. -/
theorem config_none {i : Input} {M : Str} (hn : NoConfigLine M i) {own : SheetConfig} (h : i.config M = .ok own) : own = {} := by
  cases i with
  | csv files =>
    simp only [Input.config, NoConfigLine] at *
    cases hg : Dict.get files (M ++ s%".csv") with
    | none => rw [hg] at h; simp [csvConfig] at h
    | some rows =>
      rw [hg] at h
      have hm := Dict.get_eq_some_mem hg
      cases rows with
      | nil => simp [csvConfig] at h
      | cons first rest =>
        have hne := hn first rest hm
        cases first with
        | nil => simpa [csvConfig] using h.symm
        | cons c t =>
          have : c ≠ s%"#" := by simpa using hne
          simp only [Option.getD_some, csvConfig, this, if_false, Except.ok.injEq] at h
          exact h.symm
  | xlsx sheets =>
    simp only [Input.config, NoConfigLine] at *
    cases hg : Dict.get sheets M with
    | none => rw [hg] at h; simp [xlsxConfig, Grid.row] at h; exact h.symm
    | some g =>
      rw [hg] at h
      have hne := hn g (Dict.get_eq_some_mem hg)
      simp only [Option.getD_some, xlsxConfig] at h
      split at h
      · next a t e =>
        rw [e] at hne
        have : a ≠ .str s%"#" := by simpa using hne
        rw [if_neg this] at h
        injection h with h; exact h.symm
      · injection h with h; exact h.symm
  | ods sheets =>
    simp only [Input.config, NoConfigLine] at *
    cases hg : Dict.get sheets M with
    | none => rw [hg] at h; simp [odsConfig] at h; exact h.symm
    | some rows =>
      rw [hg] at h
      have hm := Dict.get_eq_some_mem hg
      simp only [Option.getD_some, odsConfig] at h
      split at h
      · next a t rest =>
        have hne := hn _ _ hm
        have : a ≠ .str s%"#" := by simpa using hne
        rw [if_neg this] at h
        injection h with h; exact h.symm
      · injection h with h; exact h.symm

theorem metaConfig_none {env : Env} {M : Str} (hn : NoConfigLine M env.input) {own : SheetConfig} (h : metaConfig env M = .ok own) : own = {} := by
  unfold metaConfig at h
  split at h
  · exact config_none hn h
  · injection h with h; exact h.symm

/-- Reading a sheet only depends on the configuration in force for it. -/
theorem sheet_congr {i : Input} {M : Str} {rc rc' : ReadCfg} (hv : rc.vertical = rc'.vertical)
    (h : ∀ own, i.config M = .ok own → resolveConfig rc own = resolveConfig rc' own) : i.sheet rc M = i.sheet rc' M := by
  cases i with
  | csv files =>
    simp only [Input.sheet, Input.config, csvSheet] at *
    split
    · rfl
    · next own ho =>
      have e1 : csvHeadings rc own = csvHeadings rc' own := by funext r; unfold csvHeadings; rw [h own ho]
      have e2 : csvLines rc own = csvLines rc' own := by funext r; unfold csvLines; rw [h own ho]
      rw [e1, e2]
  | xlsx sheets =>
    simp only [Input.sheet, Input.config, xlsxSheet] at *
    split
    · rfl
    · next own ho =>
      have e1 : xlsxParts rc own = xlsxParts rc' own := by funext r; unfold xlsxParts; rw [h own ho, hv]
      rw [e1, h own ho]
  | ods sheets =>
    simp only [Input.sheet, Input.config, odsSheet] at *
    split
    · rfl
    · next own ho =>
      have e1 : odsParts rc own = odsParts rc' own := by funext r; unfold odsParts; rw [h own ho, hv]
      rw [e1, h own ho]

/-! ### A pass -/

theorem pass_inv {o : UnOpts} {env : Env} {schema : Option Parsed} {cfg : UnCfg} {rc : ReadCfg} {root : Option Str} {incl : List Str}
    {excl : List (Option Str)} {p : Pass} (h : pass o env schema cfg rc root incl excl = .ok p) :
    ∃ s1 s2 cm hm, env.input.read rc incl excl = .ok s1 ∧ withTitles o.convertTitles schema s1 = .ok s2 ∧
      fancyUnflatten cfg root o.cellSourceMap o.headingSourceMap s2 = .ok (p.result, cm, hm, p.warns) ∧
      p.cells = cm.getD [] ∧ p.headings = hm.getD [] ∧ p.schemaWarns = schemaWarnsOf schema ∧ s2.any (lettersFail rc.vertical) = false := by
  unfold pass at h
  split at h
  · cases h
  · next s1 h1 =>
    split at h
    · cases h
    · next s2 h2 =>
      split at h
      · cases h
      · next hl =>
        split at h
        · cases h
        · next r cm hm w h3 =>
          injection h with h; subst h
          exact ⟨s1, s2, cm, hm, h1, h2, h3, rfl, rfl, rfl, by simpa using hl⟩

theorem pass_ok {o : UnOpts} {env : Env} {schema : Option Parsed} {cfg : UnCfg} {rc : ReadCfg} {root : Option Str} {incl : List Str}
    {excl : List (Option Str)} {s1 s2 : List SheetIn} {tree : List (List (Str × CTree))} {w : List Warn}
    (h1 : env.input.read rc incl excl = .ok s1) (h2 : withTitles o.convertTitles schema s1 = .ok s2)
    (h3 : doUnflatten cfg s2 = .ok (tree, w)) (hl : s2.any (lettersFail rc.vertical) = false) :
    ∃ p, pass o env schema cfg rc root incl excl = .ok p ∧ p.result = listToValue tree ∧ p.warns = w ∧ p.schemaWarns = schemaWarnsOf schema := by
  obtain ⟨cells, _, _, _, h4⟩ := fancy_ok h3 root
  have h4 := h4 o.cellSourceMap o.headingSourceMap
  unfold pass
  rw [h1]
  simp only
  rw [h2]
  simp only
  rw [hl, h4]
  by_cases hw : (!o.cellSourceMap && !o.headingSourceMap) = true
  · simp only [hw, if_true]; exact ⟨_, rfl, rfl, rfl, rfl⟩
  · simp only [hw, if_false]; exact ⟨_, rfl, rfl, rfl, rfl⟩

end Verif

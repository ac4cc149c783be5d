import Verif.Proofs.Narrow
import Verif.Spec.Vertical
import Verif.Props.Comments
import Verif.Proofs.DecEq
/-! C67: vertical orientation. -/
namespace Verif
open Spec Api

theorem exchanged_eq {w : Nat} {b b' : List (List Atom)} (h : Exchanged w b b') :
    b' = (List.range w).map (fun j => b.map (fun r => (r[j]?).getD .none)) := by
  apply List.ext_getElem
  · simp [h.height]
  · intro j h1 h2
    apply List.ext_getElem
    · simp [h.width _ (List.getElem_mem h1)]
    · intro i h3 h4
      have hi : i < b.length := by simpa using h4
      have hj : j < w := by rw [← h.height]; exact h1
      have := h.cells i j hi hj
      simp only [cellAt, List.getElem?_eq_getElem h1, List.getElem?_eq_getElem hi, Option.getD_some] at this
      rw [List.getElem?_eq_getElem h3] at this
      simpa using this

theorem corner_ne_config {g : Grid} (h : corner g.rows ≠ some (.str s%"#")) : xlsxConfig g = .ok {} := by
  unfold xlsxConfig Grid.row
  cases hr : g.rows with
  | nil =>
    simp only [List.getElem?_nil, Option.getD_none]
    cases hw : g.width with
    | zero => simp
    | succ n => simp [List.replicate_succ]
  | cons r rest =>
    simp only [List.getElem?_cons_zero, Option.getD_some]
    cases r with
    | nil => rfl
    | cons a t =>
      have : a ≠ .str s%"#" := by
        rintro rfl
        exact h (by simp [corner, hr])
      simp [this]

theorem cells_mapM (items : List Str) : (items.map Atom.str).mapM cellText = some items := by
  induction items with
  | nil => rfl
  | cons a r ih => simp [cellText, ih]

theorem config_texts {w : Nat} {c : List Atom} {b : List (List Atom)} {items : List Str} (h : ConfigTexts c items) :
    xlsxConfig ⟨w, c :: b⟩ = .ok (parseConfig items) := by
  obtain ⟨h1, h2⟩ := h
  cases c with
  | nil => cases h1
  | cons a t =>
    simp only [List.head?_cons, Option.some.injEq] at h1
    simp only [List.tail_cons] at h2
    simp only [xlsxConfig, Grid.row, List.getElem?_cons_zero, Option.getD_some, h1, if_true, h2, cells_mapM]

theorem corner_exchanged {w : Nat} {b b' : List (List Atom)} (hr : ∀ r ∈ b, r.length ≤ w) (h : Exchanged w b b')
    (hc : corner b ≠ some (.str s%"#")) : corner b' ≠ some (.str s%"#") := by
  have e := exchanged_eq h
  subst e
  unfold corner
  cases w with
  | zero => simp
  | succ n =>
    simp only [List.range_succ_eq_map, List.map_cons, List.head?_cons, Option.bind_some]
    cases b with
    | nil => simp
    | cons r rest =>
      cases r with
      | nil => simp
      | cons a t => simpa [corner] using hc

theorem xlsx_turn {g g' : Grid} (h : TurnedXlsx g g') : xlsxConfig g' = xlsxConfig g ∧
    ∀ (rc : ReadCfg) (n : Str), xlsxSheet { rc with vertical := true } n g = xlsxSheet { rc with vertical := false } n g' := by
  cases h with
  | plain hr hc hw he =>
    have hc' := corner_exchanged (fun r m => Nat.le_of_eq (hr r m)) he hc
    refine ⟨by rw [corner_ne_config hc, corner_ne_config hc'], ?_⟩
    intro rc n
    have e := exchanged_eq he
    unfold xlsxSheet
    rw [corner_ne_config hc, corner_ne_config hc']
    have ep : xlsxParts { rc with vertical := true } {} g = xlsxParts { rc with vertical := false } {} g' := by
      simp [xlsxParts, resolveConfig, SheetConfig.nonEmpty, Grid.transpose, Grid.row, e, hw]
      rfl
    simp only [ep]
    rfl
  | @config w c c' b b' items hr hc hc' hn he =>
    refine ⟨by rw [config_texts hc, config_texts hc'], ?_⟩
    intro rc n
    have e := exchanged_eq he
    have hn' : (parseConfig items).nonEmpty = true := by rw [nonEmpty_iff]; exact hn
    unfold xlsxSheet
    rw [config_texts hc, config_texts hc']
    have ep : xlsxParts { rc with vertical := true } (parseConfig items) ⟨w, c :: b⟩ =
        xlsxParts { rc with vertical := false } (parseConfig items) ⟨b.length, c' :: b'⟩ := by
      have e1 : ∀ s : Nat, ((Grid.transpose ⟨w, c :: b⟩).row s).drop 1 = Grid.row ⟨b.length, c' :: b'⟩ (s + 1) := by
        intro s
        simp only [Grid.transpose, Grid.row, e, List.getElem?_cons_succ, List.getElem?_map]
        by_cases hs : s < w
        · simp [List.getElem?_range hs]
        · simp [List.getElem?_eq_none (l := List.range w) (i := s) (by simpa using hs), List.replicate_succ]
      have e2 : ∀ k : Nat, ((Grid.transpose ⟨w, c :: b⟩).rows.drop k).map (fun r => r.drop 1) = (c' :: b').drop (k + 1) := by
        intro k
        simp [Grid.transpose, e, List.map_drop]
        rfl
      simp only [xlsxParts, resolveConfig, hn', if_true, Bool.false_eq_true, if_false]
      rw [e1, e2]
      congr 2
      omega
    simp only [ep]
    rfl

theorem foldl_longest : ∀ (b : List (List Atom)) (m : Nat), b.foldl (fun m r => max m r.length) m = max m (longest b)
  | [], m => by simp [longest]
  | r :: rest, m => by
    rw [List.foldl_cons, foldl_longest rest]
    simp only [longest, List.map_cons, List.foldr_cons]
    omega

theorem odsConfig_plain {b : List (List Atom)} (h : corner b ≠ some (.str s%"#")) : odsConfig b = .ok {} := by
  unfold odsConfig
  split
  · next a t rest =>
    have : a ≠ .str s%"#" := by rintro rfl; exact h (by simp [corner])
    simp [this]
  · rfl

theorem odsConfig_items {items : List Str} {b : List (List Atom)} : odsConfig ((s%"#" :: items).map Atom.str :: b) = .ok (parseConfig (s%"#" :: items)) := by
  simp only [odsConfig, List.map_cons, if_true]
  rw [← List.map_cons (f := Atom.str), cells_mapM]

theorem hash_inert (items : List Str) : parseConfig (s%"#" :: items) = parseConfig items := by
  have : configItem {} s%"#" = {} := by decide +kernel
  simp [parseConfig, this]

theorem longest_pos : ∀ {b : List (List Atom)}, (∀ r ∈ b, r ≠ []) → b ≠ [] → 0 < longest b
  | [], _, h => absurd rfl h
  | r :: rest, h, _ => by
    have : r ≠ [] := h r (by simp)
    have : 0 < r.length := List.length_pos_iff.2 this
    simp only [longest, List.map_cons, List.foldr_cons]
    omega

/-- Headings and lines of a vertical table, below the configuration line. -/
theorem ods_body {b b' : List (List Atom)} (hne : ∀ r ∈ b, r ≠ []) (h : Exchanged (longest b) b b') :
    (b.filterMap (fun r => r[0]?), (List.range (b.foldl (fun m r => max m r.length) 0 - 1)).map (fun i =>
      (b.filter (· ≠ [])).map (fun r => (r[i + 1]?).getD .none))) = ((b'[0]?).getD [], b'.drop 1) := by
  have e := exchanged_eq h
  rw [foldl_longest, Nat.zero_max]
  have hf : b.filter (· ≠ []) = b := List.filter_eq_self.2 (fun r hr => by simpa using hne r hr)
  rw [hf]
  have hh : b.filterMap (fun r => r[0]?) = b.map (fun r => (r[0]?).getD .none) := by
    clear e h hf
    induction b with
    | nil => rfl
    | cons r rest ih =>
      have : r ≠ [] := hne r (by simp)
      obtain ⟨a, t, rfl⟩ := List.exists_cons_of_ne_nil this
      rw [List.filterMap_cons, List.map_cons, ih (fun r hr => hne r (by simp [hr]))]
      rfl
  rw [hh]
  by_cases hb : b = []
  · subst hb
    have : b' = [] := by rw [e]; rfl
    subst this
    rfl
  · obtain ⟨n, hn⟩ := Nat.exists_eq_succ_of_ne_zero (Nat.ne_of_gt (longest_pos hne hb))
    rw [e, hn]
    simp [List.range_succ_eq_map]

theorem ods_turn {b b' : List (List Atom)} (h : TurnedOds b b') : odsConfig b' = odsConfig b ∧
    ∀ (rc : ReadCfg) (n : Str), (∀ own, odsConfig b = .ok own → (resolveConfig rc own).1.skip = 0 ∧ (resolveConfig rc own).1.hdrs = 1) →
      odsSheet { rc with vertical := true } n b = odsSheet { rc with vertical := false } n b' := by
  cases h with
  | plain hc hne he =>
    have hle : ∀ r ∈ b, r.length ≤ longest b := by
      clear hc hne he
      intro r hr
      induction b with
      | nil => cases hr
      | cons x rest ih =>
        simp only [longest, List.map_cons, List.foldr_cons] at ih ⊢
        rcases List.mem_cons.1 hr with rfl | hr
        · omega
        · have := ih hr; omega
    have hc' := corner_exchanged hle he hc
    have o1 := odsConfig_plain hc
    have o2 := odsConfig_plain hc'
    refine ⟨by rw [o1, o2], ?_⟩
    intro rc n hcfg
    obtain ⟨hs, hh⟩ := hcfg {} o1
    have ep : odsParts { rc with vertical := true } {} b = odsParts { rc with vertical := false } {} b' := by
      have := ods_body hne he
      have e1 : (resolveConfig rc {}).2 = 0 := rfl
      change (resolveConfig { rc with vertical := true } {}).1.skip = 0 at hs
      change (resolveConfig { rc with vertical := true } {}).1.hdrs = 1 at hh
      have hs' : (resolveConfig { rc with vertical := false } {}).1.skip = 0 := hs
      have hh' : (resolveConfig { rc with vertical := false } {}).1.hdrs = 1 := hh
      simp only [odsParts, if_true, Bool.false_eq_true, if_false, hs, hs', hh']
      exact this
    unfold odsSheet
    rw [o1, o2]
    simp only [ep]
    rfl
  | @config c items b b' hcfg hn hne he =>
    subst hcfg
    refine ⟨by rw [odsConfig_items, odsConfig_items], ?_⟩
    intro rc n hcfg
    obtain ⟨hs, hh⟩ := hcfg _ odsConfig_items
    have hn' : (parseConfig (s%"#" :: items)).nonEmpty = true := by rw [hash_inert, nonEmpty_iff]; exact hn
    have ep : odsParts { rc with vertical := true } (parseConfig (s%"#" :: items)) ((s%"#" :: items).map Atom.str :: b) =
        odsParts { rc with vertical := false } (parseConfig (s%"#" :: items)) ((s%"#" :: items).map Atom.str :: b') := by
      have := ods_body hne he
      change (resolveConfig { rc with vertical := true } (parseConfig (s%"#" :: items))).1.skip = 0 at hs
      change (resolveConfig { rc with vertical := true } (parseConfig (s%"#" :: items))).1.hdrs = 1 at hh
      have hs' : (resolveConfig { rc with vertical := false } (parseConfig (s%"#" :: items))).1.skip = 0 := hs
      have hh' : (resolveConfig { rc with vertical := false } (parseConfig (s%"#" :: items))).1.hdrs = 1 := hh
      have h2 : ∀ v, (resolveConfig { rc with vertical := v } (parseConfig (s%"#" :: items))).2 = 1 := by
        intro v; simp [resolveConfig, hn']
      simp only [odsParts, if_true, Bool.false_eq_true, if_false, hs, hs', hh', h2, List.drop_succ_cons, List.drop_zero]
      simpa using this
    unfold odsSheet
    rw [odsConfig_items, odsConfig_items]
    simp only [ep]
    rfl

/-! ### The whole file -/

theorem get_all₂ {α : Type} {R : Str → α → α → Prop} : ∀ {l l' : List (Str × α)}, All₂ (fun s s' => s'.1 = s.1 ∧ R s.1 s.2 s'.2) l l' → ∀ n,
    (Dict.get l n = none ∧ Dict.get l' n = none) ∨ ∃ a b, Dict.get l n = some a ∧ Dict.get l' n = some b ∧ R n a b
  | _, _, .nil, n => .inl ⟨rfl, rfl⟩
  | _, _, .cons (a := a) (b := b) h t, n => by
    obtain ⟨h1, h2⟩ := h
    obtain ⟨k, v⟩ := a
    obtain ⟨k', v'⟩ := b
    simp only at h1 h2
    subst h1
    rw [Dict.get_cons, Dict.get_cons]
    by_cases e : k' = n
    · subst e
      simp only [if_true]
      exact .inr ⟨v, v', rfl, rfl, h2⟩
    · simp only [e, if_false]
      exact get_all₂ t n

theorem names_all₂ {α : Type} {R : Str → α → α → Prop} : ∀ {l l' : List (Str × α)}, All₂ (fun s s' => s'.1 = s.1 ∧ R s.1 s.2 s'.2) l l' →
    l'.map (·.1) = l.map (·.1)
  | _, _, .nil => rfl
  | _, _, .cons (a := a) (b := b) h t => by simp only [List.map_cons, names_all₂ t, h.1]

theorem turned_select {turn : Str → Bool} {i i' : Input} (h : TurnedFile turn i i') (incl : List Str) (excl : List (Option Str)) :
    i'.select incl excl = i.select incl excl := by
  cases h with
  | xlsx h => simp only [Input.select]; rw [names_all₂ (R := fun n a b => if turn n then TurnedXlsx a b else b = a) h]
  | ods h => simp only [Input.select]; rw [names_all₂ (R := fun n a b => if turn n then TurnedOds a b else b = a) h]

theorem turned_format {turn : Str → Bool} {i i' : Input} (h : TurnedFile turn i i') : i'.format = i.format := by cases h <;> rfl

theorem turned_config {turn : Str → Bool} {i i' : Input} (h : TurnedFile turn i i') (n : Str) : i'.config n = i.config n := by
  cases h with
  | xlsx h =>
    simp only [Input.config]
    rcases get_all₂ (R := fun n a b => if turn n then TurnedXlsx a b else b = a) h n with ⟨h1, h2⟩ | ⟨a, b, h1, h2, hr⟩
    · rw [h1, h2]
    · rw [h1, h2]
      simp only [Option.getD_some]
      split at hr
      · exact (xlsx_turn hr).1
      · rw [hr]
  | ods h =>
    simp only [Input.config]
    rcases get_all₂ (R := fun n a b => if turn n then TurnedOds a b else b = a) h n with ⟨h1, h2⟩ | ⟨a, b, h1, h2, hr⟩
    · rw [h1, h2]
    · rw [h1, h2]
      simp only [Option.getD_some]
      split at hr
      · exact (ods_turn hr).1
      · rw [hr]

theorem turned_sheet {turn : Str → Bool} {i i' : Input} (h : TurnedFile turn i i') (rc : ReadCfg) (n : Str)
    (hc : turn n = true → i.format = s%"ods" → ∀ own, i.config n = .ok own → (resolveConfig rc own).1.skip = 0 ∧ (resolveConfig rc own).1.hdrs = 1) :
    i'.sheet { rc with vertical := false } n = i.sheet { rc with vertical := turn n } n := by
  cases h with
  | xlsx h =>
    simp only [Input.sheet]
    rcases get_all₂ (R := fun n a b => if turn n then TurnedXlsx a b else b = a) h n with ⟨h1, h2⟩ | ⟨a, b, h1, h2, hr⟩
    · rw [h1, h2]
      cases turn n
      · rfl
      · simp [xlsxSheet, xlsxConfig, xlsxParts, Grid.row, Grid.transpose]
    · rw [h1, h2]
      simp only [Option.getD_some]
      split at hr
      · next ht => rw [ht]; exact ((xlsx_turn hr).2 rc n).symm
      · next ht => rw [hr]; simp only [Bool.not_eq_true] at ht; rw [ht]
  | ods h =>
    simp only [Input.sheet, Input.config] at hc ⊢
    rcases get_all₂ (R := fun n a b => if turn n then TurnedOds a b else b = a) h n with ⟨h1, h2⟩ | ⟨a, b, h1, h2, hr⟩
    · rw [h1, h2]
      simp only [Option.getD_none]
      have hb : ∀ rc' : ReadCfg, odsSheet rc' n [] = .ok { name := n, headings := some [], lines := [] } := by
        intro rc'
        cases hv : rc'.vertical <;> simp [odsSheet, odsConfig, odsParts, hv]
      rw [hb, hb]
    · rw [h1] at hc
      rw [h1, h2]
      simp only [Option.getD_some] at hc ⊢
      split at hr
      · next ht => rw [ht]; exact ((ods_turn hr).2 rc n (hc ht rfl)).symm
      · next ht => rw [hr]; simp only [Bool.not_eq_true] at ht; rw [ht]

/-- No rows are skipped and there is one header row. -/
def NoRows (c : SheetConfig) : Prop := c.skipRows = none ∧ c.headerRows = none

theorem noRows_parse {items : List Str} (h : NoRowOptions items) : NoRows (parseConfig items) := by
  rw [C39_config_meaning]
  have : ∀ o, (∀ item ∈ items, (argOf o item).bind Py.int? = none) → intArgsOf o items = [] := by
    intro o ho
    have : intArgsOf o items = items.filterMap (fun x => (argOf o x).bind Py.int?) := by
      simp only [intArgsOf, argsOf, List.filterMap_filterMap]
    rw [this, List.filterMap_eq_nil_iff]
    exact ho
  simp [NoRows, this _ (fun i hi => (h i hi).1), this _ (fun i hi => (h i hi).2)]

theorem NoRows.values {c : SheetConfig} (h : NoRows c) : c.skip = 0 ∧ c.hdrs = 1 := by
  simp [SheetConfig.skip, SheetConfig.hdrs, h.1, h.2]

theorem stage_noRows {o : UnOpts} {env : Env} {s : Stage} (hs : ∀ items ∈ sources o env, NoRowOptions items) (h : stage1 o env = .ok s) :
    NoRows s.config := by
  have hdef : NoRows (defaultConfiguration o.defaultConfig) :=
    noRows_parse (hs (defaultItems o) (by unfold sources; split <;> simp))
  by_cases hp : given o.metatabName = none ∨ o.rootIsList = true
  · rw [stage1_plain hp] at h
    injection h with h; subst h
    exact hdef
  · cases hg : given o.metatabName with
    | none => exact absurd (Or.inl hg) hp
    | some M =>
      have hr : o.rootIsList = false := by
        cases hr : o.rootIsList with
        | false => rfl
        | true => exact absurd (Or.inr hr) hp
      obtain ⟨m, own, base, _, hc, _, rfl⟩ := (stage1_meta hg hr).1 h
      obtain ⟨hM, hne⟩ := given_some.1 hg
      have hown : NoRows own := by
        unfold metaConfig at hc
        by_cases hsel : M ∈ env.input.select [M] []
        · rw [if_pos hsel] at hc
          rw [config_parse hc]
          exact noRows_parse (hs _ (by unfold sources; rw [hM]; simp [hne, hr]))
        · rw [if_neg hsel] at hc
          injection hc with hc; subst hc
          exact ⟨rfl, rfl⟩
      simp [NoRows, SheetConfig.update, hown.1, hown.2, hdef.1, hdef.2]

theorem resolve_noRows {rc : ReadCfg} {own : SheetConfig} (h1 : NoRows own) (h2 : NoRows rc.base) : NoRows (resolveConfig rc own).1 := by
  unfold resolveConfig
  simp only
  split
  · split
    · exact h1
    · exact h2
  · exact ⟨rfl, rfl⟩

/-- Reading the same sheets from another file, where orientation only matters for the letters of columns. -/
theorem pass_turned {o o' : UnOpts} {env env' : Env} {schema : Option Parsed} {cfg : UnCfg} {rc rc' : ReadCfg} {root : Option Str} {incl : List Str}
    {excl : List (Option Str)} (h1 : o'.convertTitles = o.convertTitles) (h2 : o'.cellSourceMap = o.cellSourceMap)
    (h3 : o'.headingSourceMap = o.headingSourceMap) (hv : rc'.vertical = false) (hw : NarrowFile env'.input)
    (h4 : env'.input.read rc' incl excl = env.input.read rc incl excl) :
    pass o' env' schema cfg rc' root incl excl = pass o env schema cfg rc root incl excl := by
  unfold pass
  rw [h1, h2, h3, ← h4]
  cases hr : env'.input.read rc' incl excl with
  | error e => rfl
  | ok a =>
    simp only
    cases ht : withTitles o.convertTitles schema a with
    | error e => rfl
    | ok b =>
      simp only
      rw [narrow_pass hv hw hr ht, narrow_pass hv hw hr ht]

/-- C67.  A file in which headings are in the first column (in the metatab, in the other sheets, or both) is unflattened as the file in which these sheets have
rows and columns exchanged (if that has no more than 18278 columns).  In ODS files this needs that neither `skipRows` nor `headerRows` is configured. -/
theorem C67_vertical {o : UnOpts} {env : Env} {i' : Input} (v mv : Bool) (hd : DistinctSheets env.input)
    (h : TurnedFile (fun n => if o.metatabName = some n then mv else v) env.input i')
    (hods : env.input.format = s%"ods" →
      (∀ items ∈ sources o env, NoRowOptions items) ∧ ∀ n, NoRowOptions (configItems env.input n)) (hw : NarrowFile i') :
    runUnflatten { o with vertical := v, metatabVertical := mv } env =
      runUnflatten { o with vertical := false, metatabVertical := false } { env with input := i' } := by
  have hcfgs : ∀ rc : ReadCfg, ∀ n, (env.input.format = s%"ods" → NoRows rc.base) → env.input.format = s%"ods" → ∀ own, env.input.config n = .ok own →
      (resolveConfig rc own).1.skip = 0 ∧ (resolveConfig rc own).1.hdrs = 1 := by
    intro rc n hb ho own hown
    refine (resolve_noRows ?_ (hb ho)).values
    rw [config_parse hown]
    exact noRows_parse ((hods ho).2 n)
  have hst : stage1 { o with vertical := false, metatabVertical := false } { env with input := i' } =
      stage1 { o with vertical := v, metatabVertical := mv } env := by
    unfold stage1
    simp only
    cases hg : given o.metatabName with
    | none => rfl
    | some M =>
      simp only
      obtain ⟨hM, _⟩ := given_some.1 hg
      have e1 : metaPass { o with vertical := false, metatabVertical := false } { env with input := i' } M =
          metaPass { o with vertical := v, metatabVertical := mv } env M := by
        unfold metaPass
        simp only
        split
        · rfl
        · refine pass_turned (env' := { env with input := i' }) (env := env) rfl rfl rfl rfl hw ?_
          unfold Input.read
          simp only
          rw [turned_select h]
          have : Api.mapE (i'.sheet { base := {}, useConfig := false, vertical := false }) (env.input.select [M] []) =
              Api.mapE (env.input.sheet { base := {}, useConfig := false, vertical := mv }) (env.input.select [M] []) := by
            apply mapE_congr
            intro m hm
            rw [select_incl env.input M m hd hm]
            have := turned_sheet h { base := {}, useConfig := false, vertical := false } M (fun _ ho => hcfgs _ M (fun _ => ⟨rfl, rfl⟩) ho)
            simpa [hM] using this
          exact this
      have e2 : metaConfig { env with input := i' } M = metaConfig env M := by
        unfold metaConfig
        simp only
        rw [turned_select h, turned_config h]
      rw [e1, e2]
      rfl
  unfold runUnflatten
  simp only
  rw [hst, turned_format h]
  cases hst' : stage1 { o with vertical := v, metatabVertical := mv } env with
  | error e => rfl
  | ok s =>
    simp only
    have hnr : env.input.format = s%"ods" → NoRows s.config := by
      intro ho
      exact stage_noRows (o := { o with vertical := v, metatabVertical := mv }) (hods ho).1 hst'
    have hp : ∀ root idn, mainPass { o with vertical := false, metatabVertical := false } { env with input := i' } s.config root idn =
        mainPass { o with vertical := v, metatabVertical := mv } env s.config root idn := by
      intro root idn
      unfold mainPass
      simp only
      split
      · rfl
      · refine pass_turned (env' := { env with input := i' }) (env := env) rfl rfl rfl rfl hw ?_
        unfold Input.read
        simp only
        rw [turned_select h]
        have : Api.mapE (i'.sheet { base := s.config, useConfig := true, vertical := false }) (env.input.select [] [o.metatabName]) =
            Api.mapE (env.input.sheet { base := s.config, useConfig := true, vertical := v }) (env.input.select [] [o.metatabName]) := by
          apply mapE_congr
          intro m hm
          have hne : o.metatabName ≠ some m := by
            intro e
            rw [e] at hm
            exact select_excl env.input m m hd hm rfl
          have := turned_sheet h { base := s.config, useConfig := true, vertical := false } m (fun _ ho => hcfgs _ m hnr ho)
          simpa [hne] using this
        exact this
    simp only [hp]
    rfl

/-! ### The hypotheses can be met -/

/-- A worksheet with a configuration line and headings in the second column. -/
def vertGrid : Grid :=
  ⟨4, [[.str s%"#", .str s%"skipRows 1", .none, .none],
       [.str s%"note", .str s%"id", .int 1, .int 2],
       [.none, .str s%"name", .str s%"a", .str s%"b"],
       [.none, .str s%"tags/0/id", .str s%"x", .none]]⟩

/-- The same with headings in a row. -/
def horGrid : Grid :=
  ⟨3, [[.str s%"#", .str s%"skipRows 1", .none],
       [.str s%"note", .none, .none],
       [.str s%"id", .str s%"name", .str s%"tags/0/id"],
       [.int 1, .str s%"a", .str s%"x"],
       [.int 2, .str s%"b", .none]]⟩

/-- A metatab, the same in both files. -/
def vertMeta : Grid := ⟨1, [[.str s%"title"], [.str s%"T"]]⟩

theorem vert_turned : TurnedXlsx vertGrid horGrid := by
  refine TurnedXlsx.config (items := [s%"skipRows 1"]) (by decide +kernel) ⟨rfl, by decide +kernel⟩ ⟨rfl, by decide +kernel⟩ (by decide +kernel)
    ⟨rfl, by decide +kernel, ?_⟩
  intro i j hi hj
  match i, j, hi, hj with
  | 0, 0, _, _ | 0, 1, _, _ | 0, 2, _, _ | 0, 3, _, _ | 1, 0, _, _ | 1, 1, _, _ | 1, 2, _, _ | 1, 3, _, _ | 2, 0, _, _ | 2, 1, _, _ | 2, 2, _, _
  | 2, 3, _, _ => rfl
  | i + 3, _, h, _ => simp at h; omega
  | _, j + 4, _, h => omega

def vertOpts : UnOpts := { inputFormat := some s%"xlsx", metatabName := some s%"Meta", cellSourceMap := true }
def vertEnv : Env := { input := .xlsx [(s%"Meta", vertMeta), (s%"main", vertGrid)] }

example : runUnflatten { vertOpts with vertical := true, metatabVertical := false } vertEnv =
    runUnflatten { vertOpts with vertical := false, metatabVertical := false } { vertEnv with input := .xlsx [(s%"Meta", vertMeta), (s%"main", horGrid)] } :=
  C67_vertical true false (by unfold DistinctSheets vertEnv; decide +kernel) (.xlsx (.cons ⟨rfl, rfl⟩ (.cons ⟨rfl, vert_turned⟩ .nil))) (fun h => absurd h (by decide +kernel)) (by unfold NarrowFile WithinZZZ; decide +kernel)

/-- What comes out. -/
example : (match runUnflatten { vertOpts with vertical := true } vertEnv with
    | .ok r => some r.document
    | .error _ => none) = some (.json (.obj [(s%"title", .leaf (.str s%"T")), (s%"main", .arr [
      .obj [(s%"id", .leaf (.int 1)), (s%"name", .leaf (.str s%"a")), (s%"tags", .arr [.obj [(s%"id", .leaf (.str s%"x"))]])],
      .obj [(s%"id", .leaf (.int 2)), (s%"name", .leaf (.str s%"b"))]])])) := by decide +kernel

/-- An ODS table: rows of different lengths. -/
def vertOds : List (List Atom) := [[.str s%"id", .int 1, .int 2], [.str s%"name", .str s%"a"]]
def horOds : List (List Atom) := [[.str s%"id", .str s%"name"], [.int 1, .str s%"a"], [.int 2, .none]]

example : runUnflatten { inputFormat := some s%"ods", vertical := true, metatabVertical := false } { input := .ods [(s%"main", vertOds)] } =
    runUnflatten { inputFormat := some s%"ods", vertical := false, metatabVertical := false } { input := .ods [(s%"main", horOds)] } :=
  C67_vertical (o := { inputFormat := some s%"ods" }) (env := { input := .ods [(s%"main", vertOds)] }) true false (by unfold DistinctSheets; decide +kernel)
    (.ods (.cons ⟨rfl, .plain (by decide +kernel) (by decide +kernel) ⟨rfl, by decide +kernel, by
      intro i j hi hj
      match i, j, hi, hj with
      | 0, 0, _, _ | 0, 1, _, _ | 0, 2, _, _ | 1, 0, _, _ | 1, 1, _, _ | 1, 2, _, _ => rfl
      | i + 2, _, h, _ => simp [vertOds] at h; omega
      | _, j + 3, _, h => simp [vertOds, longest] at h; omega⟩⟩ .nil))
    (fun _ => by
      refine ⟨by unfold NoRowOptions; decide +kernel, fun n => ?_⟩
      have : configItems (.ods [(s%"main", vertOds)]) n = [] := by
        simp only [configItems, fileRows, Dict.get_cons]
        split <;> rfl
      intro item hi
      rw [this] at hi
      cases hi)
    (by unfold NarrowFile WithinZZZ; decide +kernel)

/-- Why not with `skipRows` in ODS files: the column of the headings is read as data, too. -/
example : (match runUnflatten { inputFormat := some s%"ods", vertical := true, defaultConfig := s%"skipRows 1" }
      { input := .ods [(s%"main", [[.str s%"note", .str s%"id", .int 1], [.str s%"-", .str s%"name", .str s%"a"]])] } with
    | .ok r => some r.document
    | .error _ => none) = some (.json (.obj [(s%"main", .arr [
      .obj [(s%"id", .leaf (.str s%"id")), (s%"name", .leaf (.str s%"name"))],
      .obj [(s%"id", .leaf (.int 1)), (s%"name", .leaf (.str s%"a"))]])])) := by decide +kernel

end Verif

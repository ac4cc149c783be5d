import Verif.Spec.Comments
import Verif.Props.Precedence
/-! C65: ignored sheets and comment columns have no influence. -/
namespace Verif
open Spec Api

/-! ### What the configuration line of a sheet says -/

theorem texts_filter : ∀ {t : List Atom} {l : List Str}, (t.filter (fun c => !c.falsy)).mapM cellText = some l →
    l = (t.filterMap textCell).filter (· ≠ [])
  | [], l, h => by simp at h; subst h; rfl
  | a :: t, l, h => by
    by_cases hf : a.falsy = true
    · rw [List.filter_cons_of_neg (by simp [hf])] at h
      rw [texts_filter h]
      cases a with
      | str s =>
        have : s = [] := by
          cases s with
          | nil => rfl
          | cons x r => simp [Atom.falsy, Atom.blank, Val.pyEq, Val.canon, Atom.canon, canonNum] at hf
        subst this
        simp [List.filterMap_cons, textCell]
      | _ => simp [List.filterMap_cons, textCell]
    · rw [List.filter_cons_of_pos (by simpa using hf)] at h
      rw [List.mapM_cons] at h
      cases ha : cellText a with
      | none => rw [ha] at h; simp at h
      | some s =>
        rw [ha] at h
        cases hr : (t.filter (fun c => !c.falsy)).mapM cellText with
        | none => simp [hr] at h
        | some l' =>
          simp [hr] at h
          subst h
          have ih := texts_filter hr
          have : a = .str s := by cases a <;> simp_all [cellText]
          subst this
          have hs : s ≠ [] := by rintro rfl; exact hf rfl
          simp [textCell, hs, ih]

theorem texts_all : ∀ {t : List Atom} {l : List Str}, t.mapM cellText = some l → l = t.filterMap textCell
  | [], l, h => by simp at h; subst h; rfl
  | a :: t, l, h => by
    rw [List.mapM_cons] at h
    cases ha : cellText a with
    | none => rw [ha] at h; simp at h
    | some s =>
      rw [ha] at h
      cases hr : t.mapM cellText with
      | none => simp [hr] at h
      | some l' =>
        simp [hr] at h
        subst h
        have : a = .str s := by cases a <;> simp_all [cellText]
        subst this
        simp [textCell, texts_all hr]

theorem parse_hash (l : List Str) : parseConfig (s%"#" :: l) = parseConfig l := by
  simp only [parseConfig, List.foldl_cons]
  have : configItem {} s%"#" = {} := by decide +kernel
  rw [this]

/-- The configuration of a sheet is what its configuration line says. -/
theorem config_parse {i : Input} {name : Str} {own : SheetConfig} (h : i.config name = .ok own) : own = parseConfig (configItems i name) := by
  cases i with
  | csv files =>
    simp only [Input.config] at h
    simp only [configItems, fileRows]
    generalize (Dict.get files (name ++ s%".csv")).getD [] = rows at h ⊢
    cases rows with
    | nil => simp [csvConfig] at h
    | cons first rest =>
      cases first with
      | nil => simp only [csvConfig, Except.ok.injEq] at h; subst h; rfl
      | cons c t =>
        have hf : (t.map Atom.str).filterMap textCell = t := by
          rw [List.filterMap_map]
          have : (textCell ∘ Atom.str) = some := rfl
          rw [this, List.filterMap_some]
        simp only [List.map_cons, lineItems, Atom.str.injEq, hf]
        by_cases hc : c = s%"#"
        · subst hc
          simp only [csvConfig, if_true, Except.ok.injEq] at h ⊢
          exact h.symm
        · simp only [csvConfig, if_neg hc, Except.ok.injEq] at h ⊢
          exact h.symm
  | xlsx sheets =>
    simp only [Input.config] at h
    simp only [configItems, fileRows]
    generalize (Dict.get sheets name).getD ⟨0, []⟩ = g at h ⊢
    unfold xlsxConfig at h
    cases hr : g.rows with
    | nil =>
      have h0 : g.row 0 = List.replicate g.width .none := by simp [Grid.row, hr]
      rw [h0] at h
      cases hw : g.width with
      | zero => rw [hw] at h; simp at h; exact h.symm
      | succ n => rw [hw] at h; simp [List.replicate_succ] at h; exact h.symm
    | cons first rest =>
      have h0 : g.row 0 = first := by simp [Grid.row, hr]
      rw [h0] at h
      cases first with
      | nil => simp at h; exact h.symm
      | cons a t =>
        simp only [lineItems]
        simp only at h
        by_cases ha : a = .str s%"#"
        · rw [if_pos ha] at h ⊢
          split at h
          · next l hl =>
            injection h with h; subst h
            rw [texts_filter hl, parseConfig_filter]
          · cases h
        · rw [if_neg ha] at h ⊢
          injection h with h; exact h.symm
  | ods sheets =>
    simp only [Input.config] at h
    simp only [configItems, fileRows]
    generalize (Dict.get sheets name).getD [] = rows at h ⊢
    unfold odsConfig at h
    split at h
    · next a t rest =>
      simp only [lineItems]
      by_cases ha : a = .str s%"#"
      · rw [if_pos ha] at h ⊢
        subst ha
        split at h
        · next l hl =>
          injection h with h; subst h
          rw [texts_all hl]
          simp only [List.filterMap_cons, textCell]
          exact parse_hash _
        · cases h
      · rw [if_neg ha] at h ⊢
        injection h with h; exact h.symm
    · next hno =>
      injection h with h
      have : lineItems rows = [] := by
        unfold lineItems
        split
        · next a t r => exact absurd rfl (hno _ _ _)
        · rfl
      rw [this]
      exact h.symm

theorem texts_mapM : ∀ {t : List Atom}, (∀ a ∈ t, ∃ s, a = .str s) → ∃ l, t.mapM cellText = some l
  | [], _ => ⟨[], rfl⟩
  | a :: t, h => by
    obtain ⟨s, rfl⟩ := h a (by simp)
    obtain ⟨l, hl⟩ := texts_mapM (t := t) (fun b hb => h b (by simp [hb]))
    exact ⟨s :: l, by simp [cellText, hl]⟩

/-- A configurable sheet has a configuration. -/
theorem config_of_configurable {i : Input} {name : Str} (h : Configurable i name) : i.config name = .ok (parseConfig (configItems i name)) := by
  suffices hs : ∃ own, i.config name = .ok own by
    obtain ⟨own, ho⟩ := hs
    rw [ho, config_parse ho]
  obtain ⟨h1, h2⟩ := h
  cases i with
  | csv files =>
    simp only [Input.config]
    have h1 := h1 rfl
    simp only [fileRows] at h1
    generalize (Dict.get files (name ++ s%".csv")).getD [] = rows at h1 ⊢
    cases rows with
    | nil => exact absurd rfl h1
    | cons first rest => cases first <;> exact ⟨_, rfl⟩
  | xlsx sheets =>
    simp only [Input.config]
    simp only [fileRows] at h2
    generalize (Dict.get sheets name).getD ⟨0, []⟩ = g at h2 ⊢
    unfold xlsxConfig
    split
    · next a t e =>
      split
      · next ha =>
        subst ha
        have hr : ∃ rest, g.rows = (.str s%"#" :: t) :: rest := by
          cases hr : g.rows with
          | nil =>
            simp only [Grid.row, hr, List.getElem?_nil, Option.getD_none] at e
            cases hw : g.width with
            | zero => rw [hw] at e; cases e
            | succ n => rw [hw, List.replicate_succ] at e; injection e with e _; cases e
          | cons first rest =>
            simp only [Grid.row, hr, List.getElem?_cons_zero, Option.getD_some] at e
            exact ⟨rest, by rw [e]⟩
        obtain ⟨rest, hr⟩ := hr
        have ht := h2 t rest hr
        obtain ⟨l, hl⟩ := texts_mapM (t := t.filter (fun c => !c.falsy)) (fun a ha => ht a (List.mem_filter.1 ha).1)
        rw [hl]
        exact ⟨_, rfl⟩
      · exact ⟨_, rfl⟩
    · exact ⟨_, rfl⟩
  | ods sheets =>
    simp only [Input.config]
    simp only [fileRows] at h2
    generalize (Dict.get sheets name).getD [] = rows at h2 ⊢
    unfold odsConfig
    split
    · next a t rest =>
      split
      · next ha =>
        subst ha
        have ht := h2 t rest rfl
        obtain ⟨l, hl⟩ := texts_mapM (t := .str s%"#" :: t) (by
          intro a ha
          rcases List.mem_cons.1 ha with rfl | ha
          · exact ⟨_, rfl⟩
          · exact ht a ha)
        rw [hl]
        exact ⟨_, rfl⟩
      · exact ⟨_, rfl⟩
    · exact ⟨_, rfl⟩

/-! ### Flags -/

theorem getLast?_filterMap_isSome {α β : Type} (f : α → Option β) (l : List α) : ((l.filterMap f).getLast?).isSome = l.any (fun a => (f a).isSome) := by
  induction l with
  | nil => rfl
  | cons a r ih =>
    rw [List.filterMap_cons, List.any_cons, ← ih]
    cases f a with
    | none => simp
    | some b => rw [List.getLast?_cons]; simp

theorem any_or {α : Type} (p q : α → Bool) (l : List α) : l.any (fun a => p a || q a) = (l.any p || l.any q) := by
  induction l with
  | nil => rfl
  | cons a r ih => simp only [List.any_cons, ih]; cases p a <;> cases q a <;> simp

theorem nonEmpty_iff (items : List Str) : (parseConfig items).nonEmpty = items.any documented := by
  rw [C39_config_meaning]
  have hint : ∀ o (f : Int → Int), (((intArgsOf o items).getLast?).map f).isSome = items.any (fun x => ((argOf o x).bind Py.int?).isSome) := by
    intro o f
    have : intArgsOf o items = items.filterMap (fun x => (argOf o x).bind Py.int?) := by
      simp only [intArgsOf, argsOf, List.filterMap_filterMap]
    rw [Option.isSome_map, this, getLast?_filterMap_isSome]
  have harg : ∀ o, ((argsOf o items).getLast?).isSome = items.any (fun x => (argOf o x).isSome) := fun o => getLast?_filterMap_isSome _ _
  unfold SheetConfig.nonEmpty
  simp only [hint, harg]
  unfold documented
  simp only [any_or]

/-- Which flags a configuration has. -/
def FlagsOf (c : SheetConfig) (items : List (List Str)) : Prop :=
  c.ignore = items.any (·.any (isFlag [s%"ignore"])) ∧ c.hashcomments = items.any (·.any (isFlag [s%"hashcomments", s%"hashcomment"]))

theorem flagsOf_parse (items : List Str) : FlagsOf (parseConfig items) [items] := by
  rw [C39_config_meaning]
  simp [FlagsOf]

/-- The flags in force for the run. -/
theorem stage_flags {o : UnOpts} {env : Env} {s : Stage} (h : stage1 o env = .ok s) : FlagsOf s.config (sources o env) := by
  have hdef : FlagsOf (defaultConfiguration o.defaultConfig) [defaultItems o] := flagsOf_parse _
  by_cases hp : given o.metatabName = none ∨ o.rootIsList = true
  · rw [stage1_plain hp] at h
    injection h with h; subst h
    have : sources o env = [defaultItems o] := by
      unfold sources
      rcases hp with hp | hp
      · rw [given_none] at hp
        cases hm : o.metatabName with
        | none => rfl
        | some M => rw [hm] at hp; simp at hp; simp [hp]
      · cases hm : o.metatabName with
        | none => rfl
        | some M => simp [hp]
    rw [this]
    exact hdef
  · cases hg : given o.metatabName with
    | none => exact absurd (Or.inl hg) hp
    | some M =>
      have hr : o.rootIsList = false := by
        cases hr : o.rootIsList with
        | false => rfl
        | true => exact absurd (Or.inr hr) hp
      obtain ⟨m, own, base, _, hc, _, rfl⟩ := (stage1_meta hg hr).1 h
      obtain ⟨hM, hne⟩ := given_some.1 hg
      have : sources o env = [configItems env.input M, defaultItems o] := by
        unfold sources
        rw [hM]
        simp [hne, hr]
      rw [this]
      have hown : FlagsOf own [configItems env.input M] := by
        unfold metaConfig at hc
        by_cases hs : M ∈ env.input.select [M] []
        · rw [if_pos hs] at hc
          rw [config_parse hc]
          exact flagsOf_parse _
        · rw [if_neg hs] at hc
          injection hc with hc; subst hc
          rw [mem_select_of_get hs]
          exact flagsOf_parse []
      simp only [FlagsOf, SheetConfig.update, List.any_cons, List.any_nil, Bool.or_false] at hown hdef ⊢
      exact ⟨by rw [hown.1, hdef.1], by rw [hown.2, hdef.2]⟩

/-! ### Left out sheets -/

/-- A sheet that is not skipped. -/
def live (ss : List SheetIn) : List SheetIn := ss.filter (fun s => decide (s.headings ≠ some []))

theorem addSheets_live (cfg : UnCfg) : ∀ (ss : List SheetIn) (gs : Groups), addSheets cfg ss gs = addSheets cfg (live ss) gs
  | [], _ => rfl
  | s :: r, gs => by
    unfold live
    by_cases h : s.headings = some []
    · rw [List.filter_cons_of_neg (by simp [h]), addSheets, if_pos h, addSheets_live cfg r gs]
      rfl
    · rw [List.filter_cons_of_pos (by simpa using h), addSheets, addSheets, if_neg h, if_neg h]
      cases addLines cfg s.name s.headings 0 s.lines gs with
      | error e => rfl
      | ok p => simp only; rw [addSheets_live cfg r p.1]; rfl

theorem fancy_live (cfg : UnCfg) (root : Option Str) (a b : Bool) {ss ss' : List SheetIn} (h : live ss = live ss') :
    fancyUnflatten cfg root a b ss = fancyUnflatten cfg root a b ss' := by
  unfold fancyUnflatten doUnflatten
  rw [addSheets_live cfg ss, addSheets_live cfg ss', h]

theorem letters_live (v : Bool) {ss ss' : List SheetIn} (h : live ss = live ss') : ss.any (lettersFail v) = ss'.any (lettersFail v) := by
  have key : ∀ l : List SheetIn, l.any (lettersFail v) = (live l).any (lettersFail v) := by
    intro l
    induction l with
    | nil => rfl
    | cons s r ih =>
      unfold live at *
      by_cases h : s.headings = some []
      · rw [List.filter_cons_of_neg (by simp [h]), List.any_cons, ih]
        simp [lettersFail, h]
      · rw [List.filter_cons_of_pos (by simpa using h), List.any_cons, List.any_cons, ih]
  rw [key ss, key ss', h]

theorem live_titles (t : TitleTree) {ss ss' : List SheetIn} (h : live ss = live ss') : live (titleSheets t ss) = live (titleSheets t ss') := by
  unfold titleSheets
  split
  · exact h
  · have key : ∀ l : List SheetIn, live (l.map (fun s => { s with lines := s.lines.map (convertTitles t) })) =
        (live l).map (fun s => { s with lines := s.lines.map (convertTitles t) }) := by
      intro l
      unfold live
      rw [List.filter_map]
      rfl
    rw [key, key, h]

/-- The results of reading two lists of sheets are the same, skipped sheets aside. -/
def SameRead (x y : Except Err (List SheetIn)) : Prop :=
  match x, y with
  | .error e, .error e' => e = e'
  | .ok a, .ok b => live a = live b
  | _, _ => False

theorem mapE_live {f g : Str → Except Err SheetIn} {n : Str} {s0 : SheetIn} (h0 : f n = .ok s0) (hs : s0.headings = some [])
    (hg : ∀ m, m ≠ n → g m = f m) : ∀ l : List Str, SameRead (Api.mapE f l) (Api.mapE g (l.filter (fun m => decide (m ≠ n))))
  | [] => rfl
  | a :: r => by
    have ih := mapE_live h0 hs hg r
    by_cases ha : a = n
    · subst ha
      rw [List.filter_cons_of_neg (by simp), Api.mapE, h0]
      simp only
      revert ih
      cases Api.mapE f r with
      | error e => intro ih; exact ih
      | ok bs =>
        cases Api.mapE g (r.filter (fun m => decide (m ≠ a))) with
        | error e => intro ih; exact ih
        | ok cs =>
          intro ih
          simp only [SameRead] at ih ⊢
          rw [← ih]
          unfold live
          rw [List.filter_cons_of_neg (by simp [hs])]
    · rw [List.filter_cons_of_pos (by simpa using ha), Api.mapE, Api.mapE, hg a ha]
      cases f a with
      | error e => rfl
      | ok s =>
        simp only
        revert ih
        cases Api.mapE f r with
        | error e =>
          cases Api.mapE g (r.filter (fun m => decide (m ≠ n))) with
          | error e' => intro ih; exact ih
          | ok cs => intro ih; exact ih.elim
        | ok bs =>
          cases Api.mapE g (r.filter (fun m => decide (m ≠ n))) with
          | error e => intro ih; exact ih.elim
          | ok cs =>
            intro ih
            simp only [SameRead] at ih ⊢
            have e : ∀ l, live (s :: l) = live [s] ++ live l := fun l => by unfold live; rw [← List.filter_append]; rfl
            rw [e bs, e cs, ih]

theorem select_drop (i : Input) (n : Str) (hd : DistinctSheets i) (incl : List Str) (excl : List (Option Str)) :
    (withoutSheet n i).select incl excl = (i.select incl excl).filter (fun m => decide (m ≠ n)) := by
  cases i with
  | csv files =>
    simp only [withoutSheet, Input.select, DistinctSheets] at *
    rw [map_filter_fst (fun m => decide (m ≠ n ++ s%".csv"))]
    obtain ⟨a1, a2⟩ := C41_csv_selection (files.map Prod.fst) incl excl hd
    obtain ⟨b1, b2⟩ := C41_csv_selection ((files.map Prod.fst).filter (fun m => decide (m ≠ n ++ s%".csv"))) incl excl (hd.filter _)
    apply sorted_ext b1 (a1.filter _)
    intro m
    rw [List.mem_filter, a2, b2, List.mem_filter]
    simp only [decide_eq_true_eq]
    have : (m ++ s%".csv" ≠ n ++ s%".csv") ↔ m ≠ n := not_congr ⟨fun h => csvName_inj h, fun h => by rw [h]⟩
    rw [this]
    constructor
    · rintro ⟨⟨h1, h2⟩, h3, h4⟩; exact ⟨⟨h1, h3, h4⟩, h2⟩
    · rintro ⟨⟨h1, h3, h4⟩, h2⟩; exact ⟨⟨h1, h2⟩, h3, h4⟩
  | xlsx sheets =>
    simp only [withoutSheet, Input.select, map_filter_fst (fun m => decide (m ≠ n)), C41_sheet_selection, List.filter_filter]
    apply List.filter_congr
    intro m _
    rw [Bool.and_comm]
  | ods sheets =>
    simp only [withoutSheet, Input.select, map_filter_fst (fun m => decide (m ≠ n)), C41_sheet_selection, List.filter_filter]
    apply List.filter_congr
    intro m _
    rw [Bool.and_comm]

theorem config_without (i : Input) (M n : Str) (h : n ≠ M) : (withoutSheet M i).config n = i.config n := by
  cases i with
  | csv files =>
    simp only [withoutSheet, Input.config]
    rw [get_filter_key (fun n => decide (n ≠ M ++ s%".csv")) _ (by simpa using h)]
  | xlsx sheets => simp only [withoutSheet, Input.config]; rw [get_filter_key (fun n => decide (n ≠ M)) _ (by simpa using h)]
  | ods sheets => simp only [withoutSheet, Input.config]; rw [get_filter_key (fun n => decide (n ≠ M)) _ (by simpa using h)]

theorem pass_live {o : UnOpts} {env env' : Env} {schema : Option Parsed} {cfg : UnCfg} {rc : ReadCfg} {root : Option Str} {incl : List Str}
    {excl : List (Option Str)} (ht : o.convertTitles = true → schema.isSome = true) (h : SameRead (env.input.read rc incl excl) (env'.input.read rc incl excl)) :
    pass o env schema cfg rc root incl excl = pass o env' schema cfg rc root incl excl := by
  unfold pass
  revert h
  cases env.input.read rc incl excl with
  | error e =>
    cases env'.input.read rc incl excl with
    | error e' => intro h; rw [show e = e' from h]
    | ok b => intro h; exact h.elim
  | ok a =>
    cases env'.input.read rc incl excl with
    | error e => intro h; exact h.elim
    | ok b =>
      intro h
      have h : live a = live b := h
      simp only
      have key : (∃ a' b', withTitles o.convertTitles schema a = .ok a' ∧ withTitles o.convertTitles schema b = .ok b' ∧ live a' = live b') := by
        cases hc : o.convertTitles with
        | false => exact ⟨a, b, rfl, rfl, h⟩
        | true =>
          cases schema with
          | none => exact absurd (ht hc) (by simp)
          | some p =>
            unfold withTitles
            have e0 : ∀ l : List SheetIn, (if (!true || l.isEmpty) = true then (Except.ok l : Except Err (List SheetIn)) else .ok (titleSheets p.lookup l)) =
                .ok (titleSheets p.lookup l) := by
              intro l
              cases l with
              | nil => simp [titleSheets]
              | cons x r => rfl
            exact ⟨_, _, e0 a, e0 b, live_titles _ h⟩
      obtain ⟨a', b', e1, e2, e3⟩ := key
      rw [e1, e2]
      simp only
      rw [fancy_live cfg root _ _ e3, letters_live _ e3]

theorem read_other (i : Input) (n M : Str) (hd : DistinctSheets i) (hne : M ≠ n) (rc : ReadCfg) :
    (withoutSheet n i).read rc [M] [] = i.read rc [M] [] := by
  unfold Input.read
  rw [select_drop i n hd]
  have : (i.select [M] []).filter (fun m => decide (m ≠ n)) = i.select [M] [] := by
    rw [List.filter_eq_self]
    intro m hm
    rw [select_incl i M m hd hm]
    simpa using hne
  rw [this]
  apply mapE_congr
  intro m hm
  rw [select_incl i M m hd hm]
  exact sheet_without i n M hne rc

theorem stage1_without (o : UnOpts) (env : Env) (n : Str) (hd : DistinctSheets env.input) (hm : o.metatabName ≠ some n) :
    stage1 o { env with input := withoutSheet n env.input } = stage1 o env := by
  unfold stage1
  simp only
  cases hg : given o.metatabName with
  | none => rfl
  | some M =>
    simp only
    obtain ⟨hM, _⟩ := given_some.1 hg
    have hne : M ≠ n := by rintro rfl; exact hm hM
    have e1 : metaPass o { env with input := withoutSheet n env.input } M = metaPass o env M := by
      unfold metaPass
      split
      · rfl
      · apply pass_congr rfl rfl rfl
        exact read_other env.input n M hd hne _
    have e2 : metaConfig { env with input := withoutSheet n env.input } M = metaConfig env M := by
      unfold metaConfig
      simp only
      rw [select_drop env.input n hd, config_without _ _ _ hne]
      have : (M ∈ (env.input.select [M] []).filter (fun m => decide (m ≠ n))) ↔ M ∈ env.input.select [M] [] := by
        rw [List.mem_filter]; simp [hne]
      by_cases hs : M ∈ env.input.select [M] []
      · rw [if_pos hs, if_pos (this.2 hs)]
      · rw [if_neg hs, if_neg (fun h => hs (this.1 h))]
    rw [e1, e2]
    rfl

/-- A left out sheet is read as a sheet without headings. -/
theorem sheet_leftOut {o : UnOpts} {env : Env} {s : Stage} {n : Str} (hs : stage1 o env = .ok s) (hc : Configurable env.input n) (hl : LeftOut o env n) :
    ∃ s0, env.input.sheet { base := s.config, useConfig := true, vertical := o.vertical } n = .ok s0 ∧ s0.headings = some [] := by
  have hcfg := config_of_configurable hc
  have hflags : FlagsOf (resolveConfig { base := s.config, useConfig := true, vertical := o.vertical } (parseConfig (configItems env.input n))).1
      (sheetSources o env n) := by
    unfold resolveConfig sheetSources
    rw [nonEmpty_iff]
    simp only [if_true]
    split
    · exact flagsOf_parse _
    · exact stage_flags hs
  revert hflags
  generalize hrc : ({ base := s.config, useConfig := true, vertical := o.vertical } : ReadCfg) = rc
  intro hflags
  have hany : ∀ flags, flagged flags o env n → (sheetSources o env n).any (·.any (isFlag flags)) = true := by
    rintro flags ⟨items, h1, item, h2, h3⟩
    exact List.any_eq_true.2 ⟨items, h1, List.any_eq_true.2 ⟨item, h2, h3⟩⟩
  have hig : ignoredSheet (resolveConfig rc (parseConfig (configItems env.input n))).1 n = true ∧
      (env.input.format = s%"csv" → (resolveConfig rc (parseConfig (configItems env.input n))).1.ignore = true) := by
    unfold ignoredSheet
    rcases hl with h | ⟨h, ⟨rest, hr⟩, hf⟩
    · have := hflags.1.trans (hany _ h)
      exact ⟨by rw [this]; rfl, fun _ => this⟩
    · have := hflags.2.trans (hany _ h)
      refine ⟨?_, fun h => absurd h hf⟩
      rw [this]
      subst hr
      simp [Py.startsWith]
  cases hi : env.input with
  | csv files =>
    rw [hi] at hig hcfg
    simp only [Input.sheet, Input.config, csvSheet] at hcfg ⊢
    rw [hcfg]
    have := hig.2 rfl
    refine ⟨{ name := n, headings := some [], lines := [] }, ?_, rfl⟩
    simp only
    rw [if_pos]
    unfold csvHeadings
    simp only [this, if_true]
  | xlsx sheets =>
    rw [hi] at hig hcfg
    simp only [Input.sheet, Input.config, xlsxSheet] at hcfg ⊢
    rw [hcfg]
    simp only [hig.1, if_true]
    exact ⟨_, rfl, rfl⟩
  | ods sheets =>
    rw [hi] at hig hcfg
    simp only [Input.sheet, Input.config, odsSheet] at hcfg ⊢
    rw [hcfg]
    simp only [hig.1, Bool.true_or, if_true]
    exact ⟨_, rfl, rfl⟩

/-- C65.  A sheet that is to be left out, because `ignore` is configured for it, or `hashcomments` and its name starts with `#` (XLSX and ODS), might as well not be
in the file: the same error, or the same document, source maps and warnings. -/
theorem C65_left_out_sheets (o : UnOpts) (env : Env) (name : Str) (hd : DistinctSheets env.input) (hm : o.metatabName ≠ some name)
    (ht : o.convertTitles = true → o.schema.isSome = true) (hc : Configurable env.input name) (hl : LeftOut o env name) :
    runUnflatten o env = runUnflatten o { env with input := withoutSheet name env.input } := by
  unfold runUnflatten
  simp only
  rw [stage1_without o env name hd hm, format_without]
  cases hs : stage1 o env with
  | error e => rfl
  | ok s =>
    simp only
    have hp : ∀ root idn, mainPass o env s.config root idn = mainPass o { env with input := withoutSheet name env.input } s.config root idn := by
      intro root idn
      unfold mainPass
      cases hp : parseOpt { rollup := true, rootId := o.rootId.getD [], trunc := o.trunc, wkt := o.wkt } o.schema with
      | error e => rfl
      | ok schema =>
        simp only
        apply pass_live
        · intro h
          have := ht h
          cases hsch : o.schema with
          | none => rw [hsch] at this; cases this
          | some sc =>
            rw [hsch] at hp
            unfold parseOpt at hp
            simp only at hp
            split at hp
            · cases hp
            · injection hp with hp; subst hp; rfl
        · obtain ⟨s0, h0, h1⟩ := sheet_leftOut hs hc hl
          unfold Input.read
          simp only
          rw [select_drop env.input name hd]
          exact mapE_live h0 h1 (fun m hne => sheet_without env.input name m hne _) _
    simp only [← hp]
    rfl

/-! ### Comment columns -/

/-- Two inputs with the same sheets, only one of which may differ. -/
structure OneDiffers (i i' : Input) (name : Str) : Prop where
  format : i'.format = i.format
  select : ∀ incl excl, i'.select incl excl = i.select incl excl
  sheet : ∀ rc m, m ≠ name → i'.sheet rc m = i.sheet rc m
  config : ∀ m, m ≠ name → i'.config m = i.config m

theorem run_oneDiffers {o : UnOpts} {env : Env} {i' : Input} {name : Str} (hd : DistinctSheets env.input) (hm : o.metatabName ≠ some name)
    (h : OneDiffers env.input i' name)
    (hs : ∀ s, stage1 o env = .ok s → i'.sheet { base := s.config, useConfig := true, vertical := o.vertical } name =
      env.input.sheet { base := s.config, useConfig := true, vertical := o.vertical } name) :
    runUnflatten o { env with input := i' } = runUnflatten o env := by
  have hst : stage1 o { env with input := i' } = stage1 o env := by
    unfold stage1
    simp only
    cases hg : given o.metatabName with
    | none => rfl
    | some M =>
      simp only
      obtain ⟨hM, _⟩ := given_some.1 hg
      have hne : M ≠ name := by rintro rfl; exact hm hM
      have e1 : metaPass o { env with input := i' } M = metaPass o env M := by
        unfold metaPass
        split
        · rfl
        · apply pass_congr rfl rfl rfl
          unfold Input.read
          simp only
          rw [h.select]
          apply mapE_congr
          intro m hmem
          rw [select_incl env.input M m hd hmem]
          exact h.sheet _ M hne
      have e2 : metaConfig { env with input := i' } M = metaConfig env M := by
        unfold metaConfig
        simp only
        rw [h.select, h.config M hne]
      rw [e1, e2]
      rfl
  unfold runUnflatten
  simp only
  rw [hst, h.format]
  cases hst' : stage1 o env with
  | error e => rfl
  | ok s =>
    simp only
    have hp : ∀ root idn, mainPass o { env with input := i' } s.config root idn = mainPass o env s.config root idn := by
      intro root idn
      unfold mainPass
      cases parseOpt { rollup := true, rootId := o.rootId.getD [], trunc := o.trunc, wkt := o.wkt } o.schema with
      | error e => rfl
      | ok schema =>
        simp only
        apply pass_congr rfl rfl rfl
        unfold Input.read
        simp only
        rw [h.select]
        apply mapE_congr
        intro m _
        by_cases hmn : m = name
        · rw [hmn]; exact hs s hst'
        · exact h.sheet _ m hmn
    simp only [hp]
    rfl

theorem get_middle_ne {α : Type} (pre post : List (Str × α)) (k m : Str) (v v' : α) (h : m ≠ k) :
    Dict.get (pre ++ (k, v') :: post) m = Dict.get (pre ++ (k, v) :: post) m := by
  simp [Dict.get_append, Dict.get_cons, Ne.symm h]

theorem get_middle {α : Type} (pre post : List (Str × α)) (k : Str) (v : α) (h : ((pre ++ (k, v) :: post).map (·.1)).Nodup) :
    Dict.get (pre ++ (k, v) :: post) k = some v := by
  have : Dict.get pre k = none := by
    rw [Dict.get_none_iff]
    intro hk
    rw [List.map_append, List.nodup_append] at h
    exact h.2.2 k hk k (by simp) rfl
  simp [Dict.get_append, Dict.get_cons, this]

/-- A line does not show what stands under comment headings. -/
theorem line_comments {cfg : SheetConfig} (hh : cfg.hashcomments = true) {header r r' : List Atom} (h : SameButComments header r r') :
    xlsxLine cfg header r = xlsxLine cfg header r' := by
  unfold xlsxLine
  congr 1
  apply List.ext_getElem?
  intro c
  simp only [List.getElem?_map, List.getElem?_zip_eq_some, List.zip]
  simp only [List.getElem?_zipWith]
  cases hx : header[c]? with
  | none => rfl
  | some x =>
    by_cases hc : commentColumn header c
    · obtain ⟨rest, hr⟩ := hc
      rw [hx] at hr
      injection hr with hr
      subst hr
      have hl := h.1
      have : (r[c]?).isSome = (r'[c]?).isSome := by rw [Bool.eq_iff_iff]; simp [hl]
      cases h1 : r[c]? with
      | none => rw [h1] at this; cases h2 : r'[c]? with
        | none => rfl
        | some y => rw [h2] at this; cases this
      | some y => rw [h1] at this; cases h2 : r'[c]? with
        | none => rw [h2] at this; cases this
        | some y' => simp [hh, Py.startsWith]
    · rw [h.2 c hc]

/-- The same layout, with other data. -/
def Layout.withData {row : Type} (L : Layout row) (data : List row) : Layout row := { L with data }

theorem Layout.Fits.withData {row : Type} {rc : ReadCfg} {sh : row → Bool} {L : Layout row} (h : L.Fits rc sh) (data : List row) :
    (L.withData data).Fits rc sh := ⟨h.skip, h.hdrs, h.conf, h.noconf, h.keep⟩

theorem map_comments {cfg : SheetConfig} (hh : cfg.hashcomments = true) {header : List Atom} :
    ∀ {data data' : List (List Atom)}, All₂ (SameButComments header) data data' → data.map (xlsxLine cfg header) = data'.map (xlsxLine cfg header)
  | _, _, .nil => rfl
  | _, _, .cons h r => by rw [List.map_cons, List.map_cons, line_comments hh h, map_comments hh r]

/-- The configuration of a layout under the configuration of the run. -/
theorem layout_base {o : UnOpts} {env : Env} {s : Stage} (L : Layout (List Atom)) (hs : stage1 o env = .ok s)
    (hb : o.metatabName = none ∨ L.conf.isSome = true) :
    L.config { base := s.config, useConfig := true, vertical := o.vertical } = L.config { base := defaultConfiguration o.defaultConfig } := by
  unfold Layout.config
  cases hc : L.conf with
  | some items => rfl
  | none =>
    rcases hb with hb | hb
    · rw [stage1_plain (Or.inl (by rw [hb]; rfl))] at hs
      injection hs with hs; subst hs; rfl
    · rw [hc] at hb; cases hb

/-- C65 (XLSX).  With `hashcomments` configured for a worksheet, what stands under headings that start with `#` has no influence on the document, the source maps or
the warnings. -/
theorem C65_comment_columns_xlsx (o : UnOpts) (env : Env) (pre post : List (Str × Grid)) (name : Str) (w : Nat) (L : Layout (List Atom)) (data' : List (List Atom))
    (hi : env.input = .xlsx (pre ++ (name, { width := w, rows := L.rows (·.map Atom.str) }) :: post)) (hd : DistinctSheets env.input)
    (hm : o.metatabName ≠ some name) (hb : o.metatabName = none ∨ L.conf.isSome = true) (hv : o.vertical = false)
    (hfit : L.Fits { base := defaultConfiguration o.defaultConfig } hashRowA) (hname : ¬ ∃ rest, name = '#' :: rest)
    (hh : (L.config { base := defaultConfiguration o.defaultConfig }).hashcomments = true) (hdata : All₂ (SameButComments L.header) L.data data') :
    runUnflatten o { env with input := .xlsx (pre ++ (name, { width := w, rows := (L.withData data').rows (·.map Atom.str) }) :: post) } =
      runUnflatten o env := by
  have hstart : Py.startsWith s%"#" name = false := by
    cases name with
    | nil => rfl
    | cons a r =>
      have : a ≠ '#' := by rintro rfl; exact hname ⟨r, rfl⟩
      simp [Py.startsWith, List.isPrefixOf, Ne.symm this]
  apply run_oneDiffers hd hm
  · rw [hi]
    refine ⟨rfl, ?_, ?_, ?_⟩
    · intro incl excl; simp [Input.select]
    · intro rc m hne; simp only [Input.sheet]; rw [get_middle_ne _ _ _ _ _ _ hne]
    · intro m hne; simp only [Input.config]; rw [get_middle_ne _ _ _ _ _ _ hne]
  · intro s hs
    have hbase := layout_base L hs hb
    have hbase' : (L.withData data').config { base := s.config, useConfig := true, vertical := o.vertical } = L.config { base := defaultConfiguration o.defaultConfig } := hbase
    have hfit' : L.Fits { base := s.config, useConfig := true, vertical := o.vertical } hashRowA :=
      ⟨by rw [hbase]; exact hfit.skip, by rw [hbase]; exact hfit.hdrs, hfit.conf, hfit.noconf, by rw [hbase]; exact hfit.keep⟩
    rw [hi] at hd ⊢
    simp only [DistinctSheets] at hd
    have hd' : ((pre ++ (name, ({ width := w, rows := (L.withData data').rows (·.map Atom.str) } : Grid)) :: post).map (·.1)).Nodup := by simpa using hd
    simp only [Input.sheet]
    rw [get_middle _ _ _ _ hd, get_middle _ _ _ _ hd']
    simp only [Option.getD_some]
    rw [xlsx_layout _ name w L hfit' hv (fun _ => hstart), xlsx_layout _ name w (L.withData data') (hfit'.withData data') hv (fun _ => hstart), hbase, hbase']
    simp only [Layout.withData]
    rw [map_comments hh hdata]

/-- C65 (ODS).  Likewise. -/
theorem C65_comment_columns_ods (o : UnOpts) (env : Env) (pre post : List (Str × List (List Atom))) (name : Str) (L : Layout (List Atom)) (data' : List (List Atom))
    (hi : env.input = .ods (pre ++ (name, L.rows (·.map Atom.str)) :: post)) (hd : DistinctSheets env.input)
    (hm : o.metatabName ≠ some name) (hb : o.metatabName = none ∨ L.conf.isSome = true) (hv : o.vertical = false)
    (hfit : L.Fits { base := defaultConfiguration o.defaultConfig } hashRowA) (hname : ¬ ∃ rest, name = '#' :: rest)
    (hhead : L.header ≠ []) (htexts : ∀ a ∈ L.header, a = .none ∨ ∃ s, a = .str s)
    (hh : (L.config { base := defaultConfiguration o.defaultConfig }).hashcomments = true) (hdata : All₂ (SameButComments L.header) L.data data') :
    runUnflatten o { env with input := .ods (pre ++ (name, (L.withData data').rows (·.map Atom.str)) :: post) } = runUnflatten o env := by
  have hstart : Py.startsWith s%"#" name = false := by
    cases name with
    | nil => rfl
    | cons a r =>
      have : a ≠ '#' := by rintro rfl; exact hname ⟨r, rfl⟩
      simp [Py.startsWith, List.isPrefixOf, Ne.symm this]
  apply run_oneDiffers hd hm
  · rw [hi]
    refine ⟨rfl, ?_, ?_, ?_⟩
    · intro incl excl; simp [Input.select]
    · intro rc m hne; simp only [Input.sheet]; rw [get_middle_ne _ _ _ _ _ _ hne]
    · intro m hne; simp only [Input.config]; rw [get_middle_ne _ _ _ _ _ _ hne]
  · intro s hs
    have hbase := layout_base L hs hb
    have hbase' : (L.withData data').config { base := s.config, useConfig := true, vertical := o.vertical } = L.config { base := defaultConfiguration o.defaultConfig } := hbase
    have hfit' : L.Fits { base := s.config, useConfig := true, vertical := o.vertical } hashRowA :=
      ⟨by rw [hbase]; exact hfit.skip, by rw [hbase]; exact hfit.hdrs, hfit.conf, hfit.noconf, by rw [hbase]; exact hfit.keep⟩
    rw [hi] at hd ⊢
    simp only [DistinctSheets] at hd
    have hd' : ((pre ++ (name, (L.withData data').rows (·.map Atom.str)) :: post).map (·.1)).Nodup := by simpa using hd
    simp only [Input.sheet]
    rw [get_middle _ _ _ _ hd, get_middle _ _ _ _ hd']
    simp only [Option.getD_some]
    rw [ods_layout _ name L hfit' hv (fun _ => ⟨hstart, htexts⟩) hhead,
      ods_layout _ name (L.withData data') (hfit'.withData data') hv (fun _ => ⟨hstart, htexts⟩) hhead, hbase, hbase']
    simp only [Layout.withData]
    rw [map_comments hh hdata]

/-! ### Examples -/

/-- A workbook with a sheet of notes, an ignored sheet, and a sheet with a comment column. -/
def noteBook : Env :=
  { input := .xlsx [
      (s%"#notes", { width := 1, rows := [[.str s%"id"], [.str s%"n"]] }),
      (s%"old", { width := 2, rows := [[.str s%"#", .str s%"Ignore"], [.str s%"id", .none], [.str s%"o", .none]] }),
      (s%"main", { width := 2, rows := [[.str s%"id", .str s%"# why"], [.str s%"a", .str s%"because"]] })] }
def noteOpts : UnOpts := { inputFormat := some s%"xlsx", defaultConfig := s%"hashcomments, skipRows 0" }

example : LeftOut noteOpts noteBook s%"#notes" :=
  Or.inr ⟨⟨[s%"hashcomments", s%"skipRows 0"], by decide +kernel, s%"hashcomments", by decide +kernel, by decide +kernel⟩, ⟨s%"notes", rfl⟩, by decide +kernel⟩
example : LeftOut noteOpts noteBook s%"old" :=
  Or.inl ⟨[s%"Ignore"], by decide +kernel, s%"Ignore", by decide +kernel, by decide +kernel⟩
example : Configurable noteBook.input s%"old" := by
  refine ⟨fun h => by revert h; decide +kernel, ?_⟩
  intro items rest h a ha
  simp only [fileRows, noteBook, Dict.get, Option.getD_some] at h
  have h : [[Atom.str s%"#", .str s%"Ignore"], [.str s%"id", .none], [.str s%"o", .none]] = (.str s%"#" :: items) :: rest := h
  injection h with h _
  injection h with _ h
  subst h
  exact ⟨s%"Ignore", by simpa using ha⟩
example : DistinctSheets noteBook.input := by simp only [DistinctSheets, noteBook]; decide +kernel
/-- The whole run gives one object without the comment. -/
example : (runUnflatten noteOpts noteBook).map (·.document) = .ok (.json (.obj [(s%"main", .arr [.obj [(s%"id", .leaf (.str s%"a"))]])])) := by
  decide +kernel

/-- The layout of the sheet `main` of `noteBook`. -/
def noteLayout : Layout (List Atom) :=
  { conf := none, skipped := [], header := [.str s%"id", .str s%"# why"], extra := [], data := [[.str s%"a", .str s%"because"]] }
example : noteLayout.Fits { base := defaultConfiguration noteOpts.defaultConfig } hashRowA :=
  ⟨by decide +kernel, by decide +kernel, (by intro items h; cases h), by decide +kernel, by decide +kernel⟩
example : (noteLayout.config { base := defaultConfiguration noteOpts.defaultConfig }).hashcomments = true := by decide +kernel
example : SameButComments noteLayout.header [.str s%"a", .str s%"because"] [.str s%"a", .int 7] := by
  refine ⟨rfl, ?_⟩
  intro c hc
  match c with
  | 0 => rfl
  | 1 => exact absurd ⟨s%" why", rfl⟩ hc
  | c + 2 => rfl

/-- C65, the limits: for CSV, `hashcomments` has no effect, neither on sheets nor on columns. -/
example :
    (runUnflatten { inputFormat := some s%"csv", defaultConfig := s%"hashcomments" }
      { input := .csv [(s%"#notes.csv", [[s%"id", s%"# why"], [s%"n", s%"because"]])] }).map (·.document) =
      .ok (.json (.obj [(s%"main", .arr [.obj [(s%"id", .leaf (.str s%"n")), (s%"# why", .leaf (.str s%"because"))]])])) := by
  decide +kernel

end Verif

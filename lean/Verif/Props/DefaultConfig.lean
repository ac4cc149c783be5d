import Verif.Props.Precedence
import Verif.Proofs.Str
import Verif.Proofs.DecXml
/-! C55: the configuration line of the metatab and the default configuration. -/
namespace Verif
open Spec Api

theorem words_go_spaces (cur : Str) : ∀ (t : Str), (∀ c ∈ t, Py.isSpace c = true) → Py.words.go cur t = Py.words.go cur []
  | [], _ => rfl
  | c :: t, h => by
    have hc := h c (by simp)
    have ih := words_go_spaces [] t (fun x hx => h x (by simp [hx]))
    simp only [Py.words.go, hc, ih, if_true]
    cases cur <;> simp

theorem words_go_append (t : Str) (ht : ∀ c ∈ t, Py.isSpace c = true) : ∀ (s cur : Str), Py.words.go cur (s ++ t) = Py.words.go cur s
  | [], cur => words_go_spaces cur t ht
  | c :: s, cur => by
    rw [List.cons_append, Py.words.go, Py.words.go, words_go_append t ht s [], words_go_append t ht s (c :: cur)]

theorem words_lstrip : ∀ s : Str, Py.words (Py.lstrip Py.isSpace s) = Py.words s
  | [] => rfl
  | c :: s => by
    unfold Py.lstrip
    rw [List.dropWhile_cons]
    split
    · next h =>
      have := words_lstrip s
      unfold Py.lstrip at this
      rw [this]
      unfold Py.words
      rw [Py.words.go, if_pos h]; rfl
    · rfl

theorem rstrip_rest (p : Char → Bool) : ∀ t : Str, ∃ e, t = Py.rstrip p t ++ e ∧ ∀ c ∈ e, p c = true
  | [] => ⟨[], rfl, by simp⟩
  | c :: t => by
    obtain ⟨e, he, hs⟩ := rstrip_rest p t
    unfold Py.rstrip
    split
    · next h =>
      rw [h] at he
      split
      · next hc => exact ⟨c :: t, rfl, by rw [he]; simpa using ⟨hc, hs⟩⟩
      · exact ⟨e, by rw [he]; rfl, hs⟩
    · exact ⟨e, by rw [List.cons_append, ← he], hs⟩

theorem words_strip (s : Str) : Py.words (Py.strip Py.isSpace s) = Py.words s := by
  unfold Py.strip
  rw [← words_lstrip s]
  generalize Py.lstrip Py.isSpace s = t
  obtain ⟨e, he, hs⟩ := rstrip_rest Py.isSpace t
  generalize Py.rstrip Py.isSpace t = u at he
  subst he
  exact (words_go_append e hs u []).symm

theorem argOf_strip (option item : Str) : argOf option (Py.strip Py.isSpace item) = argOf option item := by
  unfold argOf; rw [words_strip]

theorem isFlag_strip (names : List Str) (item : Str) : isFlag names (Py.strip Py.isSpace item) = isFlag names item := by
  unfold isFlag; rw [words_strip]

theorem argsOf_strip (option : Str) (items : List Str) : argsOf option (items.map (Py.strip Py.isSpace)) = argsOf option items := by
  unfold argsOf
  rw [List.filterMap_map]
  congr 1
  funext x
  exact argOf_strip option x

theorem any_strip (names : List Str) (items : List Str) : (items.map (Py.strip Py.isSpace)).any (isFlag names) = items.any (isFlag names) := by
  rw [List.any_map]
  congr 1
  funext x
  exact isFlag_strip names x

theorem parseConfig_strip (items : List Str) : parseConfig (items.map (Py.strip Py.isSpace)) = parseConfig items := by
  rw [C39_config_meaning, C39_config_meaning]
  unfold intArgsOf
  simp only [argsOf_strip, any_strip]

/-- Configuring the same once more changes nothing. -/
theorem config_update_append (a b : List Str) : SheetConfig.update (parseConfig (a ++ b)) (parseConfig b) = SheetConfig.update (parseConfig a) (parseConfig b) := by
  rw [C39_config_meaning (a ++ b), C39_config_meaning a, C39_config_meaning b]
  unfold SheetConfig.update intArgsOf argsOf
  simp only [List.filterMap_append, List.any_append, List.getLast?_append, SheetConfig.mk.injEq]
  refine ⟨?_, ?_, ?_, ?_, ?_, ?_, ?_⟩
  · generalize (List.filterMap Py.int? _).getLast? = x; cases x <;> simp
  · generalize (List.filterMap Py.int? _).getLast? = x; cases x <;> simp
  · grind
  · grind
  · generalize (List.filterMap _ b).getLast? = x; cases x <;> simp
  · generalize (List.filterMap _ b).getLast? = x; cases x <;> simp
  · generalize (List.filterMap _ b).getLast? = x; cases x <;> simp

theorem texts_parse : ∀ {t : List Atom} {l : List Str} (c : SheetConfig), (t.filter (fun c => !c.falsy)).mapM cellText = some l →
    l.foldl configItem c = (t.filterMap textCell).foldl configItem c
  | [], l, c, h => by simp at h; subst h; rfl
  | a :: t, l, c, h => by
    by_cases hf : a.falsy = true
    · rw [List.filter_cons_of_neg (by simp [hf])] at h
      rw [texts_parse c h]
      cases a with
      | str s =>
        have : s = [] := by
          cases s with
          | nil => rfl
          | cons x r => simp [Atom.falsy, Atom.blank, Val.pyEq, Val.canon, Atom.canon, canonNum] at hf
        subst this
        simp [List.filterMap_cons, textCell, configItem_blank]
      | _ => simp [List.filterMap_cons, textCell]
    · rw [List.filter_cons_of_pos (by simpa using hf)] at h
      rw [List.mapM_cons] at h
      cases ha : cellText a with
      | none => rw [ha] at h; simp at h
      | some s =>
        rw [ha] at h
        cases hr : (t.filter (fun c => !c.falsy)).mapM cellText with
        | none => simp only [bne_iff_ne, ne_eq, hr] at h; simp [hr] at h
        | some l' =>
          simp [hr] at h
          subst h
          have : textCell a = some s := by cases a <;> simp_all [cellText, textCell]
          rw [List.filterMap_cons, this]
          simp only [List.foldl_cons]
          exact texts_parse _ hr

theorem texts_parse' : ∀ {t : List Atom} {l : List Str} (c : SheetConfig), t.mapM cellText = some l →
    l.foldl configItem c = (t.filterMap textCell).foldl configItem c
  | [], l, c, h => by simp at h; subst h; rfl
  | a :: t, l, c, h => by
    rw [List.mapM_cons] at h
    cases ha : cellText a with
    | none => rw [ha] at h; simp at h
    | some s =>
      rw [ha] at h
      cases hr : t.mapM cellText with
      | none => simp [hr] at h
      | some l' =>
        simp [hr] at h
        subst h
        have : textCell a = some s := by cases a <;> simp_all [cellText, textCell]
        rw [List.filterMap_cons, this]
        simp only [List.foldl_cons]
        exact texts_parse' _ hr

/-- What the configuration line of a sheet says. -/
theorem config_parse {i : Input} {name : Str} {own : SheetConfig} (h : i.config name = .ok own) : own = parseConfig (configItems i name) := by
  cases i with
  | csv files =>
    simp only [Input.config] at h
    simp only [configItems, fileRows]
    generalize (Dict.get files (name ++ s%".csv")).getD [] = rows at h ⊢
    cases rows with
    | nil => simp [csvConfig] at h
    | cons first rest =>
      cases first with
      | nil => simp only [csvConfig, Except.ok.injEq] at h; subst h; rfl
      | cons c t =>
        have hf : (t.map Atom.str).filterMap textCell = t := by
          rw [List.filterMap_map]
          have : (textCell ∘ Atom.str) = some := rfl
          rw [this, List.filterMap_some]
        simp only [List.map_cons, lineItems, Atom.str.injEq, hf]
        by_cases hc : c = s%"#"
        · subst hc
          simp only [csvConfig, if_true, Except.ok.injEq] at h ⊢
          exact h.symm
        · simp only [csvConfig, if_neg hc, Except.ok.injEq] at h ⊢
          exact h.symm
  | xlsx sheets =>
    simp only [Input.config] at h
    simp only [configItems, fileRows]
    generalize (Dict.get sheets name).getD ⟨0, []⟩ = g at h ⊢
    unfold xlsxConfig at h
    cases hr : g.rows with
    | nil =>
      have h0 : g.row 0 = List.replicate g.width .none := by simp [Grid.row, hr]
      rw [h0] at h
      cases hw : g.width with
      | zero => rw [hw] at h; simp at h; exact h.symm
      | succ n => rw [hw] at h; simp [List.replicate_succ] at h; exact h.symm
    | cons first rest =>
      have h0 : g.row 0 = first := by simp [Grid.row, hr]
      rw [h0] at h
      cases first with
      | nil => simp at h; subst h; rfl
      | cons a t =>
        simp only [lineItems]
        simp only at h
        by_cases ha : a = .str s%"#"
        · rw [if_pos ha] at h ⊢
          split at h
          · next l hl =>
            injection h with h; subst h
            exact texts_parse {} hl
          · cases h
        · rw [if_neg ha] at h ⊢
          injection h with h; exact h.symm
  | ods sheets =>
    simp only [Input.config] at h
    simp only [configItems, fileRows]
    generalize (Dict.get sheets name).getD [] = rows at h ⊢
    unfold odsConfig at h
    split at h
    · next a t rest =>
      simp only [lineItems]
      by_cases ha : a = .str s%"#"
      · rw [if_pos ha] at h ⊢
        subst ha
        split at h
        · next l hl =>
          injection h with h; subst h
          unfold parseConfig
          rw [texts_parse' {} hl]
          have : configItem {} s%"#" = {} := by decide +kernel
          simp only [List.filterMap_cons, textCell, List.foldl_cons, this]
        · cases h
      · rw [if_neg ha] at h ⊢
        injection h with h; exact h.symm
    · next hno =>
      injection h with h; subst h
      have : lineItems rows = [] := by
        unfold lineItems
        split
        · next a t r => exact absurd rfl (hno _ _ _)
        · rfl
      rw [this]
      rfl

theorem split_app (sep : Char) : ∀ (a b : Str), Py.split sep (a ++ sep :: b) = Py.split sep a ++ Py.split sep b
  | [], b => by simp [Py.split]
  | c :: a, b => by
    have ih := split_app sep a b
    rw [List.cons_append, Py.split, Py.split, ih]
    by_cases hc : c = sep
    · simp [hc]
    · simp only [hc, if_false]
      cases hs : Py.split sep a with
      | nil => exact absurd hs (Py.split_ne_nil _ _)
      | cons w ws => simp

/-- **C55.** With a metatab, the run is the same as if the items of the metatab's configuration line had been appended to the default configuration:
for every option, what the metatab says comes first, and what it does not say is taken from the default configuration. -/
theorem C55_metatab_line_extends_default (o : UnOpts) (env : Env) (M : Str) (hm : o.metatabName = some M) (hne : M ≠ []) (hr : o.rootIsList = false)
    (hc : ∀ item ∈ configItems env.input M, ',' ∉ item) :
    runUnflatten o env = runUnflatten { o with defaultConfig := Py.join s%"," (o.defaultConfig :: configItems env.input M) } env := by
  have hg : given o.metatabName = some M := given_some.2 ⟨hm, hne⟩
  have hstage : stage1 { o with defaultConfig := Py.join s%"," (o.defaultConfig :: configItems env.input M) } env = stage1 o env := by
    unfold stage1
    simp only [hg]
    rw [if_neg (by simp [hr]), if_neg (by simp [hr])]
    have hmp : metaPass { o with defaultConfig := Py.join s%"," (o.defaultConfig :: configItems env.input M) } env M = metaPass o env M := rfl
    have hbd : baseDocument { o with defaultConfig := Py.join s%"," (o.defaultConfig :: configItems env.input M) } env = baseDocument o env := rfl
    rw [hmp, hbd]
    cases metaPass o env M with
    | error e => rfl
    | ok m =>
      cases hcf : metaConfig env M with
      | error e => rfl
      | ok own =>
        have hown : own = parseConfig (configItems env.input M) := by
          unfold metaConfig at hcf
          by_cases hs : M ∈ env.input.select [M] []
          · rw [if_pos hs] at hcf
            exact config_parse hcf
          · rw [if_neg hs] at hcf
            injection hcf with hcf; subst hcf
            rw [mem_select_of_get hs]; rfl
        have hup : SheetConfig.update (defaultConfiguration (Py.join s%"," (o.defaultConfig :: configItems env.input M))) own =
            SheetConfig.update (defaultConfiguration o.defaultConfig) own := by
          rw [hown]
          unfold defaultConfiguration
          rw [parseConfig_strip, parseConfig_strip]
          cases hi : configItems env.input M with
          | nil => rfl
          | cons x r =>
            rw [hi] at hc
            have : Py.split ',' (Py.join s%"," (o.defaultConfig :: x :: r)) = Py.split ',' o.defaultConfig ++ (x :: r) := by
              simp only [Py.join, List.singleton_append]
              rw [split_app, Py.split_join (by simp) hc]
            rw [this]
            exact config_update_append _ _
        simp only [hup]
  unfold runUnflatten
  rw [hstage]
  rfl

/-- A concrete case: the metatab says `skiprows 1`, the default configuration `skiprows 3` and `headerrows 2`. -/
def dcEnv : Env := { input := .csv [(s%"m.csv", [[s%"#", s%"skiprows 1"], [s%"v"], [s%"7"]]),
                                    (s%"rows.csv", [[s%"title"], [s%"id", s%"a"], [s%"The id", s%"The a"], [s%"1", s%"x"]])] }
def dcOpts : UnOpts := { inputFormat := some s%"csv", metatabName := some s%"m", defaultConfig := s%"skiprows 3, headerrows 2" }

example : configItems dcEnv.input s%"m" = [s%"skiprows 1"] := by decide +kernel
example : Py.join s%"," (dcOpts.defaultConfig :: configItems dcEnv.input s%"m") = s%"skiprows 3, headerrows 2,skiprows 1" := by decide +kernel

example : (runUnflatten dcOpts dcEnv).map (·.document) =
    .ok (.json (.obj [(s%"v", .leaf (.str s%"7")), (s%"main", .arr [.obj [(s%"id", .leaf (.str s%"1")), (s%"a", .leaf (.str s%"x"))]])])) := by
  decide +kernel

end Verif

import Verif.Props.Main
import Verif.Props.Config
import Verif.Proofs.DecEq
/-! C55: where the root list path, the id name and the XML root tag come from. -/
namespace Verif
open Spec Api

/-- The parts of a configuration that are about the whole run. -/
def RunConfig (c : SheetConfig) (items : List (List Str)) : Prop :=
  c.rootListPath = configured s%"rootlistpath" items ∧ c.idName = configured s%"idname" items ∧ c.xmlRootTag = configured s%"xmlroottag" items

theorem runConfig_parse (items : List Str) : RunConfig (parseConfig items) [items] := by
  rw [C39_config_meaning]
  unfold RunConfig configured
  simp only [List.filterMap_cons, List.filterMap_nil]
  refine ⟨?_, ?_, ?_⟩ <;> (split <;> simp_all)

theorem configured_cons (option : Str) (a : List Str) (r : List (List Str)) :
    configured option (a :: r) = ((configured option [a]) <|> configured option r) := by
  unfold configured
  simp only [List.filterMap_cons, List.filterMap_nil]
  cases (argsOf option a).getLast? <;> simp

theorem runConfig_update {base own : SheetConfig} {a b : List Str} (h1 : RunConfig own [a]) (h2 : RunConfig base [b]) :
    RunConfig (SheetConfig.update base own) [a, b] := by
  obtain ⟨x1, x2, x3⟩ := h1
  obtain ⟨y1, y2, y3⟩ := h2
  unfold RunConfig SheetConfig.update
  rw [configured_cons s%"rootlistpath" a, configured_cons s%"idname" a, configured_cons s%"xmlroottag" a]
  simp only
  rw [x1, x2, x3, y1, y2, y3]
  exact ⟨rfl, rfl, rfl⟩

theorem args_texts {option : Str} (hopt : argOf option [] = none) : ∀ {t : List Atom} {l : List Str}, (t.filter (fun c => !c.falsy)).mapM cellText = some l →
    argsOf option l = argsOf option (t.filterMap textCell)
  | [], l, h => by simp at h; subst h; rfl
  | a :: t, l, h => by
    by_cases hf : a.falsy = true
    · rw [List.filter_cons_of_neg (by simp [hf])] at h
      rw [args_texts hopt h]
      cases a with
      | str s =>
        have : s = [] := by
          cases s with
          | nil => rfl
          | cons x r => simp [Atom.falsy, Atom.blank, Val.pyEq, Val.canon, Atom.canon, canonNum] at hf
        subst this
        simp [List.filterMap_cons, textCell, argsOf, hopt]
      | _ => simp [List.filterMap_cons, textCell]
    · rw [List.filter_cons_of_pos (by simpa using hf)] at h
      rw [List.mapM_cons] at h
      cases ha : cellText a with
      | none => rw [ha] at h; simp at h
      | some s =>
        rw [ha] at h
        cases hr : (t.filter (fun c => !c.falsy)).mapM cellText with
        | none => simp only [bne_iff_ne, ne_eq, hr] at h; simp [hr] at h
        | some l' =>
          simp [hr] at h
          subst h
          have ih := args_texts hopt hr
          unfold argsOf at ih ⊢
          have : textCell a = some s := by cases a <;> simp_all [cellText, textCell]
          rw [List.filterMap_cons, List.filterMap_cons, this]
          simp only [List.filterMap_cons, ih]

theorem args_texts' {option : Str} : ∀ {t : List Atom} {l : List Str}, t.mapM cellText = some l → argsOf option l = argsOf option (t.filterMap textCell)
  | [], l, h => by simp at h; subst h; rfl
  | a :: t, l, h => by
    rw [List.mapM_cons] at h
    cases ha : cellText a with
    | none => rw [ha] at h; simp at h
    | some s =>
      rw [ha] at h
      cases hr : t.mapM cellText with
      | none => simp [hr] at h
      | some l' =>
        simp [hr] at h
        subst h
        have ih := args_texts' (option := option) hr
        unfold argsOf at ih ⊢
        have : textCell a = some s := by cases a <;> simp_all [cellText, textCell]
        rw [List.filterMap_cons, List.filterMap_cons, this]
        simp only [List.filterMap_cons, ih]

theorem runConfig_of_args {c : SheetConfig} {l items : List Str} (h : RunConfig c [l])
    (he : ∀ option, argOf option [] = none → argsOf option l = argsOf option items) : RunConfig c [items] := by
  obtain ⟨h1, h2, h3⟩ := h
  unfold RunConfig
  rw [h1, h2, h3]
  unfold configured
  simp only [List.filterMap_cons, List.filterMap_nil]
  refine ⟨?_, ?_, ?_⟩ <;> rw [he _ (by decide +kernel)]

theorem runConfig_empty : RunConfig {} [[]] := ⟨by decide +kernel, by decide +kernel, by decide +kernel⟩

/-- What the configuration line of a sheet says. -/
theorem config_items {i : Input} {name : Str} {own : SheetConfig} (h : i.config name = .ok own) : RunConfig own [configItems i name] := by
  cases i with
  | csv files =>
    simp only [Input.config] at h
    simp only [configItems, fileRows]
    generalize (Dict.get files (name ++ s%".csv")).getD [] = rows at h ⊢
    cases rows with
    | nil => simp [csvConfig] at h
    | cons first rest =>
      cases first with
      | nil => simp only [csvConfig, Except.ok.injEq] at h; subst h; exact runConfig_empty
      | cons c t =>
        have hf : (t.map Atom.str).filterMap textCell = t := by
          rw [List.filterMap_map]
          have : (textCell ∘ Atom.str) = some := rfl
          rw [this, List.filterMap_some]
        simp only [List.map_cons, lineItems, Atom.str.injEq, hf]
        by_cases hc : c = s%"#"
        · subst hc
          simp only [csvConfig, if_true, Except.ok.injEq] at h ⊢
          subst h
          exact runConfig_parse t
        · simp only [csvConfig, if_neg hc, Except.ok.injEq] at h ⊢
          subst h
          exact runConfig_empty
  | xlsx sheets =>
    simp only [Input.config] at h
    simp only [configItems, fileRows]
    generalize (Dict.get sheets name).getD ⟨0, []⟩ = g at h ⊢
    unfold xlsxConfig at h
    cases hr : g.rows with
    | nil =>
      have h0 : g.row 0 = List.replicate g.width .none := by simp [Grid.row, hr]
      rw [h0] at h
      have : own = {} := by
        cases hw : g.width with
        | zero => rw [hw] at h; simp at h; exact h.symm
        | succ n => rw [hw] at h; simp [List.replicate_succ] at h; exact h.symm
      subst this
      exact runConfig_empty
    | cons first rest =>
      have h0 : g.row 0 = first := by simp [Grid.row, hr]
      rw [h0] at h
      cases first with
      | nil => simp at h; subst h; exact runConfig_empty
      | cons a t =>
        simp only [lineItems]
        simp only at h
        by_cases ha : a = .str s%"#"
        · rw [if_pos ha] at h ⊢
          split at h
          · next l hl =>
            injection h with h; subst h
            exact runConfig_of_args (runConfig_parse l) (fun option ho => args_texts ho hl)
          · cases h
        · rw [if_neg ha] at h ⊢
          injection h with h; subst h
          exact runConfig_empty
  | ods sheets =>
    simp only [Input.config] at h
    simp only [configItems, fileRows]
    generalize (Dict.get sheets name).getD [] = rows at h ⊢
    unfold odsConfig at h
    split at h
    · next a t rest =>
      simp only [lineItems]
      by_cases ha : a = .str s%"#"
      · rw [if_pos ha] at h ⊢
        subst ha
        split at h
        · next l hl =>
          injection h with h; subst h
          refine runConfig_of_args (runConfig_parse l) (fun option ho => ?_)
          rw [args_texts' hl]
          unfold argsOf
          have : argOf option s%"#" = none := by
            have : Py.words s%"#" = [s%"#"] := by decide +kernel
            unfold argOf; rw [this]
          simp [textCell, this]
        · cases h
      · rw [if_neg ha] at h ⊢
        injection h with h; subst h
        exact runConfig_empty
    · next hno =>
      injection h with h; subst h
      have : lineItems rows = [] := by
        unfold lineItems
        split
        · next a t r => exact absurd rfl (hno _ _ _)
        · rfl
      rw [this]
      exact runConfig_empty

theorem mem_select_of_get {i : Input} {M : Str} (h : M ∉ i.select [M] []) : configItems i M = [] := by
  cases i with
  | csv files =>
    have : Dict.get files (M ++ s%".csv") = none := by
      rw [Dict.get_none_iff]
      intro hk
      apply h
      simp only [Input.select, selectCsv, List.isEmpty_cons, Bool.false_eq_true, if_false, List.foldl_nil, List.mem_filter]
      refine ⟨?_, by simp⟩
      rw [mem_sortNames, List.mem_map]
      refine ⟨M ++ s%".csv", List.mem_filter.2 ⟨hk, ?_⟩, by simp⟩
      exact (endsWith_iff _ _).2 ⟨M, rfl⟩
    simp [configItems, fileRows, this, lineItems]
  | xlsx sheets =>
    have : Dict.get sheets M = none := by
      rw [Dict.get_none_iff]
      intro hk
      apply h
      simp only [Input.select, selectSheets, List.isEmpty_cons, Bool.false_eq_true, if_false, List.foldl_nil, List.mem_filter]
      exact ⟨hk, by simp⟩
    simp [configItems, fileRows, this, lineItems]
  | ods sheets =>
    have : Dict.get sheets M = none := by
      rw [Dict.get_none_iff]
      intro hk
      apply h
      simp only [Input.select, selectSheets, List.isEmpty_cons, Bool.false_eq_true, if_false, List.foldl_nil, List.mem_filter]
      exact ⟨hk, by simp⟩
    simp [configItems, fileRows, this, lineItems]

/-- The configuration in force is what the sources say. -/
theorem stage_config {o : UnOpts} {env : Env} {s : Stage} (h : stage1 o env = .ok s) : RunConfig s.config (sources o env) := by
  have hdef : RunConfig (defaultConfiguration o.defaultConfig) [defaultItems o] := runConfig_parse _
  by_cases hp : given o.metatabName = none ∨ o.rootIsList = true
  · rw [stage1_plain hp] at h
    injection h with h; subst h
    have : sources o env = [defaultItems o] := by
      unfold sources
      rcases hp with hp | hp
      · rw [given_none] at hp
        cases hm : o.metatabName with
        | none => rfl
        | some M => rw [hm] at hp; simp at hp; simp [hp]
      · cases hm : o.metatabName with
        | none => rfl
        | some M => simp [hp]
    rw [this]
    exact hdef
  · cases hg : given o.metatabName with
    | none => exact absurd (Or.inl hg) hp
    | some M =>
      have hr : o.rootIsList = false := by
        cases hr : o.rootIsList with
        | false => rfl
        | true => exact absurd (Or.inr hr) hp
      obtain ⟨m, own, base, _, hc, _, rfl⟩ := (stage1_meta hg hr).1 h
      obtain ⟨hM, hne⟩ := given_some.1 hg
      have : sources o env = [configItems env.input M, defaultItems o] := by
        unfold sources
        rw [hM]
        simp [hne, hr]
      rw [this]
      refine runConfig_update ?_ hdef
      unfold metaConfig at hc
      by_cases hs : M ∈ env.input.select [M] []
      · rw [if_pos hs] at hc
        exact config_items hc
      · rw [if_neg hs] at hc
        injection hc with hc; subst hc
        rw [mem_select_of_get hs]
        exact runConfig_empty

/-- C55: without a root list path among the options, the run is the same as with the configured one, or else `main`, as option. -/
theorem C55_root_list_path (o : UnOpts) (env : Env) (h : o.rootListPath = none) :
    runUnflatten o env = runUnflatten { o with rootListPath := some ((configured s%"rootlistpath" (sources o env)).getD s%"main") } env := by
  have hs : stage1 { o with rootListPath := some ((configured s%"rootlistpath" (sources o env)).getD s%"main") } env = stage1 o env := rfl
  unfold runUnflatten
  rw [hs]
  cases hst : stage1 o env with
  | error e => rfl
  | ok s =>
    have hc := stage_config hst
    have h1 : rootPathOf { o with rootListPath := some ((configured s%"rootlistpath" (sources o env)).getD s%"main") } s.config = rootPathOf o s.config := by
      unfold rootPathOf
      rw [h, hc.1]
      rfl
    simp only []
    rw [h1]
    rfl

/-- C55: without an id name among the options (and without a metatab: there the option says how its rows are read as well), the run is the same as with
the configured one, or else `id`, as option. -/
theorem C55_id_name (o : UnOpts) (env : Env) (h : o.idName = none) (hm : o.metatabName.getD [] = [] ∨ o.rootIsList = true) :
    runUnflatten o env = runUnflatten { o with idName := some ((configured s%"idname" (sources o env)).getD s%"id") } env := by
  have hm' : given o.metatabName = none ∨ o.rootIsList = true := hm.imp given_none.2 id
  have hs : stage1 { o with idName := some ((configured s%"idname" (sources o env)).getD s%"id") } env = stage1 o env := by
    rw [stage1_plain hm', stage1_plain (o := { o with idName := some ((configured s%"idname" (sources o env)).getD s%"id") }) hm']
    rfl
  unfold runUnflatten
  rw [hs]
  cases hst : stage1 o env with
  | error e => rfl
  | ok s =>
    have hc := stage_config hst
    have h1 : idNameOf { o with idName := some ((configured s%"idname" (sources o env)).getD s%"id") } s.config = idNameOf o s.config := by
      unfold idNameOf
      rw [h, hc.2.1]
      rfl
    simp only []
    rw [h1]
    rfl

theorem splitColon_none : ∀ {t : Str}, ':' ∉ t → Xml.splitColon t = none
  | [], _ => rfl
  | c :: cs, h => by
    have : c ≠ ':' := by rintro rfl; exact h (by simp)
    simp [Xml.splitColon, this, splitColon_none (fun hm => h (List.mem_cons_of_mem _ hm))]

theorem toXml_tag {valid : Str → List (Str × Str) → Bool} {fs : List (Str × Json)} {tag : Str} {order : Option Xml.Order} {e : Xml.Elem}
    (h : Xml.toXml valid fs tag order = .ok e) (ht : ':' ∉ tag) : e.tag = tag := by
  unfold Xml.toXml at h
  have hq : ∀ ns, Xml.qualify ns tag = tag := by
    intro ns
    unfold Xml.qualify
    rw [splitColon_none ht]
  split at h
  · cases h
  · cases h
  · next e' he =>
    unfold Xml.dictToXml at he
    simp only [hq] at he
    split at he
    · cases he
    · injection he with he
      split at he
      · injection he with he
        injection h with h
        subst h he
        cases order <;> rfl
      · cases he

/-- C55: the tag of the XML document is the configured one, or else `iati-activities` (unless it has a namespace prefix, which is replaced). -/
theorem C55_xml_root_tag (o : UnOpts) (env : Env) (out : UnOut) (e : Xml.Elem) (h : runUnflatten o env = .ok out) (hd : out.document = .xml e)
    (hc : ':' ∉ (configured s%"xmlroottag" (sources o env)).getD s%"iati-activities") :
    e.tag = (configured s%"xmlroottag" (sources o env)).getD s%"iati-activities" := by
  have key : ∀ (s : Stage) (doc : Json), stage1 o env = .ok s → render o env s.config (rootPathOf o s.config) doc = .ok (.xml e) →
      e.tag = (configured s%"xmlroottag" (sources o env)).getD s%"iati-activities" := by
    intro s doc hs hr
    rw [← (stage_config hs).2.2] at hc ⊢
    unfold render at hr
    split at hr
    · split at hr
      · split at hr
        · cases hr
        · split at hr
          · cases hr
          · next hx =>
            injection hr with hr
            injection hr with hr
            subst hr
            exact toXml_tag hx hc
      · cases hr
    · cases hr
  cases hm : (o.metatabOnly && !o.rootIsList) with
  | true =>
    obtain ⟨_, _, s, d, hs, hr, rfl⟩ := (run_metaOnly hm).1 h
    simp only at hd; subst hd
    exact key s _ hs hr
  | false =>
    obtain ⟨_, _, s, m, doc, d, hs, _, _, hr, rfl⟩ := (run_full hm).1 h
    simp only at hd; subst hd
    exact key s _ hs hr

namespace PrecEx

/-- A metatab with a configuration line, and one more sheet. -/
def env : Env := { input := .csv [(s%"m.csv", [[s%"#", s%"RootListPath things", s%"xmlroottag root"], [s%"v"], [s%"7"]]),
                                  (s%"rows.csv", [[s%"key", s%"a"], [s%"1", s%"x"]])] }
def opts : UnOpts := { inputFormat := some s%"csv", metatabName := some s%"m", defaultConfig := s%"rootlistpath other, idname key" }

example : configured s%"rootlistpath" (sources opts env) = some s%"things" := by decide +kernel
example : configured s%"idname" (sources opts env) = some s%"key" := by decide +kernel
example : configured s%"xmlroottag" (sources opts env) = some s%"root" := by decide +kernel
example : configured s%"rootlistpath" (sources { opts with metatabName := none } env) = some s%"other" := by decide +kernel
example : configured s%"rootlistpath" (sources { inputFormat := some s%"csv" } env) = none := by decide +kernel

end PrecEx

end Verif

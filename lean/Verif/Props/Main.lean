import Verif.Proofs.Main
import Verif.Proofs.DecXml
/-! C47: the document that `unflatten` writes, put together from its parts. -/
namespace Verif
open Spec Api

theorem pass_congr {o o' : UnOpts} {env env' : Env} {schema : Option Parsed} {cfg : UnCfg} {rc : ReadCfg} {root : Option Str} {incl : List Str}
    {excl excl' : List (Option Str)} (h1 : o'.convertTitles = o.convertTitles) (h2 : o'.cellSourceMap = o.cellSourceMap)
    (h3 : o'.headingSourceMap = o.headingSourceMap) (h4 : env'.input.read rc incl excl' = env.input.read rc incl excl) :
    pass o' env' schema cfg rc root incl excl' = pass o env schema cfg rc root incl excl := by
  unfold pass
  rw [h1, h2, h3, h4]

theorem metaPass_only (o : UnOpts) (env : Env) (M : Str) (hd : DistinctSheets env.input) :
    metaPass { o with metatabOnly := true } { env with input := onlySheet M env.input } M = metaPass o env M := by
  unfold metaPass
  simp only
  split
  · rfl
  · apply pass_congr rfl rfl rfl
    exact read_only env.input M hd _

theorem mainPass_without (o : UnOpts) (env : Env) (M : Str) (hM : o.metatabName = some M) (hd : DistinctSheets env.input)
    (c' : Str) (base : SheetConfig) (root idName : Str) :
    mainPass { o with metatabName := none, defaultConfig := c' } { env with input := withoutSheet M env.input } base root idName =
      mainPass o env base root idName := by
  unfold mainPass
  simp only [hM]
  split
  · rfl
  · apply pass_congr rfl rfl rfl
    exact read_without env.input M hd _

theorem metaConfig_only (env : Env) (M : Str) (hd : DistinctSheets env.input) :
    metaConfig { env with input := onlySheet M env.input } M = metaConfig env M := by
  unfold metaConfig
  simp only
  rw [select_only env.input M hd, config_only]

theorem checks_meta {f : Option Str} {M : Str} {b : Option Str} (hne : M ≠ []) :
    unflattenChecks f (some M) b = .ok () ↔ unflattenChecks f none b = .ok () ∧ b.getD [] = [] := by
  unfold unflattenChecks
  cases f with
  | none => simp
  | some f =>
    simp only [Option.getD_some, Option.getD_none, ne_eq, hne, not_false_eq_true, true_and, not_true_eq_false, false_and, if_false]
    split
    · simp
    · split
      · next h => simp [h]
      · next h => simpa using h

theorem render_json {o : UnOpts} {env : Env} {c : SheetConfig} {root : Str} {doc : Json} (hx : o.xml = false) :
    render o env c root doc = .ok (.json doc) := by
  unfold render; simp [hx]

theorem addResult_obj {o : UnOpts} {root : Str} {b : List (Str × Json)} {r : List Json} (h : o.rootIsList = false) :
    addResult o root (.obj b) r = .ok (.obj (Dict.set b root (.arr r))) := by
  unfold addResult; simp [h]

theorem addResult_list {o : UnOpts} {root : Str} {b : Json} {r : List Json} (h : o.rootIsList = true) :
    addResult o root b r = .ok (.arr r) := by
  unfold addResult; simp [h]

theorem addMeta_obj {fs : List (Str × Json)} {result : List Json} {base : Json} (h : addMeta (.obj fs) result = .ok base) :
    ∃ gs, base = .obj gs := by
  unfold addMeta at h
  split at h
  · injection h with h; exact ⟨fs, h.symm⟩
  · injection h with h; exact ⟨_, h.symm⟩
  · cases h

/-- C47.  A run with a metatab is put together from two runs that have nothing to do with each other: one over the metatab alone, which gives the other fields
of the document, and one over the other sheets, without a metatab and with the configuration `c'` that combines the metatab's and the default
configuration, which gives the root list.  Source maps and warnings are put together in the same way. -/
theorem C47_two_runs (o : UnOpts) (env : Env) (out : UnOut) (M root c' : Str)
    (hM : o.metatabName = some M) (hne : M ≠ []) (hlist : o.rootIsList = false) (hfull : o.metatabOnly = false) (hx : o.xml = false)
    (hroot : o.rootListPath = some root) (hd : DistinctSheets env.input)
    (hc' : ∀ own, metaConfig env M = .ok own →
      defaultConfiguration c' = SheetConfig.update (defaultConfiguration o.defaultConfig) own) :
    runUnflatten o env = .ok out ↔ ∃ outM outR fields items,
      runUnflatten { o with metatabOnly := true } { env with input := onlySheet M env.input } = .ok outM ∧
      runUnflatten { o with metatabName := none, defaultConfig := c' } { env with input := withoutSheet M env.input } = .ok outR ∧
      outM.document = .json (.obj fields) ∧ outR.document = .json (.obj [(root, .arr items)]) ∧
      out.document = .json (.obj (Dict.set fields root (.arr items))) ∧
      out.cellMap = Dict.update outM.cellMap outR.cellMap ∧ out.headingMap = Dict.update outM.headingMap outR.headingMap ∧
      out.warns = outM.warns ++ outR.warns ∧ out.schemaWarns = outM.schemaWarns ++ outR.schemaWarns := by
  have hg : given o.metatabName = some M := given_some.2 ⟨hM, hne⟩
  have hrp : ∀ c, rootPathOf o c = root := by intro c; unfold rootPathOf; rw [hroot]; rfl
  have hidn : ∀ c, idNameOf { o with metatabName := none, defaultConfig := c' } c = idNameOf o c := fun _ => rfl
  have hrp' : ∀ c, rootPathOf { o with metatabName := none, defaultConfig := c' } c = root := hrp
  rw [run_full (by simp [hfull])]
  constructor
  · rintro ⟨k1, k2, s, m, doc, d, h3, h4, h5, h6, rfl⟩
    obtain ⟨mm, own, base, g1, g2, g3, rfl⟩ := (stage1_meta hg hlist).1 h3
    have hb : o.baseJson.getD [] = [] := by rw [hM, checks_meta hne] at k1; exact k1.2
    have hbd : baseDocument o env = .obj [] := by
      unfold baseDocument; rw [if_neg (by simp [hlist]), if_pos (given_none.2 hb)]
    obtain ⟨fields, rfl⟩ := addMeta_obj (hbd ▸ g3)
    simp only [hrp] at h5 h6
    simp only [addResult, hlist, Bool.false_eq_true, if_false, Except.ok.injEq] at h5
    subst h5
    rw [render_json hx] at h6
    injection h6 with h6
    subst h6
    refine ⟨_, _, fields, m.result,
      (run_metaOnly (by simp [hlist])).2 ⟨k1, by rw [k2]; exact congrArg some (format_only env.input M).symm, _, _,
        (stage1_meta (o := { o with metatabOnly := true }) hg hlist).2 ⟨mm, own, .obj fields, by rw [metaPass_only o env M hd]; exact g1,
          by rw [metaConfig_only env M hd]; exact g2, g3, rfl⟩, render_json hx, rfl⟩,
      (run_full (by simp [hfull])).2 ⟨(by rw [hM, checks_meta hne] at k1; exact k1.1), by rw [k2]; exact congrArg some (format_without env.input M).symm,
        _, m, .obj [(root, .arr m.result)], .json (.obj [(root, .arr m.result)]), stage1_plain (Or.inl rfl), ?_, ?_, render_json hx, rfl⟩,
      rfl, rfl, rfl, (update_dictOf _ _).symm, (update_dictOf _ _).symm, rfl, rfl⟩
    · simp only
      rw [hc' own g2, mainPass_without o env M hM hd, hrp', hidn, ← h4, hrp]
    · have : baseDocument { o with metatabName := none, defaultConfig := c' } { env with input := withoutSheet M env.input } = .obj [] := by
        unfold baseDocument; rw [if_neg (by simp [hlist]), if_pos (given_none.2 hb)]
      simp only
      rw [this, addResult_obj (by exact hlist), hrp']
      rfl
  · rintro ⟨outM, outR, fields, items, hA, hB, e1, e2, e3, e4, e5, e6, e7⟩
    rw [run_metaOnly (by simp [hlist])] at hA
    rw [run_full (by simp [hfull])] at hB
    obtain ⟨a1, a2, s, d, a3, a4, rfl⟩ := hA
    obtain ⟨b1, b2, s', m, doc, d', b3, b4, b5, b6, rfl⟩ := hB
    rw [stage1_plain (Or.inl rfl)] at b3
    injection b3 with b3
    subst b3
    obtain ⟨mm, own, base, g1, g2, g3, rfl⟩ := (stage1_meta (o := { o with metatabOnly := true }) hg hlist).1 a3
    rw [metaPass_only o env M hd] at g1
    rw [metaConfig_only env M hd] at g2
    rw [render_json (o := { o with metatabOnly := true }) hx] at a4
    rw [render_json (o := { o with metatabName := none, defaultConfig := c' }) hx] at b6
    injection a4 with a4
    injection b6 with b6
    subst a4
    subst b6
    simp only [Document.json.injEq] at e1 e2
    subst e1
    subst e2
    have hb : o.baseJson.getD [] = [] := by
      have : unflattenChecks o.inputFormat o.metatabName o.baseJson = .ok () := a1
      rw [hM, checks_meta hne] at this; exact this.2
    have hbR : baseDocument { o with metatabName := none, defaultConfig := c' } { env with input := withoutSheet M env.input } = .obj [] := by
      unfold baseDocument; rw [if_neg (by simp [hlist]), if_pos (given_none.2 hb)]
    simp only at b5
    rw [hbR, addResult_obj (by exact hlist), hrp', Except.ok.injEq, Json.obj.injEq] at b5
    have hm : m.result = items := by
      have : [(root, Json.arr m.result)] = [(root, Json.arr items)] := b5
      simpa using this
    simp only at b4
    rw [hc' own g2, mainPass_without o env M hM hd, hrp', hidn] at b4
    refine ⟨a1, by have : o.inputFormat = _ := a2; rw [this]; exact congrArg some (format_only env.input M),
      _, m, .obj (Dict.set fields root (.arr items)), .json (.obj (Dict.set fields root (.arr items))),
      (stage1_meta hg hlist).2 ⟨mm, own, .obj fields, g1, g2, g3, rfl⟩, by rw [hrp]; exact b4, ?_, render_json hx, ?_⟩
    · simp only [addResult, hlist, Bool.false_eq_true, if_false, hrp, hm]
    · cases out
      simp only at e3 e4 e5 e6 e7
      subst e3; subst e4; subst e5; subst e6; subst e7
      simp only [UnOut.mk.injEq, true_and]
      exact ⟨update_dictOf _ _, update_dictOf _ _, rfl, rfl⟩

/-- C47.  The same if the metatab has no configuration line: then the configuration is just the default configuration. -/
theorem C47_two_runs_plain (o : UnOpts) (env : Env) (out : UnOut) (M root : Str)
    (hM : o.metatabName = some M) (hne : M ≠ []) (hlist : o.rootIsList = false) (hfull : o.metatabOnly = false) (hx : o.xml = false)
    (hroot : o.rootListPath = some root) (hd : DistinctSheets env.input) (hn : NoConfigLine M env.input) :
    runUnflatten o env = .ok out ↔ ∃ outM outR fields items,
      runUnflatten { o with metatabOnly := true } { env with input := onlySheet M env.input } = .ok outM ∧
      runUnflatten { o with metatabName := none } { env with input := withoutSheet M env.input } = .ok outR ∧
      outM.document = .json (.obj fields) ∧ outR.document = .json (.obj [(root, .arr items)]) ∧
      out.document = .json (.obj (Dict.set fields root (.arr items))) ∧
      out.cellMap = Dict.update outM.cellMap outR.cellMap ∧ out.headingMap = Dict.update outM.headingMap outR.headingMap ∧
      out.warns = outM.warns ++ outR.warns ∧ out.schemaWarns = outM.schemaWarns ++ outR.schemaWarns :=
  C47_two_runs o env out M root o.defaultConfig hM hne hlist hfull hx hroot hd
    (fun own h => by rw [metaConfig_none hn h, update_empty])

/-- The base document is the object with these fields: that of the base JSON file, if one is given, otherwise empty. -/
def BaseFields (o : UnOpts) (env : Env) (b : List (Str × Json)) : Prop :=
  (o.baseJson.getD [] = [] ∧ b = []) ∨ (o.baseJson.getD [] ≠ [] ∧ env.baseFile = .obj b)

theorem baseDocument_fields {o : UnOpts} {env : Env} {b : List (Str × Json)} (hl : o.rootIsList = false) (h : BaseFields o env b) :
    baseDocument o env = .obj b := by
  unfold baseDocument
  rw [if_neg (by simp [hl])]
  rcases h with ⟨h1, rfl⟩ | ⟨h1, h2⟩
  · rw [if_pos (given_none.2 h1)]
  · rw [if_neg (fun h => h1 (given_none.1 h)), h2]

theorem mainPass_inv {o : UnOpts} {env : Env} {base : SheetConfig} {root idName : Str} {m : Pass}
    (h : mainPass o env base root idName = .ok m) :
    ∃ schema, parseOpt { rollup := true, rootId := o.rootId.getD [], trunc := o.trunc, wkt := o.wkt } o.schema = .ok schema ∧
      pass o env schema { row := rowCfg o env schema, idName := some idName, rootId := given o.rootId }
        { base := base, useConfig := true, vertical := o.vertical } (if o.rootIsList then none else some root) [] [o.metatabName] = .ok m := by
  unfold mainPass at h
  split at h
  · cases h
  · next schema hs => exact ⟨schema, hs, h⟩

/-- Whether the root is a list makes no difference for the result and the warnings of the main sheets. -/
theorem mainPass_list {o o' : UnOpts} {env : Env} {base : SheetConfig} {root idName : Str} {m : Pass} (b : Bool)
    (ho : o' = { o with rootIsList := b }) (h : mainPass o env base root idName = .ok m) :
    ∃ m', mainPass o' env base root idName = .ok m' ∧ m'.result = m.result ∧ m'.warns = m.warns ∧ m'.schemaWarns = m.schemaWarns := by
  subst ho
  obtain ⟨schema, hs, hp⟩ := mainPass_inv h
  obtain ⟨s1, s2, cm, hm, h1, h2, h3, _, _, h6, h7⟩ := pass_inv hp
  obtain ⟨tree, ht, hr⟩ := fancy_inv h3
  obtain ⟨p, hp', e1, e2, e3⟩ := pass_ok (o := { o with rootIsList := b }) (root := if b then none else some root) h1 h2 ht h7
  refine ⟨p, ?_, by rw [e1, hr], e2, by rw [e3, h6]⟩
  unfold mainPass
  simp only
  rw [hs]
  exact hp'

/-- C47.  Without a metatab, the document has under the root list path the list that the same run writes if the root is a list, and under every
other key what the base JSON has; it succeeds exactly if that run succeeds, with the same warnings. -/
theorem C47_base_and_list (o : UnOpts) (env : Env) (root : Str) (b : List (Str × Json))
    (hM : o.metatabName.getD [] = []) (hlist : o.rootIsList = false) (hfull : o.metatabOnly = false) (hx : o.xml = false)
    (hroot : o.rootListPath = some root) (hb : BaseFields o env b) :
    (∀ out, runUnflatten o env = .ok out → ∃ outL items doc, runUnflatten { o with rootIsList := true } env = .ok outL ∧
      outL.document = .json (.arr items) ∧ out.document = .json (.obj doc) ∧ Dict.get doc root = some (.arr items) ∧
      (∀ k, k ≠ root → Dict.get doc k = Dict.get b k) ∧ outL.warns = out.warns ∧ outL.schemaWarns = out.schemaWarns) ∧
    ∀ outL, runUnflatten { o with rootIsList := true } env = .ok outL → ∃ out, runUnflatten o env = .ok out := by
  have hrp : ∀ c, rootPathOf o c = root := by intro c; unfold rootPathOf; rw [hroot]; rfl
  have hg := given_none.2 hM
  constructor
  · intro out h
    rw [run_full (by simp [hfull])] at h
    obtain ⟨k1, k2, s, m, doc, d, h3, h4, h5, h6, rfl⟩ := h
    rw [stage1_plain (Or.inl hg)] at h3
    injection h3 with h3; subst h3
    obtain ⟨m', g1, g2, g3, g4⟩ := mainPass_list true rfl h4
    simp only at h5
    rw [baseDocument_fields hlist hb, addResult_obj hlist, hrp] at h5
    injection h5 with h5; subst h5
    rw [render_json hx] at h6
    injection h6 with h6; subst h6
    refine ⟨_, m.result, _, (run_full (o := { o with rootIsList := true }) (by simp)).2 ⟨k1, k2, _, m', _, _, stage1_plain (Or.inr rfl), g1,
      addResult_list rfl, render_json hx, rfl⟩, by simp only [g2], rfl, by simp, ?_, ?_, ?_⟩
    · intro k hk; rw [Dict.get_set_other _ _ (Ne.symm hk)]
    · simp only [g3]
    · simp only [g4]
  · intro outL h
    rw [run_full (by simp)] at h
    obtain ⟨k1, k2, s, m, doc, d, h3, h4, h5, h6, rfl⟩ := h
    rw [stage1_plain (Or.inr rfl)] at h3
    injection h3 with h3; subst h3
    obtain ⟨m', g1, g2, g3, g4⟩ := mainPass_list (o' := o) false (by rw [← hlist]) h4
    exact ⟨_, (run_full (o := o) (by simp [hfull])).2 ⟨k1, k2, _, m', _, _, stage1_plain (Or.inl hg), g1,
      by simp only; rw [baseDocument_fields hlist hb]; exact addResult_obj hlist, render_json hx, rfl⟩⟩

/-- The fields of the first object of a list. -/
def firstFields : List Json → List (Str × Json)
  | .obj fs :: _ => fs
  | _ => []

/-- The options with which the metatab is read as an ordinary sheet: no metatab, the root is a list, the root id is `ocid`, no schema, no default
configuration, and the orientation of the metatab. -/
def metatabAsList (o : UnOpts) : UnOpts :=
  { o with
    metatabName := none
    metatabOnly := false
    rootIsList := true
    rootId := some s%"ocid"
    schema := none
    vertical := o.metatabVertical
    defaultConfig := [] }

theorem keys_toValue (fs : List (Str × CTree)) : Dict.keys (toValue fs) = Dict.keys fs := by
  induction fs with
  | nil => rfl
  | cons e r ih => obtain ⟨k, t⟩ := e; simp only [toValue, Dict.keys, List.map_cons] at *; rw [ih]

theorem cGoodF_nodup {Q : Str → Prop} {P : List Str → Cell → Prop} {p : List Str} : ∀ {fs : List (Str × CTree)}, CGoodF Q P p fs → (Dict.keys fs).Nodup
  | [], _ => by simp [Dict.keys]
  | (k, t) :: r, h => by
    simp only [CGoodF] at h
    exact List.nodup_cons.2 ⟨h.1.1, cGoodF_nodup h.2⟩

/-- C47.  The fields that come from the metatab are those of the first object that the metatab sheet alone gives as an ordinary sheet (without schema,
with the root id `ocid`). -/
theorem C47_metatab_fields (o : UnOpts) (env : Env) (out : UnOut) (M idName : Str)
    (hM : o.metatabName = some M) (hne : M ≠ []) (hlist : o.rootIsList = false) (honly : o.metatabOnly = true) (hx : o.xml = false)
    (hid : o.idName = some idName) (hs : o.metatabSchema = none) (hd : DistinctSheets env.input) (hn : NoConfigLine M env.input)
    (h : runUnflatten o env = .ok out) :
    ∃ outL items, runUnflatten (metatabAsList o) { env with input := onlySheet M env.input } = .ok outL ∧
      outL.document = .json (.arr items) ∧ ∃ fields, out.document = .json (.obj fields) ∧
      (∀ k, Dict.get fields k = Dict.get (firstFields items) k) ∧ outL.warns = out.warns := by
  have hg : given o.metatabName = some M := given_some.2 ⟨hM, hne⟩
  rw [run_metaOnly (by simp [honly, hlist])] at h
  obtain ⟨k1, k2, s, d, h3, h4, rfl⟩ := h
  obtain ⟨mm, own, base, g1, g2, g3, rfl⟩ := (stage1_meta hg hlist).1 h3
  have hb : o.baseJson.getD [] = [] := by rw [hM, checks_meta hne] at k1; exact k1.2
  rw [baseDocument_fields hlist (Or.inl ⟨hb, rfl⟩)] at g3
  rw [render_json hx] at h4
  injection h4 with h4; subst h4
  unfold metaPass at g1
  rw [hs] at g1
  simp only [parseOpt] at g1
  obtain ⟨s1, s2, cm, hm, p1, p2, p3, p4, p5, p6, p7⟩ := pass_inv g1
  obtain ⟨tree, ht, hr⟩ := fancy_inv p3
  have hread : (onlySheet M env.input).read { base := defaultConfiguration [], useConfig := true, vertical := o.metatabVertical } [] [none] = .ok s1 := by
    rw [← p1]
    unfold Input.read
    have e : (onlySheet M env.input).select [] [none] = env.input.select [M] [] := by
      rw [← select_only env.input M hd]
      have hdM : DistinctSheets (onlySheet M env.input) := by
        cases hi : env.input with
        | csv files => rw [hi] at hd; simp only [onlySheet, DistinctSheets] at *; exact (List.filter_sublist.map _).nodup hd
        | xlsx sheets => rw [hi] at hd; simp only [onlySheet, DistinctSheets] at *; exact (List.filter_sublist.map _).nodup hd
        | ods sheets => rw [hi] at hd; simp only [onlySheet, DistinctSheets] at *; exact (List.filter_sublist.map _).nodup hd
      cases hi : env.input with
      | csv files =>
        rw [hi] at hdM
        simp only [onlySheet, DistinctSheets, Input.select] at *
        obtain ⟨a1, a2⟩ := C41_csv_selection _ [] [none] hdM
        obtain ⟨b1, b2⟩ := C41_csv_selection _ [M] [] hdM
        apply sorted_ext a1 b1
        intro n
        rw [a2, b2]
        simp only [List.mem_map, List.mem_filter, decide_eq_true_eq]
        constructor
        · rintro ⟨⟨f, ⟨hf, e1⟩, e2⟩, _, _⟩
          exact ⟨⟨f, ⟨hf, e1⟩, e2⟩, Or.inr (by simpa using csvName_inj (e2.symm.trans e1)), by simp⟩
        · rintro ⟨hf, _, _⟩; exact ⟨hf, by simp⟩
      | xlsx sheets =>
        simp only [onlySheet, Input.select, selectSheets, List.isEmpty_nil, if_true, List.foldl_cons, List.foldl_nil, excludeAll, List.isEmpty_cons,
          Bool.false_eq_true, if_false]
        symm
        rw [List.filter_eq_self]
        intro n hn
        obtain ⟨f, hf, rfl⟩ := List.mem_map.1 hn
        simpa using (List.mem_filter.1 hf).2
      | ods sheets =>
        simp only [onlySheet, Input.select, selectSheets, List.isEmpty_nil, if_true, List.foldl_cons, List.foldl_nil, excludeAll, List.isEmpty_cons,
          Bool.false_eq_true, if_false]
        symm
        rw [List.filter_eq_self]
        intro n hn
        obtain ⟨f, hf, rfl⟩ := List.mem_map.1 hn
        simpa using (List.mem_filter.1 hf).2
    rw [e]
    apply mapE_congr
    intro n hn'
    rw [select_incl env.input M n hd hn', sheet_only]
    refine sheet_congr (rc := { base := defaultConfiguration [], vertical := o.metatabVertical }) (by rfl) ?_
    intro own' ho
    rw [config_none hn ho]
    rfl
  obtain ⟨p, hp, e1, e2, e3⟩ := pass_ok (o := metatabAsList o)
    (env := { env with input := onlySheet M env.input }) (root := none) hread p2 ht p7
  refine ⟨_, p.result, (run_full (o := metatabAsList o) (by simp [metatabAsList])).2 ⟨?_, ?_, _, p, _, _, stage1_plain (Or.inr rfl), ?_, addResult_list rfl, render_json hx, rfl⟩, rfl, ?_⟩
  · rw [hM, checks_meta hne] at k1; exact k1.1
  · show o.inputFormat = _; rw [k2]; exact congrArg some (format_only env.input M).symm
  · have hi : ∀ c, idNameOf (metatabAsList o) c = idName := by intro c; show o.idName.getD _ = _; rw [hid]; rfl
    rw [hi]
    rw [hid] at hp
    exact hp
  · rw [e1, ← hr]
    have hw : (p.warns = mm.warns) := e2
    unfold addMeta at g3
    split at g3
    · next hres =>
      injection g3 with g3; subst g3
      exact ⟨[], rfl, by intro k; rw [hres]; rfl, by simpa using hw⟩
    · next fs rest hres =>
      injection g3 with g3; subst g3
      refine ⟨_, rfl, ?_, by simpa using hw⟩
      intro k
      rw [hres]
      have hnd : (Dict.keys fs).Nodup := ?_
      · rw [Dict.get_update, Dict.get_reverse hnd]; simp [firstFields]
      · rw [hr] at hres
        have hgood := run_good ht
        cases tree with
        | nil => simp [listToValue] at hres
        | cons f r =>
          simp only [listToValue, List.cons.injEq, Json.obj.injEq] at hres
          rw [← hres.1, keys_toValue]
          simp only [CGoodI] at hgood
          exact cGoodF_nodup hgood.1
    · cases g3

namespace MainEx

/-- A directory with a metatab `meta.csv` and a sheet `sale.csv`. -/
def env : Env :=
  { input := .csv
      [(s%"sale.csv", [[s%"id", s%"line/0/id"], [s%"S1", s%"1"], [s%"S1", s%"2"]]),
       (s%"meta.csv", [[s%"version", s%"by/name"], [s%"7", s%"me"]])] }

def opts : UnOpts := { inputFormat := some s%"csv", metatabName := some s%"meta", rootListPath := some s%"sales", cellSourceMap := true }

example : DistinctSheets env.input := by simp [DistinctSheets, env]
example : NoConfigLine s%"meta" env.input := by
  intro first rest h; simp [env] at h; rw [h.1]; decide

/-- What the run writes. -/
def fields : List (Str × Json) := [(s%"version", .leaf (.str s%"7")), (s%"by", .obj [(s%"name", .leaf (.str s%"me"))])]
def sales : List Json := [.obj [(s%"id", .leaf (.str s%"S1")), (s%"line", .arr
  [.obj [(s%"id", .leaf (.str s%"1"))], .obj [(s%"id", .leaf (.str s%"2"))]])]]

example : (runUnflatten opts env).map (·.document) = .ok (.json (.obj (fields ++ [(s%"sales", .arr sales)]))) := by decide +kernel
example : (runUnflatten opts env).map (·.cellMap.map (·.1)) = .ok
    [s%"by/name", s%"version", s%"by", s%"", s%"sales/0/id", s%"sales/0/line/0/id", s%"sales/0/line/1/id",
     s%"sales/0", s%"sales/0/line/0", s%"sales/0/line/1"] := by decide +kernel
example : (runUnflatten { opts with metatabOnly := true } env).map (·.document) = .ok (.json (.obj fields)) := by decide +kernel
example : (runUnflatten (metatabAsList opts) { env with input := onlySheet s%"meta" env.input }).map (·.document) =
    .ok (.json (.arr [.obj fields])) := by decide +kernel
/-- A base JSON file: its other fields are kept. -/
example : (runUnflatten { opts with metatabName := none, baseJson := some s%"base.json" }
      { input := withoutSheet s%"meta" env.input, baseFile := .obj [(s%"v", .leaf (.int 1)), (s%"sales", .leaf (.int 2))] }).map (·.document) =
    .ok (.json (.obj [(s%"v", .leaf (.int 1)), (s%"sales", .arr sales)])) := by decide +kernel

end MainEx

end Verif

import Verif.Props.Api
import Verif.Props.SourceMaps
import Verif.Model.FlattenMain
/-! C49: the functions themselves refuse options, whatever the file contains. -/
namespace Verif
open Spec Api

/-- C49: `flatten` with one of the two filter options without the other, or with an unknown line terminator, is an error, and the same one whatever the file and the
schema contain: they have not been looked at. -/
theorem C49_flatten_refuses (o : FlOpts) (env : FlEnv)
    (h : o.filterField.isSome ≠ o.filterValue.isSome ∨ (o.lineTerminator ≠ s%"LF" ∧ o.lineTerminator ≠ s%"CRLF")) : runFlatten o env = .error .value := by
  obtain ⟨e, he⟩ := (C49_flatten_checks _ _ _).2 h
  have : e = .value := by
    unfold flattenPreChecks at he
    split at he
    · cases he; rfl
    · split at he
      · cases he; rfl
      · cases he
  subst this
  unfold runFlatten
  rw [he]

/-- C49: with an unknown output format `flatten` never succeeds. -/
theorem C49_flatten_format (o : FlOpts) (env : FlEnv) (h : o.outputFormat ∉ [s%"all", s%"xlsx", s%"csv", s%"ods"]) : ∃ e, runFlatten o env = .error e := by
  obtain ⟨e, he⟩ := (C49_output_formats o.outputFormat).2.2 h
  unfold runFlatten
  split
  · exact ⟨_, rfl⟩
  · split
    · exact ⟨_, rfl⟩
    · unfold writeAll
      rw [he]
      exact ⟨_, rfl⟩

/-- C49: nothing else is refused because of options alone: all other combinations (without schema, rollup and XML, which look at files) flatten an empty list. -/
theorem C49_flatten_accepts (o : FlOpts) (hs : o.schema = none) (hr : o.rollup = .off) (hx : o.xml = false)
    (hf : o.filterField.isSome = o.filterValue.isSome) (hl : o.lineTerminator = s%"LF" ∨ o.lineTerminator = s%"CRLF")
    (ho : o.outputFormat ∈ [s%"all", s%"xlsx", s%"csv", s%"ods"]) : ∃ out, runFlatten o { content := .arr [] } = .ok out := by
  have h1 : flattenPreChecks o.filterField o.filterValue o.lineTerminator = .ok () := by
    cases h : flattenPreChecks o.filterField o.filterValue o.lineTerminator with
    | ok => rfl
    | error e =>
      have := (C49_flatten_checks _ _ _).1 ⟨e, h⟩
      rcases this with h | h
      · exact absurd hf h
      · rcases hl with hl | hl
        · exact absurd hl h.1
        · exact absurd hl h.2
  have h2 : ∃ ws ig, flattenState o { content := .arr [] } = .ok ({ warns := ws }, [], ig) := by
    unfold flattenState
    rw [hs, hr, hx]
    simp only [parseOpt, rollupOf, RollupOpt.truthy, Bool.not_false, if_true, rootItems, Bool.false_eq_true, if_false, ijsonValue, ijsonItems]
    have : itemPath (if o.rootIsList = true then none else some o.rootListPath) ≠ ijsonPrefix [] := by
      unfold itemPath ijsonPrefix
      split <;> simp [Py.join]
    rw [if_neg (fun e => this e.symm)]
    have hd : dropEmptySheets (o.parserCfg { content := .arr [] } none []) {} = {} := by
      unfold dropEmptySheets
      split <;> rfl
    have hw : ∃ ws, warnMissing (o.parserCfg { content := .arr [] } none []) {} = { warns := ws } := by
      unfold warnMissing
      simp only
      split
      · exact ⟨_, rfl⟩
      · exact ⟨_, rfl⟩
    obtain ⟨ws, hw⟩ := hw
    have hfl : Verif.flatten (o.parserCfg { content := .arr [] } none []) [] = .ok { warns := ws } := by
      unfold Verif.flatten finish
      simp only [parseRootList]
      rw [show initState (o.parserCfg { content := .arr [] } none []) = {} from rfl, hd, hw]
    rw [hfl]
    exact ⟨_, _, rfl⟩
  obtain ⟨ws, ig, h2⟩ := h2
  have h3 : ∃ w, writeAll { content := .arr [] } o.sheetPrefix o.mainSheetName o.outputName s%"flattened" o.outputFormat { warns := ws } = .ok w := by
    simp only [List.mem_cons, List.not_mem_nil, or_false] at ho
    unfold writeAll
    rcases ho with e | e | e | e <;> rw [e] <;> exact ⟨_, rfl⟩
  obtain ⟨w, h3⟩ := h3
  unfold runFlatten
  rw [h1]
  simp only [h2, h3]
  exact ⟨_, rfl⟩

/-- C49: `unflatten` without a known input format, or with base JSON together with a metatab (empty names count as not given), is an error, and the same one whatever the
files contain. -/
theorem C49_unflatten_refuses (o : UnOpts) (env : Env)
    (h : (∀ f ∈ [s%"xlsx", s%"csv", s%"ods"], o.inputFormat ≠ some f) ∨ ((∃ m, o.metatabName = some m ∧ m ≠ []) ∧ ∃ b, o.baseJson = some b ∧ b ≠ [])) :
    runUnflatten o env = .error .value := by
  obtain ⟨e, he⟩ := (C49_unflatten_checks _ _ _).2 h
  have : e = .value := by
    unfold unflattenChecks at he
    split at he
    · cases he; rfl
    · split at he
      · cases he; rfl
      · split at he
        · cases he; rfl
        · cases he
  subst this
  unfold runUnflatten
  rw [he]

/-- C49: nothing else is refused because of options alone: all other combinations (without schemas and XML) unflatten an input without sheets. -/
theorem C49_unflatten_accepts (o : UnOpts) (hs : o.schema = none) (hms : o.metatabSchema = none) (hx : o.xml = false)
    (hf : ∃ f ∈ [s%"xlsx", s%"csv", s%"ods"], o.inputFormat = some f)
    (hb : ¬ ((∃ m, o.metatabName = some m ∧ m ≠ []) ∧ ∃ b, o.baseJson = some b ∧ b ≠ [])) : ∃ env out, runUnflatten o env = .ok out := by
  obtain ⟨f, hf, hfmt⟩ := hf
  have h1 : unflattenChecks o.inputFormat o.metatabName o.baseJson = .ok () := by
    cases h : unflattenChecks o.inputFormat o.metatabName o.baseJson with
    | ok => rfl
    | error e =>
      rcases (C49_unflatten_checks _ _ _).1 ⟨e, h⟩ with h | h
      · exact absurd hfmt (h f hf)
      · exact absurd h hb
  have key : ∀ i : Input, (i = .xlsx [] ∨ i = .csv [] ∨ i = .ods []) → o.inputFormat = some i.format → ∃ out, runUnflatten o { input := i, baseFile := .obj [] } = .ok out := by
    intro i hi hfi
    have hsel : ∀ incl excl, i.select incl excl = [] := by
      intro incl excl
      have e1 : ∀ excl : List (Option Str), excl.foldl excludeAll [] = [] := by
        intro excl
        induction excl with
        | nil => rfl
        | cons x r ih => cases x <;> simpa [excludeAll] using ih
      have e2 : ∀ excl : List (Option Str), excl.foldl excludeFirst [] = [] := by
        intro excl
        induction excl with
        | nil => rfl
        | cons x r ih => cases x <;> simpa [excludeFirst, removeFirst] using ih
      rcases hi with rfl | rfl | rfl
      · simp [Input.select, selectSheets, e1]
      · simp [Input.select, selectCsv, e2, sortNames]
      · simp [Input.select, selectSheets, e1]
    have hread : ∀ rc incl excl, i.read rc incl excl = .ok [] := by
      intro rc incl excl
      unfold Input.read
      rw [hsel]
      rfl
    have hpass : ∀ cfg rc root incl excl, ∃ p, pass o { input := i, baseFile := .obj [] } none cfg rc root incl excl = .ok p ∧ p.result = [] := by
      intro cfg rc root incl excl
      unfold pass
      simp only [hread, withTitles, List.isEmpty_nil, Bool.or_true, if_true, List.any_nil, Bool.false_eq_true, if_false]
      obtain ⟨cm, hm, h⟩ := C15_maps_never_fail (cfg := cfg) (sheets := []) (out := []) (w := []) rfl root
      rw [h]
      exact ⟨_, rfl, rfl⟩
    have hbase : o.rootIsList = false → ∃ b, baseDocument o { input := i } = .obj b := by
      intro h
      unfold baseDocument
      rw [h]
      simp only [Bool.false_eq_true, if_false]
      split
      · exact ⟨_, rfl⟩
      · exact ⟨[], rfl⟩
    have hstage : ∃ s, stage1 o { input := i } = .ok s ∧ (o.rootIsList = false → ∃ b, s.base = .obj b) := by
      unfold stage1
      simp only
      split
      · exact ⟨_, rfl, hbase⟩
      · next name hname =>
        split
        · exact ⟨_, rfl, hbase⟩
        · next hl =>
          obtain ⟨b, hb'⟩ := hbase (by simpa using hl)
          unfold metaPass
          simp only [hms, parseOpt]
          obtain ⟨p, hp, hr⟩ := hpass { row := rowCfg o { input := i } none, idName := o.idName, rootId := some s%"ocid" }
            { base := {}, useConfig := false, vertical := o.metatabVertical } (some s%"meta") [name] []
          rw [hp]
          have hc : metaConfig { input := i } name = .ok {} := by
            unfold metaConfig
            simp [hsel]
          simp only [hc, hr, addMeta, hb']
          exact ⟨_, rfl, fun _ => ⟨b, rfl⟩⟩
    obtain ⟨s, hs1, hs2⟩ := hstage
    unfold runUnflatten
    rw [h1]
    simp only
    rw [if_neg (by simp [hfi])]
    rw [hs1]
    simp only
    split
    · unfold render
      rw [hx]
      exact ⟨_, rfl⟩
    · unfold mainPass
      simp only [hs, parseOpt]
      obtain ⟨p, hp, hr⟩ := hpass { row := rowCfg o { input := i } none, idName := some (idNameOf o s.config), rootId := given o.rootId }
        { base := s.config, useConfig := true, vertical := o.vertical } (if o.rootIsList then none else some (rootPathOf o s.config)) [] [o.metatabName]
      rw [hp]
      simp only [hr]
      have hadd : ∃ d, addResult o (rootPathOf o s.config) s.base [] = .ok d := by
        unfold addResult
        cases hl : o.rootIsList with
        | true => exact ⟨_, rfl⟩
        | false =>
          obtain ⟨b, hb'⟩ := hs2 hl
          rw [hb']
          exact ⟨_, rfl⟩
      obtain ⟨d, hd⟩ := hadd
      rw [hd]
      unfold render
      rw [hx]
      exact ⟨_, rfl⟩
  simp only [List.mem_cons, List.not_mem_nil, or_false] at hf
  rcases hf with rfl | rfl | rfl
  · exact ⟨_, key (.xlsx []) (.inl rfl) hfmt⟩
  · exact ⟨_, key (.csv []) (.inr (.inl rfl)) hfmt⟩
  · exact ⟨_, key (.ods []) (.inr (.inr rfl)) hfmt⟩

/-- Options that are refused, and some that are not. -/
example : runFlatten { filterField := some s%"a" } {} = .error .value :=
  C49_flatten_refuses _ _ (.inl (by simp))
example : ∃ out, runFlatten { filterField := some s%"a", filterValue := some s%"b", lineTerminator := s%"LF", useTitles := true } { content := .arr [] } = .ok out :=
  C49_flatten_accepts _ rfl rfl rfl rfl (.inl rfl) (by decide)
example : ∃ env out, runUnflatten { inputFormat := some s%"ods", metatabName := some s%"Meta", baseJson := some [], convertTitles := true } env = .ok out :=
  C49_unflatten_accepts _ rfl rfl rfl ⟨_, by decide, rfl⟩ (by simp)

end Verif

import Verif.Proofs.Narrow
import Verif.Spec.Outputs
import Verif.Props.Ods
import Verif.Proofs.DecEq
/-! Output formats and names (C61), templates as the flattening of nothing (C62). -/
namespace Verif.Api
open Spec

theorem writeFormat_at {env : FlEnv} {pfx mainName name : Str} {st : FState} {format : Str} {w : Written}
    (hf : format ∈ formats) (h : writeFormat env pfx mainName name st format = .ok w) : writtenAt w = (format, name) := by
  unfold writeFormat at h
  by_cases h1 : format = s%"csv"
  · rw [if_pos h1] at h
    split at h
    · cases h
    · cases h; rw [h1]; rfl
  · rw [if_neg h1] at h
    by_cases h2 : format = s%"xlsx"
    · rw [if_pos h2] at h
      split at h
      · cases h
      · cases h; rw [h2]; rfl
    · rw [if_neg h2] at h
      split at h
      · cases h
      · cases h
        have : format = s%"ods" := by
          simp only [formats, List.mem_cons, List.not_mem_nil, or_false] at hf
          rcases hf with h | h | h
          · exact absurd h h2
          · exact absurd h h1
          · exact h
        rw [this]; rfl

theorem mapE_three {α β : Type} {f : α → Except Err β} {a b c : α} {out : List β} :
    mapE f [a, b, c] = .ok out ↔ ∃ x y z, f a = .ok x ∧ f b = .ok y ∧ f c = .ok z ∧ out = [x, y, z] := by
  simp only [mapE]
  cases f a <;> cases f b <;> cases f c <;> simp [eq_comm]

theorem mapE_one {α β : Type} {f : α → Except Err β} {a : α} {out : List β} : mapE f [a] = .ok out ↔ ∃ x, f a = .ok x ∧ out = [x] := by
  simp only [mapE]
  cases f a <;> simp [eq_comm]

theorem writeAll_all {env : FlEnv} {pfx mainName : Str} {name : Option Str} {d : Str} {st : FState} {out : List Written} :
    writeAll env pfx mainName name d s%"all" st = .ok out ↔
      ∃ x c p, writeFormat env pfx mainName (outputNameOf name d s%"all" s%"xlsx") st s%"xlsx" = .ok x ∧
        writeFormat env pfx mainName (outputNameOf name d s%"all" s%"csv") st s%"csv" = .ok c ∧
        writeFormat env pfx mainName (outputNameOf name d s%"all" s%"ods") st s%"ods" = .ok p ∧ out = [x, c, p] := by
  have : outputFormats s%"all" = .ok [s%"xlsx", s%"csv", s%"ods"] := by simp [outputFormats, formats]
  unfold writeAll
  rw [this]
  exact mapE_three

theorem writeAll_one {env : FlEnv} {pfx mainName : Str} {name : Option Str} {d f : Str} {st : FState} {out : List Written} (hf : f ∈ formats) :
    writeAll env pfx mainName name d f st = .ok out ↔ ∃ x, writeFormat env pfx mainName (outputNameOf name d f f) st f = .ok x ∧ out = [x] := by
  have h1 : f ≠ s%"all" := by rintro rfl; exact absurd hf (by decide)
  have : outputFormats f = .ok [f] := by unfold outputFormats; rw [if_neg h1, if_pos hf]
  unfold writeAll
  rw [this]
  exact mapE_one

theorem writeAll_formats {env : FlEnv} {pfx mainName : Str} {name : Option Str} {d f : Str} {st : FState} {out : List Written}
    (h : writeAll env pfx mainName name d f st = .ok out) : f = s%"all" ∨ f ∈ formats := by
  by_cases h1 : f = s%"all"
  · exact .inl h1
  · by_cases h2 : f ∈ formats
    · exact .inr h2
    · unfold writeAll outputFormats at h
      rw [if_neg h1, if_neg h2] at h
      cases h

theorem ending_of {f : Str} (hf : f ∈ formats) : Ending f (suffix f) := by
  simp only [formats, List.mem_cons, List.not_mem_nil, or_false] at hf
  rcases hf with rfl | rfl | rfl
  · exact .xlsx
  · exact .csv
  · exact .ods

theorem writeAll_places {env : FlEnv} {pfx mainName : Str} {name : Option Str} {d f : Str} {st : FState} {out : List Written}
    (h : writeAll env pfx mainName name d f st = .ok out) : Places d f name (out.map writtenAt) := by
  rcases writeAll_formats h with rfl | hf
  · obtain ⟨x, c, p, h1, h2, h3, rfl⟩ := writeAll_all.1 h
    simp only [List.map_cons, List.map_nil, writeFormat_at (by decide) h1, writeFormat_at (by decide) h2, writeFormat_at (by decide) h3]
    cases hg : given name with
    | none =>
      have e : ∀ g, outputNameOf name d s%"all" g = d ++ suffix g := by intro g; simp [outputNameOf, hg]
      rw [e, e, e]
      have : suffix s%"csv" = [] := by decide
      rw [this, List.append_nil]
      exact .all (.inl ⟨given_none.1 hg, rfl⟩)
    | some n =>
      have e : ∀ g, outputNameOf name d s%"all" g = n ++ suffix g := by intro g; simp [outputNameOf, hg]
      rw [e, e, e]
      have : suffix s%"csv" = [] := by decide
      rw [this, List.append_nil]
      exact .all (.inr (given_some.1 hg))
  · obtain ⟨x, h1, rfl⟩ := (writeAll_one hf).1 h
    simp only [List.map_cons, List.map_nil, writeFormat_at hf h1]
    have hne : f ≠ s%"all" := by rintro rfl; exact absurd hf (by decide)
    cases hg : given name with
    | none =>
      have e : outputNameOf name d f f = d ++ suffix f := by simp [outputNameOf, hg]
      rw [e]
      exact .unnamed (ending_of hf) (given_none.1 hg)
    | some n =>
      have e : outputNameOf name d f f = n := by simp [outputNameOf, hg, hne]
      rw [e]
      obtain ⟨rfl, hn⟩ := given_some.1 hg
      exact .named (ending_of hf) hn

theorem runFlatten_ok {o : FlOpts} {env : FlEnv} {out : FlOut} : runFlatten o env = .ok out ↔
    flattenPreChecks o.filterField o.filterValue o.lineTerminator = .ok () ∧
    ∃ st sw ignored written, flattenState o env = .ok (st, sw, ignored) ∧
      writeAll env o.sheetPrefix o.mainSheetName o.outputName s%"flattened" o.outputFormat st = .ok written ∧
      out = { written, warns := st.warns, schemaWarns := sw, rollupIgnored := ignored
              preserveUnknown := unknownPreserved o o.parsedSchema
              removed := removedAll o.mainSheetName o.outputFormat st } := by
  unfold runFlatten
  constructor
  · intro h
    split at h
    · cases h
    · next u hp =>
      split at h
      · cases h
      · next st sw ig hs =>
        split at h
        · cases h
        · next w hw => injection h with h; exact ⟨hp, st, sw, ig, w, hs, hw, h.symm⟩
  · rintro ⟨h1, st, sw, ig, w, h2, h3, rfl⟩
    rw [h1]; simp only [h2, h3]

theorem runTemplate_ok {o : TmplOpts} {env : FlEnv} {out : List Written × List SWarn} : runTemplate o env = .ok out ↔
    o.lineTerminator ∈ lineTerminators ∧
    ∃ p, parseRoot o.schemaCfg o.schema = .ok p ∧
      writeAll env [] o.mainSheetName o.outputName s%"template" o.outputFormat { main := p.main, subs := p.subs } = .ok out.1 ∧ out.2 = p.warns := by
  unfold runTemplate
  constructor
  · intro h
    split at h
    · cases h
    · next hl =>
      split at h
      · cases h
      · next p hp =>
        split at h
        · cases h
        · next w hw => cases h; exact ⟨by simpa using hl, p, hp, hw, rfl⟩
  · rintro ⟨h1, p, h2, h3, h4⟩
    rw [if_neg (by simpa using h1)]
    simp only [h2, h3]
    rw [← h4]

/-! ### C61 -/

/-- C61: what `flatten` writes, and under which names. -/
theorem C61_flatten_places (o : FlOpts) (env : FlEnv) (out : FlOut) (h : runFlatten o env = .ok out) :
    Places s%"flattened" o.outputFormat o.outputName (out.written.map writtenAt) := by
  obtain ⟨_, st, sw, ig, w, _, h3, rfl⟩ := runFlatten_ok.1 h
  exact writeAll_places h3

/-- C61: what `create_template` writes, and under which names. -/
theorem C61_template_places (o : TmplOpts) (env : FlEnv) (out : List Written × List SWarn) (h : runTemplate o env = .ok out) :
    Places s%"template" o.outputFormat o.outputName (out.1.map writtenAt) := by
  obtain ⟨_, p, _, h3, _⟩ := runTemplate_ok.1 h
  exact writeAll_places h3

theorem name_all {n d f : Str} (hn : n ≠ []) : outputNameOf (some n) d s%"all" f = n ++ suffix f := by
  simp [outputNameOf, given_some.2 ⟨rfl, hn⟩]
theorem name_one {n d f : Str} (hn : n ≠ []) (hf : f ∈ formats) : outputNameOf (some n) d f f = n := by
  have hne : f ≠ s%"all" := by rintro rfl; exact absurd hf (by decide)
  simp [outputNameOf, given_some.2 ⟨rfl, hn⟩, hne]

theorem removedAll_one {f m : Str} {st : FState} (hf : f ∈ formats) : removedAll m f st = removedIn m st f := by
  have hof : outputFormats f = .ok [f] := by
    have hne : f ≠ s%"all" := by rintro rfl; exact absurd hf (by decide)
    simp [outputFormats, hne, hf]
  simp [removedAll, hof]

theorem removedAll_all {m : Str} {st : FState} : removedAll m s%"all" st =
    removedIn m st s%"xlsx" ++ removedIn m st s%"csv" ++ removedIn m st s%"ods" := by
  have hof : outputFormats s%"all" = .ok [s%"xlsx", s%"csv", s%"ods"] := by decide
  simp [removedAll, hof]

/-- C61: `flatten` in all formats is the same as three runs, one for each format (it fails if one of them fails). -/
theorem C61_all_formats (o : FlOpts) (env : FlEnv) (n : Str) (hn : n ≠ []) (out : FlOut) :
    runFlatten { o with outputFormat := s%"all", outputName := some n } env = .ok out ↔
      ∃ x c p, runFlatten { o with outputFormat := s%"xlsx", outputName := some (n ++ s%".xlsx") } env = .ok x ∧
        runFlatten { o with outputFormat := s%"csv", outputName := some n } env = .ok c ∧
        runFlatten { o with outputFormat := s%"ods", outputName := some (n ++ s%".ods") } env = .ok p ∧
        out.written = x.written ++ c.written ++ p.written ∧ out.removed = x.removed ++ c.removed ++ p.removed ∧
        SameWarnings out x ∧ SameWarnings out c ∧ SameWarnings out p := by
  have hs : ∀ (f : Str) (m : Option Str), flattenState { o with outputFormat := f, outputName := m } env = flattenState o env := fun f m => rfl
  let un := unknownPreserved o o.parsedSchema
  have one : ∀ {f : Str} (hf : f ∈ formats) (m : Str) (hm : m ≠ []) {st sw ig}, flattenState o env = .ok (st, sw, ig) →
      flattenPreChecks o.filterField o.filterValue o.lineTerminator = .ok () → ∀ r : FlOut,
      (runFlatten { o with outputFormat := f, outputName := some m } env = .ok r ↔
        ∃ w, writeFormat env o.sheetPrefix o.mainSheetName m st f = .ok w ∧ r = ⟨[w], st.warns, sw, ig, un, removedIn o.mainSheetName st f⟩) := by
    intro f hf m hm st sw ig hst hp r
    rw [runFlatten_ok]
    simp only [hs, hst, Except.ok.injEq, Prod.mk.injEq]
    constructor
    · rintro ⟨_, _, _, _, w, ⟨rfl, rfl, rfl⟩, hw, rfl⟩
      obtain ⟨x, hx, rfl⟩ := (writeAll_one hf).1 hw
      rw [name_one hm hf] at hx
      refine ⟨x, hx, ?_⟩
      rw [removedAll_one hf]
      rfl
    · rintro ⟨w, hw, rfl⟩
      refine ⟨hp, st, sw, ig, [w], ⟨rfl, rfl, rfl⟩, (writeAll_one hf).2 ⟨w, ?_, rfl⟩, ?_⟩
      · rw [name_one hm hf]; exact hw
      · rw [removedAll_one hf]
        rfl
  have e1 : suffix s%"xlsx" = s%".xlsx" := by decide
  have e2 : suffix s%"csv" = [] := by decide
  have e3 : suffix s%"ods" = s%".ods" := by decide
  constructor
  · intro h
    obtain ⟨hp, st, sw, ig, w, hst, hw, rfl⟩ := runFlatten_ok.1 h
    rw [hs] at hst
    obtain ⟨x, c, p, hx, hc, hpp, rfl⟩ := writeAll_all.1 hw
    simp only [name_all hn, e1, e2, e3, List.append_nil] at hx hc hpp
    exact ⟨⟨[x], st.warns, sw, ig, un, _⟩, ⟨[c], st.warns, sw, ig, un, _⟩, ⟨[p], st.warns, sw, ig, un, _⟩,
      (one (by decide) _ (by simp) hst hp _).2 ⟨x, hx, rfl⟩, (one (by decide) _ hn hst hp _).2 ⟨c, hc, rfl⟩,
      (one (by decide) _ (by simp) hst hp _).2 ⟨p, hpp, rfl⟩, rfl, removedAll_all, ⟨rfl, rfl, rfl, rfl⟩, ⟨rfl, rfl, rfl, rfl⟩, ⟨rfl, rfl, rfl, rfl⟩⟩
  · rintro ⟨x, c, p, hx, hc, hpp, hw, hrm, ⟨hw1, hw2, hw3, hw4⟩, _, _⟩
    obtain ⟨hp, st, sw, ig, _, hst, _⟩ := runFlatten_ok.1 hx
    rw [hs] at hst
    obtain ⟨x', hx', rfl⟩ := (one (by decide) _ (by simp) hst hp _).1 hx
    obtain ⟨c', hc', rfl⟩ := (one (by decide) _ hn hst hp _).1 hc
    obtain ⟨p', hp', rfl⟩ := (one (by decide) _ (by simp) hst hp _).1 hpp
    refine runFlatten_ok.2 ⟨hp, st, sw, ig, [x', c', p'], hst, writeAll_all.2 ⟨x', c', p', ?_, ?_, ?_, rfl⟩, ?_⟩
    · rw [name_all hn, e1]; exact hx'
    · rw [name_all hn, e2, List.append_nil]; exact hc'
    · rw [name_all hn, e3]; exact hp'
    · cases out; simp only at hw hw1 hw2 hw3 hw4 hrm; subst hw hw1 hw2 hw3 hw4 hrm; rw [removedAll_all]; rfl

/-- C61: `create_template` in all formats is the same as three runs, one for each format. -/
theorem C61_template_all_formats (o : TmplOpts) (env : FlEnv) (n : Str) (hn : n ≠ []) (ws : List Written) (warns : List SWarn) :
    runTemplate { o with outputFormat := s%"all", outputName := some n } env = .ok (ws, warns) ↔
      ∃ x c p, runTemplate { o with outputFormat := s%"xlsx", outputName := some (n ++ s%".xlsx") } env = .ok (x, warns) ∧
        runTemplate { o with outputFormat := s%"csv", outputName := some n } env = .ok (c, warns) ∧
        runTemplate { o with outputFormat := s%"ods", outputName := some (n ++ s%".ods") } env = .ok (p, warns) ∧ ws = x ++ c ++ p := by
  have e1 : suffix s%"xlsx" = s%".xlsx" := by decide
  have e2 : suffix s%"csv" = [] := by decide
  have e3 : suffix s%"ods" = s%".ods" := by decide
  have fx : s%"xlsx" ∈ formats := by decide
  have fc : s%"csv" ∈ formats := by decide
  have fo : s%"ods" ∈ formats := by decide
  have hs : ∀ (f : Str) (m : Option Str), TmplOpts.schemaCfg { o with outputFormat := f, outputName := m } = o.schemaCfg := fun f m => rfl
  constructor
  · intro h
    obtain ⟨hl, p, hp, hw, rfl⟩ := runTemplate_ok.1 h
    rw [hs] at hp
    obtain ⟨x, c, d, hx, hc, hd, e⟩ := writeAll_all.1 hw
    simp only at e
    subst e
    simp only [name_all hn, e1, e2, e3, List.append_nil] at hx hc hd
    refine ⟨[x], [c], [d], runTemplate_ok.2 ⟨hl, p, hp, ?_, rfl⟩, runTemplate_ok.2 ⟨hl, p, hp, ?_, rfl⟩, runTemplate_ok.2 ⟨hl, p, hp, ?_, rfl⟩, rfl⟩
    · exact (writeAll_one fx).2 ⟨x, by rw [name_one (by simp) fx]; exact hx, rfl⟩
    · exact (writeAll_one fc).2 ⟨c, by rw [name_one hn fc]; exact hc, rfl⟩
    · exact (writeAll_one fo).2 ⟨d, by rw [name_one (by simp) fo]; exact hd, rfl⟩
  · rintro ⟨x, c, d, hx, hc, hd, rfl⟩
    obtain ⟨hl, p, hp, hw, hwn⟩ := runTemplate_ok.1 hx
    obtain ⟨_, p2, hp2, hw2, _⟩ := runTemplate_ok.1 hc
    obtain ⟨_, p3, hp3, hw3, _⟩ := runTemplate_ok.1 hd
    rw [hs] at hp hp2 hp3
    rw [hp] at hp2 hp3
    cases hp2
    cases hp3
    obtain ⟨x', hx', rfl⟩ := (writeAll_one fx).1 hw
    obtain ⟨c', hc', rfl⟩ := (writeAll_one fc).1 hw2
    obtain ⟨d', hd', rfl⟩ := (writeAll_one fo).1 hw3
    rw [name_one (by simp) fx] at hx'
    rw [name_one (by simp) fo] at hd'
    rw [name_one hn fc] at hc'
    refine runTemplate_ok.2 ⟨hl, p, hp, writeAll_all.2 ⟨x', c', d', ?_, ?_, ?_, rfl⟩, hwn⟩
    · rw [name_all hn, e1]; exact hx'
    · rw [name_all hn, e2, List.append_nil]; exact hc'
    · rw [name_all hn, e3]; exact hd'

/-- C61: both functions refuse a format that is not one of `all`, `xlsx`, `csv`, `ods`, and a line terminator that is not `LF` or `CRLF`;
`flatten` refuses a filter field without a value, and a value without a field. -/
theorem C61_refused (o : FlOpts) (t : TmplOpts) (env : FlEnv) :
    (o.outputFormat ∉ [s%"all", s%"xlsx", s%"csv", s%"ods"] ∨ o.lineTerminator ∉ [s%"LF", s%"CRLF"] ∨ o.filterField.isSome ≠ o.filterValue.isSome →
      ∃ e, runFlatten o env = .error e) ∧
    (t.outputFormat ∉ [s%"all", s%"xlsx", s%"csv", s%"ods"] ∨ t.lineTerminator ∉ [s%"LF", s%"CRLF"] → ∃ e, runTemplate t env = .error e) := by
  constructor
  · intro h
    cases hr : runFlatten o env with
    | error e => exact ⟨e, rfl⟩
    | ok out =>
      obtain ⟨hp, st, sw, ig, w, _, hw, _⟩ := runFlatten_ok.1 hr
      exfalso
      rcases h with h | h | h
      · apply h
        rcases writeAll_formats hw with h | h
        · rw [h]; simp
        · exact List.mem_cons_of_mem _ h
      · unfold flattenPreChecks at hp
        rw [if_pos (c := o.lineTerminator ∉ lineTerminators) h] at hp
        split at hp <;> cases hp
      · unfold flattenPreChecks at hp
        rw [if_pos] at hp
        · cases hp
        · revert h; cases o.filterField <;> cases o.filterValue <;> simp
  · intro h
    cases hr : runTemplate t env with
    | error e => exact ⟨e, rfl⟩
    | ok out =>
      obtain ⟨hl, p, _, hw, _⟩ := runTemplate_ok.1 hr
      exfalso
      rcases h with h | h
      · apply h
        rcases writeAll_formats hw with h | h
        · rw [h]; simp
        · exact List.mem_cons_of_mem _ h
      · exact h hl

/-! ### C62 -/

theorem name_given {n d d' f g : Str} (hn : n ≠ []) : outputNameOf (some n) d f g = outputNameOf (some n) d' f g := by
  simp [outputNameOf, given_some.2 ⟨rfl, hn⟩]

theorem writeAll_named {env : FlEnv} {pfx mainName n d d' f : Str} {st : FState} (hn : n ≠ []) :
    writeAll env pfx mainName (some n) d f st = writeAll env pfx mainName (some n) d' f st := by
  unfold writeAll
  split
  · rfl
  · exact mapE_congr (fun g _ => by rw [name_given hn])

/-- C62: `create_template` writes what `flatten` of no data with the same schema and options writes; with the same warnings.
(With `rollup`, if the schema rolls up any field: otherwise `flatten` fails.) -/
theorem C62_template_is_empty_flatten (o : TmplOpts) (env : FlEnv) (name : Str) (hn : name ≠ []) (hname : o.outputName = some name)
    (hdep : o.noDeprecated = false) (hroll : o.rollup = true → ∀ p, parseRoot o.schemaCfg o.schema = .ok p → p.rollup ≠ [])
    (hc : env.content = .arr []) (written : List Written) (warns : List SWarn) :
    runTemplate o env = .ok (written, warns) ↔
      ∃ out, runFlatten (templateAsFlatten o name) env = .ok out ∧ out.written = written ∧ out.schemaWarns = warns ∧ out.warns = [] := by
  have hcfg : (templateAsFlatten o name).schemaCfg = o.schemaCfg := by
    simp only [templateAsFlatten, FlOpts.schemaCfg, TmplOpts.schemaCfg, hdep]
    cases o.rollup <;> rfl
  have hsch : (templateAsFlatten o name).schema = some o.schema := rfl
  have hroot : rootItems false none (.arr []) = .ok [] := by decide
  have hstate : ∀ p, parseRoot o.schemaCfg o.schema = .ok p →
      ∃ ig, flattenState (templateAsFlatten o name) env = .ok ({ main := p.main, subs := p.subs }, p.warns, ig) := by
    intro p hp
    have h1 : ∃ r, rollupOf (templateAsFlatten o name).rollup (some p) env.file = .ok r := by
      cases hr : o.rollup with
      | false => exact ⟨([], false), by simp [templateAsFlatten, hr, rollupOf, RollupOpt.truthy]⟩
      | true =>
        have hne : p.rollup.isEmpty = false := by
          cases he : p.rollup with
          | nil => exact absurd he (hroll hr p hp)
          | cons a l => rfl
        exact ⟨(p.rollup, false), by simp [templateAsFlatten, hr, rollupOf, RollupOpt.truthy, hne]⟩
    obtain ⟨⟨rl, ig⟩, h1⟩ := h1
    refine ⟨ig, ?_⟩
    unfold flattenState
    rw [hcfg, hsch]
    simp only [parseOpt, hp, h1]
    have hx : (templateAsFlatten o name).xml = false := rfl
    have hr' : (templateAsFlatten o name).rootIsList = true := rfl
    rw [hx, hr', if_pos rfl, hc, hroot]
    simp only [Verif.flatten, parseRootList, initState, FlOpts.parserCfg, templateAsFlatten, clearColumns, finish, dropEmptySheets, warnMissing,
      preserveInputSet, schemaWarnsOf, Option.getD_none, List.map_nil, List.filter_nil, List.isEmpty_nil, if_true, Bool.false_eq_true, if_false]
    simp
  have hpre : o.lineTerminator ∈ lineTerminators → flattenPreChecks none none o.lineTerminator = .ok () := by
    intro h; simp [flattenPreChecks, h]
  constructor
  · intro h
    obtain ⟨hl, p, hp, hw, hwn⟩ := runTemplate_ok.1 h
    simp only at hwn hw
    subst hwn
    obtain ⟨ig, hst⟩ := hstate p hp
    rw [hname] at hw
    exact ⟨_, runFlatten_ok.2 ⟨hpre hl, _, _, _, _, hst, (writeAll_named hn).trans hw, rfl⟩, rfl, rfl, rfl⟩
  · rintro ⟨out, h, rfl, rfl, _⟩
    obtain ⟨hp, st, sw, ig, w, hst, hw, rfl⟩ := runFlatten_ok.1 h
    have hl : o.lineTerminator ∈ lineTerminators := by
      by_cases hl : o.lineTerminator ∈ lineTerminators
      · exact hl
      · simp [flattenPreChecks, templateAsFlatten, hl] at hp
    cases hpr : parseRoot o.schemaCfg o.schema with
    | error e =>
      unfold flattenState at hst
      rw [hcfg, hsch] at hst
      simp [parseOpt, hpr] at hst
    | ok p =>
      obtain ⟨ig', hst'⟩ := hstate p hpr
      rw [hst'] at hst
      cases hst
      refine runTemplate_ok.2 ⟨hl, p, hpr, ?_, rfl⟩
      rw [hname]
      exact (writeAll_named hn).trans hw

/-! ### C63 -/

theorem csvSheet_one {name : Str} {row : List Str} (h : row.head? ≠ some s%"#") : ∃ sh, csvSheet {} name [row] = .ok sh ∧ sh.lines = [] := by
  have hc : csvConfig [row] = .ok {} := by
    cases row with
    | nil => rfl
    | cons a t => simp only [List.head?_cons, ne_eq, Option.some.injEq] at h; simp only [csvConfig, if_neg h]
  unfold csvSheet
  rw [hc]
  simp only
  split
  · exact ⟨_, rfl, rfl⟩
  · have : csvLines {} {} [row] = .ok [] := by rfl
    rw [this]
    exact ⟨_, rfl, rfl⟩

theorem xlsxSheet_one {name : Str} {g : Grid} {row : List Atom} (hg : g.rows = [row]) (h : row.head? ≠ some (.str s%"#")) :
    ∃ sh, xlsxSheet {} name g = .ok sh ∧ sh.lines = [] := by
  have hc : xlsxConfig g = .ok {} := by
    have hr : g.row 0 = row := by simp [Grid.row, hg]
    unfold xlsxConfig
    rw [hr]
    cases row with
    | nil => rfl
    | cons a t => simp only [List.head?_cons, ne_eq, Option.some.injEq] at h; simp only [if_neg h]
  have hd : (xlsxParts {} {} g).2 = [] := by
    show g.rows.drop 1 = []
    rw [hg]; rfl
  unfold xlsxSheet
  rw [hc]
  simp only
  split
  · exact ⟨_, rfl, rfl⟩
  · exact ⟨_, rfl, by rw [hd]; rfl⟩

theorem odsSheet_one {name : Str} {row : List Atom} (h : row.head? ≠ some (.str s%"#")) : ∃ sh, odsSheet {} name [row] = .ok sh ∧ sh.lines = [] := by
  have hc : odsConfig [row] = .ok {} := by
    cases row with
    | nil => rfl
    | cons a t => simp only [List.head?_cons, ne_eq, Option.some.injEq] at h; simp only [odsConfig, if_neg h]
  have hd : (odsParts {} {} [row]).2 = [] := rfl
  unfold odsSheet
  rw [hc]
  simp only
  split
  · exact ⟨_, rfl, rfl⟩
  · rw [hd]
    exact ⟨_, rfl, rfl⟩

theorem get_of_name {α : Type} {d : List (Str × α)} {n : Str} (h : n ∈ d.map (·.1)) : ∃ v, Dict.get d n = some v ∧ (n, v) ∈ d := by
  have : Dict.get d n ≠ none := fun he => Dict.get_none_iff.1 he h
  obtain ⟨v, hv⟩ := Option.ne_none_iff_exists'.1 this
  exact ⟨v, hv, Dict.get_eq_some_mem hv⟩

theorem read_one {i : Input} (h : OneRowEach i) : ∃ sheets, i.read {} [] [none] = .ok sheets ∧ ∀ s ∈ sheets, s.lines = [] := by
  have key : ∀ (names : List Str), (∀ n ∈ names, ∃ sh, i.sheet {} n = .ok sh ∧ sh.lines = []) →
      ∃ sheets, mapE (i.sheet {}) names = .ok sheets ∧ ∀ s ∈ sheets, s.lines = [] := by
    intro names
    induction names with
    | nil => intro _; exact ⟨[], rfl, by simp⟩
    | cons n r ih =>
      intro hs
      obtain ⟨sh, h1, h2⟩ := hs n (by simp)
      obtain ⟨l, h3, h4⟩ := ih (fun m hm => hs m (by simp [hm]))
      refine ⟨sh :: l, by simp [mapE, h1, h3], ?_⟩
      intro s hs
      rcases List.mem_cons.1 hs with rfl | hs
      · exact h2
      · exact h4 s hs
  apply key
  intro n hn
  cases h with
  | @csv files hnd h =>
    have := (((C41_csv_selection (files.map Prod.fst) [] [none] hnd).2 n).1 hn).1
    obtain ⟨rows, h1, h2⟩ := get_of_name this
    obtain ⟨row, h3, h4⟩ := h _ h2
    simp only at h3
    simp only [Input.sheet, h1, Option.getD_some, h3]
    exact csvSheet_one h4
  | @xlsx sheets h =>
    have : n ∈ sheets.map Prod.fst := by simpa [Input.select, selectSheets, excludeAll] using hn
    obtain ⟨g, h1, h2⟩ := get_of_name this
    obtain ⟨row, h3, h4⟩ := h _ h2
    simp only [Input.sheet, h1, Option.getD_some]
    exact xlsxSheet_one h3 h4
  | @ods sheets h =>
    have : n ∈ sheets.map Prod.fst := by simpa [Input.select, selectSheets, excludeAll] using hn
    obtain ⟨g, h1, h2⟩ := get_of_name this
    obtain ⟨row, h3, h4⟩ := h _ h2
    simp only at h3
    simp only [Input.sheet, h1, Option.getD_some, h3]
    exact odsSheet_one h4

theorem addSheets_empty (cfg : UnCfg) : ∀ (l : List SheetIn) (gs : Groups), (∀ s ∈ l, s.lines = []) → ∃ w, addSheets cfg l gs = .ok (gs, w)
  | [], gs, _ => ⟨[], rfl⟩
  | s :: r, gs, h => by
    obtain ⟨w, hw⟩ := addSheets_empty cfg r gs (fun x hx => h x (by simp [hx]))
    unfold addSheets
    split
    · exact ⟨w, hw⟩
    · rw [h s (by simp)]
      simp only [addLines, hw]
      exact ⟨_, rfl⟩

theorem maps_empty (root : Option Str) (a b : Bool) : ∃ cm hm, sourceMaps root a b [] = .ok (cm, hm) ∧ cm.getD [] = [] ∧ hm.getD [] = [] := by
  cases a <;> cases b
  · exact ⟨none, none, rfl, rfl, rfl⟩
  · exact ⟨none, some [], by simp [sourceMaps, listErrorPath, sortPaths, headingMap, rowMap, cellMap, addRows], rfl, rfl⟩
  · exact ⟨some [], some [], by simp [sourceMaps, listErrorPath, sortPaths, headingMap, rowMap, cellMap, addRows], rfl, rfl⟩
  · exact ⟨some [], some [], by simp [sourceMaps, listErrorPath, sortPaths, headingMap, rowMap, cellMap, addRows], rfl, rfl⟩

/-- C63: an input of which every sheet is just a row of headings gives the document without data, and empty source maps. -/
theorem C63_headings_only (u : UnOpts) (uenv : Env) (usp : Option Parsed) (i : Input) (hu : PlainUnflatten u) (hf : u.inputFormat = some i.format)
    (hus : parseOpt { rollup := true, rootId := u.rootId.getD [], trunc := u.trunc, wkt := u.wkt } u.schema = .ok usp) (hi : OneRowEach i)
    (hwide : NarrowFile i) :
    ∃ out, runUnflatten u { uenv with input := i } = .ok out ∧ out.document = .json (emptyDocument u) ∧ out.cellMap = [] ∧ out.headingMap = [] := by
  obtain ⟨sheets, hr, hl⟩ := read_one hi
  have ht : ∃ sheets', withTitles u.convertTitles usp sheets = .ok sheets' ∧ ∀ s ∈ sheets', s.lines = [] := by
    unfold withTitles
    split
    · exact ⟨sheets, rfl, hl⟩
    · next hct =>
      have hct : u.convertTitles = true := by revert hct; cases u.convertTitles <;> simp
      cases usp with
      | none =>
        exfalso
        cases hsch : u.schema with
        | none => exact hu.titles hct hsch
        | some s =>
          rw [hsch] at hus
          simp only [parseOpt] at hus
          split at hus <;> cases hus
      | some p =>
        refine ⟨_, rfl, ?_⟩
        unfold titleSheets
        split
        · exact hl
        · intro s hs
          obtain ⟨s', h1, rfl⟩ := List.mem_map.1 hs
          simp [hl s' h1]
  obtain ⟨sheets', ht, hl'⟩ := ht
  have hp : ∀ cfg root, ∃ p, pass u { uenv with input := i } usp cfg {} root [] [none] = .ok p ∧ p.result = [] ∧ p.cells = [] ∧ p.headings = [] := by
    intro cfg root
    obtain ⟨w, hw⟩ := addSheets_empty cfg sheets' [] hl'
    obtain ⟨cm, hm, hmaps, e1, e2⟩ := maps_empty root u.cellSourceMap u.headingSourceMap
    have hd : doUnflatten cfg sheets' = .ok ([], w) := by simp [doUnflatten, hw, groupsToList]
    have hfn : fancyUnflatten cfg root u.cellSourceMap u.headingSourceMap sheets' = .ok ([], cm, hm, w) := by
      unfold fancyUnflatten
      rw [hd]
      simp only [hmaps]
      rfl
    have hlet : sheets'.any (lettersFail ({} : ReadCfg).vertical) = false := narrow_pass rfl hwide hr ht _
    unfold pass
    simp only [hr, ht, hfn, hlet, Bool.false_eq_true, if_false]
    exact ⟨_, rfl, rfl, e1, e2⟩
  have hst : stage1 u { uenv with input := i } = .ok { base := baseDocument u { uenv with input := i }, config := {} } := by
    rw [stage1_plain (.inl (by rw [hu.noMeta.1]; rfl)), hu.noConfig]
    rfl
  obtain ⟨p, hp, hres, hc, hh⟩ := hp { row := rowCfg u { uenv with input := i } usp, idName := some (idNameOf u {}), rootId := given u.rootId }
    (if u.rootIsList then none else some (rootPathOf u {}))
  have hmp : mainPass u { uenv with input := i } {} (rootPathOf u {}) (idNameOf u {}) = .ok p := by
    unfold mainPass
    rw [hus]
    simp only
    rw [← hp, hu.noMeta.1, hu.horizontal]
  have hchk : unflattenChecks u.inputFormat u.metatabName u.baseJson = .ok () := by
    rw [hf, hu.noMeta.1, hu.noBase]
    cases i <;> rfl
  cases hlist : u.rootIsList with
  | true =>
    refine ⟨_, (run_full (by simp [hu.noMeta.2])).2 ⟨hchk, hf, _, p, .arr p.result, .json (.arr p.result), hst, hmp,
      addResult_list hlist, render_json hu.json, rfl⟩, ?_, ?_, ?_⟩
    · simp [emptyDocument, hlist, hres]
    · simp [hc, Dict.update]
    · simp [hh, Dict.update]
  | false =>
    have hb : baseDocument u { uenv with input := i } = .obj [] := by simp [baseDocument, hlist, hu.noBase, given]
    rw [hb] at hst
    refine ⟨_, (run_full (by simp [hu.noMeta.2])).2 ⟨hchk, hf, _, p, _, _, hst, hmp, addResult_obj hlist, render_json hu.json, rfl⟩, ?_, ?_, ?_⟩
    · simp [emptyDocument, hlist, hres, Dict.set, rootPathOf]
    · simp [hc, Dict.update]
    · simp [hh, Dict.update]

theorem csvGrid_empty {strOf : Json → Str} {s : Sheet} (h : s.lines = []) : csvGrid strOf s = .ok [s.headings] := by
  simp [csvGrid, csvRows, h]

theorem xlsxGrid_empty {s : Sheet} (h : s.lines = []) : ∃ g, xlsxGrid s = .ok g ∧ g.rows = [s.headings.map Atom.str] := by
  simp only [xlsxGrid, xlsxRows, h, List.map_nil, List.mapM_nil]
  exact ⟨_, rfl, rfl⟩

theorem head_map {α β : Type} {f : α → β} {l : List α} : (l.map f).head? = l.head?.map f := by cases l <;> rfl

theorem head_str {l : List Str} (h : s%"#" ∉ l) : (l.map Atom.str).head? ≠ some (.str s%"#") := by
  cases l with
  | nil => simp
  | cons a r =>
    simp only [List.map_cons, List.head?_cons, ne_eq, Option.some.injEq, Atom.str.injEq]
    rintro rfl; simp at h

theorem head_ne {l : List Str} (h : s%"#" ∉ l) : l.head? ≠ some s%"#" := by
  cases l with
  | nil => simp
  | cons a r =>
    simp only [List.head?_cons, ne_eq, Option.some.injEq]
    rintro rfl; simp at h

theorem writeXlsx_mem {title : List Str → Str → Except Err Str} {pfx : Str} : ∀ {l : List (Str × Sheet)} {used : List Str} {out : List (Str × Grid)},
    writeXlsx title pfx used l = .ok out → ∀ g ∈ out, ∃ p ∈ l, xlsxGrid p.2 = .ok g.2
  | [], _, out, h => by simp only [writeXlsx, Except.ok.injEq] at h; subst h; simp
  | (n, s) :: r, used, out, h => by
    unfold writeXlsx at h
    split at h
    · cases h
    · split at h
      · cases h
      · next g hg =>
        split at h
        · cases h
        · next rest hr =>
          cases h
          intro x hx
          rcases List.mem_cons.1 hx with rfl | hx
          · exact ⟨_, List.mem_cons_self .., hg⟩
          · obtain ⟨p, hp, h2⟩ := writeXlsx_mem hr x hx
            exact ⟨p, List.mem_cons_of_mem _ hp, h2⟩

theorem readTables_mem {lib : OdsLib} : ∀ {ts : List OdsTable} {d out : List (Str × List (List Atom))}, readTables lib ts d = .ok out →
    ∀ g ∈ out, g ∈ d ∨ ∃ t ∈ ts, readRows lib t.rows = .ok g.2
  | [], d, out, h => by simp only [readTables, Except.ok.injEq] at h; subst h; intro g hg; exact .inl hg
  | t :: rest, d, out, h => by
    unfold readTables at h
    split at h
    · cases h
    · next rows hr =>
      intro g hg
      rcases readTables_mem h g hg with h1 | ⟨t', h1, h2⟩
      · obtain ⟨n, v⟩ := g
        rcases Dict.mem_set h1 with ⟨_, rfl⟩ | h1
        · exact .inr ⟨t, by simp, hr⟩
        · exact .inl h1
      · exact .inr ⟨t', by simp [h1], h2⟩

theorem mapE_pairs {α β : Type} {f : α → Except Err β} : ∀ {l : List α} {m : List β}, mapE f l = .ok m → All₂ (fun a b => f a = .ok b) l m
  | [], m, h => by cases h; exact .nil
  | a :: r, m, h => by
    unfold mapE at h
    split at h
    · cases h
    · next b hb =>
      split at h
      · cases h
      · next bs hbs => cases h; exact .cons hb (mapE_pairs hbs)

theorem odsMake_plain {lib : OdsLib} {v : Option Json} {c : OdsCell} (h : odsMake lib v = .ok c) : c.covered = false ∧ c.repeated = 1 := by
  unfold odsMake at h
  repeat' split at h
  all_goals first
    | (cases h; exact ⟨rfl, rfl⟩)
    | cases h

theorem mapRow_plain {lib : OdsLib} : ∀ {l : List (Option Json)} {cs : List OdsCell}, mapRow lib l = .ok cs → ∀ c ∈ cs, c.covered = false ∧ c.repeated = 1
  | [], cs, h => by cases h; simp
  | v :: r, cs, h => by
    unfold mapRow at h
    split at h
    · cases h
    · next c hc =>
      split at h
      · cases h
      · next cs' hcs =>
        cases h
        intro x hx
        rcases List.mem_cons.1 hx with rfl | hx
        · exact odsMake_plain hc
        · exact mapRow_plain hcs x hx

theorem odsRow_one {lib : OdsLib} {s : Sheet} (hl : s.lines = []) (ht : ∀ h ∈ s.headings, StaysText lib h) (hh : s%"#" ∉ s.headings)
    {rows : List OdsRow} (hr : odsRowsOf lib s = .ok rows) {out : List (List Atom)} (ho : readRows lib rows = .ok out) :
    ∃ row, out = [row] ∧ row.head? ≠ some (.str s%"#") := by
  have hx : xlsxRows s = [] := by simp [xlsxRows, hl]
  unfold odsRowsOf at hr
  rw [hx] at hr
  simp only [mapRows] at hr
  split at hr
  · cases hr
  · next cells hc =>
    cases hr
    simp only [readRows] at ho
    split at ho
    · cases ho
    · next row hrow =>
      cases ho
      refine ⟨row, rfl, ?_⟩
      cases hhd : s.headings with
      | nil =>
        rw [hhd] at hc
        cases hc
        cases hrow
        simp
      | cons a t =>
        rw [hhd] at hc
        simp only [List.map_cons, mapRow] at hc
        split at hc
        · cases hc
        · next c hcm =>
          split at hc
          · cases hc
          · next cs hcs =>
            cases hc
            have hpl : ∀ x ∈ c :: cs, x.covered = false ∧ x.repeated = 1 := by
              intro x hx
              rcases List.mem_cons.1 hx with rfl | hx
              · exact odsMake_plain hcm
              · exact mapRow_plain hcs x hx
            have hrd := (readCells_iff (fun x hx => (hpl x hx).1)).1 hrow
            have h0 : (columnsOf (c :: cs))[0]? = some c := by
              simp [columnsOf, (hpl c (by simp)).2]
            have hv := hrd.value 0 c h0
            have hst := ht a (by rw [hhd]; simp)
            intro he
            have he : row[0]? = some (.str s%"#") := by rw [← List.head?_eq_getElem?]; exact he
            rw [he] at hv
            by_cases hne : a = []
            · subst hne
              simp only [odsMake, Atom.truthy, List.isEmpty_nil, Bool.not_true, Bool.false_eq_true, if_false, hst.2, Except.ok.injEq] at hcm
              subst hcm
              obtain ⟨o, ho, hoe⟩ := odsValue_iff.1 hv
              simp only [odsValue, if_true, Except.ok.injEq] at ho
              subst ho
              cases hoe
            · rw [heading_made hst hne] at hcm
              cases hcm
              obtain ⟨o, ho, hoe⟩ := odsValue_iff.1 hv
              simp only [odsValue, if_neg hne, Except.ok.injEq] at ho
              subst ho
              simp only [Option.getD_some, Atom.str.injEq] at hoe
              apply hh
              rw [hhd, hoe]
              simp

theorem writeCsv_mem {pfx mainName : Str} {st : FState} : ∀ p ∈ writeCsv pfx mainName st, ∃ q ∈ outSheets mainName st, p.2 = q.2 := by
  unfold writeCsv
  have : ∀ (l : List (Str × Sheet)) (d : List (Str × Sheet)) p, p ∈ l.foldl (fun d p => Dict.set d (csvFile pfx p.1) p.2) d →
      p ∈ d ∨ ∃ q ∈ l, p.2 = q.2 := by
    intro l
    induction l with
    | nil => intro d p h; exact .inl h
    | cons x r ih =>
      intro d p h
      rcases ih _ p h with h1 | ⟨q, h1, h2⟩
      · obtain ⟨n, v⟩ := p
        rcases Dict.mem_set h1 with ⟨_, rfl⟩ | h1
        · exact .inr ⟨x, by simp, rfl⟩
        · exact .inl h1
      · exact .inr ⟨q, by simp [h1], h2⟩
  intro p hp
  rcases this _ _ p hp with h | h
  · cases h
  · exact h

theorem writeCsv_nodup {pfx mainName : Str} {st : FState} : ((writeCsv pfx mainName st).map (·.1)).Nodup := by
  unfold writeCsv
  have : ∀ (l : List (Str × Sheet)) (d : List (Str × Sheet)), (Dict.keys d).Nodup →
      (Dict.keys (l.foldl (fun d p => Dict.set d (csvFile pfx p.1) p.2) d)).Nodup := by
    intro l
    induction l with
    | nil => intro d h; exact h
    | cons x r ih => intro d h; exact ih _ (Dict.nodup_keys_set _ _ h)
  exact this _ _ (by simp [Dict.keys])

theorem write_one {env : FlEnv} {pfx mainName : Str} {st : FState} {w : Written} {name f : Str} {i : Input}
    (hl : ∀ p ∈ outSheets mainName st, p.2.lines = []) (hh : ∀ p ∈ outSheets mainName st, s%"#" ∉ p.2.headings)
    (hw : writeFormat env pfx mainName name st f = .ok w) (hr : ReadBack env.ods w i)
    (ht : i.format = s%"ods" → ∀ p ∈ outSheets mainName st, ∀ h ∈ p.2.headings, StaysText env.ods h) : OneRowEach i := by
  unfold writeFormat at hw
  split at hw
  · split at hw
    · cases hw
    · next files hf =>
      cases hw
      cases hr with
      | @csv _ _ found hp =>
        have ha := mapE_pairs hf
        refine .csv ?_ ?_
        · refine ((hp.map _).nodup_iff).2 ?_
          have : files.map (·.1) = (writeCsv pfx mainName st).map (·.1) := by
            clear hf hp ht
            generalize writeCsv pfx mainName st = l at ha
            induction ha with
            | nil => rfl
            | cons h _ ih =>
              split at h
              · cases h
              · cases h; simp [ih]
          rw [this]
          exact writeCsv_nodup
        · intro x hx
          obtain ⟨p, hpm, hpx⟩ := all₂_mem_right ha (hp.mem_iff.1 hx)
          obtain ⟨q, hq, he⟩ := writeCsv_mem p hpm
          rw [he, csvGrid_empty (hl q hq)] at hpx
          cases hpx
          exact ⟨_, rfl, head_ne (hh q hq)⟩
  · split at hw
    · split at hw
      · cases hw
      · next sheets hs =>
        cases hw
        cases hr
        refine .xlsx ?_
        intro g hg
        obtain ⟨p, hp, hgp⟩ := writeXlsx_mem hs g hg
        obtain ⟨g', h1, h2⟩ := xlsxGrid_empty (hl p hp)
        rw [h1] at hgp
        cases hgp
        exact ⟨_, h2, head_str (hh p hp)⟩
    · split at hw
      · cases hw
      · next tables hs =>
        cases hw
        cases hr with
        | ods hd =>
        refine .ods ?_
        intro g hg
        rcases readTables_mem hd g hg with h | ⟨t, htm, hrd⟩
        · cases h
        · obtain ⟨p, hp, hpt⟩ := all₂_mem_right (mapE_pairs hs) htm
          unfold odsTable at hpt
          split at hpt
          · cases hpt
          · next rows hrows =>
            cases hpt
            exact odsRow_one (hl p hp) (ht rfl p hp) (hh p hp) hrows hrd

/-- C63: what `create_template` writes, in any format, is read by `unflatten` as no data: the document is empty.  (If no column is called `#`;
ODS: and the headings are read as texts; there are no more than 18278 columns.) -/
theorem C63_template_is_empty (t : TmplOpts) (env : FlEnv) (sp : Parsed) (written : List Written) (warns : List SWarn)
    (hsp : parseRoot t.schemaCfg t.schema = .ok sp) (ht : runTemplate t env = .ok (written, warns))
    (hcol : ∀ s, s = sp.main ∨ (∃ n, (n, s) ∈ sp.subs) → s%"#" ∉ s.headings)
    (u : UnOpts) (uenv : Env) (usp : Option Parsed) (hu : PlainUnflatten u)
    (hus : parseOpt { rollup := true, rootId := u.rootId.getD [], trunc := u.trunc, wkt := u.wkt } u.schema = .ok usp)
    (w : Written) (hw : w ∈ written) (i : Input) (hi : ReadBack env.ods w i) (hf : u.inputFormat = some i.format)
    (htext : i.format = s%"ods" → ∀ s, s = sp.main ∨ (∃ n, (n, s) ∈ sp.subs) → ∀ h ∈ s.headings, StaysText env.ods h)
    (hwide : NarrowFile i) :
    ∃ out, runUnflatten u { uenv with input := i } = .ok out ∧ out.document = .json (emptyDocument u) ∧ out.cellMap = [] ∧ out.headingMap = [] := by
  obtain ⟨_, p, hp, hwr, _⟩ := runTemplate_ok.1 ht
  rw [hsp] at hp
  cases hp
  have hm : ∀ q ∈ outSheets t.mainSheetName { main := sp.main, subs := sp.subs }, q.2 = sp.main ∨ ∃ n, (n, q.2) ∈ sp.subs := by
    intro q hq
    rcases List.mem_cons.1 hq with rfl | hq
    · exact .inl rfl
    · exact .inr ⟨q.1, (sortSheets_perm sp.subs).mem_iff.1 hq⟩
  have hl : ∀ q ∈ outSheets t.mainSheetName { main := sp.main, subs := sp.subs }, q.2.lines = [] := by
    intro q hq
    rcases hm q hq with h | ⟨n, h⟩
    · rw [h]; exact (parseRoot_lines hsp).1
    · exact (parseRoot_lines hsp).2 n _ h
  have hwf : ∃ name f, writeFormat env [] t.mainSheetName name { main := sp.main, subs := sp.subs } f = .ok w := by
    unfold writeAll at hwr
    split at hwr
    · cases hwr
    · obtain ⟨f, _, hf⟩ := all₂_mem_right (mapE_pairs hwr) hw
      exact ⟨_, f, hf⟩
  obtain ⟨name, f, hwf⟩ := hwf
  exact C63_headings_only u uenv usp i hu hf hus (write_one hl (fun q hq => hcol _ (hm q hq)) hwf hi (fun he q hq => htext he _ (hm q hq))) hwide

namespace OutputsEx
set_option synthInstance.maxSize 4000

/-- A schema with an `id` and an array of objects with an `id` and a `name`, which is rolled up. -/
def schema : Schema :=
  .mk { type := .one s%"object" } (some [
    (s%"id", .mk { type := .one s%"string" } none none none),
    (s%"dishes", .mk { type := .one s%"array", rollUp := some [s%"name"] } none (some (.mk { type := .one s%"object" } (some [
      (s%"id", .mk { type := .one s%"string" } none none none), (s%"name", .mk { type := .one s%"string" } none none none)]) none none)) none)]) none none

def t : TmplOpts := { schema, outputName := some s%"out", rollup := true }
def env : FlEnv := {}
def u : UnOpts := { inputFormat := some s%"csv", schema := some schema, convertTitles := true }

/-- The places where something was written. -/
def places : Except Err (List Written × List SWarn) → List (Str × Str)
  | .ok r => r.1.map writtenAt
  | .error _ => []

/-- C61: three places. -/
example : places (runTemplate t env) = [(s%"xlsx", s%"out.xlsx"), (s%"csv", s%"out"), (s%"ods", s%"out.ods")] := by decide +kernel
/-- C61: a name that is not given, or empty. -/
example : places (runTemplate { t with outputName := some [], outputFormat := s%"ods" } env) = [(s%"ods", s%"template.ods")] := by decide +kernel

/-- The headings of the CSV files. -/
def headings : Except Err (List Written × List SWarn) → List (Str × List (List Str))
  | .ok (.csv _ files :: _, _) => files
  | .ok (_ :: .csv _ files :: _, _) => files
  | _ => []

/-- C62, C63: the CSV files of the template. -/
example : headings (runTemplate t env) =
    [(s%"main.csv", [[s%"id", s%"dishes/0/name"]]), (s%"dishes.csv", [[s%"id", s%"dishes/0/id", s%"dishes/0/name"]])] := by decide +kernel

/-- C62: its hypotheses are met. -/
example : env.content = .arr [] ∧ (match parseRoot t.schemaCfg t.schema with | .ok p => p.rollup | .error _ => []) = [s%"dishes/0/name"] := by decide +kernel

theorem plain : PlainUnflatten u := ⟨rfl, rfl, ⟨rfl, rfl⟩, rfl, rfl, by simp [u]⟩

/-- C63: its hypotheses are met. -/
example : ∀ h ∈ (match parseRoot t.schemaCfg t.schema with
    | .ok (p : Parsed) => p.main.headings ++ p.subs.flatMap (fun (q : Str × Sheet) => q.2.headings)
    | .error _ => [s%"#"]), h ≠ s%"#" ∧ StaysText env.ods h := by decide +kernel
example : emptyDocument u = .obj [(s%"main", .arr [])] := by decide +kernel
/-- C63, why no column may be called `#`: the row of headings is then taken as a configuration, and the sheet is not read correctly. -/
example : csvConfig [[s%"#", s%"ignore"]] = .ok { ignore := true } := by rfl

end OutputsEx

end Verif.Api

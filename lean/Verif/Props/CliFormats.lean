import Verif.Props.Cli
/-! C75: what the command line insists on, and what the functions get when nothing else is given. -/
namespace Verif
open Cli Spec.CommandLine

/-- The value of a parameter, from the item that gives it. -/
theorem Cli.passed_item (items : List Item) (p : Str) (d : CVal) (h : ∃ i ∈ items, i.param = p)
    (hr : ∀ i ∈ items, i.param = p → ∀ l, i.value ≠ .rollup l) : ∃ i ∈ items, i.param = p ∧ passed items p d = i.value := by
  unfold passed
  simp only
  cases hl : ((items.filter (fun i => i.param = p)).map Item.value).getLast? with
  | none =>
    rw [List.getLast?_eq_none_iff, List.map_eq_nil_iff, List.filter_eq_nil_iff] at hl
    obtain ⟨i, hi, hp⟩ := h
    exact absurd (by simpa using hp) (hl i hi)
  | some v =>
    have hm := List.mem_of_getLast? hl
    obtain ⟨i, hi, he⟩ := List.mem_map.mp hm
    obtain ⟨h1, h2⟩ := List.mem_filter.mp hi
    have h2 : i.param = p := by simpa using h2
    refine ⟨i, h1, h2, ?_⟩
    cases v with
    | rollup l => exact absurd he (hr i h1 h2 l)
    | _ => exact he.symm

/-- An item for an option with choices gives one of them. -/
theorem Cli.value_choice {c : Command} {i : Item} {p : Str} (hf : i.Fits c) (hp : i.param = p) (hin : p ≠ s%"input_name")
    {cs : List Str} (ho : ∀ o ∈ c.options, o.dest = p → o.action = .store ∧ o.choices = cs) (hcs : cs ≠ []) :
    ∃ v ∈ cs, i.value = .str v := by
  have key : ∀ o w v, Names c w o → o.dest = p → Takes o v → ∃ u ∈ cs, textValue o v = .str u := by
    intro o w v hn hd ht
    obtain ⟨ha, hc⟩ := ho o hn.1 hd
    unfold Takes at ht
    rw [ha] at ht
    simp only [hc, hcs, false_or] at ht
    exact ⟨v, ht, by unfold textValue; rw [ha]⟩
  have no : ∀ o w a, Names c w o → o.dest = p → o.action = a → a ≠ .store → False := by
    intro o w a hn hd ha hne
    exact hne (ha ▸ (ho o hn.1 hd).1)
  cases i with
  | input n => exact absurd hp.symm hin
  | on o w => exact (no o w _ hf.1 hp hf.2 (by simp)).elim
  | next o w v => exact key o w v hf.1 hp hf.2.2.1
  | equals o w v => exact key o w v hf.1 hp hf.2
  | joined o w v => exact key o w v hf.1 hp hf.2.2.1
  | alone o w => exact (no o w _ hf.1 hp hf.2 (by simp)).elim
  | several o w vs => exact (no o w _ hf.1 hp hf.2.1 (by simp)).elim

theorem Cli.called {c : Command} (hc : c ∈ commands) {ws : List Str} {name : Str} {verbose : Bool} {args : List (Str × CVal)}
    (h : main (c.name :: ws) = .call name verbose args) : ∃ items, Complete c items ∧
      ∀ p d, (p, d) ∈ c.signature → Dict.get args p = some (passed items p (defaultOf c p d)) := by
  obtain ⟨items, hi, rfl⟩ := C75_only c hc ws name verbose args h
  obtain ⟨args', h1, _, h2⟩ := C75_options c hc items hi
  rw [h1] at h
  injection h with _ _ h
  subst h
  exact ⟨items, hi, h2⟩

theorem Cli.choice {c : Command} (hc : c ∈ commands) {ws : List Str} {name : Str} {verbose : Bool} {args : List (Str × CVal)}
    (h : main (c.name :: ws) = .call name verbose args) {p : Str} {d : CVal} (hp : (p, d) ∈ c.signature) (hin : p ≠ s%"input_name")
    {cs : List Str} (hcs : cs ≠ []) (ho : ∀ o ∈ c.options, o.dest = p → o.action = .store ∧ o.choices = cs) :
    ((∃ o ∈ c.options, o.dest = p ∧ o.required = true) ∨ defaultOf c p d ∈ cs.map CVal.str) →
    ∃ v ∈ cs, Dict.get args p = some (.str v) := by
  obtain ⟨items, hi, hg⟩ := called hc h
  have hv : ∀ i ∈ items, i.param = p → ∃ v ∈ cs, i.value = .str v := fun i him hip => value_choice (hi.fits i him) hip hin ho hcs
  have hgiven : (∃ i ∈ items, i.param = p) → ∃ v ∈ cs, Dict.get args p = some (.str v) := by
    intro hx
    obtain ⟨i, him, hip, hpv⟩ := passed_item items p (defaultOf c p d) hx (fun i him hip l he => by
      obtain ⟨v, _, hv⟩ := hv i him hip
      rw [hv] at he; simp at he)
    obtain ⟨v, hvc, hve⟩ := hv i him hip
    exact ⟨v, hvc, by rw [hg p d hp, hpv, hve]⟩
  intro hor
  rcases hor with ⟨o, ho', hd, hr⟩ | hd
  · obtain ⟨i, him, hip⟩ := hi.required o ho' hr
    exact hgiven ⟨i, him, hip.trans hd⟩
  · by_cases hx : ∃ i ∈ items, i.param = p
    · exact hgiven hx
    · obtain ⟨v, hvc, hve⟩ := List.mem_map.mp hd
      refine ⟨v, hvc, ?_⟩
      rw [hg p d hp]
      unfold passed
      have : items.filter (fun i => i.param = p) = [] := by
        rw [List.filter_eq_nil_iff]
        intro i him hip
        exact hx ⟨i, him, by simpa using hip⟩
      simp only [this, List.map_nil, List.getLast?_nil]
      exact congrArg some hve.symm

/-- C75: `unflatten` is only called with one of its input formats, which has to be given. -/
theorem C75_input_format (ws : List Str) (name : Str) (verbose : Bool) (args : List (Str × CVal))
    (h : main (s%"unflatten" :: ws) = .call name verbose args) :
    ∃ f ∈ [s%"csv", s%"ods", s%"xlsx"], Dict.get args s%"input_format" = some (.str f) :=
  choice (c := Cli.unflatten) (by decide +kernel) h (p := s%"input_format") (d := .none) (by decide +kernel) (by decide) (by decide)
    (by decide +kernel) (Or.inl (by decide +kernel))

/-- C75: `flatten` and `create-template` are only called with one of the output formats. -/
theorem C75_output_format (c : Str) (hc : c = s%"flatten" ∨ c = s%"create-template") (ws : List Str) (name : Str) (verbose : Bool)
    (args : List (Str × CVal)) (h : main (c :: ws) = .call name verbose args) :
    ∃ f ∈ [s%"csv", s%"ods", s%"xlsx", s%"all"], Dict.get args s%"output_format" = some (.str f) := by
  rcases hc with rfl | rfl
  · exact choice (c := Cli.flatten) (by decide +kernel) h (p := s%"output_format") (d := .str s%"all") (by decide +kernel) (by decide)
      (by decide) (by decide +kernel) (Or.inr (by decide +kernel))
  · exact choice (c := Cli.createTemplate) (by decide +kernel) h (p := s%"output_format") (d := .str s%"all") (by decide +kernel) (by decide)
      (by decide) (by decide +kernel) (Or.inr (by decide +kernel))

/-- C75: `create-template` is only called with a schema, which has to be given. -/
theorem C75_schema_needed (ws : List Str) (name : Str) (verbose : Bool) (args : List (Str × CVal))
    (h : main (s%"create-template" :: ws) = .call name verbose args) : ∃ f, Dict.get args s%"schema" = some (.str f) := by
  obtain ⟨items, hi, hg⟩ := called (c := Cli.createTemplate) (by decide +kernel) h
  have hd : ∀ o ∈ Cli.createTemplate.options, o.dest = s%"schema" → o.action = .store := by decide +kernel
  have hv : ∀ i ∈ items, i.param = s%"schema" → ∃ v, i.value = .str v := by
    intro i him hip
    have hf := hi.fits i him
    cases i with
    | input n => exact absurd hip (show s%"input_name" ≠ s%"schema" by decide)
    | on o w => have := hd o hf.1.1 hip; rw [hf.2] at this; simp at this
    | next o w v => exact ⟨v, by simp only [Item.value, textValue, hd o hf.1.1 hip]⟩
    | equals o w v => exact ⟨v, by simp only [Item.value, textValue, hd o hf.1.1 hip]⟩
    | joined o w v => exact ⟨v, by simp only [Item.value, textValue, hd o hf.1.1 hip]⟩
    | alone o w => have := hd o hf.1.1 hip; rw [hf.2] at this; simp at this
    | several o w vs => have := hd o hf.1.1 hip; rw [hf.2.1] at this; simp at this
  have hx : ∃ i ∈ items, i.param = s%"schema" := by
    obtain ⟨o, ho, hdest, hr⟩ : ∃ o ∈ Cli.createTemplate.options, o.dest = s%"schema" ∧ o.required = true := by decide +kernel
    obtain ⟨i, him, hip⟩ := hi.required o ho hr
    exact ⟨i, him, hip.trans hdest⟩
  obtain ⟨i, him, hip, hpv⟩ := passed_item items s%"schema" .none hx (fun i him hip l he => by
    obtain ⟨v, hv⟩ := hv i him hip
    rw [hv] at he; simp at he)
  obtain ⟨v, hve⟩ := hv i him hip
  refine ⟨v, ?_⟩
  rw [hg s%"schema" .none (by decide +kernel)]
  have : defaultOf Cli.createTemplate s%"schema" .none = .none := by decide +kernel
  rw [this, hpv, hve]

theorem Cli.classify_name (os : List Opt) {n : Str} (h : n.head? ≠ some '-') : classify os n = .arg := by
  cases n with
  | nil => rfl
  | cons c r =>
    simp only [List.head?_cons, ne_eq, Option.some.injEq] at h
    simp [classify, h]

/-- C75: what `unflatten` gets when only the required things are given. -/
theorem C75_unflatten_defaults (f : Str) (hf : f ∈ [s%"csv", s%"ods", s%"xlsx"]) (input : Str) (hi : input.head? ≠ some '-') :
    main [s%"unflatten", s%"-f", f, input] = .call s%"unflatten" false
      [(s%"input_name", .str input), (s%"base_json", .none), (s%"input_format", .str f), (s%"output_name", .none),
       (s%"root_list_path", .none), (s%"root_is_list", .bool false), (s%"encoding", .str s%"utf8"),
       (s%"timezone_name", .str s%"UTC"), (s%"root_id", .none), (s%"schema", .str s%""), (s%"convert_titles", .bool false),
       (s%"cell_source_map", .none), (s%"heading_source_map", .none), (s%"id_name", .none), (s%"xml", .bool false),
       (s%"vertical_orientation", .bool false), (s%"metatab_name", .none), (s%"metatab_only", .bool false),
       (s%"metatab_schema", .str s%""), (s%"metatab_vertical_orientation", .bool false), (s%"xml_schemas", .none),
       (s%"default_configuration", .str s%""), (s%"disable_local_refs", .bool false),
       (s%"xml_comment", .str s%"XML generated by flatten-tool"), (s%"truncation_length", .int 3), (s%"convert_wkt", .bool false)] := by
  have h1 : classify topOptions s%"unflatten" = .arg := by decide +kernel
  have h2 : commands.find? (fun x => x.name = s%"unflatten") = some Cli.unflatten := by decide +kernel
  have h3 : classify Cli.unflatten.options s%"-f" =
      .opt { flags := [s%"-f", s%"--input-format"], dest := s%"input_format", choices := inputChoices, required := true } none := by decide +kernel
  have h4 := classify_name Cli.unflatten.options hi
  have h5 : classify Cli.unflatten.options f = .arg := classify_name _ (by
    simp only [List.mem_cons, List.not_mem_nil, or_false] at hf
    rcases hf with rfl | rfl | rfl <;> decide)
  have hf' : f ∈ inputChoices := hf
  simp only [main, h1, h2, parseArgs, words, PState.word, h3, h4, h5, PState.close, PState.option, PState.arg, PState.give, PState.put,
    if_pos (Or.inr hf' : inputChoices = [] ∨ f ∈ inputChoices)]
  rfl

/-- C75: what `flatten` gets when only the input is given. -/
theorem C75_flatten_defaults (input : Str) (hi : input.head? ≠ some '-') :
    main [s%"flatten", input] = .call s%"flatten" false
      [(s%"input_name", .str input), (s%"schema", .none), (s%"output_name", .none), (s%"output_format", .str s%"all"),
       (s%"main_sheet_name", .str s%"main"), (s%"root_list_path", .str s%"main"), (s%"root_is_list", .bool false),
       (s%"sheet_prefix", .str s%""), (s%"filter_field", .none), (s%"filter_value", .none), (s%"preserve_fields", .none),
       (s%"rollup", .bool false), (s%"root_id", .none), (s%"use_titles", .bool false), (s%"xml", .bool false),
       (s%"id_name", .str s%"id"), (s%"disable_local_refs", .bool false), (s%"remove_empty_schema_columns", .bool false),
       (s%"truncation_length", .int 3), (s%"line_terminator", .str s%"CRLF"), (s%"convert_wkt", .bool false)] := by
  have h1 : classify topOptions s%"flatten" = .arg := by decide +kernel
  have h2 : commands.find? (fun x => x.name = s%"flatten") = some Cli.flatten := by decide +kernel
  have h4 := classify_name Cli.flatten.options hi
  simp only [main, h1, h2, parseArgs, words, PState.word, h4, PState.close, PState.arg, PState.put]
  rfl

/-- C75: what `create-template` gets when only the schema is given. -/
theorem C75_template_defaults (schema : Str) (hi : schema.head? ≠ some '-') :
    main [s%"create-template", s%"-s", schema] = .call s%"create-template" false
      [(s%"schema", .str schema), (s%"output_name", .none), (s%"output_format", .str s%"all"), (s%"main_sheet_name", .str s%"main"),
       (s%"rollup", .bool false), (s%"root_id", .none), (s%"use_titles", .bool false), (s%"disable_local_refs", .bool false),
       (s%"truncation_length", .int 3), (s%"no_deprecated_fields", .bool false), (s%"line_terminator", .str s%"CRLF"),
       (s%"convert_wkt", .bool false)] := by
  have h1 : classify topOptions s%"create-template" = .arg := by decide +kernel
  have h2 : commands.find? (fun x => x.name = s%"create-template") = some Cli.createTemplate := by decide +kernel
  have h3 : classify Cli.createTemplate.options s%"-s" =
      .opt { flags := [s%"-s", s%"--schema"], dest := s%"schema", required := true } none := by decide +kernel
  have h4 := classify_name Cli.createTemplate.options hi
  simp only [main, h1, h2, parseArgs, words, PState.word, h3, h4, PState.close, PState.option, PState.arg, PState.give, PState.put,
    if_pos (Or.inl rfl : ([] : List Str) = [] ∨ schema ∈ ([] : List Str))]
  rfl

/-- C75: the exit status tells whether the work was done: 0 for help and for a function that ends normally, 2 for a command line that is refused,
1 for a function that fails, except that `create-template` ends with 0 when a file cannot be read or written. -/
theorem C75_status (run : Str → List (Str × CVal) → Ran) (ws : List Str) :
    (status run (main ws) = 2 ↔ main ws = .usage) ∧
    (status run (main ws) = 1 ↔ ∃ c verbose args, main ws = .call c verbose args ∧
      (run c args = .error ∨ (run c args = .osError ∧ c ≠ s%"create-template"))) ∧
    (status run (main ws) = 0 ↔ main ws = .help ∨ ∃ c verbose args, main ws = .call c verbose args ∧
      (run c args = .done ∨ (run c args = .osError ∧ c = s%"create-template"))) := by
  cases hm : main ws with
  | help => simp [status]
  | usage => simp [status]
  | call c v args =>
    have hex : ∀ P : Str → List (Str × CVal) → Prop,
        (∃ c' v' args', Outcome.call c v args = .call c' v' args' ∧ P c' args') ↔ P c args :=
      fun P => ⟨fun ⟨_, _, _, he, hp⟩ => by injection he with h1 _ h3; subst h1; subst h3; exact hp, fun hp => ⟨c, v, args, rfl, hp⟩⟩
    rw [hex (fun c args => run c args = .error ∨ (run c args = .osError ∧ c ≠ s%"create-template")),
      hex (fun c args => run c args = .done ∨ (run c args = .osError ∧ c = s%"create-template"))]
    simp only [status]
    cases hr : run c args with
    | done => simp
    | osError => by_cases hc : c = s%"create-template" <;> simp [hc]
    | error => simp

namespace CliExamples
example : main [s%"unflatten", s%"input.csv"] = .usage := by decide +kernel
example : main [s%"unflatten", s%"-f", s%"json", s%"input.csv"] = .usage := by decide +kernel
example : main [s%"create-template"] = .usage := by decide +kernel
end CliExamples
end Verif

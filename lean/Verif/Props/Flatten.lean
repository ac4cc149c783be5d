import Verif.Spec.Flatten
import Verif.Proofs.EmitState
import Verif.Proofs.SchemaInv
import Verif.Model.Output
import Verif.Proofs.DecEq
/-! C25, C26: the columns of flattened sheets. -/
namespace Verif
open Spec

theorem nodup_init {cfg : FCfg} (hs : FromSchemaParser cfg) : (Dict.keys (initState cfg).subs).Nodup := by
  unfold initState
  cases h : cfg.schema with
  | none => simp [Dict.keys]
  | some sp =>
    obtain ⟨scfg, sch, hp⟩ := hs sp h
    have := parseRoot_nodup hp
    simpa [Dict.keys, List.map_map, Function.comp_def] using this

theorem init_lines {cfg : FCfg} (hs : FromSchemaParser cfg) (ref : SheetRef) : ((initState cfg).sheet ref).lines = [] := by
  unfold initState
  cases h : cfg.schema with
  | none => cases ref <;> rfl
  | some sp =>
    obtain ⟨scfg, sch, hp⟩ := hs sp h
    obtain ⟨h1, h2⟩ := parseRoot_lines hp
    cases ref with
    | none => simp only [FState.sheet, clearColumns]; split <;> exact h1
    | some n =>
      simp only [FState.sheet, Dict.get_map]
      cases hg : Dict.get sp.subs n with
      | none => rfl
      | some s =>
        have := h2 _ _ (Dict.get_eq_some_mem hg)
        simp only [Option.map_some, Option.getD_some, clearColumns]
        split <;> exact this

theorem finish_main (cfg : FCfg) (st : FState) : (finish cfg st).main = st.main := by
  unfold finish warnMissing dropEmptySheets; dsimp only; split <;> split <;> rfl

theorem finish_subs (cfg : FCfg) (st : FState) : (finish cfg st).subs = if cfg.removeEmpty then
    st.subs.filter (fun p => !(p.2.lines.isEmpty && isSchemaSheet cfg p.1)) else st.subs := by
  unfold finish warnMissing dropEmptySheets; dsimp only; split <;> split <;> rfl

/-- Every sheet of the result is the main sheet or a sub-sheet after all events. -/
theorem sheet_of_result {cfg : FCfg} (hs : FromSchemaParser cfg) {ev : List Ev} {s : Sheet}
    (h : s ∈ sheetsOf (finish cfg (runEv cfg ev (initState cfg)))) :
    ∃ ref, s = (runEv cfg ev (initState cfg)).sheet ref := by
  have hn := nodup_run_subs cfg ev _ (nodup_init hs)
  generalize runEv cfg ev (initState cfg) = st at *
  have hmain : (finish cfg st).main = st.main := finish_main cfg st
  have hsubs : ∀ p ∈ (finish cfg st).subs, p ∈ st.subs := by
    intro p hp
    rw [finish_subs] at hp
    split at hp
    · exact (List.mem_filter.1 hp).1
    · exact hp
  simp only [sheetsOf, List.mem_cons, List.mem_map] at h
  rcases h with rfl | ⟨⟨n, t⟩, hp, rfl⟩
  · exact ⟨none, hmain⟩
  · exact ⟨some n, by simp [FState.sheet, Dict.get_of_mem hn (hsubs _ hp)]⟩

/-- C25: for every sheet produced by flatten, under all options, each key of each line is one of the sheet's
headings; so writing the sheet as CSV (which fails on unknown columns) succeeds. -/
theorem C25_every_value_has_a_column (cfg : FCfg) (hs : FromSchemaParser cfg) (root : List Json) (st : FState)
    (h : flatten cfg root = .ok st) (s : Sheet) (hm : s ∈ sheetsOf st) :
    (∀ line ∈ s.lines, ∀ key ∈ Dict.keys line, key ∈ s.headings) ∧ ∃ rows, csvRows s = .ok rows := by
  obtain ⟨ev, he, rfl⟩ := flatten_ok.1 h
  obtain ⟨ref, rfl⟩ := sheet_of_result hs hm
  have key : ∀ line ∈ ((runEv cfg ev (initState cfg)).sheet ref).lines, ∀ key ∈ Dict.keys line,
      key ∈ ((runEv cfg ev (initState cfg)).sheet ref).headings := by
    intro line hl k hk
    rw [run_lines, init_lines hs, List.nil_append] at hl
    have hl' : Ev.line ref line ∈ ev := by
      simp only [evLines, List.mem_filterMap] at hl
      obtain ⟨e, hev, hl⟩ := hl
      unfold evLine at hl
      split at hl
      · split at hl
        · next hr => simp only [Option.some.injEq] at hl; subst hl; subst hr; exact hev
        · cases hl
      · cases hl
    rw [mem_run_headings (titlesOK_init cfg)]
    exact Or.inr (linesKeyed_root cfg 0 root ev he ref line hl' k hk)
  refine ⟨key, ?_⟩
  unfold csvRows
  rw [if_pos]
  · exact ⟨_, rfl⟩
  · simp only [List.all_eq_true, List.contains_iff_mem]
    intro line hl kv hkv
    exact key line hl _ (Dict.mem_keys_of_mem hkv)

/-- C26: if the sheets provided by the schema have no repeated headings (in particular without a schema), no
sheet produced by flatten has a repeated heading. -/
theorem C26_no_repeated_headings (cfg : FCfg) (hs : FromSchemaParser cfg)
    (hh : ∀ sp, cfg.schema = some sp → sp.main.headings.Nodup ∧ ∀ n s, (n, s) ∈ sp.subs → s.headings.Nodup)
    (root : List Json) (st : FState) (h : flatten cfg root = .ok st) (s : Sheet) (hm : s ∈ sheetsOf st) :
    s.headings.Nodup := by
  obtain ⟨ev, -, rfl⟩ := flatten_ok.1 h
  obtain ⟨ref, rfl⟩ := sheet_of_result hs hm
  apply nodup_run_headings (titlesOK_init cfg)
  have hrem : ∀ s : Sheet, s.headings.Nodup → (clearColumns cfg s).headings.Nodup := by
    intro s h
    unfold clearColumns
    split
    · simp only [Sheet.headings, List.append_nil] at h ⊢
      rw [← List.append_assoc] at h
      exact (List.nodup_append.1 h).1
    · exact h
  unfold initState
  cases hc : cfg.schema with
  | none => cases ref <;> simp [FState.sheet, Sheet.headings]
  | some sp =>
    obtain ⟨h1, h2⟩ := hh sp hc
    cases ref with
    | none => exact hrem _ h1
    | some n =>
      simp only [FState.sheet, Dict.get_map]
      cases hg : Dict.get sp.subs n with
      | none => simp [Sheet.headings]
      | some s => exact hrem _ (h2 _ _ (Dict.get_eq_some_mem hg))

/-! ### A concrete case -/

/-- A schema with a scalar, and an array of objects with an id and a scalar; all with titles. -/
def exampleSchema : Schema :=
  .mk { type := .absent } (some [
    (s%"id", .mk { type := .one s%"string", title := some s%"Identifier" } none none none),
    (s%"name", .mk { type := .one s%"string", title := some s%"Name" } none none none),
    (s%"dishes", .mk { type := .one s%"array", title := some s%"Dishes" } none
      (some (.mk { type := .one s%"object" } (some [
        (s%"id", .mk { type := .one s%"string", title := some s%"Dish id" } none none none),
        (s%"price", .mk { type := .one s%"number", title := some s%"Price" } none none none)]) none none)) none)]) none none

/-- The parsed schema, with titles. -/
def exampleParsed : Parsed :=
  match parseRoot { useTitles := true, rootId := [] } exampleSchema with
  | .ok p => p
  | .error _ => { main := {}, subs := [], subTitles := [], lookup := .node [] [], flattened := [], rollup := [], warns := [] }

theorem exampleParsed_eq : parseRoot { useTitles := true, rootId := [] } exampleSchema = .ok exampleParsed := by
  rw [exampleParsed]
  have : (parseRoot { useTitles := true, rootId := [] } exampleSchema).isOk = true := by decide +kernel
  cases h : parseRoot { useTitles := true, rootId := [] } exampleSchema with
  | ok p => rfl
  | error e => rw [h] at this; cases this

/-- The hypotheses of C25 and C26 hold for a flattening with this schema and titles. -/
example : FromSchemaParser { schema := some exampleParsed, useTitles := true } ∧
    exampleParsed.main.headings.Nodup ∧ ∀ n s, (n, s) ∈ exampleParsed.subs → s.headings.Nodup := by
  refine ⟨fun sp h => ?_, by decide +kernel, ?_⟩
  · simp only [Option.some.injEq] at h; subst h; exact ⟨_, _, exampleParsed_eq⟩
  · have h : exampleParsed.subs.all (fun p => decide p.2.headings.Nodup) = true := by decide +kernel
    intro n s hm
    exact of_decide_eq_true (List.all_eq_true.1 h _ hm)

set_option synthInstance.maxSize 4000 in
/-- And the columns and lines are these: a field that is not in the schema gets a new column. -/
example : (flatten { schema := some exampleParsed, useTitles := true }
      [.obj [(s%"id", .leaf (.str s%"1")), (s%"extra", .leaf (.int 2)),
        (s%"dishes", .arr [.obj [(s%"price", .leaf (.int 3)), (s%"more", .leaf (.int 4))]])]]).map
      (fun st => ((st.main.headings, st.main.lines), st.subs.map (fun s => (s.1, s.2.headings, s.2.lines)))) =
    .ok (([s%"Identifier", s%"Name", s%"extra"], [[(s%"Identifier", .leaf (.str s%"1")), (s%"extra", .leaf (.int 2))]]),
      [(s%"Dishes", [s%"Identifier", s%"Dishes:Dish id", s%"Dishes:Price", s%"dishes/0/more"],
        [[(s%"Identifier", .leaf (.str s%"1")), (s%"Dishes:Price", .leaf (.int 3)), (s%"dishes/0/more", .leaf (.int 4))]])]) := by
  decide +kernel

end Verif

import Verif.Proofs.Columns
import Verif.Proofs.Arrays
import Verif.Proofs.DecEq
import Verif.Props.Flatten
import Verif.Props.FlattenLines
/-! C57: the columns of flattened sheets. -/
namespace Verif
open Spec

theorem init_headings (cfg : FCfg) (name : Option Str) : ((initState cfg).sheet name).headings = templateColumns cfg name := by
  have hk : ∀ s : Sheet, (clearColumns cfg s).headings = keptColumns cfg s := by
    rintro ⟨r, i, c, t, l⟩
    unfold clearColumns keptColumns Sheet.headings
    cases r <;> cases cfg.removeEmpty <;> simp
  unfold initState templateColumns
  cases cfg.schema with
  | none => cases name <;> rfl
  | some p =>
    cases name with
    | none => exact hk _
    | some n =>
      simp only [FState.sheet, Dict.get_map]
      cases Dict.get p.subs n with
      | none => rfl
      | some s => exact hk s

theorem named_of_result {cfg : FCfg} (hs : FromSchemaParser cfg) {ev : List Ev} {name : Option Str} {s : Sheet}
    (h : sheetNamed (finish cfg (runEv cfg ev (initState cfg))) name = some s) : s = (runEv cfg ev (initState cfg)).sheet name := by
  have hn := nodup_run_subs cfg ev _ (nodup_init hs)
  generalize runEv cfg ev (initState cfg) = st at *
  cases name with
  | none =>
    simp only [sheetNamed, Option.some.injEq, finish_main] at h
    exact h.symm
  | some n =>
    simp only [sheetNamed, finish_subs] at h
    have : (n, s) ∈ st.subs := by
      have := Dict.get_eq_some_mem h
      split at this
      · exact (List.mem_filter.1 this).1
      · exact this
    simp [FState.sheet, Dict.get_of_mem hn this]

theorem addHead_prefix (hs : List Str) (o : Option Str) : hs <+: addHead hs o := by
  unfold addHead
  cases o with
  | none => exact List.prefix_refl _
  | some k => dsimp only; split; exact List.prefix_refl _; exact List.prefix_append _ _

/-- C57: under all options, the columns of a sheet begin with those that the schema gives to it, in the order of the schema. -/
theorem C57_schema_columns_first (cfg : FCfg) (hs : FromSchemaParser cfg) (root : List Json) (st : FState) (h : flatten cfg root = .ok st)
    (name : Option Str) (s : Sheet) (hn : sheetNamed st name = some s) : templateColumns cfg name <+: s.headings := by
  obtain ⟨ev, -, rfl⟩ := flatten_ok.1 h
  rw [named_of_result hs hn, run_headings (titlesOK_init cfg), init_headings]
  generalize templateColumns cfg name = hs
  clear hn h
  induction ev generalizing hs with
  | nil => exact List.prefix_refl _
  | cons e r ih => exact (addHead_prefix hs _).trans (ih _)

theorem dropped_none {cfg : FCfg} (h : cfg.preserve = []) (p k : Str) : dropped cfg p k = false := by simp [dropped, h]

/-- C57: flattening (without titles, WKT, XML, rollup and preserved fields) adds no column without a value: every column is one that the
schema gives to the sheet, or some line of the sheet has a value there.  (With `C25`: exactly the columns with values are added.) -/
theorem C57_no_empty_columns_added (cfg : FCfg) (hp : Plain cfg) (hk : cfg.preserve = []) (hs : FromSchemaParser cfg) (root : List Json)
    (hi : ∀ j ∈ root, PlainIds (idOpts cfg) true j) (st : FState) (h : flatten cfg root = .ok st)
    (name : Option Str) (s : Sheet) (hn : sheetNamed st name = some s) (heading : Str) (hh : heading ∈ s.headings) :
    heading ∈ templateColumns cfg name ∨ ∃ line ∈ s.lines, heading ∈ Dict.keys line := by
  obtain ⟨ev, he, rfl⟩ := flatten_ok.1 h
  have hs' := named_of_result hs hn
  rw [hs', mem_run_headings (titlesOK_init cfg), init_headings] at hh
  rcases hh with hh | ⟨e, he', hh⟩
  · exact Or.inl hh
  · refine Or.inr ?_
    unfold evHead at hh
    split at hh
    · next r k =>
      split at hh
      · next hr =>
        subst hr
        rw [rn_plain hp, Option.some.injEq] at hh
        subst hh
        obtain ⟨l, h1, h2⟩ := rootDone hp (dropped_none hk) 0 root hi ev he _ _ he'
        refine ⟨l, ?_, h2⟩
        rw [hs', run_lines, init_lines hs, List.nil_append]
        simp only [evLines, List.mem_filterMap]
        exact ⟨_, h1, by simp [evLine]⟩
      · cases hh
    · cases hh

/-- The names of the sheets of the schema. -/
def templateSheets (cfg : FCfg) : List Str :=
  match cfg.schema with
  | none => []
  | some p => Dict.keys p.subs

theorem init_subs (cfg : FCfg) : Dict.keys (initState cfg).subs = templateSheets cfg := by
  unfold initState templateSheets
  cases cfg.schema with
  | none => rfl
  | some p => simp [Dict.keys, List.map_map, Function.comp_def]

/-- The sub-sheets before the empty ones are removed. -/
theorem run_sub_sheets {cfg : FCfg} (hw : cfg.wkt = false) (hx : cfg.xml = false) (hf : cfg.filter = none) (hk : cfg.preserve = []) {root : List Json} {ev : List Ev}
    (he : emitRootList cfg 0 root = .ok ((), ev)) (name : Str) :
    name ∈ Dict.keys (runEv cfg ev (initState cfg)).subs ↔
      name ∈ templateSheets cfg ∨ ∃ fs a, .obj fs ∈ root ∧ HasArray [] fs a ∧ sheetOf cfg a = name := by
  obtain ⟨h1, h2⟩ := touches_root ⟨hw, hx⟩ hf (dropped_none hk) 0 root ev he
  rw [mem_run_subs, init_subs]
  refine or_congr Iff.rfl ⟨fun ht => ?_, ?_⟩
  · rcases h1 name ht with h4 | ⟨a, ⟨fs, h4, h5⟩, h6⟩
    · cases h4
    · exact ⟨fs, a, h4, h5, h6⟩
  · rintro ⟨fs, a, h4, h5, rfl⟩
    exact h2 a ⟨fs, h4, h5⟩

/-- C57: the sub-sheets are those of the schema and those of the arrays of the data that are not written into one cell (for every object
of the root list, at every depth), whatever the titles and the rollup: with titles, a sub-sheet has the name that the schema gives it. -/
theorem C57_sub_sheets (cfg : FCfg) (hw : cfg.wkt = false) (hx : cfg.xml = false) (hf : cfg.filter = none) (hk : cfg.preserve = []) (root : List Json) (st : FState)
    (h : flatten cfg root = .ok st) (name : Str) :
    (name ∈ Dict.keys st.subs → name ∈ templateSheets cfg ∨ ∃ fs a, .obj fs ∈ root ∧ HasArray [] fs a ∧ sheetOf cfg a = name) ∧
    (cfg.removeEmpty = false →
      (name ∈ templateSheets cfg ∨ ∃ fs a, .obj fs ∈ root ∧ HasArray [] fs a ∧ sheetOf cfg a = name) → name ∈ Dict.keys st.subs) := by
  obtain ⟨ev, he, rfl⟩ := flatten_ok.1 h
  have h3 := run_sub_sheets hw hx hf hk he name
  rw [← h3, finish_subs]
  constructor
  · intro hm
    split at hm
    · simp only [Dict.keys, List.mem_map, List.mem_filter] at hm ⊢
      obtain ⟨x, ⟨h4, -⟩, h5⟩ := hm
      exact ⟨x, h4, h5⟩
    · exact hm
  · intro hr hm
    rw [hr]
    simpa using hm

/-- C57: when empty sheets of the schema are to be removed, the sub-sheets are those with lines, and those of the arrays of the data that
the schema does not have. -/
theorem C57_sub_sheets_without_empty (cfg : FCfg) (hw : cfg.wkt = false) (hx : cfg.xml = false) (hf : cfg.filter = none) (hk : cfg.preserve = [])
    (hs : FromSchemaParser cfg) (hr : cfg.removeEmpty = true) (root : List Json) (st : FState) (h : flatten cfg root = .ok st) (name : Str) :
    name ∈ Dict.keys st.subs ↔
      subLines st name ≠ [] ∨ (name ∉ templateSheets cfg ∧ ∃ fs a, .obj fs ∈ root ∧ HasArray [] fs a ∧ sheetOf cfg a = name) := by
  obtain ⟨ev, he, rfl⟩ := flatten_ok.1 h
  have h3 := run_sub_sheets hw hx hf hk he name
  have hl := (result_lines hs ev _ rfl).2 name
  have hl' : ((runEv cfg ev (initState cfg)).sheet (some name)).lines = evLines (some name) ev := by rw [run_lines, init_lines hs, List.nil_append]
  have hsch : isSchemaSheet cfg name = true ↔ name ∈ templateSheets cfg := by
    unfold isSchemaSheet templateSheets
    cases cfg.schema with
    | none => simp
    | some p => exact Dict.has_iff
  have hn := nodup_run_subs cfg ev _ (nodup_init hs)
  have key : name ∈ Dict.keys (finish cfg (runEv cfg ev (initState cfg))).subs ↔
      name ∈ Dict.keys (runEv cfg ev (initState cfg)).subs ∧ ¬ (evLines (some name) ev = [] ∧ name ∈ templateSheets cfg) := by
    rw [finish_subs, if_pos hr, ← hl', ← hsch]
    generalize runEv cfg ev (initState cfg) = st at *
    simp only [FState.sheet]
    constructor
    · intro hm
      simp only [Dict.keys, List.mem_map, List.mem_filter] at hm
      obtain ⟨⟨n, s⟩, ⟨h4, h5⟩, h6⟩ := hm
      dsimp only at h5 h6
      subst h6
      refine ⟨Dict.mem_keys_of_mem h4, ?_⟩
      rw [Dict.get_of_mem hn h4]
      rintro ⟨h6, h7⟩
      simp only [Option.getD_some] at h6
      rw [h6, h7] at h5
      simp at h5
    · rintro ⟨hm, hne⟩
      cases hg : Dict.get st.subs name with
      | none => exact absurd hm ((Dict.get_none_iff ..).1 hg)
      | some s =>
        rw [hg] at hne
        simp only [Option.getD_some] at hne
        refine Dict.mem_keys_of_mem (v := s) (List.mem_filter.2 ⟨Dict.get_eq_some_mem hg, ?_⟩)
        cases h1 : s.lines with
        | nil =>
          cases h2 : isSchemaSheet cfg name with
          | true => exact absurd ⟨h1, h2⟩ hne
          | false => simp
        | cons => simp
  rw [key, h3, hl]
  have hin : evLines (some name) ev ≠ [] → name ∈ Dict.keys (runEv cfg ev (initState cfg)).subs := by
    rw [← hl']
    intro hne
    apply Classical.byContradiction
    intro hno
    rw [← Dict.get_none_iff] at hno
    simp only [FState.sheet, hno] at hne
    exact hne rfl
  rw [h3] at hin
  constructor
  · rintro ⟨h1 | h1, h2⟩
    · exact .inl (fun e => h2 ⟨e, h1⟩)
    · by_cases ht : name ∈ templateSheets cfg
      · exact .inl (fun e => h2 ⟨e, ht⟩)
      · exact .inr ⟨ht, h1⟩
  · rintro (h1 | ⟨h1, h2⟩)
    · exact ⟨hin h1, fun h2 => h1 h2.1⟩
    · exact ⟨.inr h2, fun h3 => h1 h3.2⟩

namespace ColumnsEx

/-- Two objects, one with an array of objects. -/
def doc : List Json := [
  .obj [(s%"id", .leaf (.int 1)), (s%"a", .leaf (.str s%"x")), (s%"l", .arr [.obj [(s%"id", .leaf (.int 2)), (s%"b", .leaf (.bool true))]])],
  .obj [(s%"id", .leaf (.int 3)), (s%"c", .obj [(s%"d", .leaf (.str s%"y"))])]]

/-- A schema with `id`, `a`, `z`. -/
def sch : Schema := .mk {} (some [(s%"id", .mk { type := .one s%"string" } none none none), (s%"a", .mk { type := .one s%"string" } none none none),
  (s%"z", .mk { type := .one s%"string" } none none none)]) none none

/-- Flattening with the schema, or without. -/
def run (schema removeEmpty : Bool) (root : List Json) (rootId : Option Str := none) : Option (List Str × List (Str × List Str)) :=
  ((if schema then (parseRoot {} sch).toOption else none).elim (flatten { removeEmpty, rootId } root)
    (fun p => flatten { schema := some p, removeEmpty, rootId } root)).toOption.map (fun st => (st.main.headings, st.subs.map (fun p => (p.1, p.2.headings))))

-- The columns of the schema come first (also the one without values), those of the data follow.
example : run true false doc = some ([s%"id", s%"a", s%"z", s%"c/d"], [(s%"l", [s%"id", s%"l/0/id", s%"l/0/b"])]) := by decide +kernel
-- Without the empty columns of the schema; without the schema.
example : run true true doc = some ([s%"id", s%"a", s%"c/d"], [(s%"l", [s%"id", s%"l/0/id", s%"l/0/b"])]) := by decide +kernel
example : run false false doc = some ([s%"id", s%"a", s%"c/d"], [(s%"l", [s%"id", s%"l/0/id", s%"l/0/b"])]) := by decide +kernel

/-- The document meets the hypothesis. -/
theorem doc_ids : ∀ j ∈ doc, PlainIds ⟨s%"id", some s%"r"⟩ true j := by
  intro j hj
  simp only [doc, List.mem_cons, List.not_mem_nil, or_false] at hj
  rcases hj with rfl | rfl <;>
    simp [PlainIds, PlainIdsFields, PlainIdsItems, HasPlainIds, Dict.get]

-- What the hypothesis excludes: an id that is a list of objects, and a root id inside of an object, add columns without values.
example : run false false [.obj [(s%"id", .arr [.obj [(s%"a", .leaf (.int 1))]])]] =
    some ([s%"id"], [(s%"id", [s%"id", s%"id/0/a"])]) := by decide +kernel
example : run false false [.obj [(s%"c", .obj [(s%"r", .leaf (.int 1))])]] (some s%"r") = some ([s%"r", s%"c/r"], []) := by decide +kernel

end ColumnsEx

end Verif

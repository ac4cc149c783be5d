import Verif.Props.EndToEnd
/-! C70: what `create_template` writes. -/
namespace Verif.Api
open Spec

theorem main_header {cfg : SchemaCfg} {s : Schema} {p : Parsed} (h : parseRoot cfg s = .ok p) : p.main.headings = p.main.columns := by
  have h1 : p.main.idColumns = [] := parseRoot_main (P := fun s => s.idColumns = []) (fun s f ts hs => by simp only [Sheet.addField]; grind)
    (fun s f hs => by simp only [Sheet.addField]; grind) rfl h
  have h2 : p.main.rootId = [] := parseRoot_main (P := fun s => s.rootId = []) (fun s f ts hs => by simp only [Sheet.addField]; grind)
    (fun s f hs => by simp only [Sheet.addField]; grind) rfl h
  simp [Sheet.headings, h1, h2]

/-- C70: what `create_template` writes (without titles).  In whatever format, what is written shows a main sheet and sub-sheets in the order of their names, without lines; there is
a sub-sheet for each array of objects in the schema, and no other; the columns are exactly those for the fields of the schema. -/
theorem C70_template_writes (o : TmplOpts) (env : FlEnv) (out : List Written × List SWarn) (ht : o.useTitles = false) (hw : WellNamed (templateCfg o) o.schema)
    (h : runTemplate o env = .ok out) :
    ∃ main subs, main.name = o.mainSheetName ∧ (∀ t ∈ main :: subs, t.lines = []) ∧ (subs.map (·.name)).Pairwise NameLt ∧
      MainColumns (templateCfg o) o.schema main.header ∧
      (∀ nm, nm ∈ subs.map (·.name) ↔ ∃ steps n p, Spec.Reached (templateCfg o) o.schema steps n p ∧ kind o.wkt p = .objects ∧ nm = tableName (templateCfg o) steps n) ∧
      (∀ t ∈ subs, ∃ ids cols, t.header = (o.rootId.toList.filter (· ≠ [])) ++ (ids ++ cols) ∧ SubColumns (templateCfg o) o.schema t.name ids cols) ∧
      ∀ w ∈ out.1, WrittenShows env [] (main :: subs) w := by
  obtain ⟨-, p, h1, h2, -⟩ := runTemplate_ok.1 h
  have hp : parseRoot (templateCfg o) o.schema = .ok p := h1
  have hnd : (Dict.keys p.subs).Nodup := parseRoot_nodup hp
  refine ⟨tableOf (o.mainSheetName, p.main), (sortSheets p.subs).map tableOf, rfl, ?_, ?_, ?_, ?_, ?_, all_shown h2⟩
  · intro t htm
    rcases List.mem_cons.1 htm with rfl | htm
    · exact (parseRoot_lines hp).1
    · obtain ⟨⟨n, s⟩, hm, rfl⟩ := List.mem_map.1 htm
      exact (parseRoot_lines hp).2 n s ((sortSheets_perm _).mem_iff.1 hm)
  · rw [List.map_map]
    exact sortSheets_sorted hnd
  · have := C34_main _ _ _ hp ht
    exact ⟨by rw [tableOf, main_header hp]; exact this.1, by intro c; rw [tableOf, main_header hp]; exact this.2.2 c⟩
  · intro nm
    refine Iff.trans ?_ (C34_sheets _ _ _ hp ht hw nm)
    rw [List.map_map]
    simp only [List.mem_map, Dict.keys, Function.comp, tableOf]
    constructor <;> rintro ⟨x, h1, rfl⟩
    · exact ⟨x, (sortSheets_perm _).mem_iff.1 h1, rfl⟩
    · exact ⟨x, (sortSheets_perm _).mem_iff.2 h1, rfl⟩
  · intro t htm
    obtain ⟨⟨n, s⟩, hm, rfl⟩ := List.mem_map.1 htm
    have hget := Dict.get_of_mem hnd ((sortSheets_perm _).mem_iff.1 hm)
    obtain ⟨g1, g2, g3, g4⟩ := C34_columns _ _ _ hp ht hw n s hget
    refine ⟨s.idColumns, s.columns, ?_, g2, g1, C34_id_columns _ _ _ hp ht hw n s hget, g4⟩
    simp only [tableOf, Sheet.headings, g3, templateCfg]
    cases o.rootId with
    | none => rfl
    | some r => cases r <;> simp

/-- C70: with titles, the columns of the main sheet are the titles. -/
theorem C70_titles (o : TmplOpts) (env : FlEnv) (out : List Written × List SWarn) (ht : o.useTitles = true) (h : runTemplate o env = .ok out) :
    ∃ main subs, main.name = o.mainSheetName ∧ (∀ t ∈ main :: subs, t.lines = []) ∧
      (∀ c, c ∈ main.header ↔ ∃ r f, Starts o.schema r ∧ Shown (templateCfg o) r f (some c)) ∧
      ∀ w ∈ out.1, WrittenShows env [] (main :: subs) w := by
  obtain ⟨-, p, h1, h2, -⟩ := runTemplate_ok.1 h
  have hp : parseRoot (templateCfg o) o.schema = .ok p := h1
  refine ⟨tableOf (o.mainSheetName, p.main), (sortSheets p.subs).map tableOf, rfl, ?_, ?_, all_shown h2⟩
  · intro t htm
    rcases List.mem_cons.1 htm with rfl | htm
    · exact (parseRoot_lines hp).1
    · obtain ⟨⟨n, s⟩, hm, rfl⟩ := List.mem_map.1 htm
      exact (parseRoot_lines hp).2 n s ((sortSheets_perm _).mem_iff.1 hm)
  · intro c
    rw [tableOf, main_header hp]
    exact C34_main_titles _ _ _ hp ht c

namespace TemplateEndEx

/-- A template for the orders, without deprecated fields. -/
def o : TmplOpts := { schema := orders, outputFormat := s%"csv", rootId := some s%"ocid", noDeprecated := true }

/-- C70: its hypotheses are met. -/
example : WellNamed (templateCfg o) o.schema := wellNamed_of_inside (by decide +kernel)

/-- C70: the CSV files. -/
example : OutputsEx.headings (runTemplate o {}) = [
    (s%"main.csv", [[s%"id", s%"buyer/since", s%"buyer/tags"]]),
    (s%"lin_parts.csv", [[s%"ocid", s%"id", s%"lines/0/id", s%"lines/0/parts/0/count"]]),
    (s%"lines.csv", [[s%"ocid", s%"id", s%"lines/0/id", s%"lines/0/price"]])] := by decide +kernel

end TemplateEndEx

end Verif.Api

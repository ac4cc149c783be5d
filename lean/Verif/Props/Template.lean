import Verif.Proofs.SchemaTrails
import Verif.Model.Titles
import Verif.Proofs.DecEq
/-!
Templates and types from schemas (C34, C37, C38).  `parseRoot` is
`SchemaParser(...).parse()`; the sheets of a template are its main sheet and its
sub-sheets.
-/
namespace Verif
open Spec

/-! ### Trails -/

theorem Spec.Trail.append {cfg : SchemaCfg} {s x q : Schema} {a b : List Hop} (h : Trail cfg s a x) (h' : Trail cfg x b q) :
    Trail cfg s (a ++ b) q := by
  induction h with
  | here => exact h'
  | object h1 h2 _ ih => exact .object h1 h2 (ih h')
  | list h1 h2 h3 _ ih => exact .list h1 h2 h3 (ih h')

theorem Spec.Trail.split {cfg : SchemaCfg} {s q : Schema} {a b : List Hop} (h : Trail cfg s (a ++ b) q) :
    ∃ x, Trail cfg s a x ∧ Trail cfg x b q := by
  induction a generalizing s with
  | nil => exact ⟨s, .here s, h⟩
  | cons y r ih =>
    cases h with
    | object h1 h2 h3 => obtain ⟨x, hx, hb⟩ := ih h3; exact ⟨x, .object h1 h2 hx, hb⟩
    | list h1 h2 h3 h4 => obtain ⟨x, hx, hb⟩ := ih h4; exact ⟨x, .list h1 h2 h3 hx, hb⟩

theorem Spec.Trail.last {cfg : SchemaCfg} {s q : Schema} {a : List Hop} {x : Hop} (h : Trail cfg s (a ++ [x]) q) :
    ∃ y, Trail cfg s a y ∧ Field cfg y x.name x.prop ∧
      ((x.list = false ∧ kind cfg.wkt x.prop = .object ∧ q = x.prop) ∨
       (x.list = true ∧ kind cfg.wkt x.prop = .objects ∧ x.prop.items = some q)) := by
  obtain ⟨y, h1, h2⟩ := h.split
  refine ⟨y, h1, ?_⟩
  cases h2 with
  | object g1 g2 g3 => cases g3; exact ⟨g1, .inl ⟨rfl, g2, rfl⟩⟩
  | list g1 g2 g3 g4 => cases g4; exact ⟨g1, .inr ⟨rfl, g2, g3⟩⟩

/-- The properties along a trail are fields. -/
theorem Spec.Trail.fields {cfg : SchemaCfg} {s q : Schema} {steps : List Hop} (h : Trail cfg s steps q) (x : Hop) (hx : x ∈ steps) :
    ∃ a b y, steps = a ++ x :: b ∧ Trail cfg s a y ∧ Field cfg y x.name x.prop := by
  obtain ⟨a, b, rfl⟩ := List.append_of_mem hx
  have h' : Trail cfg s ((a ++ [x]) ++ b) q := by simpa using h
  obtain ⟨z, h1, _⟩ := h'.split
  obtain ⟨y, g1, g2, _⟩ := h1.last
  exact ⟨a, b, y, rfl, g1, g2⟩

theorem names_ok {cfg : SchemaCfg} {s r q : Schema} (hw : WellNamed cfg s) (hr : Starts s r) {steps : List Hop}
    (h : Trail cfg r steps q) : ∀ x ∈ steps, NameOK x.name := by
  intro x hx
  obtain ⟨a, b, y, rfl, h1, h2⟩ := h.fields x hx
  exact hw a x.name x.prop ⟨r, y, hr, h1, h2⟩

theorem columnPath_cons (x : Hop) (r : List Hop) (n : Str) :
    columnPath (x :: r) n = x.name ++ ((if x.list then s%"/0/" else s%"/") ++ columnPath r n) := by
  rw [columnPath_eq, columnPath_eq, indexed]
  split <;> simp [pnOf]

theorem titlePath_cons (x : Hop) (r : List Hop) (p : Schema) :
    titlePath (x :: r) p = (titleOf x.prop).bind (fun a => (titlePath r p).map (fun b => a ++ s%":" ++ b)) := by
  unfold titlePath
  cases r with
  | nil => rfl
  | cons y t => rfl

theorem shown_trail {cfg : SchemaCfg} {s : Schema} {f : Str} {t : Option Str} (h : Shown cfg s f t) :
    ∃ steps q n p ty, Trail cfg s steps q ∧ Field cfg q n p ∧ kind cfg.wkt p = .column ty ∧
      f = columnPath steps n ∧ t = titlePath steps p ∧ (cfg.rollup = false → ∀ x ∈ steps, x.list = false) := by
  induction h with
  | own h1 h2 => exact ⟨[], _, _, _, _, .here _, h1, h2, rfl, rfl, by simp⟩
  | @inside s p n f t h1 h2 _ ih =>
    obtain ⟨steps, q, m, p', ty, ht, hf, hk, rfl, rfl, hl⟩ := ih
    refine ⟨⟨n, p, false⟩ :: steps, q, m, p', ty, .object h1 h2 ht, hf, hk, ?_, ?_, ?_⟩
    · rw [columnPath_cons]; simp
    · rw [titlePath_cons]
    · intro hr x hx
      rcases List.mem_cons.1 hx with rfl | hx
      · rfl
      · exact hl hr x hx
  | @rolled s p i n f t listed h0 h1 h2 h3 _ h5 h6 ih =>
    obtain ⟨steps, q, m, p', ty, ht, hf, hk, rfl, rfl, hl⟩ := ih
    refine ⟨⟨n, p, true⟩ :: steps, q, m, p', ty, .list h1 h2 h3 ht, hf, hk, ?_, ?_, ?_⟩
    · rw [columnPath_cons]; simp
    · rw [titlePath_cons]
    · intro hr; rw [h0] at hr; cases hr

theorem trail_shown {cfg : SchemaCfg} {s q : Schema} {steps : List Hop} (h : Trail cfg s steps q) (hl : ∀ x ∈ steps, x.list = false)
    {n : Str} {p : Schema} {ty : CType} (hf : Field cfg q n p) (hk : kind cfg.wkt p = .column ty) :
    Shown cfg s (columnPath steps n) (titlePath steps p) := by
  induction h with
  | here => exact .own hf hk
  | object h1 h2 _ ih =>
    have := ih (fun x hx => hl x (by simp [hx])) hf
    rw [columnPath_cons, titlePath_cons]
    simpa using Shown.inside h1 h2 this
  | list h1 h2 h3 _ ih => exact absurd (hl _ (List.mem_cons_self ..)) (by simp)

/-! ### The parsed schema -/

theorem parseRoot_ok {cfg : SchemaCfg} {s : Schema} {sp : Parsed} (h : parseRoot cfg s = .ok sp) :
    ∃ ys st, parseSchema cfg {} s {} = .ok (ys, st) ∧ sp.main = (mainFields cfg ys ({}, [])).1 ∧ sp.subs = st.subs ∧
      sp.flattened = st.flattened ∧ sp.lookup = st.lookup := by
  unfold parseRoot at h
  split at h
  · cases h
  · next ys st he =>
    simp only [Except.ok.injEq] at h
    rw [← h]
    exact ⟨ys, st, he, rfl, rfl, rfl, rfl⟩

theorem sub_event {cfg : SchemaCfg} {s : Schema} {sp : Parsed} (h : parseRoot cfg s = .ok sp) (nm : Str) :
    ((∃ sh, Dict.get sp.subs nm = some sh) ↔ ∃ r, Starts s r ∧ PEv cfg {} r (.sheet nm)) ∧
    (∀ c, (∃ sh, Dict.get sp.subs nm = some sh ∧ c ∈ sh.columns) ↔ ∃ r, Starts s r ∧ PEv cfg {} r (.col nm c)) ∧
    (∀ c, (∃ sh, Dict.get sp.subs nm = some sh ∧ c ∈ sh.idColumns) ↔ ∃ r, Starts s r ∧ PEv cfg {} r (.ids nm c)) := by
  obtain ⟨ys, st, h1, _, h2, _⟩ := parseRoot_ok h
  obtain ⟨_, ht⟩ := parseSchema_root h1
  rw [h2]
  refine ⟨?_, fun c => ?_, fun c => ?_⟩
  · exact (ht.has nm).trans (by simp [HasSheet])
  · exact (ht.col nm c).trans (by simp [HasCol])
  · exact (ht.ids nm c).trans (by simp [HasId])

theorem lev_name {cfg : SchemaCfg} {s r q : Schema} (hu : cfg.useTitles = false) (hw : WellNamed cfg s) (hr : Starts s r)
    {steps : List Hop} (h : Trail cfg r steps q) (n : Str) (t : Option Str) :
    subNameOf cfg (ctxAt cfg {} r steps) n t = tableName cfg steps n := by
  have hn := names_ok hw hr h
  have : subNameOf cfg (ctxAt cfg {} r steps) n t = makeSubSheetName (ctxAt cfg {} r steps).parentPath n cfg.trunc := by
    unfold subNameOf; rw [hu]
  rw [this, ctxAt_path cfg steps {} r (fun x hx => (hn x hx).1)]
  exact subName_eq cfg steps hn n

/-! ### C34 -/

/-- C34, main sheet: without titles, the columns of the main sheet are exactly the
fields shown for the records (columns of the schema, of its objects, and the rolled-up
ones), each once. -/
theorem C34_main (cfg : SchemaCfg) (s : Schema) (sp : Parsed) (h : parseRoot cfg s = .ok sp) (hu : cfg.useTitles = false) :
    sp.main.columns.Nodup ∧ sp.main.idColumns = [] ∧
    ∀ c, c ∈ sp.main.columns ↔ ∃ r t, Starts s r ∧ Shown cfg r c t := by
  refine ⟨?_, ?_, fun c => ?_⟩
  · refine parseRoot_main (P := fun s => s.columns.Nodup) (fun s f ts hs => ?_) (fun s f hs => ?_) List.nodup_nil h
    · unfold Sheet.addField; grind
    · unfold Sheet.addField; grind
  · exact parseRoot_main (P := fun s => s.idColumns = []) (fun s f ts hs => by rw [← hs]; exact addField_ids s f)
      (fun s f hs => by rw [← hs]; exact addField_ids s f) rfl h
  · obtain ⟨ys, st, h1, h2, _⟩ := parseRoot_ok h
    obtain ⟨hy, _⟩ := parseSchema_root h1
    rw [h2, mainFields_cols hu]
    constructor
    · rintro (hc | ⟨t, ht⟩)
      · simp at hc
      · obtain ⟨r, hr, hs⟩ := (hy c t).1 ht; exact ⟨r, t, hr, hs⟩
    · rintro ⟨r, t, hr, hs⟩
      exact .inr ⟨t, (hy c t).2 ⟨r, hr, hs⟩⟩

/-- C34, main sheet, when nothing is rolled up: its columns are exactly the paths of
the column properties reached without crossing a list of objects. -/
theorem C34_main_paths (cfg : SchemaCfg) (s : Schema) (sp : Parsed) (h : parseRoot cfg s = .ok sp) (hu : cfg.useTitles = false)
    (hroll : cfg.rollup = false) (c : Str) :
    c ∈ sp.main.columns ↔ ∃ steps n p ty, Reached cfg s steps n p ∧ kind cfg.wkt p = .column ty ∧
      (∀ x ∈ steps, x.list = false) ∧ c = columnPath steps n := by
  rw [(C34_main cfg s sp h hu).2.2]
  constructor
  · rintro ⟨r, t, hr, hs⟩
    obtain ⟨steps, q, n, p, ty, ht, hf, hk, rfl, _, hl⟩ := shown_trail hs
    exact ⟨steps, n, p, ty, ⟨r, q, hr, ht, hf⟩, hk, hl hroll, rfl⟩
  · rintro ⟨steps, n, p, ty, ⟨r, q, hr, ht, hf⟩, hk, hl, rfl⟩
    exact ⟨r, _, hr, trail_shown ht hl hf hk⟩

/-- C34, sub-sheets: there is one for every reachable array of objects, and no other. -/
theorem C34_sheets (cfg : SchemaCfg) (s : Schema) (sp : Parsed) (h : parseRoot cfg s = .ok sp) (hu : cfg.useTitles = false)
    (hw : WellNamed cfg s) (nm : Str) :
    nm ∈ Dict.keys sp.subs ↔ ∃ steps n p, Reached cfg s steps n p ∧ kind cfg.wkt p = .objects ∧ nm = tableName cfg steps n := by
  have h1 := (sub_event h nm).1
  rw [← Dict.get_isSome_iff, Option.isSome_iff_exists, h1]
  constructor
  · rintro ⟨r, hr, he⟩
    obtain ⟨steps, q, n, p, ht, hf, hl⟩ := pev_trail.1 he
    cases hl with
    | sheet hk => exact ⟨steps, n, p, ⟨r, q, hr, ht, hf⟩, hk, lev_name hu hw hr ht n _⟩
  · rintro ⟨steps, n, p, ⟨r, q, hr, ht, hf⟩, hk, rfl⟩
    refine ⟨r, hr, pev_trail.2 ⟨steps, q, n, p, ht, hf, ?_⟩⟩
    rw [← lev_name hu hw hr ht n (titleOf p)]
    exact .sheet hk

/-- C34, columns of a sub-sheet: exactly the fields shown for the items of the arrays
of objects with that sheet name, under their full paths, each once. -/
theorem C34_columns (cfg : SchemaCfg) (s : Schema) (sp : Parsed) (h : parseRoot cfg s = .ok sp) (hu : cfg.useTitles = false)
    (hw : WellNamed cfg s) (nm : Str) (sh : Sheet) (hsh : Dict.get sp.subs nm = some sh) :
    sh.columns.Nodup ∧ sh.idColumns.Nodup ∧ sh.rootId = cfg.rootId ∧
    ∀ c, c ∈ sh.columns ↔ ∃ steps n p i f t, Reached cfg s steps n p ∧ kind cfg.wkt p = .objects ∧ p.items = some i ∧
      nm = tableName cfg steps n ∧ Shown cfg i f t ∧ c = columnPath (steps ++ [⟨n, p, true⟩]) f := by
  have hmem := Dict.get_eq_some_mem hsh
  have inv : ∀ (Q : Sheet → Prop), Q { rootId := cfg.rootId } → (∀ s f b ts, Q s → Q { s.addField f b with titles := ts }) → Q sh := by
    intro Q h0 ha
    have aux : ∀ (l : List (Str × Sheet)) (n : Str) (s : Sheet), (∀ n s, (n, s) ∈ l → Q s) → Q s →
        ∀ m t, (m, t) ∈ Dict.set l n s → Q t := by
      intro l n s hl hs m t hm
      rcases Dict.mem_set hm with ⟨-, rfl⟩ | hm
      · exact hs
      · exact hl _ _ hm
    refine parseRoot_subs (P := fun l => ∀ n s, (n, s) ∈ l → Q s) ⟨?_, ?_, ?_⟩ (by simp) h nm sh hmem
    · intro l n hl _; exact aux l n _ hl h0
    · intro l n s f t ts hl hg; exact aux l n _ hl (ha _ _ _ _ (hl _ _ (Dict.get_eq_some_mem hg)))
    · intro l n s f hl hg
      exact aux l n _ hl (ha s f false (s.addField f).titles (hl _ _ (Dict.get_eq_some_mem hg)))
  refine ⟨?_, ?_, ?_, fun c => ?_⟩
  · refine inv (fun s => s.columns.Nodup) List.nodup_nil (fun s f b ts hs => ?_)
    unfold Sheet.addField; grind
  · refine inv (fun s => s.idColumns.Nodup) List.nodup_nil (fun s f b ts hs => ?_)
    unfold Sheet.addField; grind
  · refine inv (fun s => s.rootId = cfg.rootId) rfl (fun s f b ts hs => ?_)
    unfold Sheet.addField; grind
  have h1 := (sub_event h nm).2.1 c
  have h2 : c ∈ sh.columns ↔ ∃ sh, Dict.get sp.subs nm = some sh ∧ c ∈ sh.columns :=
    ⟨fun hc => ⟨sh, hsh, hc⟩, fun ⟨sh', hs', hc⟩ => by rw [hsh] at hs'; cases hs'; exact hc⟩
  rw [h2, h1]
  have hcp : ∀ {r q : Schema} {steps : List Hop} (hr : Starts s r) (ht : Trail cfg r steps q) (n f : Str) (p : Schema),
      (ctxAt cfg {} r steps).parentPath ++ (n ++ (s%"/0/" ++ f)) = columnPath (steps ++ [⟨n, p, true⟩]) f := by
    intro r q steps hr ht n f p
    rw [ctxAt_path cfg steps {} r (fun x hx => (names_ok hw hr ht x hx).1), columnPath_eq, indexed_append, pnOf_append]
    simp [indexed, pnOf]
  constructor
  · rintro ⟨r, hr, he⟩
    obtain ⟨steps, q, n, p, ht, hf, hl⟩ := pev_trail.1 he
    cases hl with
    | @col i f _ t hk hi hs hc =>
      refine ⟨steps, n, p, i, f, t, ⟨r, q, hr, ht, hf⟩, hk, hi, lev_name hu hw hr ht n _, hs, ?_⟩
      cases hc with
      | plain => exact hcp hr ht n f p
      | titled hc => rw [hu] at hc; cases hc
  · rintro ⟨steps, n, p, i, f, t, ⟨r, q, hr, ht, hf⟩, hk, hi, rfl, hs, rfl⟩
    refine ⟨r, hr, pev_trail.2 ⟨steps, q, n, p, ht, hf, ?_⟩⟩
    rw [← lev_name hu hw hr ht n (titleOf p), ← hcp hr ht n f p]
    exact .col hk hi hs (.plain hu)

/-- C34, id columns of a sub-sheet: exactly the `id` columns of the objects that
enclose an array with that sheet name, for those of them that have an `id` property. -/
theorem C34_id_columns (cfg : SchemaCfg) (s : Schema) (sp : Parsed) (h : parseRoot cfg s = .ok sp) (hu : cfg.useTitles = false)
    (hw : WellNamed cfg s) (nm : Str) (sh : Sheet) (hsh : Dict.get sp.subs nm = some sh) (c : Str) :
    c ∈ sh.idColumns ↔ ∃ r above below x q n p, Starts s r ∧ Trail cfg r above x ∧ Trail cfg x below q ∧ Field cfg q n p ∧
      kind cfg.wkt p = .objects ∧ nm = tableName cfg (above ++ below) n ∧ s%"id" ∈ names x ∧ c = columnPath above s%"id" := by
  have h1 := (sub_event h nm).2.2 c
  have h2 : c ∈ sh.idColumns ↔ ∃ sh, Dict.get sp.subs nm = some sh ∧ c ∈ sh.idColumns :=
    ⟨fun hc => ⟨sh, hsh, hc⟩, fun ⟨sh', hs', hc⟩ => by rw [hsh] at hs'; cases hs'; exact hc⟩
  rw [h2, h1]
  constructor
  · rintro ⟨r, hr, he⟩
    obtain ⟨steps, q, n, p, ht, hf, hl⟩ := pev_trail.1 he
    cases hl with
    | id hk hm =>
      rcases (ctxAt_ids hu ht {} (fun x hx => (names_ok hw hr ht x hx).1) c).1 hm with hm | ⟨a, b, x, rfl, ha, hb, hid, rfl⟩
      · simp at hm
      · exact ⟨r, a, b, x, q, n, p, hr, ha, hb, hf, hk, lev_name hu hw hr ht n _, hid, rfl⟩
  · rintro ⟨r, a, b, x, q, n, p, hr, ha, hb, hf, hk, rfl, hid, rfl⟩
    have ht := ha.append hb
    refine ⟨r, hr, pev_trail.2 ⟨a ++ b, q, n, p, ht, hf, ?_⟩⟩
    rw [← lev_name hu hw hr ht n (titleOf p)]
    exact .id hk ((ctxAt_ids hu ht {} (fun x hx => (names_ok hw hr ht x hx).1) _).2 (.inr ⟨a, b, x, rfl, ha, hb, hid, rfl⟩))

theorem last_list (steps : List Hop) : (∀ x ∈ steps, x.list = false) ∨
    ∃ a x b, steps = a ++ x :: b ∧ x.list = true ∧ ∀ y ∈ b, y.list = false := by
  induction steps with
  | nil => simp
  | cons y r ih =>
    rcases ih with h | ⟨a, x, b, rfl, h1, h2⟩
    · by_cases hy : y.list = true
      · exact .inr ⟨[], y, r, rfl, hy, h⟩
      · refine .inl (fun x hx => ?_)
        rcases List.mem_cons.1 hx with rfl | hx
        · simpa using hy
        · exact h x hx
    · exact .inr ⟨y :: a, x, b, rfl, h1, h2⟩

/-- C34: every column property of the schema, at any depth, has its column: on the main
sheet if no list of objects is crossed on the way, else on the sheet of the last one
crossed. -/
theorem C34_every_field (cfg : SchemaCfg) (s : Schema) (sp : Parsed) (h : parseRoot cfg s = .ok sp) (hu : cfg.useTitles = false)
    (hw : WellNamed cfg s) (steps : List Hop) (n : Str) (p : Schema) (ty : CType) (hp : Reached cfg s steps n p)
    (hk : kind cfg.wkt p = .column ty) :
    ((∀ x ∈ steps, x.list = false) ∧ columnPath steps n ∈ sp.main.columns) ∨
    ∃ above x below sh, steps = above ++ x :: below ∧ x.list = true ∧ (∀ y ∈ below, y.list = false) ∧
      Dict.get sp.subs (tableName cfg above x.name) = some sh ∧ columnPath steps n ∈ sh.columns := by
  obtain ⟨r, q, hr, ht, hf⟩ := hp
  rcases last_list steps with hl | ⟨a, x, b, rfl, hx, hb⟩
  · exact .inl ⟨hl, ((C34_main cfg s sp h hu).2.2 _).2 ⟨r, _, hr, trail_shown ht hl hf hk⟩⟩
  · right
    have ht' : Trail cfg r ((a ++ [x]) ++ b) q := by simpa using ht
    obtain ⟨i, h1, h2⟩ := ht'.split
    obtain ⟨y, g1, g2, g3⟩ := h1.last
    rcases g3 with ⟨g3, _⟩ | ⟨_, g4, g5⟩
    · rw [hx] at g3; cases g3
    · have hre : Reached cfg s a x.name x.prop := ⟨r, y, hr, g1, g2⟩
      have hmem := (C34_sheets cfg s sp h hu hw (tableName cfg a x.name)).2 ⟨a, x.name, x.prop, hre, g4, rfl⟩
      obtain ⟨sh, hsh⟩ := Option.isSome_iff_exists.1 (Dict.get_isSome_iff.2 hmem)
      refine ⟨a, x, b, sh, rfl, hx, hb, hsh, ?_⟩
      refine ((C34_columns cfg s sp h hu hw _ sh hsh).2.2.2 _).2 ⟨a, x.name, x.prop, i, columnPath b n, _, hre, g4, g5, rfl,
        trail_shown h2 hb hf hk, ?_⟩
      rw [columnPath_eq, columnPath_eq, columnPath_eq, indexed_append, indexed_append, pnOf_append, pnOf_append]
      obtain ⟨xn, xp, xl⟩ := x
      dsimp only at hx; subst hx
      simp [indexed, pnOf]

/-- C34 with titles, main sheet: the columns are exactly the title headings of the
fields shown that have one (a title for the field and for each object above it). -/
theorem C34_main_titles (cfg : SchemaCfg) (s : Schema) (sp : Parsed) (h : parseRoot cfg s = .ok sp) (hu : cfg.useTitles = true) (c : Str) :
    c ∈ sp.main.columns ↔ ∃ r f, Starts s r ∧ Shown cfg r f (some c) := by
  obtain ⟨ys, st, h1, h2, _⟩ := parseRoot_ok h
  obtain ⟨hy, _⟩ := parseSchema_root h1
  rw [h2, mainFields_titles hu ys (fun f t hm => by obtain ⟨r, _, hs⟩ := (hy f t).1 hm; exact shown_title hs)]
  constructor
  · rintro (hc | ⟨f, ht⟩)
    · simp at hc
    · obtain ⟨r, hr, hs⟩ := (hy f _).1 ht; exact ⟨r, f, hr, hs⟩
  · rintro ⟨r, f, hr, hs⟩
    exact .inr ⟨f, (hy f _).2 ⟨r, hr, hs⟩⟩

/-! ### C37 -/

/-- The same options with deprecated fields not left out. -/
def allFields (cfg : SchemaCfg) : SchemaCfg := { cfg with noDeprecated := false }

theorem trail_all {cfg : SchemaCfg} {s q : Schema} {steps : List Hop} (h : Trail cfg s steps q) : Trail (allFields cfg) s steps q := by
  induction h with
  | here => exact .here _
  | object h1 h2 _ ih => exact .object ⟨h1.1, by simp [allFields]⟩ h2 ih
  | list h1 h2 h3 _ ih => exact .list ⟨h1.1, by simp [allFields]⟩ h2 h3 ih

theorem reached_all {cfg : SchemaCfg} (hd : cfg.noDeprecated = true) {s : Schema} {steps : List Hop} {n : Str} {p : Schema}
    (h : Reached cfg s steps n p) :
    Reached (allFields cfg) s steps n p ∧ ¬ Deprecated p ∧ ∀ x ∈ steps, ¬ Deprecated x.prop := by
  obtain ⟨r, q, hr, ht, hf⟩ := h
  refine ⟨⟨r, q, hr, trail_all ht, hf.1, by simp [allFields]⟩, hf.2 hd, fun x hx => ?_⟩
  obtain ⟨a, b, y, _, _, h2⟩ := ht.fields x hx
  exact h2.2 hd

/-- The titles of `l` joined, each followed by a colon. -/
def titlePrefix (a : Option Str) (l : List Hop) : Option Str :=
  l.foldl (fun t x => t.bind (fun a => (titleOf x.prop).map (fun b => a ++ (b ++ s%":")))) a

theorem titlePrefix_none (l : List Hop) : titlePrefix none l = none := by
  induction l with
  | nil => rfl
  | cons x r ih => exact ih

theorem titlePrefix_some (l : List Hop) (a pt : Str) (h : titlePrefix (some a) l = some pt) (steps : List Hop) (p : Schema) (b : Str)
    (hb : titlePath steps p = some b) : ∃ c, titlePath (l ++ steps) p = some c ∧ a ++ c = pt ++ b := by
  induction l generalizing a with
  | nil =>
    simp only [titlePrefix, List.foldl_nil, Option.some.injEq] at h
    exact ⟨b, hb, by rw [h]⟩
  | cons x r ih =>
    cases ht : titleOf x.prop with
    | none =>
      have : titlePrefix none r = some pt := by simpa [titlePrefix, ht] using h
      rw [titlePrefix_none] at this; cases this
    | some y =>
      have : titlePrefix (some (a ++ (y ++ s%":"))) r = some pt := by simpa [titlePrefix, ht] using h
      obtain ⟨c, hc, he⟩ := ih _ this
      refine ⟨y ++ s%":" ++ c, ?_, ?_⟩
      · rw [List.cons_append, titlePath_cons, hc, ht]; rfl
      · rw [← he]; simp

/-- A column stands for a property: it is the property's path, or, when titles are
used, its heading by titles. -/
def StandsFor (cfg : SchemaCfg) (steps : List Hop) (n : Str) (p : Schema) (c : Str) : Prop :=
  if cfg.useTitles then titlePath steps p = some c else c = columnPath steps n

/-- Every column of a template (other than the id columns of sub-sheets) stands for a
property. -/
theorem columns_stand_for (cfg : SchemaCfg) (s : Schema) (sp : Parsed) (h : parseRoot cfg s = .ok sp)
    (hw : WellNamed cfg s) (c : Str)
    (hc : c ∈ sp.main.columns ∨ ∃ nm sh, (nm, sh) ∈ sp.subs ∧ c ∈ sh.columns) :
    ∃ steps n p, Reached cfg s steps n p ∧ StandsFor cfg steps n p c := by
  rcases hc with hc | ⟨nm, sh, hm, hc⟩
  · cases hu : cfg.useTitles with
    | false =>
      obtain ⟨r, t, hr, hs⟩ := ((C34_main cfg s sp h hu).2.2 c).1 hc
      obtain ⟨steps, q, n, p, ty, ht, hf, hk, rfl, _, _⟩ := shown_trail hs
      exact ⟨steps, n, p, ⟨r, q, hr, ht, hf⟩, by simp [StandsFor, hu]⟩
    | true =>
      obtain ⟨r, f, hr, hs⟩ := (C34_main_titles cfg s sp h hu c).1 hc
      obtain ⟨steps, q, n, p, ty, ht, hf, hk, _, he, _⟩ := shown_trail hs
      exact ⟨steps, n, p, ⟨r, q, hr, ht, hf⟩, by simp [StandsFor, hu, he]⟩
  · have hget := Dict.get_of_mem (parseRoot_nodup h) hm
    obtain ⟨r, hr, he⟩ := ((sub_event h nm).2.1 c).1 ⟨sh, hget, hc⟩
    obtain ⟨steps, q, n, p, ht, hf, hl⟩ := pev_trail.1 he
    cases hl with
    | @col i f _ t hk hi hs hco =>
      obtain ⟨st2, q2, n2, p2, ty, ht2, hf2, hk2, rfl, rfl, _⟩ := shown_trail hs
      have htr : Trail cfg r (steps ++ ⟨n, p, true⟩ :: st2) q2 := ht.append (.list hf hk hi ht2)
      refine ⟨steps ++ ⟨n, p, true⟩ :: st2, n2, p2, ⟨r, q2, hr, htr, hf2⟩, ?_⟩
      unfold StandsFor
      cases hco with
      | plain hu =>
        rw [hu]
        simp only [Bool.false_eq_true, if_false]
        rw [ctxAt_path cfg steps {} r (fun x hx => (names_ok hw hr ht x hx).1)]
        rw [columnPath_eq, columnPath_eq, indexed_append, pnOf_append]
        simp [indexed, pnOf]
      | @titled pt a b hu hpt ha hb =>
        rw [hu]
        simp only [if_true]
        rw [ctxAt_title] at hpt
        have h2 : titlePath (⟨n, p, true⟩ :: st2) p2 = some (a ++ s%":" ++ b) := by
          rw [titlePath_cons, hb, ha]; rfl
        obtain ⟨c, hc1, hc2⟩ := titlePrefix_some steps [] pt hpt _ _ _ h2
        rw [hc1]
        simp only [List.nil_append] at hc2
        rw [hc2]; simp

/-- C37: with deprecated fields left out, every column of a template (other than the id
columns of sub-sheets) stands for a property that is not deprecated and not below a
deprecated one.  Any options, titles or not. -/
theorem C37_no_deprecated (cfg : SchemaCfg) (s : Schema) (sp : Parsed) (h : parseRoot cfg s = .ok sp)
    (hd : cfg.noDeprecated = true) (hw : WellNamed cfg s) (c : Str)
    (hc : c ∈ sp.main.columns ∨ ∃ nm sh, (nm, sh) ∈ sp.subs ∧ c ∈ sh.columns) :
    ∃ steps n p, Reached (allFields cfg) s steps n p ∧ ¬ Deprecated p ∧ (∀ x ∈ steps, ¬ Deprecated x.prop) ∧
      StandsFor cfg steps n p c := by
  obtain ⟨steps, n, p, h1, h2⟩ := columns_stand_for cfg s sp h hw c hc
  obtain ⟨g1, g2, g3⟩ := reached_all hd h1
  exact ⟨steps, n, p, g1, g2, g3, h2⟩

/-! ### C38 -/

theorem types_event {cfg : SchemaCfg} {s : Schema} {sp : Parsed} (h : parseRoot cfg s = .ok sp) :
    (∀ k t, sp.types k = some t → ∃ r, Starts s r ∧ PEv cfg {} r (.type k t)) ∧
    (∀ k, (sp.types k).isSome ↔ ∃ t r, Starts s r ∧ PEv cfg {} r (.type k t)) := by
  obtain ⟨ys, st, h1, _, _, h2, _⟩ := parseRoot_ok h
  obtain ⟨_, ht⟩ := parseSchema_root h1
  unfold Parsed.types
  rw [h2]
  refine ⟨fun k t hk => ?_, fun k => ?_⟩
  · rcases ht.typ k t hk with hk | hk
    · simp at hk
    · exact hk
  · rw [ht.typ']; simp

theorem indexed_inj_names {a b : List Hop} {n m : Str} (ha : ∀ x ∈ a, NameOK x.name) (hb : ∀ x ∈ b, NameOK x.name)
    (hn : NameOK n) (hm : NameOK m) (h : pnOf (indexed a) ++ n = pnOf (b.map (·.name)) ++ m) :
    a.map (·.name) ++ [n] = b.map (·.name) ++ [m] ∧ indexed a = a.map (·.name) := by
  have e1 : Py.join s%"/" (indexed a ++ [n]) = Py.join s%"/" (b.map (·.name) ++ [m]) := by
    have h1 := pathText_snoc (indexed a) n
    have h2 := pathText_snoc (b.map (·.name)) m
    unfold pathText at h1 h2
    rw [h1, h2, h]
  have e2 := Py.join_inj (by simp) (by simp) (fun p hp => by
      rcases List.mem_append.1 hp with hp | hp
      · exact indexed_slash a ha p hp
      · rw [List.mem_singleton.1 hp]; exact hn.2.1) (fun p hp => by
      rcases List.mem_append.1 hp with hp | hp
      · obtain ⟨x, hx, rfl⟩ := List.mem_map.1 hp; exact (hb x hx).2.1
      · rw [List.mem_singleton.1 hp]; exact hm.2.1) e1
  have e3 : ∀ y ∈ indexed a, y ≠ s%"0" := by
    intro y hy
    have : y ∈ b.map (·.name) ++ [m] := by rw [← e2]; simp [hy]
    rcases List.mem_append.1 this with hp | hp
    · obtain ⟨x, hx, rfl⟩ := List.mem_map.1 hp; exact (hb x hx).2.2
    · rw [List.mem_singleton.1 hp]; exact hm.2.2
  have e4 : indexed a = a.map (·.name) := by
    rw [← indexed_filter a ha]
    symm
    rw [List.filter_eq_self]
    intro y hy
    simpa using e3 y hy
  exact ⟨by rw [← e4]; exact e2, e4⟩

theorem plain_inj {a b : List Hop} {n m : Str} (ha : ∀ x ∈ a, NameOK x.name) (hb : ∀ x ∈ b, NameOK x.name)
    (hn : NameOK n) (hm : NameOK m) (h : pnOf (a.map (·.name)) ++ n = pnOf (b.map (·.name)) ++ m) :
    a.map (·.name) ++ [n] = b.map (·.name) ++ [m] := by
  have e1 : Py.join s%"/" (a.map (·.name) ++ [n]) = Py.join s%"/" (b.map (·.name) ++ [m]) := by
    have h1 := pathText_snoc (a.map (·.name)) n
    have h2 := pathText_snoc (b.map (·.name)) m
    unfold pathText at h1 h2
    rw [h1, h2, h]
  exact Py.join_inj (by simp) (by simp) (fun p hp => by
      rcases List.mem_append.1 hp with hp | hp
      · obtain ⟨x, hx, rfl⟩ := List.mem_map.1 hp; exact (ha x hx).2.1
      · rw [List.mem_singleton.1 hp]; exact hn.2.1) (fun p hp => by
      rcases List.mem_append.1 hp with hp | hp
      · obtain ⟨x, hx, rfl⟩ := List.mem_map.1 hp; exact (hb x hx).2.1
      · rw [List.mem_singleton.1 hp]; exact hm.2.1) e1

theorem type_event {cfg : SchemaCfg} {s : Schema} (hw : WellNamed cfg s) (hn : NoClash cfg s) {steps : List Hop} {n : Str} {p : Schema}
    (hp : Reached cfg s steps n p) {r : Schema} (hr : Starts s r) {t : CType}
    (he : PEv cfg {} r (.type (plainPath steps n) t)) :
    match kind cfg.wkt p with
    | .column ty => t = ty
    | .objects => t = .array
    | .object => t = .object
    | _ => False := by
  obtain ⟨steps', q, n', p', ht, hf, hl⟩ := pev_trail.1 he
  have hp' : Reached cfg s steps' n' p' := ⟨r, q, hr, ht, hf⟩
  have hok' := names_ok hw hr ht
  have hok : ∀ x ∈ steps, NameOK x.name := by
    obtain ⟨r2, q2, hr2, ht2, _⟩ := hp
    exact names_ok hw hr2 ht2
  have hpath : (ctxAt cfg {} r steps').parentPath = pnOf (indexed steps') :=
    ctxAt_path cfg steps' {} r (fun x hx => (hok' x hx).1)
  have hn1 : NameOK n := hw _ _ _ hp
  have hn2 : NameOK n' := hw _ _ _ hp'
  have key1 : noIndex (ctxAt cfg {} r steps').parentPath ++ n' = plainPath steps n → kind cfg.wkt p' = kind cfg.wkt p := by
    intro hk
    rw [hpath, noIndex_steps steps' hok', plainPath_eq] at hk
    exact hn _ _ _ _ _ _ hp' hp (plain_inj hok' hok hn2 hn1 hk)
  generalize hkp : plainPath steps n = k at hl key1
  cases hl with
  | typ hk => rw [← key1 rfl, hk]
  | arr hk => rw [← key1 rfl, hk]
  | obj hk =>
    rw [hpath, plainPath_eq] at hkp
    have := (indexed_inj_names hok' hok hn2 hn1 hkp.symm).1
    rw [← hn _ _ _ _ _ _ hp' hp this, hk]

/-- C38: after parsing a schema, the type of every column property at any depth is
known under its path without indices, and lists of objects are known as arrays. -/
theorem C38_types (cfg : SchemaCfg) (s : Schema) (sp : Parsed) (h : parseRoot cfg s = .ok sp) (hw : WellNamed cfg s)
    (hn : NoClash cfg s) (steps : List Hop) (n : Str) (p : Schema) (hp : Reached cfg s steps n p) :
    (∀ ty, kind cfg.wkt p = .column ty → sp.types (plainPath steps n) = some ty) ∧
    (kind cfg.wkt p = .objects → sp.types (plainPath steps n) = some .array) := by
  obtain ⟨h1, h2⟩ := types_event h
  obtain ⟨r, q, hr, ht, hf⟩ := id hp
  have hpath : noIndex (ctxAt cfg {} r steps).parentPath ++ n = plainPath steps n := by
    rw [ctxAt_path cfg steps {} r (fun x hx => (names_ok hw hr ht x hx).1), plainPath_eq]
    have e : ({} : SCtx).parentPath ++ pnOf (indexed steps) = pnOf (indexed steps) := rfl
    rw [e, noIndex_steps steps (names_ok hw hr ht)]
  have known : ∀ t, LEv cfg (ctxAt cfg {} r steps) (idsBelow cfg (ctxAt cfg {} r steps) q) n p (.type (plainPath steps n) t) →
      ∃ t', sp.types (plainPath steps n) = some t' :=
    fun t hl => Option.isSome_iff_exists.1 ((h2 _).2 ⟨t, r, hr, pev_trail.2 ⟨steps, q, n, p, ht, hf, hl⟩⟩)
  refine ⟨fun ty hk => ?_, fun hk => ?_⟩
  · obtain ⟨t', ht'⟩ := known ty (by rw [← hpath]; exact .typ hk)
    obtain ⟨r', hr', he'⟩ := h1 _ _ ht'
    have := type_event hw hn hp hr' he'
    rw [hk] at this
    rw [ht', this]
  · obtain ⟨t', ht'⟩ := known .array (by rw [← hpath]; exact .arr hk)
    obtain ⟨r', hr', he'⟩ := h1 _ _ ht'
    have := type_event hw hn hp hr' he'
    rw [hk] at this
    rw [ht', this]

/-- C38, nothing else: a known type other than `object` is that of a property with that
path. -/
theorem C38_only_properties (cfg : SchemaCfg) (s : Schema) (sp : Parsed) (h : parseRoot cfg s = .ok sp) (hw : WellNamed cfg s)
    (k : Str) (t : CType) (hkt : sp.types k = some t) :
    ∃ steps n p, Reached cfg s steps n p ∧
      ((kind cfg.wkt p = .column t ∧ k = plainPath steps n) ∨
       (kind cfg.wkt p = .objects ∧ t = .array ∧ k = plainPath steps n) ∨
       (kind cfg.wkt p = .object ∧ t = .object ∧ k = columnPath steps n)) := by
  obtain ⟨r, hr, he⟩ := (types_event h).1 k t hkt
  obtain ⟨steps, q, n, p, ht, hf, hl⟩ := pev_trail.1 he
  have hok := names_ok hw hr ht
  have hpath : (ctxAt cfg {} r steps).parentPath = pnOf (indexed steps) :=
    ctxAt_path cfg steps {} r (fun x hx => (hok x hx).1)
  refine ⟨steps, n, p, ⟨r, q, hr, ht, hf⟩, ?_⟩
  cases hl with
  | typ hk => left; exact ⟨hk, by rw [hpath, noIndex_steps steps hok, plainPath_eq]⟩
  | arr hk => right; left; exact ⟨hk, rfl, by rw [hpath, noIndex_steps steps hok, plainPath_eq]⟩
  | obj hk => right; right; exact ⟨hk, rfl, by rw [hpath, columnPath_eq]⟩

theorem trail_unique {cfg : SchemaCfg} {s q q' : Schema} {a b : List Hop}
    (hd : ∀ steps x, Trail cfg s steps x → (names x).Nodup) (h : Trail cfg s a q) (h' : Trail cfg s b q')
    (hn : a.map (·.name) = b.map (·.name)) : q = q' := by
  have uniq : ∀ {s : Schema} {n : Str} {p p' : Schema}, (names s).Nodup → Field cfg s n p → Field cfg s n p' → p = p' := by
    intro s n p p' hnd h1 h2
    have e1 := Dict.get_of_mem hnd h1.1
    have e2 := Dict.get_of_mem hnd h2.1
    rw [e1] at e2; exact Option.some.inj e2
  induction h generalizing b with
  | here =>
    cases h' with
    | here => rfl
    | object => simp at hn
    | list => simp at hn
  | object h1 h2 h3 ih =>
    cases h' with
    | here => simp at hn
    | object g1 g2 g3 =>
      simp only [List.map_cons, List.cons.injEq] at hn
      obtain ⟨hn1, hn2⟩ := hn
      subst hn1
      obtain rfl := uniq (hd [] _ (.here _)) h1 g1
      exact ih (fun steps x hx => hd _ x (.object h1 h2 hx)) g3 hn2
    | list g1 g2 g3 g4 =>
      simp only [List.map_cons, List.cons.injEq] at hn
      obtain ⟨hn1, hn2⟩ := hn
      subst hn1
      obtain rfl := uniq (hd [] _ (.here _)) h1 g1
      rw [h2] at g2; cases g2
  | list h1 h2 h0 h3 ih =>
    cases h' with
    | here => simp at hn
    | object g1 g2 g3 =>
      simp only [List.map_cons, List.cons.injEq] at hn
      obtain ⟨hn1, hn2⟩ := hn
      subst hn1
      obtain rfl := uniq (hd [] _ (.here _)) h1 g1
      rw [h2] at g2; cases g2
    | list g1 g2 g3 g4 =>
      simp only [List.map_cons, List.cons.injEq] at hn
      obtain ⟨hn1, hn2⟩ := hn
      subst hn1
      obtain rfl := uniq (hd [] _ (.here _)) h1 g1
      rw [h0] at g3; cases g3
      exact ih (fun steps x hx => hd _ x (.list h1 h2 h0 hx)) g4 hn2

/-- The proviso of C38 holds by itself unless the root has alternatives: property names
are the keys of a dict. -/
theorem noClash_of_dicts {cfg : SchemaCfg} {s : Schema} (hs : ∀ r, Starts s r → r = s)
    (hd : ∀ steps q, Trail cfg s steps q → (names q).Nodup) : NoClash cfg s := by
  rintro steps n p steps' n' p' ⟨r, q, hr, ht, hf⟩ ⟨r', q', hr', ht', hf'⟩ hn
  obtain rfl := hs r hr
  obtain rfl := hs r' hr'
  have hl := List.append_inj' hn rfl
  simp only [List.cons.injEq, and_true] at hl
  obtain ⟨h1, rfl⟩ := hl
  obtain rfl := trail_unique hd ht ht' h1
  have e1 := Dict.get_of_mem (hd _ _ ht) hf.1
  have e2 := Dict.get_of_mem (hd _ _ ht) hf'.1
  rw [e1] at e2
  rw [Option.some.inj e2]

/-! ### Checking the provisos of a concrete schema -/

mutual
/-- All schemas inside a schema. -/
def inside : Schema → List Schema
  | .mk i p it o => .mk i p it o :: (insideProps p ++ (insideItems it ++ insideAlts o))
termination_by structural x => x
def insideProps : Option (List (Str × Schema)) → List Schema
  | none => []
  | some l => insideList l
termination_by structural x => x
def insideList : List (Str × Schema) → List Schema
  | [] => []
  | (_, s) :: r => inside s ++ insideList r
termination_by structural x => x
def insideItems : Option Schema → List Schema
  | none => []
  | some s => inside s
termination_by structural x => x
def insideAlts : Option (List Schema) → List Schema
  | none => []
  | some l => insideAll l
termination_by structural x => x
def insideAll : List Schema → List Schema
  | [] => []
  | s :: r => inside s ++ insideAll r
termination_by structural x => x
end

theorem inside_self (s : Schema) : s ∈ inside s := by
  cases s; rw [inside]; simp

theorem insideList_mem {l : List (Str × Schema)} {n : Str} {p : Schema} (h : (n, p) ∈ l) {x : Schema} (hx : x ∈ inside p) :
    x ∈ insideList l := by
  induction l with
  | nil => simp at h
  | cons y r ih =>
    obtain ⟨m, q⟩ := y
    rw [insideList]
    rcases List.mem_cons.1 h with h | h
    · cases h; simp [hx]
    · simp [ih h]

theorem inside_field {cfg : SchemaCfg} {s p : Schema} {n : Str} (h : Field cfg s n p) {x : Schema} (hx : x ∈ inside p) : x ∈ inside s := by
  obtain ⟨i, ps, it, o⟩ := s
  rw [inside]
  have h1 := h.1
  simp only [Schema.properties] at h1
  cases ps with
  | none => simp at h1
  | some l => simp [insideProps, insideList_mem (l := l) h1 hx]

theorem inside_items {s i : Schema} (h : s.items = some i) {x : Schema} (hx : x ∈ inside i) : x ∈ inside s := by
  obtain ⟨a, ps, it, o⟩ := s
  rw [inside]
  simp only [Schema.items] at h
  subst h
  simp [insideItems, hx]

theorem inside_trail {cfg : SchemaCfg} {s q : Schema} {steps : List Hop} (h : Trail cfg s steps q) {x : Schema} (hx : x ∈ inside q) :
    x ∈ inside s := by
  induction h with
  | here => exact hx
  | object h1 _ _ ih => exact inside_field h1 (ih hx)
  | list h1 _ h3 _ ih => exact inside_field h1 (inside_items h3 (ih hx))

theorem inside_starts {s r : Schema} (h : Starts s r) {x : Schema} (hx : x ∈ inside r) : x ∈ inside s := by
  unfold Starts at h
  split at h
  · next t i p it alts hty hit =>
    split at h
    · refine inside_items hit ?_
      rw [inside, insideAlts]
      have : x ∈ insideAll alts := by
        have hm := h.1
        clear h hit
        induction alts with
        | nil => simp at hm
        | cons y r' ih =>
          rw [insideAll]
          rcases List.mem_cons.1 hm with rfl | hm
          · simp [hx]
          · simp [ih hm]
      simp [this]
    · rw [h] at hx; exact hx
  · rw [h] at hx; exact hx

theorem wellNamed_of_inside {cfg : SchemaCfg} {s : Schema}
    (h : ∀ x ∈ inside s, ∀ n ∈ names x, n ≠ [] ∧ '/' ∉ n ∧ n ≠ s%"0") : WellNamed cfg s := by
  rintro steps n p ⟨r, q, hr, ht, hf⟩
  exact h q (inside_starts hr (inside_trail ht (inside_self q))) n (List.mem_map_of_mem (f := (·.1)) hf.1)

theorem dicts_of_inside {cfg : SchemaCfg} {s : Schema} (h : ∀ x ∈ inside s, (names x).Nodup) :
    ∀ steps q, Trail cfg s steps q → (names q).Nodup :=
  fun _ q ht => h q (inside_trail ht (inside_self q))

/-- A record with an id, an object with a date and a list of texts, and an array of
items with an array inside; one property is deprecated. -/
def orders : Schema :=
  .mk { type := .one s%"object" } (some [
    (s%"id", .mk { type := .one s%"string", title := some s%"Identifier" } none none none),
    (s%"old", .mk { type := .one s%"object", deprecated := true } (some [(s%"x", .mk {} none none none)]) none none),
    (s%"buyer", .mk { type := .many [s%"object", s%"null"], title := some s%"Buyer" } (some [
      (s%"since", .mk { type := .one s%"string", isDate := true, title := some s%"Since" } none none none),
      (s%"tags", .mk { type := .one s%"array" } none (some (.mk { type := .one s%"string" } none none none)) none)]) none none),
    (s%"lines", .mk { type := .one s%"array", title := some s%"Lines", rollUp := some [s%"price"] } none (some
      (.mk { type := .one s%"object" } (some [
        (s%"id", .mk { type := .one s%"string" } none none none),
        (s%"price", .mk { type := .one s%"number", title := some s%"Price" } none none none),
        (s%"parts", .mk { type := .one s%"array" } none (some (.mk { type := .one s%"object" } (some [
          (s%"count", .mk { type := .one s%"integer" } none none none)]) none none)) none)]) none none)) none)]) none none

/-- What a template shows: headings of the main sheet and of each sub-sheet. -/
def templateOf (cfg : SchemaCfg) (s : Schema) : Option (List Str × List (Str × List Str)) :=
  match parseRoot cfg s with
  | .ok sp => some (sp.main.headings, sp.subs.map (fun p => (p.1, p.2.headings)))
  | .error _ => none

/-- The provisos hold for `orders`, with any options. -/
example (cfg : SchemaCfg) : WellNamed cfg orders ∧ NoClash cfg orders :=
  ⟨wellNamed_of_inside (by decide +kernel), noClash_of_dicts (fun r hr => hr) (dicts_of_inside (by decide +kernel))⟩

/-- C34: the template of `orders`. -/
example : templateOf { noDeprecated := true } orders = some
    ([s%"id", s%"buyer/since", s%"buyer/tags"],
     [(s%"lines", [s%"id", s%"lines/0/id", s%"lines/0/price"]),
      (s%"lin_parts", [s%"id", s%"lines/0/id", s%"lines/0/parts/0/count"])]) := by decide +kernel

/-- With `rollUp`, the listed field of the array is on the main sheet too. -/
example : templateOf { noDeprecated := true, rollup := true } orders = some
    ([s%"id", s%"buyer/since", s%"buyer/tags", s%"lines/0/price"],
     [(s%"lines", [s%"id", s%"lines/0/id", s%"lines/0/price"]),
      (s%"lin_parts", [s%"id", s%"lines/0/id", s%"lines/0/parts/0/count"])]) := by decide +kernel

/-- With titles, fields without a title (or below an object without one) are left out. -/
example : templateOf { noDeprecated := true, useTitles := true } orders = some
    ([s%"Identifier", s%"Buyer:Since"],
     [(s%"Lines", [s%"Identifier", s%"Lines:Price"]), (s%"Lin_parts", [s%"Identifier", s%"Lines:id"])]) := by decide +kernel

/-- C38 on `orders`: types under index-free paths. -/
example : (parseRoot {} orders).toOption.map (fun sp => [s%"buyer/since", s%"buyer/tags", s%"lines", s%"lines/price", s%"lines/parts/count"].map sp.types) =
    some [some .date, some .stringArray, some .array, some .number, some .integer] := by decide +kernel

/-- C37, the exception: a deprecated `id` is left out of the main sheet, but still is an
id column of the sub-sheets. -/
example : templateOf { noDeprecated := true } (.mk {} (some [
      (s%"id", .mk { type := .one s%"string", deprecated := true } none none none),
      (s%"items", .mk { type := .one s%"array" } none (some (.mk { type := .one s%"object" } (some [
        (s%"x", .mk {} none none none)]) none none)) none)]) none none) = some
    ([], [(s%"items", [s%"id", s%"items/0/x"])]) := by decide +kernel

/-- C38, why objects are not claimed: the type of an object inside an array is recorded
with the index. -/
example : (parseRoot {} (.mk {} (some [(s%"a", .mk { type := .one s%"array" } none (some (.mk { type := .one s%"object" } (some [
        (s%"b", .mk { type := .one s%"object" } (some [(s%"c", .mk {} none none none)]) none none)]) none none)) none)]) none none)).toOption.map
      (fun sp => (sp.types s%"a/b", sp.types s%"a/0/b", sp.types s%"a/b/c")) =
    some (none, some .object, some .string) := by decide +kernel

end Verif

import Verif.Spec.ApiTrip
import Verif.Props.RoundTrip
import Verif.Props.Columns
import Verif.Props.RootList
import Verif.Props.Main
/-! Lemmas for `flatten` followed by `unflatten`. -/
namespace Verif
open Spec Api

/-! ### Ids of documents that fit -/

theorem plainIds_of_clean_leaf {o : IdOpts} {l : List Json} (h : ∀ x ∈ l, PlainIds o false x) : PlainIdsItems o l := by
  induction l with
  | nil => trivial
  | cons x r ih => exact ⟨h x (by simp), ih (fun y hy => h y (by simp [hy]))⟩

theorem plainIdsFields_of {o : IdOpts} {fs : List (Str × Json)} (h : ∀ e ∈ fs, PlainIds o false e.2) : PlainIdsFields o fs := by
  induction fs with
  | nil => trivial
  | cons x r ih => exact ⟨h x (by simp), ih (fun y hy => h y (by simp [hy]))⟩

theorem hasPlainIds_of {T : Trip} {fs : List (Str × Json)} (ho : T.Object fs) (hn : T.NoRoot fs) : HasPlainIds ⟨T.idName, T.rootId⟩ false fs := by
  refine ⟨?_, fun rid h => by simpa using hn rid h⟩
  intro v hv
  simp only at hv
  have := ho.2.2.2 v hv
  unfold Trip.idOf at this
  rw [hv] at this
  cases v with
  | leaf a => exact ⟨a, rfl⟩
  | obj _ => exact absurd rfl this
  | arr _ => exact absurd rfl this

theorem plain_basic {o : IdOpts} {l : List Json} {ss : List Str} (h : l.mapM basicStr = some ss) : ∀ x ∈ l, PlainIds o false x := by
  intro x hx
  cases x with
  | leaf a => simp [PlainIds]
  | obj fs => rw [mapM_none hx rfl] at h; cases h
  | arr l => rw [mapM_none hx rfl] at h; cases h

theorem plain_joined {o : IdOpts} {l : List Json} {t : Str} (h : joinArray l = some t) : ∀ x ∈ l, PlainIds o false x := by
  unfold joinArray at h
  split at h
  · exact plain_basic (by assumption)
  · simp only [Option.map_eq_some_iff] at h
    obtain ⟨ss, h1, -⟩ := h
    intro x hx
    cases x with
    | leaf a => simp [PlainIds]
    | obj fs => rw [mapM_none hx rfl] at h1; cases h1
    | arr m =>
      simp only [PlainIds]
      apply plainIds_of_clean_leaf
      cases hm : m.mapM basicStr with
      | some s => exact plain_basic hm
      | none => rw [mapM_none hx (by simp [innerJoin, hm])] at h1; cases h1

theorem plain_fits {T : Trip} (v : Json) : ∀ ks, (T.Fits ks v → PlainIds ⟨T.idName, T.rootId⟩ false v) ∧
    ∀ fs, v = .obj fs → T.FitsFields ks fs → PlainIdsFields ⟨T.idName, T.rootId⟩ fs := by
  induction v using Json.ind with
  | leaf a => exact fun ks => ⟨fun _ => by simp [PlainIds], fun fs e => by cases e⟩
  | obj fs ih =>
    intro ks
    have B : T.FitsFields ks fs → PlainIdsFields ⟨T.idName, T.rootId⟩ fs :=
      fun h => plainIdsFields_of (fun e he => (ih e he _).1 (fitsFields_iff.1 h e he))
    refine ⟨fun h => ?_, fun gs e => by cases e; exact B⟩
    simp only [Trip.Fits] at h
    exact ⟨hasPlainIds_of h.2.1 h.2.2.1, B h.2.2.2⟩
  | arr l ih =>
    refine fun ks => ⟨fun h => ?_, fun fs e => by cases e⟩
    simp only [Trip.Fits] at h
    simp only [PlainIds]
    apply plainIds_of_clean_leaf
    rcases h with ⟨t, ht, -⟩ | ⟨hj, -, hi, hd⟩
    · exact plain_joined ht
    · intro x hx
      obtain ⟨fs, rfl, ho, hn, -, hf⟩ := fitsItems_iff.1 hi x hx
      exact ⟨hasPlainIds_of ho hn, (ih _ hx ks).2 fs rfl hf⟩

theorem plain_root {T : Trip} {root : List Json} (h : T.FitsRoot root) : ∀ j ∈ root, PlainIds ⟨T.idName, T.rootId⟩ true j := by
  intro j hj
  obtain ⟨fs, rfl, ho, -, hf, hr⟩ := h.each j hj
  refine ⟨⟨?_, ?_⟩, (plain_fits (.obj fs) []).2 fs rfl hf⟩
  · intro v hv
    simp only at hv
    have := ho.2.2.2 v hv
    unfold Trip.idOf at this
    rw [hv] at this
    cases v with
    | leaf a => exact ⟨a, rfl⟩
    | obj _ => exact absurd rfl this
    | arr _ => exact absurd rfl this
  · intro rid hrid
    simp only [if_true]
    intro v hv
    obtain ⟨a, ha, -⟩ := hr rid v hrid hv
    exact ⟨a, ha⟩

/-! ### Headings -/

theorem slash_pathText {ks : List Str} (h : 2 ≤ ks.length) : '/' ∈ pathText ks := by
  match ks, h with
  | x :: y :: r, _ => simp [pathText, Py.join]

theorem hasCell_first {fs : List (Str × Json)} {v : Json} : ∀ {p kk}, HasCell everything p fs kk v → ∃ k r, kk = p ++ k :: r ∧ k ∈ Dict.keys fs := by
  intro p kk h
  induction h with
  | scalar hm _ => exact ⟨_, [], rfl, List.mem_map.2 ⟨_, hm, rfl⟩⟩
  | list hm _ _ => exact ⟨_, [], rfl, List.mem_map.2 ⟨_, hm, rfl⟩⟩
  | deep hm _ _ ih =>
    obtain ⟨k', r, e, -⟩ := ih
    exact ⟨_, k' :: r, by simp [e], List.mem_map.2 ⟨_, hm, rfl⟩⟩

/-- The headings of values of a document that fits. -/
theorem onLine_heading {T : Trip} {fs0 : List (Str × Json)} {pl : Place} (hf : Fine T fs0 pl) {P : List PKey} {b : Atom} (h : OnLine T fs0 pl P b) :
    '/' ∈ pathText (strs P) ∨ pathText (strs P) ∈ Dict.keys fs0 ∨ pathText (strs P) = T.idName ∨ T.rootId = some (pathText (strs P)) := by
  cases h with
  | @own kk b hc =>
    obtain ⟨k, r, rfl, hk⟩ := hasCell_first hc
    by_cases hp : pl.path = []
    · have hpl : pl = ⟨[], [], fs0⟩ := by
        rcases hf.ends with h | ⟨-, Q, i, h⟩
        · exact h
        · rw [hp] at h; simp at h
      subst hpl
      cases r with
      | nil => right; left; simpa [strs, flds, strP, pathText, Py.join] using hk
      | cons y r => left; apply slash_pathText; simp [strs, flds]
    · left
      apply slash_pathText
      cases hp' : pl.path with
      | nil => exact absurd hp' hp
      | cons x y => simp [strs, flds]; omega
  | @anc R gs b hm hi =>
    cases R with
    | nil => right; right; left; simp [strs, strP, pathText, Py.join]
    | cons x y => left; apply slash_pathText; simp [strs]
  | root hr _ _ => right; right; right; simpa [strs, strP, pathText, Py.join] using hr

/-- A line of a flattened sheet comes from an object. -/
theorem line_spot {T : Trip} {fcfg : FCfg} (hp : Plain fcfg) (hf : fcfg.filter = none) (hk : fcfg.preserve = []) (hs : FromSchemaParser fcfg)
    (hid : fcfg.idName = T.idName) (hrid : fcfg.rootId = T.rootId) {root : List Json} {st : FState} (hst : flatten fcfg root = .ok st)
    {s : Sheet} (hm : s ∈ sheetsOf st) {l : FLine} (hl : l ∈ s.lines) : ∃ p ∈ spots T root, spotLine T p = l := by
  have h1 : ((sheetsOf st).flatMap (·.lines)).Perm ((spots T root).map (spotLine T)) := by
    have hopt : idOpts fcfg = ⟨T.idName, T.rootId⟩ := by simp [idOpts, hid, hrid]
    have := all_lines hp hf hk hs hst
    rw [hopt] at this
    exact this.trans (spots_lines T root).symm
  exact List.mem_map.1 (h1.mem_iff.1 (List.mem_flatMap.2 ⟨s, hm, hl⟩))

/-- Every column of a flattened document that fits is one of the schema or of a value. -/
theorem heading_cases {T : Trip} {fcfg : FCfg} (hp : Plain fcfg) (hf : fcfg.filter = none) (hk : fcfg.preserve = []) (hs : FromSchemaParser fcfg)
    (hid : fcfg.idName = T.idName) (hrid : fcfg.rootId = T.rootId) {root : List Json} (hfit : T.FitsRoot root) {st : FState}
    (hst : flatten fcfg root = .ok st) {s : Sheet} (hm : s ∈ sheetsOf st) {h : Str} (hh : h ∈ s.headings) :
    (∃ name, h ∈ templateColumns fcfg name) ∨ '/' ∈ h ∨ (∃ fs ∈ objects root, h ∈ Dict.keys fs) ∨ h = T.idName ∨ T.rootId = some h := by
  have hn : ∃ name, sheetNamed st name = some s := by
    rcases List.mem_cons.1 hm with rfl | hm
    · exact ⟨none, rfl⟩
    · obtain ⟨⟨n, s'⟩, he, rfl⟩ := List.mem_map.1 hm
      exact ⟨some n, Dict.get_of_mem (subs_nodup hs hst) he⟩
  obtain ⟨name, hn⟩ := hn
  have hopt : idOpts fcfg = ⟨T.idName, T.rootId⟩ := by simp [idOpts, hid, hrid]
  rcases C57_no_empty_columns_added fcfg hp hk hs root (by rw [hopt]; exact plain_root hfit) st hst name s hn h hh with h1 | ⟨l, hl, hkl⟩
  · exact .inl ⟨name, h1⟩
  · right
    obtain ⟨p, hp', rfl⟩ := line_spot hp hf hk hs hid hrid hst hm hl
    cases hg : Dict.get (spotLine T p) h with
    | none => exact absurd hkl (Dict.get_none_iff.1 hg)
    | some j =>
      obtain ⟨P, b, hon, rfl, -⟩ := (spot_line hfit hp').sound h j hg
      rcases onLine_heading (spot_fine hfit hp') hon with h2 | h2 | h2 | h2
      · exact .inl h2
      · exact .inr (.inl ⟨_, List.mem_of_getElem? (mem_spots.1 hp').1, h2⟩)
      · exact .inr (.inr (.inl h2))
      · exact .inr (.inr (.inr h2))

/-- A sheet without columns has no lines. -/
theorem no_lines {T : Trip} {fcfg : FCfg} (hp : Plain fcfg) (hf : fcfg.filter = none) (hk : fcfg.preserve = []) (hs : FromSchemaParser fcfg)
    (hid : fcfg.idName = T.idName) (hrid : fcfg.rootId = T.rootId) {root : List Json} (hfit : T.FitsRoot root) {st : FState}
    (hst : flatten fcfg root = .ok st) {s : Sheet} (hm : s ∈ sheetsOf st) (hh : s.headings = []) : s.lines = [] := by
  cases hl : s.lines with
  | nil => rfl
  | cons l r =>
    exfalso
    have hl' : l ∈ s.lines := by simp [hl]
    obtain ⟨p, hp', rfl⟩ := line_spot hp hf hk hs hid hrid hst hm hl'
    have hp1 := (mem_spots.1 hp').1
    obtain ⟨ho, hnm, hff, hrt⟩ := fitsRoot_mem hfit (List.mem_of_getElem? hp1)
    obtain ⟨P, b, hon⟩ := (lineOf ho hff (spot_fine hfit hp')).some
    have hg := (spot_line hfit hp').complete P b hon
    have := (C25_every_value_has_a_column fcfg hs root st hst s hm).1 _ hl' (pathText (strs P))
      (List.mem_map.2 ⟨_, Dict.get_eq_some_mem hg, rfl⟩)
    rw [hh] at this
    cases this

theorem line_scalars {T : Trip} {fcfg : FCfg} (hp : Plain fcfg) (hf : fcfg.filter = none) (hk : fcfg.preserve = []) (hs : FromSchemaParser fcfg)
    (hid : fcfg.idName = T.idName) (hrid : fcfg.rootId = T.rootId) {root : List Json} (hfit : T.FitsRoot root) {st : FState}
    (hst : flatten fcfg root = .ok st) {s : Sheet} (hm : s ∈ sheetsOf st) : ∀ line ∈ s.lines, ∀ k v, Dict.get line k = some v → ∃ a, v = .leaf a := by
  intro l hl k v hg
  obtain ⟨p, hp', rfl⟩ := line_spot hp hf hk hs hid hrid hst hm hl
  obtain ⟨_, b, _, _, rfl⟩ := (spot_line hfit hp').sound k v hg
  exact ⟨b, rfl⟩

theorem line_back {T : Trip} {fcfg : FCfg} (hp : Plain fcfg) (hf : fcfg.filter = none) (hk : fcfg.preserve = []) (hs : FromSchemaParser fcfg)
    (hid : fcfg.idName = T.idName) (hrid : fcfg.rootId = T.rootId) {root : List Json} (hfit : T.FitsRoot root) {st : FState}
    (hst : flatten fcfg root = .ok st) {s : Sheet} (hm : s ∈ sheetsOf st) :
    ∀ line ∈ s.lines, ∀ k a, Dict.get line k = some (.leaf a) → (T.write a).blank = false := by
  intro l hl k a hg
  obtain ⟨p, hp', rfl⟩ := line_spot hp hf hk hs hid hrid hst hm hl
  obtain ⟨P, b, hon, -, e⟩ := (spot_line hfit hp').sound k _ hg
  cases e
  obtain ⟨ho, hnm, hff, hrt⟩ := fitsRoot_mem hfit (List.mem_of_getElem? (mem_spots.1 hp').1)
  obtain ⟨-, ⟨j, hj⟩, -⟩ := (lineOf ho hff (spot_fine hfit hp')).cell P a hon
  exact hj.1

/-! ### Reading all sheets -/

theorem perm_of_nodup {α : Type} : ∀ {l m : List α}, l.Nodup → m.Nodup → (∀ a, a ∈ l ↔ a ∈ m) → l.Perm m
  | [], m, _, _, h => by
    cases m with
    | nil => exact .refl _
    | cons a r => exact absurd ((h a).2 (by simp)) (by simp)
  | a :: l, m, hl, hm, h => by
    obtain ⟨x, y, rfl⟩ := List.append_of_mem ((h a).1 (by simp))
    rw [List.nodup_cons] at hl
    have hp : (x ++ a :: y).Perm (a :: (x ++ y)) := List.perm_middle
    have hn := hp.nodup_iff.1 hm
    rw [List.nodup_cons] at hn
    refine .trans (.cons a (perm_of_nodup hl.2 hn.2 ?_)) hp.symm
    intro b
    have hb := h b
    rw [hp.mem_iff, List.mem_cons, List.mem_cons] at hb
    constructor
    · intro hb'
      rcases hb.1 (.inr hb') with rfl | e
      · exact absurd hb' hl.1
      · exact e
    · intro hb'
      rcases hb.2 (.inr hb') with rfl | e
      · exact absurd hb' hn.1
      · exact e

theorem mapE_rel₂ {α β γ : Type} {R : α → β → Prop} {f : γ → Except Err β} {g : γ → α} : ∀ {l : List γ}, (∀ c ∈ l, ∃ b, f c = .ok b ∧ R (g c) b) →
    ∃ bs, mapE f l = .ok bs ∧ All₂ R (l.map g) bs
  | [], _ => ⟨[], rfl, .nil⟩
  | c :: r, h => by
    obtain ⟨b, h1, h2⟩ := h c (by simp)
    obtain ⟨bs, h3, h4⟩ := mapE_rel₂ (R := R) (f := f) (g := g) (l := r) (fun c2 hc => h c2 (by simp [hc]))
    exact ⟨b :: bs, by rw [mapE, h1]; simp only [h3], .cons h2 h4⟩

/-- All sheets of an input are read if each is. -/
theorem read_all {i : Input} {rc : ReadCfg} {R : Sheet → SheetIn → Prop} {L : List (Str × Sheet)} (hn : (Dict.keys L).Nodup)
    (hsel : (i.select [] [none]).Perm (Dict.keys L)) (hread : ∀ n s, (n, s) ∈ L → ∃ sh, i.sheet rc n = .ok sh ∧ R s sh) :
    ∃ order sheets, i.read rc [] [none] = .ok sheets ∧ order.Perm (L.map (·.2)) ∧ All₂ R order sheets := by
  obtain ⟨sheets, h1, h2⟩ := mapE_rel₂ (R := R) (f := i.sheet rc) (g := fun n => (Dict.get L n).getD {}) (l := i.select [] [none]) (by
    intro n hm
    obtain ⟨⟨n', s⟩, he, rfl⟩ := List.mem_map.1 (hsel.mem_iff.1 hm)
    obtain ⟨sh, h1, h2⟩ := hread _ _ he
    exact ⟨sh, h1, by rw [Dict.get_of_mem hn he]; exact h2⟩)
  refine ⟨_, sheets, h1, ?_, h2⟩
  refine (hsel.map _).trans ?_
  have : (Dict.keys L).map (fun n => (Dict.get L n).getD {}) = L.map (·.2) := by
    unfold Dict.keys
    rw [List.map_map]
    apply List.map_congr_left
    rintro ⟨n, s⟩ he
    simp only [Function.comp]
    rw [Dict.get_of_mem hn he]
    rfl
  rw [this]

/-! ### The two functions -/

/-- The settings of the parser inside of `flatten`. -/
def tripCfg (o : FlOpts) (env : FlEnv) (osp : Option Parsed) : FCfg := o.parserCfg env osp []

theorem tripCfg_plain {o : FlOpts} {u : UnOpts} (h : MatchingOptions o u) (env : FlEnv) (osp : Option Parsed) :
    Plain (tripCfg o env osp) ∧ (tripCfg o env osp).filter = none ∧ (tripCfg o env osp).preserve = [] := by
  obtain ⟨h1, h2, h3, h4, h5, h6, h7⟩ := h.flatten
  refine ⟨⟨h2, h3, h1, rfl⟩, ?_, ?_⟩
  · simp [tripCfg, FlOpts.parserCfg, h5, given]
  · simp [tripCfg, FlOpts.parserCfg, h7, preserveSet]

theorem tripCfg_schema {o : FlOpts} {env : FlEnv} {osp : Option Parsed} (h : parseOpt o.schemaCfg o.schema = .ok osp) :
    FromSchemaParser (tripCfg o env osp) := by
  intro sp hsp
  simp only [tripCfg, FlOpts.parserCfg] at hsp
  subst hsp
  unfold parseOpt at h
  split at h
  · cases h
  · next s _ =>
    split at h
    · cases h
    · next p hp => injection h with h; injection h with h; subst h; exact ⟨_, _, hp⟩

theorem oneKey_items {path : Str} (h : OneKey path) (root : List Json) :
    rootItems false (some path) (.obj [(path, .arr root)]) = .ok root := by
  have hs : Py.split '/' path = [path] := Py.split_no_sep h.1
  rw [C56_root_items path _ (by rw [hs]; intro k hk; simp at hk; subst hk; exact ⟨h.2.1, h.2.2⟩)]
  · rw [hs]
    simp [keysTo, itemsOf, Dict.get_cons]
  · rw [hs]
    simp only [Clear]
    refine ⟨by simp [Dict.keys], by simpa [Dict.keys] using h.2.1, ?_⟩
    intro v hv
    simp only [Dict.get_cons, if_true, Option.some.injEq] at hv
    subst hv
    trivial

theorem document_items' {o : FlOpts} (hx : o.xml = false) (hk : o.rootIsList = false → OneKey o.rootListPath) (root : List Json) :
    rootItems o.xml (if o.rootIsList then none else some o.rootListPath) (documentOf o root) = .ok root := by
  rw [hx]
  unfold documentOf
  cases hl : o.rootIsList with
  | true => exact C56_list_items root
  | false => exact oneKey_items (hk hl) root

theorem document_items {o : FlOpts} {u : UnOpts} (h : MatchingOptions o u) (hk : o.rootIsList = false → OneKey o.rootListPath) (root : List Json) :
    rootItems o.xml (if o.rootIsList then none else some o.rootListPath) (documentOf o root) = .ok root := document_items' h.flatten.1 hk root

theorem flattenState_eq' {o : FlOpts} (hx : o.xml = false) (hr : o.rollup = .off) {env : FlEnv} {osp : Option Parsed}
    (hos : parseOpt o.schemaCfg o.schema = .ok osp) (hk : o.rootIsList = false → OneKey o.rootListPath) {root : List Json}
    (hc : env.content = documentOf o root) {st : FState} (hst : flatten (tripCfg o env osp) root = .ok st) :
    flattenState o env = .ok (st, schemaWarnsOf osp, false) := by
  unfold flattenState
  rw [hos]
  simp only
  rw [hr]
  simp only [rollupOf, RollupOpt.truthy, Bool.not_false, if_true]
  rw [hc, document_items' hx hk root]
  simp only
  change (match flatten (tripCfg o env osp) root with | .error e => _ | .ok st => _) = _
  rw [hst]

theorem flattenState_eq {o : FlOpts} {u : UnOpts} (h : MatchingOptions o u) {env : FlEnv} {osp : Option Parsed}
    (hos : parseOpt o.schemaCfg o.schema = .ok osp) (hk : o.rootIsList = false → OneKey o.rootListPath) {root : List Json}
    (hc : env.content = documentOf o root) {st : FState} (hst : flatten (tripCfg o env osp) root = .ok st) :
    flattenState o env = .ok (st, schemaWarnsOf osp, false) := flattenState_eq' h.flatten.1 h.flatten.2.2.2.1 hos hk hc hst

theorem unflatten_side' {o : FlOpts} {u : UnOpts} (hu : u.xml = false ∧ u.baseJson = none ∧ u.metatabName = none ∧ u.metatabOnly = false ∧ u.defaultConfig = [] ∧
    u.vertical = false) (hisList : u.rootIsList = o.rootIsList) (hpath : u.rootListPath.getD s%"main" = o.rootListPath) {uenv : Env} {usp : Option Parsed}
    (hus : parseOpt { rollup := true, rootId := u.rootId.getD [], trunc := u.trunc, wkt := u.wkt } u.schema = .ok usp)
    {i : Input} (hi : u.inputFormat = some i.format) {sheets : List SheetIn} (hread : i.read {} [] [none] = .ok sheets)
    {sheets' : List SheetIn} (hwt : withTitles u.convertTitles usp sheets = .ok sheets') {root out : List Json} {w : List Warn}
    (hun : unflatten { row := rowCfg u uenv usp, idName := some (u.idName.getD s%"id"), rootId := given u.rootId } sheets' = .ok (out, w))
    (hout : Rearranged (.arr root) (.arr out)) (hlet : sheets'.any (lettersFail false) = false) :
    ∃ uout doc, runUnflatten u { uenv with input := i } = .ok uout ∧ uout.document = .json doc ∧ Rearranged (documentOf o root) doc := by
  obtain ⟨h1, h3, h4, h5, h6, h7⟩ := hu
  have hdc : defaultConfiguration [] = {} := rfl
  have hcfg : ∀ e : Env, stage1 u e = .ok { base := baseDocument u e, config := {} } := by
    intro e
    rw [stage1_plain (.inl (by rw [h4]; rfl)), h6, hdc]
  have hun' : ∃ tree, doUnflatten { row := rowCfg u uenv usp, idName := some (u.idName.getD s%"id"), rootId := given u.rootId } sheets' = .ok (tree, w) ∧
      out = listToValue tree := by
    unfold unflatten at hun
    split at hun
    · cases hun
    · next t w' hd =>
      simp only [Except.ok.injEq, Prod.mk.injEq] at hun
      exact ⟨t, by rw [hd, hun.2], hun.1.symm⟩
  obtain ⟨tree, hd, rfl⟩ := hun'
  obtain ⟨p, hp1, hp2, -, -⟩ := pass_ok (o := u) (env := { uenv with input := i }) (schema := usp) (rc := {})
    (root := if u.rootIsList then none else some o.rootListPath) hread hwt hd hlet
  have hmp : mainPass u { uenv with input := i } {} (rootPathOf u {}) (idNameOf u {}) = .ok p := by
    unfold mainPass
    rw [hus]
    simp only
    rw [← hp1, h4, h7]
    have e1 : rootPathOf u {} = o.rootListPath := hpath
    rw [e1]
    rfl
  have hchk : unflattenChecks u.inputFormat u.metatabName u.baseJson = .ok () := by
    rw [hi, h4, h3]
    cases i <;> rfl
  cases hl : o.rootIsList with
  | true =>
    have hl' : u.rootIsList = true := hisList.trans hl
    refine ⟨_, .arr p.result, (run_full (by simp [h5])).2 ⟨hchk, hi, _, p, .arr p.result, .json (.arr p.result), hcfg _, hmp,
      addResult_list hl', render_json h1, rfl⟩, rfl, ?_⟩
    simp only [documentOf, hl, if_true, hp2]
    exact hout
  | false =>
    have hl' : u.rootIsList = false := hisList.trans hl
    have hb : baseDocument u { uenv with input := i } = .obj [] := by
      unfold baseDocument
      simp [hl', h3, given]
    refine ⟨_, .obj (Dict.set [] (rootPathOf u {}) (.arr p.result)), (run_full (by simp [h5])).2 ⟨hchk, hi, _, p, _, .json _, hcfg _, hmp,
      (by rw [hb]; exact addResult_obj hl'), render_json h1, rfl⟩, rfl, ?_⟩
    simp only [documentOf, hl, Bool.false_eq_true, if_false, hp2]
    have e1 : rootPathOf u {} = o.rootListPath := hpath
    rw [e1]
    exact .obj (.cons hout .nil) (.refl _)

theorem unflatten_side {o : FlOpts} {u : UnOpts} (h : MatchingOptions o u) {uenv : Env} {usp : Option Parsed}
    (hus : parseOpt { rollup := true, rootId := u.rootId.getD [], trunc := u.trunc, wkt := u.wkt } u.schema = .ok usp)
    {i : Input} (hi : u.inputFormat = some i.format) {sheets : List SheetIn} (hread : i.read {} [] [none] = .ok sheets)
    {root out : List Json} {w : List Warn}
    (hun : unflatten { row := rowCfg u uenv usp, idName := some (u.idName.getD s%"id"), rootId := given u.rootId } sheets = .ok (out, w))
    (hout : Rearranged (.arr root) (.arr out)) (hlet : sheets.any (lettersFail false) = false) :
    ∃ uout doc, runUnflatten u { uenv with input := i } = .ok uout ∧ uout.document = .json doc ∧ Rearranged (documentOf o root) doc := by
  obtain ⟨h1, h2, h3, h4, h5, h6, h7⟩ := h.unflatten
  exact unflatten_side' ⟨h1, h3, h4, h5, h6, h7⟩ h.isList h.path hus hi hread (by rw [h2]; rfl) hun hout hlet

end Verif

import Verif.Proofs.Described
import Verif.Proofs.TripRun
import Verif.Props.Columns
/-! Flattening a described document with titles: the lines are those without titles, under other headings. -/
namespace Verif
open Spec

open Classical in
/-- The heading by titles of a path. -/
noncomputable def tau (scfg : SchemaCfg) (s : Schema) (k : Str) : Str :=
  if h : ∃ c, TitledAs scfg s k c then h.choose else k

theorem tau_spec {scfg : SchemaCfg} {s : Schema} {k : Str} (h : ∃ c, TitledAs scfg s k c) : TitledAs scfg s k (tau scfg s k) := by
  unfold tau
  rw [dif_pos h]
  exact h.choose_spec

variable {scfg : SchemaCfg} {s : Schema} {idName : Str} {rootId : Option Str}

theorem tau_of (h : TitlesReturn scfg s idName rootId) {k c : Str} (hc : TitledAs scfg s k c) : tau scfg s k = c := by
  obtain ⟨a, n, p, h1, h2, h3⟩ := tau_spec ⟨c, hc⟩
  obtain ⟨b, m, q, g1, g2, g3⟩ := hc
  obtain ⟨rfl, rfl, rfl⟩ := columnPath_inj h h1 g1 (h3.symm.trans g3)
  rw [h2] at g2
  exact Option.some.inj g2

theorem tau_inj (h : TitlesReturn scfg s idName rootId) {sp : Parsed} (hp : parseRoot scfg s = .ok sp) {a b : Str}
    (ha : ∃ c, TitledAs scfg s a c) (hb : ∃ c, TitledAs scfg s b c) (e : tau scfg s a = tau scfg s b) : a = b := by
  obtain ⟨x, n, p, h1, h2, h3⟩ := tau_spec ha
  obtain ⟨y, m, q, g1, g2, g3⟩ := tau_spec hb
  rw [← e] at g2
  obtain ⟨rfl, rfl, rfl⟩ := title_inj h hp h1 g1 h2 g2
  rw [h3, g3]

/-- Every property with a title has a heading by titles. -/
theorem titled_path (hg : GoodTitles scfg s) {s0 : Schema} {pre : List Hop} (h0 : Trail scfg s pre s0) {steps : List Hop} {q x : Schema} {n : Str} (ht : Trail scfg s0 steps q) (hf : Field scfg q n x)
    (hx : titleOf x ≠ none) : ∃ c, titlePath steps x = some c := by
  induction ht generalizing pre with
  | here =>
    cases hc : titleOf x with
    | none => exact absurd hc hx
    | some c => exact ⟨c, by simp [titlePath, titlesText, hc]⟩
  | @object s1 p q m r h1 h2 h3 ih =>
    obtain ⟨c, hc⟩ := ih (pre := pre ++ [⟨m, p, false⟩]) (Trail.append h0 (.object h1 h2 (.here p))) hf
    obtain ⟨a, ha⟩ := hg.titled pre s1 m p h0 h1 (.inl h2)
    exact ⟨a ++ s%":" ++ c, by rw [titlePath_cons, ha, hc]; rfl⟩
  | @list s1 p i q m r h1 h2 h2' h3 ih =>
    obtain ⟨c, hc⟩ := ih (pre := pre ++ [⟨m, p, true⟩]) (Trail.append h0 (.list h1 h2 h2' (.here i))) hf
    obtain ⟨a, ha⟩ := hg.titled pre s1 m p h0 h1 (.inr h2)
    exact ⟨a ++ s%":" ++ c, by rw [titlePath_cons, ha, hc]; rfl⟩

/-- The path is that of a column, and has a heading by titles. -/
def HasTitle (scfg : SchemaCfg) (s : Schema) (k : Str) : Prop :=
  ∃ steps n p c ty, Reached scfg s steps n p ∧ titlePath steps p = some c ∧ k = columnPath steps n ∧ kind scfg.wkt p = .column ty

theorem HasTitle.titled {k : Str} (h : HasTitle scfg s k) : ∃ c, TitledAs scfg s k c := by
  obtain ⟨steps, n, p, c, ty, h1, h2, h3, _⟩ := h
  exact ⟨c, steps, n, p, h1, h2, h3⟩

theorem titled_titling {T : Trip} {cfg : FCfg} {sp : Parsed} (ht : Titled T cfg sp) (h : TitlesReturn scfg s T.idName T.rootId) (hp : parseRoot scfg s = .ok sp) :
    Titling T cfg (tau scfg s) (HasTitle scfg s) :=
  ⟨ht.wkt, ht.xml, ht.rollup, ht.preserve, ht.filter, ht.idName, ht.rootId, fun _ _ ha hb e => tau_inj h hp ha.titled hb.titled e⟩

theorem titlesOf_main {T : Trip} {cfg : FCfg} {sp : Parsed} (ht : Titled T cfg sp) : titlesOf cfg none = sp.main.titles := by
  unfold titlesOf initState
  rw [ht.schema]
  dsimp only [FState.sheet]
  unfold clearColumns
  split <;> rfl

theorem titlesOf_sub {T : Trip} {cfg : FCfg} {sp : Parsed} (ht : Titled T cfg sp) (nm : Str) :
    titlesOf cfg (some nm) = ((Dict.get sp.subs nm).map (·.titles)).getD [] := by
  unfold titlesOf initState
  rw [ht.schema]
  dsimp only [FState.sheet]
  have : ∀ l : List (Str × Sheet), Dict.get (l.map (fun p => (p.1, clearColumns cfg p.2))) nm = (Dict.get l nm).map (clearColumns cfg) := by
    intro l
    induction l with
    | nil => rfl
    | cons e r ih =>
      obtain ⟨k, w⟩ := e
      simp only [List.map_cons, Dict.get_cons, ih]
      split <;> rfl
  rw [this]
  cases Dict.get sp.subs nm with
  | none => rfl
  | some sh =>
    simp only [Option.map_some, Option.getD_some]
    unfold clearColumns
    split <;> rfl

/-- The cells of the main sheet have their titles. -/
theorem main_on {T : Trip} {cfg : FCfg} {sp : Parsed} (ht : Titled T cfg sp) (hu : scfg.useTitles = true) (h : TitlesReturn scfg s T.idName T.rootId)
    (hp : parseRoot scfg s = .ok sp) {fs : List (Str × Json)} (hd : DescribedFields scfg s fs) :
    ∀ c ∈ cells everything [] fs, On cfg (tau scfg s) (HasTitle scfg s) none (pathText c.1) := by
  intro c hc
  obtain ⟨suf, q, n, x, ty, h1, h2, h3, h4, h5, h6⟩ := cells_described s [] fs hd c hc
  obtain ⟨t, h7⟩ := titled_path h.good (.here s) h1 h3 h5
  have e : pathText c.1 = columnPath suf n := by rw [h6]; rfl
  have hta : TitledAs scfg s (pathText c.1) t := ⟨suf, n, x, reached_of h.start h1 h3, h7, e⟩
  refine ⟨⟨suf, n, x, t, ty, reached_of h.start h1 h3, h7, e, h4⟩, ?_⟩
  rw [tau_of h hta, rn, if_pos ht.titles, titlesOf_main ht, e, main_title h hu hp h1 h2 h3 h4 h7]
  rfl

theorem id_on {T : Trip} {cfg : FCfg} {sp : Parsed} (ht : Titled T cfg sp) (hu : scfg.useTitles = true) (h : TitlesReturn scfg s T.idName T.rootId)
    (hp : parseRoot scfg s = .ok sp) {steps : List Hop} {q p : Schema} {n : Str} (h1 : Trail scfg s steps q) (h2 : Field scfg q n p) (h3 : titleOf p ≠ none) {ty : CType} (hk : kind scfg.wkt p = .column ty)
    (hn : n = T.idName ∨ T.rootId = some n) (nm : Str) :
    HasTitle scfg s (columnPath steps n) ∧ rn cfg (some nm) (tau scfg s (columnPath steps n)) = tau scfg s (columnPath steps n) := by
  obtain ⟨t, h7⟩ := titled_path h.good (.here s) h1 h2 h3
  have hr := reached_of h.start h1 h2
  have hta : TitledAs scfg s (columnPath steps n) t := ⟨steps, n, p, hr, h7, rfl⟩
  refine ⟨⟨steps, n, p, t, ty, hr, h7, rfl, hk⟩, ?_⟩
  rw [tau_of h hta, rn, if_pos ht.titles, titlesOf_sub ht]
  cases hg : Dict.get sp.subs nm with
  | none => rfl
  | some sh =>
    simp only [Option.map_some, Option.getD_some]
    cases hv : Dict.get sh.titles t with
    | none => rfl
    | some v => exact id_title h hu hp hr hn h7 hg hv

/-- The cells and the ids of the sub-sheets have their titles. -/
theorem item_on {T : Trip} {cfg : FCfg} {sp : Parsed} (ht : Titled T cfg sp) (hu : scfg.useTitles = true) (h : TitlesReturn scfg s T.idName T.rootId)
    (hp : parseRoot scfg s = .ok sp) {i : Item} (hi : ItemAt T scfg s i)
    (hroot : ∀ a ∈ i.around, a.1 = [] → ∀ rid v, T.rootId = some rid → Dict.get a.2 rid = some v → ∃ x, v = .leaf x) :
    ItemOn cfg (tau scfg s) (HasTitle scfg s) i := by
  obtain ⟨⟨pre, y, m, x, it, h1, h2, h3, h4, h5, h6⟩, ha⟩ := hi
  constructor
  · intro c hc
    obtain ⟨suf, q, n, z, ty, g1, g2, g3, g4, g5, g6⟩ := cells_described it (i.array ++ [s%"0"]) i.fields h6 c hc
    have htr : Trail scfg s (pre ++ ⟨m, x, true⟩ :: suf) q := Trail.append h1 (.list h2 h3 h4 g1)
    obtain ⟨t, h7⟩ := titled_path h.good (.here s) htr g3 g5
    have e : pathText c.1 = columnPath (pre ++ ⟨m, x, true⟩ :: suf) n := by
      rw [g6, h5]
      simp [columnPath, pathText, indexed_append, indexed]
    have hta : TitledAs scfg s (pathText c.1) t := ⟨_, n, z, reached_of h.start htr g3, h7, e⟩
    refine ⟨⟨_, n, z, t, ty, reached_of h.start htr g3, h7, e, g4⟩, ?_⟩
    obtain ⟨nm, sh, k1, k2, k3⟩ := sub_title h hu hp htr g2 g3 g4 h7
    have hsn : sheetOf cfg i.array = nm := by
      rw [h5, ← subSheetName_sheetOf, subSheetName, if_pos ht.titles, ht.schema]
      simp only [Option.bind_some, k1]
    rw [tau_of h hta, rn, if_pos ht.titles, hsn, titlesOf_sub ht, k2, e]
    simp only [Option.map_some, Option.getD_some, k3]
  · intro k hk
    obtain ⟨v, hv⟩ := Option.isSome_iff_exists.1 (Dict.get_isSome_iff.2 hk)
    obtain ⟨p, fs, hm, hcase⟩ := get_idsOf_sound hv
    obtain ⟨steps, q, g1, g2, g3, g4, g5⟩ := ha _ hm
    dsimp only at g2 g3 g4 g5
    have key : ∀ n w, Dict.get fs n = some (.leaf w) → n = T.idName ∨ T.rootId = some n → ∀ nm, HasTitle scfg s (columnPath steps n) ∧
        rn cfg (some nm) (tau scfg s (columnPath steps n)) = tau scfg s (columnPath steps n) := by
      intro n w hg hn nm
      obtain ⟨z, f1, f2⟩ := described_get g3 hg
      simp only [Described] at f2
      exact id_on ht hu h hp g1 f1 f2.2 f2.1.choose_spec hn nm
    rcases hcase with ⟨rfl, hg⟩ | ⟨hr, hg⟩
    · have hidn : (idOpts cfg).idName = T.idName := ht.idName
      rw [hidn] at hg ⊢
      have := g4.2.2.2 v hg
      have hleaf : ∃ w, v = .leaf w := by
        unfold Trip.idOf at this
        rw [hg] at this
        cases v with
        | leaf w => exact ⟨w, rfl⟩
        | obj _ => exact absurd rfl this
        | arr _ => exact absurd rfl this
      obtain ⟨w, rfl⟩ := hleaf
      have := key T.idName w hg (.inl rfl) (sheetOf cfg i.array)
      rw [g2]
      exact this
    · have hrid : T.rootId = some k := by rw [← ht.rootId]; exact hr
      rcases g5 with rfl | g5
      · obtain ⟨w, rfl⟩ := hroot _ hm (by rw [g2]; rfl) k v hrid hg
        have := key k w hg (.inr hrid) (sheetOf cfg i.array)
        simpa [columnPath, indexed, Py.join] using this
      · rw [g5 k hrid] at hg; cases hg

mutual
theorem items_around (p : List Str) (around : List (List Str × List (Str × Json))) (fs : List (Str × Json)) :
    ∀ i ∈ items everything p around fs, ∀ a ∈ i.around, a ∈ around ∨ a.1 ≠ [] := by
  cases fs with
  | nil => simp [items]
  | cons e r =>
    obtain ⟨k, v⟩ := e
    intro i hi
    simp only [items, everything, if_true, List.mem_append] at hi
    rcases hi with hi | hi
    · exact valueItems_around (p ++ [k]) (by simp) around v i hi
    · exact items_around p around r i hi
termination_by structural fs
theorem valueItems_around (p : List Str) (hp : p ≠ []) (around : List (List Str × List (Str × Json))) (v : Json) :
    ∀ i ∈ valueItems everything p around v, ∀ a ∈ i.around, a ∈ around ∨ a.1 ≠ [] := by
  cases v with
  | leaf a => simp [valueItems]
  | obj fs =>
    intro i hi a ha
    simp only [valueItems] at hi
    rcases items_around p _ fs i hi a ha with h | h
    · rcases List.mem_append.1 h with h | h
      · exact .inl h
      · simp only [List.mem_singleton] at h
        subst h; exact .inr hp
    · exact .inr h
  | arr l =>
    intro i hi
    simp only [valueItems] at hi
    split at hi
    · cases hi
    · exact arrayItems_around p hp around l i hi
termination_by structural v
theorem arrayItems_around (p : List Str) (hp : p ≠ []) (around : List (List Str × List (Str × Json))) (l : List Json) :
    ∀ i ∈ arrayItems everything p around l, ∀ a ∈ i.around, a ∈ around ∨ a.1 ≠ [] := by
  cases l with
  | nil => simp [arrayItems]
  | cons j r =>
    cases j with
    | leaf a =>
      intro i hi
      simp only [arrayItems] at hi
      exact arrayItems_around p hp around r i hi
    | arr a =>
      intro i hi
      simp only [arrayItems] at hi
      exact arrayItems_around p hp around r i hi
    | obj fs =>
      intro i hi a ha
      simp only [arrayItems, List.mem_append, List.mem_cons] at hi
      rcases hi with hi | hi | hi
      · rcases items_around _ _ fs i hi a ha with h | h
        · rcases List.mem_append.1 h with h | h
          · exact .inl h
          · simp only [List.mem_singleton] at h
            subst h; exact .inr (by simp)
        · exact .inr h
      · subst hi; exact .inl ha
      · exact arrayItems_around p hp around r i hi a ha
termination_by structural l
end

theorem items_around_root {fs : List (Str × Json)} {i : Item} (hi : i ∈ items everything [] [([], fs)] fs) {a : List Str × List (Str × Json)} (ha : a ∈ i.around)
    (h0 : a.1 = []) : a = ([], fs) := by
  rcases items_around [] _ fs i hi a ha with h | h
  · simpa using h
  · exact absurd h0 h

/-- Keys that are in the lines of the specification. -/
theorem spotLine_keys {T : Trip} {S : Str → Prop} {root : List Json} (hm : ∀ fs ∈ objects root, ∀ c ∈ cells everything [] fs, S (pathText c.1))
    (hi : ∀ i ∈ docItems everything root, (∀ c ∈ cells everything (i.array ++ [s%"0"]) i.fields, S (pathText c.1)) ∧
      ∀ k ∈ Dict.keys (idsOf ⟨T.idName, T.rootId⟩ i.around), S k) :
    ∀ x ∈ spots T root, ∀ k ∈ Dict.keys (spotLine T x), S k := by
  intro x hx k hk
  have hmem := (spots_lines T root).mem_iff.1 (List.mem_map_of_mem (f := spotLine T) hx)
  generalize spotLine T x = l at hmem hk
  have hcells : ∀ cs : List (List Str × Json), (∀ c ∈ cs, S (pathText c.1)) → ∀ k ∈ Dict.keys (cs.map (fun c => (pathText c.1, c.2))), S k := by
    intro cs hcs k hk
    simp only [Dict.keys, List.map_map, List.mem_map] at hk
    obtain ⟨c, hc, rfl⟩ := hk
    exact hcs c hc
  rcases List.mem_append.1 hmem with hmem | hmem
  · obtain ⟨fs, hfs, rfl⟩ := List.mem_map.1 hmem
    rcases Dict.mem_keys_update.1 hk with hk | hk
    · simp [Dict.keys] at hk
    · exact hcells _ (hm fs hfs) k hk
  · obtain ⟨i, hi', rfl⟩ := List.mem_map.1 hmem
    obtain ⟨h1, h2⟩ := hi i hi'
    rcases Dict.mem_keys_update.1 hk with hk | hk
    · rcases Dict.mem_keys_update.1 hk with hk | hk
      · simp [Dict.keys] at hk
      · exact h2 k hk
    · exact hcells _ h1 k hk

theorem addHeads_rest {P : Str → Prop} (os : List (Option Str)) (h : ∀ o ∈ os, ∀ c, o = some c → P c) (hs : List Str) :
    ∃ rest, os.foldl addHead hs = hs ++ rest ∧ ∀ c ∈ rest, P c := by
  induction os generalizing hs with
  | nil => exact ⟨[], by simp, by simp⟩
  | cons o r ih =>
    obtain ⟨rest, h1, h2⟩ := ih (fun o ho => h o (by simp [ho])) (addHead hs o)
    rw [List.foldl_cons, h1]
    unfold addHead
    cases o with
    | none => exact ⟨rest, rfl, h2⟩
    | some c =>
      dsimp only
      split
      · exact ⟨rest, rfl, h2⟩
      · refine ⟨c :: rest, by simp, ?_⟩
        intro d hd
        rcases List.mem_cons.1 hd with rfl | hd
        · exact h _ (by simp) _ rfl
        · exact h2 d hd

/-- Flattening with titles: the lines are those of the specification under other headings. -/
theorem titled_lines {T : Trip} {cfg : FCfg} {sp : Parsed} (ht : Titled T cfg sp) (hu : scfg.useTitles = true) (h : TitlesReturn scfg s T.idName T.rootId)
    (hp : parseRoot scfg s = .ok sp) {root : List Json} (hfit : T.FitsRoot root) (hd : ∀ fs ∈ objects root, DescribedFields scfg s fs) :
    ∃ st, flatten cfg root = .ok st ∧
      ((sheetsOf st).flatMap (·.lines)).Perm ((spots T root).map (fun x => mapKeys (tau scfg s) (spotLine T x))) ∧
      (∀ x ∈ spots T root, ∀ k ∈ Dict.keys (spotLine T x), HasTitle scfg s k) ∧
      ∀ sh ∈ sheetsOf st, ∃ name rest, sh.headings = templateColumns cfg name ++ rest ∧ ∀ c ∈ rest, ∃ x, HasTitle scfg s x ∧ c = tau scfg s x := by
  have hs : FromSchemaParser cfg := by
    intro sp' e
    rw [ht.schema] at e
    cases e
    exact ⟨scfg, s, hp⟩
  have hmain : ∀ fs ∈ objects root, ∀ c ∈ cells everything [] fs, On cfg (tau scfg s) (HasTitle scfg s) none (pathText c.1) :=
    fun fs hfs => main_on ht hu h hp (hd fs hfs)
  have hitem : ∀ i ∈ docItems everything root, ItemOn cfg (tau scfg s) (HasTitle scfg s) i := by
    intro i hi
    simp only [docItems, List.mem_flatMap] at hi
    obtain ⟨fs, hfs, hi⟩ := hi
    obtain ⟨ho, hn, hF, hr⟩ := fitsRoot_mem hfit hfs
    have hroot : AroundAt T scfg s ([], fs) := ⟨[], s, .here s, rfl, hd fs hfs, ho, .inl rfl⟩
    refine item_on ht hu h hp (items_described (T := T) [] s s [] [([], fs)] fs (.here s) (by
      intro a ha
      simp only [List.mem_singleton] at ha
      subst ha
      exact hroot) (hd fs hfs) hF i hi) ?_
    intro a ha ha0 rid v hrid hg
    have : a = ([], fs) := items_around_root hi ha ha0
    subst this
    obtain ⟨x, hx, _⟩ := hr rid v hrid hg
    exact ⟨x, hx⟩
  obtain ⟨ev, h1, h2, h3, hkeyed⟩ := emitRootList_titled (titled_titling ht h hp) 0 root (by
    intro x hx
    obtain ⟨fs, rfl, ho, _, hF, hr⟩ := hfit.each x hx
    refine ⟨fs, rfl, ho, hF, ?_⟩
    intro rid v hrid hg
    obtain ⟨a, ha, _⟩ := hr rid v hrid hg
    exact ⟨a, ha⟩) hmain hitem
  have hopt : idOpts cfg = ⟨T.idName, T.rootId⟩ := by simp [idOpts, ht.idName, ht.rootId]
  refine ⟨finish cfg (runEv cfg ev (initState cfg)), flatten_ok.2 ⟨ev, h1, rfl⟩, ?_, ?_, ?_⟩
  · obtain ⟨h4, h5⟩ := result_lines hs ev _ rfl
    have hst := flatten_ok.2 ⟨ev, h1, rfl⟩
    generalize finish cfg (runEv cfg ev (initState cfg)) = st at h4 h5 hst
    have hn := subs_nodup hs hst
    have h6 : ((spots T root).map (fun x => mapKeys (tau scfg s) (spotLine T x))).Perm
        ((objects root).map (fun fs => mapKeys (tau scfg s) (toLine (cells everything [] fs))) ++
          (docItems everything root).map (fun i => mapKeys (tau scfg s) (Item.line ⟨T.idName, T.rootId⟩ everything i))) := by
      have := (spots_lines T root).map (mapKeys (tau scfg s))
      simpa [List.map_map, Function.comp_def] using this
    refine List.Perm.trans ?_ h6.symm
    simp only [sheetsOf, List.flatMap_cons, h4, h2]
    refine List.Perm.append_left _ ?_
    rw [subs_lines st hn]
    have h7 : (Dict.keys st.subs).flatMap (subLines st) =
        ((Dict.keys st.subs).flatMap (fun n => (docItems everything root).filter (fun i => sheetOf cfg i.array = n))).map
          (fun i => mapKeys (tau scfg s) (Item.line ⟨T.idName, T.rootId⟩ everything i)) := by
      rw [List.map_flatMap]
      congr 1
      funext n
      rw [h5, h3, wantedT, hopt]
    rw [h7]
    refine (classes_perm _ _ _ hn ?_).map _
    intro i hi
    by_cases hm : sheetOf cfg i.array ∈ Dict.keys st.subs
    · exact hm
    · have h8 := h5 (sheetOf cfg i.array)
      have h9 : subLines st (sheetOf cfg i.array) = [] := by
        unfold subLines
        rw [Dict.get_none_iff.2 hm]
        rfl
      rw [h9, h3, wantedT] at h8
      have h10 : i ∈ (docItems everything root).filter (fun j => sheetOf cfg j.array = sheetOf cfg i.array) := by
        simp [hi]
      have := List.map_eq_nil_iff.1 h8.symm
      rw [this] at h10
      cases h10
  · refine spotLine_keys (fun fs hfs c hc => (hmain fs hfs c hc).1) (fun i hi => ⟨fun c hc => ((hitem i hi).cells c hc).1, fun k hk => ((hitem i hi).ids k ?_).1⟩)
    rw [hopt]; exact hk
  · intro sh hm
    obtain ⟨ref, rfl⟩ := sheet_of_result hs hm
    obtain ⟨rest, e1, e2⟩ := addHeads_rest (P := fun c => ∃ x, HasTitle scfg s x ∧ c = tau scfg s x) (ev.map (evHead cfg ref)) (by
      intro o ho c hc
      obtain ⟨e, he, rfl⟩ := List.mem_map.1 ho
      unfold evHead at hc
      split at hc
      · split at hc
        · next r k hr =>
          subst hr
          obtain ⟨x, hx, hk⟩ := hkeyed _ _ he
          exact ⟨x, hx, by rw [← hk]; exact (Option.some.inj hc).symm⟩
        · cases hc
      · cases hc) (templateColumns cfg ref)
    refine ⟨ref, rest, ?_, e2⟩
    rw [run_headings (titlesOK_init cfg), init_headings, ← e1, List.foldl_map]

end Verif

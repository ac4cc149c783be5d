import Verif.Props.MainMaps
import Verif.Proofs.Narrow
import Verif.Model.MapFile
/-! The locations in the cell source map are of lines with data, in columns that have letters. -/
namespace Verif
open Spec Api

/-- The location is of a cell of a line that is not blank. -/
def LocIn (sheets : List SheetIn) (l : Loc) : Prop :=
  ∃ s ∈ sheets, s.headings ≠ some [] ∧ s.name = l.sheet ∧ ∃ line ∈ s.lines, blankLine line = false ∧ 0 < l.col ∧ l.col ≤ line.length

theorem lineCells_loc {sheets : List SheetIn} {r : RowIn} (hr : r ∈ rowsIn sheets) {e : Str × Cell}
    (he : e ∈ lineCells r.sheet.name r.sheet.headings r.number 0 r.line) : LocIn sheets e.2.loc := by
  obtain ⟨i, h, a, h1, h2, h3⟩ := lineCells_get he
  obtain ⟨g1, g2, g3⟩ := rowsIn_line hr
  refine ⟨r.sheet, g1, g2, by rw [h3], r.line, List.mem_of_getElem? g3, ?_, ?_, ?_⟩
  · unfold rowsIn at hr
    obtain ⟨s, hs, hr⟩ := List.mem_flatMap.1 hr
    split at hr
    · simp at hr
    · obtain ⟨p, hp, rfl⟩ := List.mem_map.1 hr
      have := (List.mem_filter.1 hp).2
      simpa [hasData, blankLine] using this
  · rw [h3]; simp
  · rw [h3]
    have := (List.getElem?_eq_some_iff.1 h1).1
    simp; omega

theorem rowAlone_locs {cfg : UnCfg} {sheets : List SheetIn} {r : RowIn} (hr : r ∈ rowsIn sheets) {x : Row} (h : rowAlone cfg r = .ok x) :
    TAllF (fun _ => True) (fun _ c => ∀ l ∈ locations c, LocIn sheets l) [] x.fields := by
  unfold rowAlone at h
  split at h
  · cases h
  · next fs w hu =>
    cases h
    refine tallF_mono (P := fun _ c => c.sub = [] ∧ LocIn sheets c.loc) ?_ [] _ ?_
    · intro p c hc l hl
      simp only [locations, hc.1, List.map_nil, List.mem_singleton] at hl
      rw [hl]; exact hc.2
    refine (unflattenRow_inv (Q := fun _ => True) (fun _ _ h => h.1) _ ?_ hu).2
    intro e he _
    refine ⟨fun _ c => c.sub = [] ∧ LocIn sheets c.loc, fun _ _ => True, ?_, trivial, lineCells_sub _ _ _ _ _ e he, lineCells_loc hr he⟩
    constructor
    · intros; trivial
    · intros; trivial
    · intros; trivial
    · intros; trivial
    · intros; trivial
    · intros; assumption
    · intro pre p item rest cell ty v w _ _ _ hpin _ _
      exact ⟨hpin, fun _ q _ => hpin⟩

theorem tree_locs {cfg : UnCfg} {sheets : List SheetIn} {tree : List (List (Str × CTree))} {w : List Warn}
    (h : doUnflatten cfg sheets = .ok (tree, w)) : ∀ e ∈ cellsInItems 0 tree, ∀ l ∈ locations e.2, LocIn sheets l := by
  have hg : CGoodI (fun _ => True) (fun _ c => ∀ l ∈ locations c, LocIn sheets l) [] tree := by
    refine run_cells ?_ (fun r hr x hx => rowAlone_locs hr hx) h
    intro p b c hb hc _ l hl
    simp only [locations, List.map_append, List.map_cons, List.map_nil, List.mem_cons, List.mem_append, List.not_mem_nil, or_false] at hl
    rcases hl with rfl | hl | rfl
    · exact hb _ (by simp [locations])
    · exact hb _ (by simp [locations]; right; simpa using hl)
    · exact hc _ (by simp [locations])
  intro e he
  exact ((cells_goodI [] 0 tree hg).1 e he).1

/-- Locations of a cell map. -/
theorem fancy_locs {cfg : UnCfg} {root : Option Str} {wc wh : Bool} {sheets : List SheetIn} {out : List Json}
    {cm : Option (List (Str × MapEntry))} {hm : Option (List (Str × List (Str × Str)))} {w : List Warn}
    (h : fancyUnflatten cfg root wc wh sheets = .ok (out, cm, hm, w)) :
    ∀ k ls, (k, MapEntry.cells ls) ∈ cm.getD [] → ∀ l ∈ ls, LocIn sheets l := by
  obtain ⟨tree, ht, rfl⟩ := fancy_inv h
  obtain ⟨cells, h1, h2, h3, h4⟩ := fancy_ok ht root
  rw [h4] at h
  intro k ls hk l hl
  simp only [Except.ok.injEq, Prod.mk.injEq, true_and] at h
  by_cases hn : (!wc && !wh) = true
  · simp only [hn, if_true, Prod.mk.injEq] at h
    rw [← h.1] at hk
    simp at hk
  · rw [if_neg hn] at h
    simp only [Prod.mk.injEq] at h
    rw [← h.1] at hk
    cases wc with
    | false => simp at hk
    | true =>
      simp only [if_true, Option.getD_some, List.mem_append, List.mem_map] at hk
      rcases hk with ⟨a, ⟨e, he, rfl⟩, hk⟩ | ⟨a, _, hk⟩
      · simp only [Prod.mk.injEq, MapEntry.cells.injEq] at hk
        obtain ⟨-, rfl⟩ := hk
        exact tree_locs ht e (h1.subset he) l (by simpa [entryOf, locations] using hl)
      · simp at hk

/-- Columns of a sheet that was read have letters. -/
theorem loc_letters {v : Bool} {sheets : List SheetIn} (h : sheets.any (lettersFail v) = false) {l : Loc} (hl : LocIn sheets l) :
    0 < l.col ∧ (v = false → l.col ≤ 18278) := by
  obtain ⟨s, h1, h2, h3, line, h4, h5, h6, h7⟩ := hl
  refine ⟨h6, ?_⟩
  rintro rfl
  have := List.any_eq_false.1 h s h1
  unfold lettersFail at this
  rw [if_neg h2] at this
  simp only [Bool.or_eq_true, Bool.and_eq_true, Bool.not_false, true_and, not_or, Bool.not_eq_true, List.any_eq_false] at this
  have := this.2 line h4
  rw [h5, lettersMissing_iff] at this
  by_cases hlen : 18278 < line.length
  · simp [hlen] at this
  · omega

theorem read_name {i : Input} {rc : ReadCfg} {n : Str} {s : SheetIn} (h : i.sheet rc n = .ok s) : s.name = n := by
  cases i <;> simp only [Input.sheet, csvSheet, xlsxSheet, odsSheet] at h <;> (repeat' split at h) <;> cases h <;> rfl

theorem titles_names {c : Bool} {schema : Option Parsed} {a b : List SheetIn} (h : withTitles c schema a = .ok b) :
    ∀ s ∈ b, ∃ s' ∈ a, s.name = s'.name := by
  unfold withTitles at h
  split at h
  · cases h; exact fun s hs => ⟨s, hs, rfl⟩
  · split at h
    · cases h
    · cases h
      unfold titleSheets
      split
      · exact fun s hs => ⟨s, hs, rfl⟩
      · intro s hs
        obtain ⟨s', h1, rfl⟩ := List.mem_map.1 hs
        exact ⟨s', h1, rfl⟩

/-- What one pass records. -/
theorem pass_locs {o : UnOpts} {env : Env} {schema : Option Parsed} {cfg : UnCfg} {rc : ReadCfg} {root : Option Str} {incl : List Str}
    {excl : List (Option Str)} {p : Pass} (h : pass o env schema cfg rc root incl excl = .ok p) :
    ∀ k ls, (k, MapEntry.cells ls) ∈ p.cells → ∀ l ∈ ls,
      l.sheet ∈ env.input.select incl excl ∧ 0 < l.col ∧ (rc.vertical = false → l.col ≤ 18278) := by
  obtain ⟨s1, s2, cm, hm, p1, p2, p3, p4, p5, p6, p7⟩ := pass_inv h
  intro k ls hk l hl
  rw [p4] at hk
  have hin := fancy_locs p3 k ls hk l hl
  refine ⟨?_, loc_letters p7 hin⟩
  obtain ⟨s, h1, h2, h3, _⟩ := hin
  obtain ⟨s', h4, h5⟩ := titles_names p2 s h1
  obtain ⟨n, h6, h7⟩ := mapE_read p1 s' h4
  rw [← h3, h5, read_name h7]
  exact h6

theorem mem_update {κ α : Type} [DecidableEq κ] : ∀ (e d : List (κ × α)) {x : κ × α}, x ∈ Dict.update d e → x.2 ∈ d.map (·.2) ∨ x.2 ∈ e.map (·.2)
  | [], d, x, h => .inl (List.mem_map_of_mem h)
  | (k, v) :: r, d, x, h => by
    rcases mem_update r (Dict.set d k v) h with h' | h'
    · obtain ⟨y, hy, e⟩ := List.mem_map.1 h'
      rcases Dict.mem_set hy with ⟨-, hv⟩ | hy
      · right; rw [← e, hv]; simp
      · left; rw [← e]; exact List.mem_map_of_mem hy
    · right; simp only [List.map_cons, List.mem_cons]; exact .inr h'

/-- The column can be written. -/
def LocOk (o : UnOpts) (l : Loc) : Prop := 0 < l.col ∧ (verticalSheet o l.sheet = false → l.col ≤ 18278)

theorem stage_locs {o : UnOpts} {env : Env} {s : Stage} (hd : DistinctSheets env.input) (h : stage1 o env = .ok s) :
    ∀ k ls, (k, MapEntry.cells ls) ∈ s.md.cells → ∀ l ∈ ls, LocOk o l := by
  cases hg : given o.metatabName with
  | none =>
    rw [stage1_plain (.inl hg)] at h
    injection h with h; subst h
    intro k ls hk; simp at hk
  | some M =>
    cases hr : o.rootIsList with
    | true =>
      rw [stage1_plain (.inr hr)] at h
      injection h with h; subst h
      intro k ls hk; simp at hk
    | false =>
      obtain ⟨m, own, base, h1, h2, h3, rfl⟩ := (stage1_meta hg hr).1 h
      intro k ls hk l hl
      obtain ⟨schema, -, hp⟩ := metaPass_inv h1
      simp only [stripKeys, dictOf] at hk
      have hk := mem_update _ _ hk
      simp only [List.map_nil, List.not_mem_nil, false_or, List.map_map] at hk
      obtain ⟨⟨k', ls'⟩, h4, h5⟩ := List.mem_map.1 hk
      simp only [Function.comp] at h5
      subst h5
      obtain ⟨a1, a2, a3⟩ := pass_locs hp k' ls h4 l hl
      have := select_incl _ _ _ hd a1
      refine ⟨a2, ?_⟩
      unfold verticalSheet
      rw [this, (given_some.1 hg).1, if_pos rfl]
      exact a3

theorem run_locs {o : UnOpts} {env : Env} {out : UnOut} (hd : DistinctSheets env.input) (h : runUnflatten o env = .ok out) :
    ∀ k ls, (k, MapEntry.cells ls) ∈ out.cellMap → ∀ l ∈ ls, LocOk o l := by
  cases hm : (o.metatabOnly && !o.rootIsList) with
  | true =>
    obtain ⟨-, -, s, d, h1, h2, rfl⟩ := (run_metaOnly hm).1 h
    exact stage_locs hd h1
  | false =>
    obtain ⟨-, -, s, m, doc, d, h1, h2, h3, h4, rfl⟩ := (run_full hm).1 h
    intro k ls hk l hl
    rcases mem_update _ _ hk with hk | hk
    · obtain ⟨⟨k', ls'⟩, h5, h6⟩ := List.mem_map.1 hk
      simp only at h6
      subst h6
      exact stage_locs hd h1 k' ls h5 l hl
    · obtain ⟨⟨k', ls'⟩, h5, h6⟩ := List.mem_map.1 hk
      simp only at h6
      subst h6
      obtain ⟨schema, -, hp⟩ := mainPass_inv h2
      obtain ⟨a1, a2, a3⟩ := pass_locs hp k' ls h5 l hl
      refine ⟨a2, ?_⟩
      unfold verticalSheet
      rw [if_neg]
      · exact a3
      · intro he
        rw [he] at a1
        exact select_excl _ _ _ hd a1 rfl

end Verif

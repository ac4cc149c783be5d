import Verif.Proofs.Reloc
import Verif.Spec.Blank
/-! A run only depends on the content of the sheets. -/
namespace Verif
open Spec

/-- Forget where a cell is, except its heading. -/
def bareLoc (l : Loc) : Loc := { l with sheet := [], col := 0, row := 0 }

theorem bareLoc_heading (l : Loc) : (bareLoc l).heading = l.heading := rfl

def gsl (g : Loc → Loc) (gs : Groups) : Groups := gs.map (fun e => (e.1, e.2.reloc g))

theorem placeAll_filter (cfg : RowCfg) (cells : List (Str × Cell)) (cur : RFields) :
    placeAll cfg cells cur = placeAll cfg (cells.filter (fun e => !e.2.value.blank)) cur := by
  induction cells generalizing cur with
  | nil => rfl
  | cons e r ih =>
    obtain ⟨p, c⟩ := e
    rw [List.filter_cons]
    by_cases h : c.value.blank = true
    · simp only [h, Bool.not_true, Bool.false_eq_true, if_false]
      rw [← ih]; simp [placeAll, h]
    · simp only [h, Bool.not_false, if_true]
      simp only [placeAll, h, Bool.false_eq_true, if_false]
      cases place cfg p [] (pathList p) c cur with
      | error e => rfl
      | ok r1 => simp only [← ih]

/-- The cells a row is built from, without locations. -/
def bareCells (cs : List (Option Str × Option Str × Atom)) : List (Str × Cell) :=
  cs.map (fun c => (c.1.getD s%"None", { value := .atom c.2.2, loc := ⟨[], 0, 0, c.2.1.getD s%"None"⟩ }))

theorem lineCells_bare (sheet : Str) (hs : Option (List (Option Str))) (j k : Nat) (l : Line) :
    ((lineCells sheet hs j k l).filter (fun e => !e.2.value.blank)).map (fun e => (e.1, e.2.reloc bareLoc)) =
      bareCells (cellsFrom hs k l) := by
  induction l generalizing k with
  | nil => rfl
  | cons e r ih =>
    obtain ⟨h, v⟩ := e
    simp only [lineCells, cellsFrom]
    have hb : (Val.atom v).blank = v.blank := rfl
    rw [List.filter_cons]
    by_cases hv : v.blank = true
    · simp only [hb, hv, Bool.not_true, Bool.false_eq_true, if_false, if_true]; exact ih (k + 1)
    · simp only [hb, hv, Bool.not_false, if_true, Bool.false_eq_true, if_false, List.map_cons, ih, bareCells]
      congr 1
      cases hs <;> simp [Cell.reloc, bareLoc, headingAt]

theorem rowKey_reloc (g : Loc → Loc) (n : Option Str) (xml : Bool) (fs : Fields) :
    rowKey n xml (tlF g fs) = rowKey n xml fs := by
  unfold rowKey
  cases n with
  | none => rfl
  | some m =>
    simp only [tlF_get]
    cases Dict.get fs m with
    | none => rfl
    | some t =>
      cases t with
      | cell c => simp [tl]
      | tmp a b => simp [tl]
      | obj fs =>
        simp only [Option.map_some, tl, tlF_get]
        cases xml with
        | false => rfl
        | true =>
          simp only [if_true]
          cases Dict.get fs s%"text()" with
          | none => rfl
          | some t => cases t <;> simp [tl]

theorem addToGroup_reloc {g : Loc → Loc} (hg : ∀ l, (g l).heading = l.heading) (cfg : UnCfg) (sheet : Str)
    (fs : Fields) (td : TDict) :
    addToGroup cfg sheet (tlF g fs) (td.reloc g) =
      (addToGroup cfg sheet fs td).map (fun r => (r.1.reloc g, r.2)) := by
  unfold addToGroup
  rw [rowKey_reloc, append_reloc]
  cases rowKey cfg.idName cfg.row.xml fs with
  | error e => simp [Except.map]
  | ok k =>
    cases k with
    | none => cases td.append cfg.idName cfg.row.xml fs <;> simp [Except.map]
    | some k =>
      simp only
      split
      · simp [Except.map]
      · simp only [TDict.reloc, tlK_get]
        cases hk : keyGet td.keyed k with
        | some base => simp [Except.map, mergeFields_reloc hg, tlK_set]
        | none =>
          simp only [Option.map_none]
          cases td.append cfg.idName cfg.row.xml fs <;> simp [Except.map, TDict.reloc]

theorem addRow_reloc {g : Loc → Loc} (hg : ∀ l, (g l).heading = l.heading) (cfg : UnCfg) (sheet : Str) (root : Val)
    (fs : Fields) (gs : Groups) :
    addRow cfg sheet root (tlF g fs) (gsl g gs) = (addRow cfg sheet root fs gs).map (fun r => (gsl g r.1, r.2)) := by
  unfold addRow
  have h1 : (keyGet (gsl g gs) root).getD {} = ((keyGet gs root).getD {}).reloc g := by
    unfold gsl; rw [keyGet_map]
    cases keyGet gs root <;> simp [TDict.reloc, tlK, tlI]
  rw [h1, addToGroup_reloc hg]
  cases addToGroup cfg sheet fs ((keyGet gs root).getD {}) with
  | error e => simp [Except.map]
  | ok r => simp only [Except.map, gsl]; rw [keySet_map]

/-- The run over the content of a sheet. -/
def runContent (cfg : UnCfg) (sheet : Str) : List (Atom × List (Option Str × Option Str × Atom)) → Groups →
    Except Err (Groups × List Warn)
  | [], gs => .ok (gs, [])
  | (root, cs) :: r, gs =>
    match unflattenRow cfg.row cfg.idName (bareCells cs) with
    | .error e => .error e
    | .ok (fs, w1) =>
      match addRow cfg sheet (.atom root) fs gs with
      | .error e => .error e
      | .ok (gs', w2) =>
        match runContent cfg sheet r gs' with
        | .error e => .error e
        | .ok (gs2, w3) => .ok (gs2, (w1 ++ w2) ++ w3)

theorem unflattenRow_bare (cfg : RowCfg) (n : Option Str) (sheet : Str) (hs : Option (List (Option Str))) (j : Nat) (l : Line) :
    (unflattenRow cfg n (lineCells sheet hs j 0 l)).map (fun r => (tlF bareLoc r.1, r.2)) =
      unflattenRow cfg n (bareCells (cellsFrom hs 0 l)) := by
  rw [← lineCells_bare sheet hs j 0 l, unflattenRow_reloc]
  unfold unflattenRow
  rw [placeAll_filter cfg (lineCells sheet hs j 0 l)]

theorem rootKey_eq (cfg : UnCfg) (l : Line) : rootKey cfg l =
    .atom (rootCell cfg.rootId l) := by
  unfold rootKey rootCell; cases cfg.rootId <;> rfl

theorem addLines_content (cfg : UnCfg) (sheet : Str) (hs : Option (List (Option Str))) (j : Nat) (ls : List Line) (gs : Groups) :
    (addLines cfg sheet hs j ls gs).map (fun r => (gsl bareLoc r.1, r.2)) =
      runContent cfg sheet ((ls.filter hasData).map (fun l =>
        ((rootCell cfg.rootId l), cellsFrom hs 0 l)))
        (gsl bareLoc gs) := by
  induction ls generalizing j gs with
  | nil => simp [addLines, runContent, Except.map]
  | cons l ls ih =>
    rw [List.filter_cons]
    simp only [addLines, addLine, blankLine_eq]
    by_cases hd : hasData l = true
    · simp only [hd, Bool.not_true, Bool.false_eq_true, if_false, if_true, List.map_cons, runContent]
      rw [← unflattenRow_bare cfg.row cfg.idName sheet hs j l, rootKey_eq]
      cases unflattenRow cfg.row cfg.idName (lineCells sheet hs j 0 l) with
      | error e => simp [Except.map]
      | ok r =>
        obtain ⟨fs, w1⟩ := r
        simp only [Except.map]
        rw [addRow_reloc bareLoc_heading]
        cases addRow cfg sheet (.atom (rootCell cfg.rootId l)) fs gs with
        | error e => simp [Except.map]
        | ok r =>
          obtain ⟨gs1, w2⟩ := r
          simp only [Except.map]
          rw [← ih (j + 1) gs1]
          cases addLines cfg sheet hs (j + 1) ls gs1 <;> simp [Except.map]
    · simp only [hd, Bool.not_false, if_true, Bool.false_eq_true, if_false]
      rw [← ih (j + 1) gs]
      cases addLines cfg sheet hs (j + 1) ls gs <;> simp [Except.map]

/-- The warnings a sheet's headings cause. -/
def dupOf (s : SheetIn) : List Warn :=
  match s.headings with
  | some hs => headingWarns s.name hs
  | none => []

/-- The run over the content of all sheets. -/
def runSheets (cfg : UnCfg) : List SheetIn → Groups → Except Err (Groups × List Warn)
  | [], gs => .ok (gs, [])
  | s :: r, gs =>
    if s.headings = some [] then runSheets cfg r gs
    else match runContent cfg s.name (content cfg.rootId s) gs with
      | .error e => .error e
      | .ok (gs1, w1) =>
        match runSheets cfg r gs1 with
        | .error e => .error e
        | .ok (gs2, w2) => .ok (gs2, dupOf s ++ (w1 ++ w2))

theorem addSheets_content (cfg : UnCfg) (ss : List SheetIn) (gs : Groups) :
    (addSheets cfg ss gs).map (fun r => (gsl bareLoc r.1, r.2)) = runSheets cfg ss (gsl bareLoc gs) := by
  induction ss generalizing gs with
  | nil => simp [addSheets, runSheets, Except.map]
  | cons s r ih =>
    simp only [addSheets, runSheets]
    split
    · exact ih gs
    · have := addLines_content cfg s.name s.headings 0 s.lines gs
      have h2 : (s.lines.filter hasData).map (fun l => ((rootCell cfg.rootId l), cellsFrom s.headings 0 l)) = content cfg.rootId s := rfl
      rw [h2] at this
      rw [← this]
      cases addLines cfg s.name s.headings 0 s.lines gs with
      | error e => simp [Except.map]
      | ok x =>
        obtain ⟨g1, w1⟩ := x
        simp only [Except.map]
        rw [← ih g1]
        cases addSheets cfg r g1 with
        | error e => simp [Except.map]
        | ok y => simp [Except.map, dupOf]; rfl

theorem jgs_gsl (g : Loc → Loc) (gs : Groups) : jgs (gsl g gs) = jgs gs := by
  unfold jgs gsl
  induction gs with
  | nil => rfl
  | cons e r ih =>
    simp only [List.map_cons, List.flatMap_cons, ih]
    simp only [TDict.reloc, jtd, jK_tlK, jI_tlI]

theorem unflatten_content (cfg : UnCfg) (ss : List SheetIn) :
    unflatten cfg ss = (runSheets cfg ss []).map (fun r => (jgs r.1, r.2)) := by
  have h := addSheets_content cfg ss []
  simp only [gsl, List.map_nil] at h
  rw [← h]
  unfold unflatten doUnflatten
  cases addSheets cfg ss [] with
  | error e => simp [Except.map]
  | ok r =>
    simp only [Except.map, jgs_eq]
    have := jgs_gsl bareLoc r.1
    unfold gsl at this
    rw [this]

/-- Sheets that differ only in blanks run alike. -/
theorem runSheets_congr (cfg : UnCfg) {ss ss' : List SheetIn} (h : All₂ (SameButBlanks cfg.rootId) ss ss') (gs : Groups) :
    (runSheets cfg ss gs).map (fun r => (r.1, r.2.filter (fun w => !aboutDuplicates w))) =
      (runSheets cfg ss' gs).map (fun r => (r.1, r.2.filter (fun w => !aboutDuplicates w))) := by
  induction h generalizing gs with
  | nil => rfl
  | @cons s s' r r' h1 _ ih =>
    simp only [runSheets]
    by_cases he : s.headings = some []
    · rw [if_pos he, if_pos (h1.headed.1 he)]; exact ih gs
    · rw [if_neg he, if_neg (fun h => he (h1.headed.2 h)), h1.name, h1.content]
      cases runContent cfg s'.name (content cfg.rootId s') gs with
      | error e => rfl
      | ok x =>
        obtain ⟨g1, w1⟩ := x
        simp only
        have := ih g1
        have hd : ∀ s, (dupOf s).filter (fun w => !aboutDuplicates w) = [] := by
          intro s
          unfold dupOf
          cases s.headings with
          | none => rfl
          | some hs =>
            simp only [headingWarns, List.filter_eq_nil_iff, List.mem_filterMap]
            rintro w ⟨e, _, h⟩
            split at h
            · cases h; simp [aboutDuplicates]
            · cases h
        cases h1 : runSheets cfg r g1 with
        | error e =>
          cases h2 : runSheets cfg r' g1 with
          | error e => rw [h1, h2] at this; simpa [Except.map] using this
          | ok y => rw [h1, h2] at this; simp [Except.map] at this
        | ok x =>
          cases h2 : runSheets cfg r' g1 with
          | error e => rw [h1, h2] at this; simp [Except.map] at this
          | ok y =>
            rw [h1, h2] at this
            simp only [Except.map, Except.ok.injEq, Prod.mk.injEq] at this ⊢
            refine ⟨this.1, ?_⟩
            simp only [List.filter_append, hd, this.2]

theorem runSheets_congr' (cfg : UnCfg) {ss ss' : List SheetIn}
    (h : All₂ (fun s s' => SameButBlanks cfg.rootId s s' ∧ s.headings = s'.headings) ss ss') (gs : Groups) :
    runSheets cfg ss gs = runSheets cfg ss' gs := by
  induction h generalizing gs with
  | nil => rfl
  | @cons s s' r r' h1 _ ih =>
    simp only [runSheets, dupOf]
    rw [h1.1.name, h1.1.content, h1.2]
    split
    · exact ih gs
    · cases runContent cfg s'.name (content cfg.rootId s') gs with
      | error e => rfl
      | ok x => simp only [ih x.1]

end Verif

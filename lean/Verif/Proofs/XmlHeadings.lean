import Verif.Spec.XmlHeadings
import Verif.Proofs.XmlRows
import Verif.Proofs.Objects
/-! A run in XML mode is a run in JSON mode with the headings of texts. -/
namespace Verif
open Spec Xml

theorem attribute_not_int {k : Str} (h : isAttribute k = true) : k ≠ [] := by
  rintro rfl; cases h

theorem attr_not_int (r : Str) : isint ('@' :: r) = false := by
  have h0 : Py.isIntSpace '@' = false := by decide
  have h1 : ∃ t, Py.strip Py.isIntSpace ('@' :: r) = '@' :: t := by
    unfold Py.strip
    rw [show Py.lstrip Py.isIntSpace ('@' :: r) = '@' :: r by simp [Py.lstrip, List.dropWhile, h0]]
    rw [Py.rstrip]
    cases Py.rstrip Py.isIntSpace r with
    | nil => exact ⟨[], by simp [h0]⟩
    | cons a b => exact ⟨a :: b, rfl⟩
  obtain ⟨t, ht⟩ := h1
  have h2 : Py.digitVal '@' = none := by decide
  rw [isint_int]
  unfold Py.int?
  rw [ht]
  simp [Py.digitsAux, h2]

theorem int_not_attr {s : Str} (h : isint s = true) : isAttribute s = false := by
  cases hh : isAttribute s with
  | false => rfl
  | true =>
    exfalso
    cases s with
    | nil => cases hh
    | cons c r =>
      simp only [isAttribute, List.head?_cons, Option.some.injEq, decide_eq_true_eq] at hh
      subst hh
      rw [attr_not_int] at h
      cases h

/-- The heading ends with an attribute or an id. -/
def EndsPlain (n : Str) (ps : List Str) : Prop := isAttribute (ps.getLast?.getD []) = true ∨ ps.getLast?.getD [] = n

theorem endsPlain_cons {n k a : Str} {r : List Str} : EndsPlain n (k :: a :: r) ↔ EndsPlain n (a :: r) := by
  unfold EndsPlain
  rw [List.getLast?_cons_cons]

theorem xmlParts_comps {n : Str} (hn : IdName n) : (ps : List Str) → XmlParts n ps →
    (EndsPlain n ps → XComps n ps ps) ∧ (¬ EndsPlain n ps → XComps n ps (ps ++ [s%"text()"]))
  | [], h => h.elim
  | [k], h => by
    obtain ⟨hi, h⟩ := h
    by_cases ha : isAttribute k = true
    · exact ⟨fun _ => .attr ha hi, fun hc => absurd (.inl ha) hc⟩
    · by_cases hk : k = n
      · exact ⟨fun _ => by rw [hk]; exact .id hn.2.2.2, fun hc => absurd (.inr hk) hc⟩
      · refine ⟨fun hc => (hc.elim ha hk).elim, fun _ => ?_⟩
        rcases h with h | h | h
        · exact absurd h ha
        · exact absurd h hk
        · exact .text h hi
  | k :: s :: rest, h => by
    obtain ⟨ht, hi, h⟩ := h
    by_cases hs : isint s = true
    · rw [if_pos hs] at h
      rcases h with rfl | h
      · have h1 := int_not_attr hs
        have h2 : s ≠ n := by rintro rfl; rw [hn.2.2.2] at hs; cases hs
        refine ⟨fun hc => ?_, fun _ => .itemText ht hi hs⟩
        rcases hc with hc | hc
        · simp only [List.getLast?_cons_cons, List.getLast?_singleton, Option.getD_some, h1] at hc
          cases hc
        · exact absurd hc h2
      · obtain ⟨i1, i2⟩ := xmlParts_comps hn rest h
        cases rest with
        | nil => exact h.elim
        | cons a b =>
          have he : EndsPlain n (k :: s :: a :: b) ↔ EndsPlain n (a :: b) := endsPlain_cons.trans endsPlain_cons
          exact ⟨fun hc => .item ht hi hs (by simp) (i1 (he.1 hc)), fun hc => .item ht hi hs (by simp) (i2 (fun h => hc (he.2 h)))⟩
    · rw [if_neg hs] at h
      obtain ⟨i1, i2⟩ := xmlParts_comps hn (s :: rest) h
      have hs' : isint s = false := by simpa using hs
      have hse : s ≠ [] := by
        cases rest with
        | nil =>
          rcases h.2 with h | h | h
          · exact attribute_not_int h
          · rw [h]; exact hn.1
          · exact h.1
        | cons a b => exact h.1.1
      exact ⟨fun hc => .field ht hi hs' hse (i1 (endsPlain_cons.1 hc)), fun hc => .field ht hi hs' hse (i2 (fun h => hc (endsPlain_cons.2 h)))⟩

theorem split_snoc {sep : Char} (a b : Str) (h : sep ∉ b) : Py.split sep (a ++ sep :: b) = Py.split sep a ++ [b] := by
  induction a with
  | nil => simp [Py.split, Py.split_no_sep h]
  | cons c a ih =>
    simp only [List.cons_append, Py.split]
    rw [ih]
    split
    · rfl
    · cases hs : Py.split sep a with
      | nil => exact absurd hs (Py.split_ne_nil _ _)
      | cons w ws => rfl

theorem pathList_text (h : Str) : pathList (h ++ s%"/text()") = pathList h ++ [s%"text()"] := by
  unfold pathList
  rw [show h ++ s%"/text()" = h ++ '/' :: s%"text()" from rfl, split_snoc h _ (by decide), List.map_append]
  rfl

theorem textHeading_comps {n : Str} (hn : IdName n) {h : Str} (hp : XmlParts n (pathList h)) : XComps n (pathList h) (pathList (textHeading n h)) := by
  obtain ⟨h1, h2⟩ := xmlParts_comps hn _ hp
  unfold textHeading
  by_cases hc : EndsPlain n (pathList h)
  · have hc' : isAttribute ((pathList h).getLast?.getD []) = true ∨ (pathList h).getLast?.getD [] = n := hc
    simp only [if_pos hc']; exact h1 hc
  · have hc' : ¬ (isAttribute ((pathList h).getLast?.getD []) = true ∨ (pathList h).getLast?.getD [] = n) := hc
    simp only [if_neg hc', pathList_text]; exact h2 hc

theorem cells_texts {n : Str} (hn : IdName n) {conv : ConvEnv} {sheet : Str} {hs : List (Option Str)} {j : Nat} {l : Line} (h : XmlLine conv n l) (k : Nat) :
    XCells n conv (lineCells sheet (some hs) j k l) (lineCells sheet (some hs) j k (textHeadings n l)) := by
  induction l generalizing k with
  | nil => exact .nil
  | cons c l ih =>
    obtain ⟨o, a⟩ := c
    have ih := ih (fun c hc => h c (by simp [hc])) (k + 1)
    by_cases hb : a.blank = true
    · exact XCells.blank hb ih
    · have hb' : a.blank = false := by simpa using hb
      obtain ⟨⟨g, h1, h2⟩, h3, h4⟩ := h (o, a) (by simp) hb'
      simp only at h1
      subst h1
      exact XCells.cell ⟨⟨a, rfl, hb', h3, h4⟩, rfl⟩ (textHeading_comps hn h2) ih

/-! ### Warnings of a row -/

theorem convert_between {env : ConvEnv} {ty : CType} {a : Atom} {v : Val} {w : List Warn} (h : convertType env ty a = .ok (v, w)) : ∀ x ∈ w, ¬ betweenRows x := by
  unfold convertType at h
  split at h
  · cases h; simp
  · cases ty <;> simp only at h <;> (repeat' split at h) <;> first | (cases h; done) | (cases h; simp [betweenRows])

theorem mapW_between {f : RFields → RFields} {w : List Warn} (hw : ∀ x ∈ w, ¬ betweenRows x) {r : Except Err (RFields × List Warn)}
    (hr : ∀ c u, r = .ok (c, u) → ∀ x ∈ u, ¬ betweenRows x) {c : RFields} {u : List Warn} (h : mapW f w r = .ok (c, u)) : ∀ x ∈ u, ¬ betweenRows x := by
  cases r with
  | error e => cases h
  | ok p =>
    obtain ⟨c0, u0⟩ := p
    simp only [mapW, Except.ok.injEq, Prod.mk.injEq] at h
    obtain ⟨-, rfl⟩ := h
    intro x hx
    rcases List.mem_append.1 hx with hx | hx
    · exact hw x hx
    · exact hr _ _ rfl x hx

theorem placeLeaf_between {cfg : RowCfg} {ty : Option CType} {till item : Str} {cell cell' : Cell} {cur cur' : RFields} {w : List Warn}
    (h : placeLeaf cfg ty till item cell cur = .ok (cur', cell', w)) : ∀ x ∈ w, ¬ betweenRows x := by
  unfold placeLeaf at h
  split at h
  · cases h; simp [betweenRows]
  · split at h
    · cases h
    · next v u hc =>
      have hu : ∀ x ∈ u, ¬ betweenRows x := by
        unfold convertCell at hc
        split at hc
        · exact convert_between hc
        · cases hc; simp
      simp only at h
      split at h
      · cases h; exact hu
      · split at h
        · cases h
        · cases h; exact hu

theorem place_between {cfg : RowCfg} {path : Str} (comps : List Str) : ∀ {pre : List Str} {cell : Cell} {cur cur' : RFields} {w : List Warn},
    place cfg path pre comps cell cur = .ok (cur', w) → ∀ x ∈ w, ¬ betweenRows x := by
  induction comps with
  | nil => intro pre cell cur cur' w h; rw [place] at h; cases h; simp
  | cons item rest ih =>
    intro pre cell cur cur' w h
    rw [place] at h
    split at h
    · refine mapW_between ?_ (fun c u hu => ih hu) h
      split <;> simp [betweenRows]
    · simp only at h
      split at h
      · cases h
      · split at h
        · split at h
          · cases h; simp [betweenRows]
          · split at h
            · exact mapW_between (by simp) (fun c u hu => ih hu) h
            · split at h
              · cases h
              · next hp => exact mapW_between (placeLeaf_between hp) (fun c u hu => ih hu) h
        · split at h
          · split at h
            · cases h; simp [betweenRows]
            · exact mapW_between (by simp) (fun c u hu => ih hu) h
          · split at h
            · cases h
            · split at h
              · cases h
              · next hp => exact mapW_between (placeLeaf_between hp) (fun c u hu => ih hu) h

theorem placeAll_between {cfg : RowCfg} (cells : List (Str × Cell)) : ∀ {cur cur' : RFields} {w : List Warn}, placeAll cfg cells cur = .ok (cur', w) → ∀ x ∈ w, ¬ betweenRows x := by
  induction cells with
  | nil => intro cur cur' w h; rw [placeAll] at h; cases h; simp
  | cons e rest ih =>
    intro cur cur' w h
    obtain ⟨p, c⟩ := e
    rw [placeAll] at h
    split at h
    · exact ih h
    · split at h
      · cases h
      · next h1 =>
        split at h
        · cases h
        · next h2 =>
          cases h
          intro x hx
          rcases List.mem_append.1 hx with hx | hx
          · exact place_between _ h1 x hx
          · exact ih h2 x hx

theorem row_between {cfg : UnCfg} {r : RowIn} {y : Row} (h : rowAlone cfg r = .ok y) : ∀ x ∈ y.warns, ¬ betweenRows x := by
  unfold rowAlone unflattenRow at h
  split at h
  · cases h
  · next hu =>
    cases h
    split at hu
    · cases hu
    · next hp =>
      split at hu
      · cases hu
      · cases hu
        exact placeAll_between _ hp

/-! ### The run -/

/-- The row with the headings of texts. -/
def textRow (n : Str) (r : RowIn) : RowIn := ⟨textSheetIn n r.sheet, r.number, textHeadings n r.line⟩

theorem hasData_texts (n : Str) (l : Line) : hasData (textHeadings n l) = hasData l := by
  simp [hasData, textHeadings, List.any_map, Function.comp_def]

theorem rowsIn_texts (n : Str) (sheets : List SheetIn) : rowsIn (sheets.map (textSheetIn n)) = (rowsIn sheets).map (textRow n) := by
  unfold rowsIn
  rw [List.flatMap_map, List.map_flatMap]
  congr 1
  funext s
  by_cases hh : s.headings = some []
  · simp [textSheetIn, hh]
  · rw [if_neg hh, if_neg (show ¬ (textSheetIn n s).headings = some [] from hh)]
    simp only [textSheetIn, List.zipIdx_map, List.filter_map, List.map_map, Function.comp_def, hasData_texts, Prod.map_fst, id]
    rfl

theorem row_texts {n : Str} (hn : IdName n) {cfg cfg' : UnCfg} (hc : XRun n cfg cfg') {r : RowIn} (hh : r.sheet.headings ≠ none) (h : XmlLine cfg.row.conv n r.line) {y : Row}
    (hy : rowAlone cfg' (textRow n r) = .ok y) (hw : y.warns = []) : rowAlone cfg r = .ok (wRow n y) := by
  unfold rowAlone at hy ⊢
  rw [hc.name'] at hy
  rw [hc.name]
  cases hs : r.sheet.headings with
  | none => exact absurd hs hh
  | some hs' =>
    cases hu : unflattenRow cfg'.row (some n) (lineCells (textRow n r).sheet.name (textRow n r).sheet.headings (textRow n r).number 0 (textRow n r).line) with
    | error e => rw [hu] at hy; cases hy
    | ok p =>
      obtain ⟨fs, w⟩ := p
      rw [hu] at hy
      simp only [Except.ok.injEq] at hy
      subst hy
      simp only at hw
      subst hw
      have hcells : XCells n cfg.row.conv (lineCells r.sheet.name (some hs') r.number 0 r.line)
          (lineCells (textRow n r).sheet.name (textRow n r).sheet.headings (textRow n r).number 0 (textRow n r).line) := by
        have : (textRow n r).sheet.headings = some hs' := hs
        rw [this]
        exact cells_texts hn h 0
      rw [unflattenRow_sim ⟨hn.2.1, hn.2.2.1⟩ hc.xml hc.json hc.types hc.types' hc.conv hcells hu]
      simp [wRow, textRow, textSheetIn, rootKey, hc.root, hc.root']

theorem rows_texts {n : Str} (hn : IdName n) {cfg cfg' : UnCfg} (hc : XRun n cfg cfg') (rs : List RowIn) (hh : ∀ r ∈ rs, r.sheet.headings ≠ none)
    (h : ∀ r ∈ rs, XmlLine cfg.row.conv n r.line) : ∀ {ys : List Row}, rowsAlone cfg' (rs.map (textRow n)) = .ok ys → (∀ y ∈ ys, y.warns = []) →
    rowsAlone cfg rs = .ok (ys.map (wRow n)) := by
  induction rs with
  | nil => intro ys hy _; cases hy; rfl
  | cons r rs ih =>
    intro ys hy hw
    simp only [List.map_cons, rowsAlone] at hy ⊢
    cases h1 : rowAlone cfg' (textRow n r) with
    | error e => rw [h1] at hy; cases hy
    | ok y =>
      rw [h1] at hy
      cases h2 : rowsAlone cfg' (rs.map (textRow n)) with
      | error e => rw [h2] at hy; cases hy
      | ok ys' =>
        rw [h2] at hy
        cases hy
        rw [row_texts hn hc (hh r (by simp)) (h r (by simp)) h1 (hw y (by simp)),
          ih (fun r hr => hh r (by simp [hr])) (fun r hr => h r (by simp [hr])) h2 (fun y hy => hw y (by simp [hy]))]
        rfl

mutual
theorem idElements_w (n : Str) : ∀ j : Json, idElements n j = wJ n j
  | .leaf a => by rw [idElements, wJ]
  | .obj fs => by rw [idElements, wJ, idElementsF_w n fs]
  | .arr l => by rw [idElements, wJ, idElementsI_w n l]
theorem idElementsF_w (n : Str) : ∀ fs : List (Str × Json), idElementsF n fs = wJF n fs
  | [] => by rw [idElementsF, wJF]
  | (k, v) :: r => by
    rw [idElementsF, wJF, idElements_w n v, idElementsF_w n r]
    by_cases hk : k = n <;> simp [underJ, hk]
theorem idElementsI_w (n : Str) : ∀ l : List Json, idElementsI n l = wJI n l
  | [] => by rw [idElementsI, wJI]
  | v :: r => by rw [idElementsI, wJI, idElements_w n v, idElementsI_w n r]
end

theorem xrun_json {n : Str} {cfg : UnCfg} (hu : PlainXmlUnflatten n cfg) : XRun n cfg (jsonMode cfg) :=
  ⟨hu.xml, rfl, hu.types, hu.types, rfl, hu.idName, hu.idName, hu.rootId, hu.rootId⟩

end Verif

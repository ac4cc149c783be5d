import Verif.Proofs.XmlRows
import Verif.Props.RoundTrip
import Verif.Proofs.XmlDoc
import Verif.Model.FlattenMain
import Verif.Proofs.DecEq
import Verif.Proofs.DecXml
/-! C73: XML data that is flattened, written, read and unflattened comes back. -/
namespace Verif
open Spec Xml Api

/-- The rows of XML data, as rows of JSON data. -/
theorem rows_json {n : Str} {xml json : List Json} (hx : XmlRoot n xml json) {cfg cfg' : UnCfg} (hc : XRun n cfg cfg')
    (hrd : (xmlTrip cfg.row.conv n).Reads cfg') (hf : (xmlTrip cfg.row.conv n).FitsRoot json) :
    ∀ (ss : List Spot) (rs : List RowIn), (∀ s ∈ ss, s ∈ spots (xmlTrip cfg.row.conv n) json) →
    All₂ (xmlTrip cfg.row.conv n).ReadBack (ss.map (fun s => dropLine (spotLine (xmlTrip cfg.row.conv n) s))) (rs.map (·.line)) →
    ∃ rs', All₂ (xmlTrip cfg.row.conv n).ReadBack (ss.map (spotLine (xmlTrip cfg.row.conv n))) (rs'.map (·.line)) ∧
      ∀ ys, rowsAlone cfg' rs' = .ok ys → rowsAlone cfg rs = .ok (ys.map (wRow n)) := by
  have hn : isAttribute n = false ∧ n ≠ s%"text()" := ⟨hx.idName.1, hx.idName.2.2⟩
  intro ss
  induction ss with
  | nil =>
    intro rs _ hr
    cases rs with
    | cons _ _ => cases hr
    | nil =>
      refine ⟨[], .nil, ?_⟩
      intro ys hy
      cases hy
      rfl
  | cons s ss ih =>
    intro rs hm hr
    cases rs with
    | nil => cases hr
    | cons r rs =>
      simp only [List.map_cons] at hr
      cases hr with
      | cons h1 h2 =>
        obtain ⟨rs', h3, h4⟩ := ih rs (fun x hx => hm x (by simp [hx])) h2
        have hs := hm s (by simp)
        have ht := textLine hx hf hs
        have hb := (readBack_json hn.1 ht h1).1
        refine ⟨jsonRow (spotLine (xmlTrip cfg.row.conv n) s) r :: rs', .cons hb h3, ?_⟩
        intro ys hy
        simp only [rowsAlone] at hy ⊢
        cases h5 : rowAlone cfg' (jsonRow (spotLine (xmlTrip cfg.row.conv n) s) r) with
        | error e => rw [h5] at hy; cases hy
        | ok y =>
          rw [h5] at hy
          cases h6 : rowsAlone cfg' rs' with
          | error e => rw [h6] at hy; cases hy
          | ok ys' =>
            rw [h6] at hy
            cases hy
            have h7 := row_quiet hrd hf hs hb h5
            rw [row_sim hn hc ht h1 h5 h7, h4 _ h6]
            rfl

/-- C73: XML data (as `xmltodict` gives it) that fits is flattened; and whenever sheets have the data of the lines of all the flattened sheets (in any
order and arrangement of lines, columns and sheets), unflattening them in XML mode succeeds and gives the data, up to the order of
attributes, elements and items; the text of an element is under `text()`, where the XML writer looks for it. -/
theorem C73_xml_round_trip (n : Str) (fcfg : FCfg) (ucfg : UnCfg) (hf : PlainXmlFlatten n fcfg) (hu : PlainXmlUnflatten n ucfg)
    (xml json : List Json) (hx : XmlRoot n xml json) (hfit : (xmlTrip ucfg.row.conv n).FitsRoot json) :
    ∃ st, flatten fcfg xml = .ok st ∧
      ∀ (lines : List FLine) (sheets : List SheetIn), lines.Perm ((sheetsOf st).flatMap (·.lines)) →
        All₂ (xmlTrip ucfg.row.conv n).ReadBack lines ((rowsIn sheets).map (·.line)) →
        ∃ out w, unflatten ucfg sheets = .ok (out, w) ∧ Rearranged (.arr (withTextI xml)) (.arr out) := by
  have hgood : n ≠ [] ∧ '/' ∉ n ∧ n ≠ s%"0" := by
    have := hfit.idName
    refine ⟨this.1, this.2.1, ?_⟩
    rintro rfl
    have h0 : Py.int? s%"0" = none := this.2.2.1
    exact absurd h0 (by decide)
  obtain ⟨st, st', h1, h2, h3⟩ := xml_lines (cfg' := { fcfg with xml := false }) ⟨hf, rfl, hx.idName, hgood⟩ hx
  refine ⟨st, h1, ?_⟩
  intro lines sheets hperm hread
  have hsp : FromSchemaParser { fcfg with xml := false } := by
    intro sp hsp
    rw [show ({ fcfg with xml := false } : FCfg).schema = fcfg.schema from rfl, hf.schema] at hsp
    cases hsp
  have h4 := all_lines (cfg := { fcfg with xml := false }) ⟨hf.titles, hf.wkt, rfl, hf.rollup⟩ hf.filter hf.preserve hsp h2
  have hopt : idOpts { fcfg with xml := false } = ⟨(xmlTrip ucfg.row.conv n).idName, (xmlTrip ucfg.row.conv n).rootId⟩ := by
    simp [idOpts, hf.idName, hf.rootId, xmlTrip]
  rw [hopt] at h4
  have h5 := h4.trans (spots_lines (xmlTrip ucfg.row.conv n) json).symm
  rw [h3] at hperm
  have h6 := hperm.trans (h5.map dropLine)
  rw [List.map_map] at h6
  obtain ⟨ss, hss, rfl⟩ := perm_map_lift h6 (l := spots (xmlTrip ucfg.row.conv n) json) rfl
  have hrun : XRun n ucfg { ucfg with row := { ucfg.row with xml := false } } :=
    ⟨hu.xml, rfl, hu.types, hu.types, rfl, hu.idName, hu.idName, hu.rootId, hu.rootId⟩
  have hrd : (xmlTrip ucfg.row.conv n).Reads { ucfg with row := { ucfg.row with xml := false } } := ⟨rfl, hu.types, rfl, hu.idName, hu.rootId⟩
  obtain ⟨rs', h7, h8⟩ := rows_json hx hrun hrd hfit ss (rowsIn sheets) (fun s hs => hss.mem_iff.1 hs) hread
  obtain ⟨ys, xs, gs, t, g2, g3, g4, g5, g6, g7, g8⟩ := spots_run hrd hfit hss h7
  obtain ⟨mw, h9⟩ := foldRows_w hrun ys g3
  obtain ⟨w, h10, _⟩ := doUnflatten_of_rows (h8 ys g2) h9
  have hran : Ran (xmlTrip ucfg.row.conv n) json ss xs t := ⟨hfit, hss, g4, g6, g7, g8⟩
  refine ⟨listToValue (groupsToList (wG n gs)), w, ?_, ?_⟩
  · simp only [unflatten]
    rw [h10]
  rw [value_wG, withText_items hx.idName hx.items]
  have := rearranged_w (n := n) (hran.back g5)
  simp only [wJ] at this
  exact this

/-! ### XML documents -/

/-- The elements of the root list, as they are read. -/
theorem parsed_get {tag : Str} (cs : List Elem) : ∀ {fs : List (Str × Json)} {L : List Json}, Dict.get fs tag = (if L = [] then none else some (.arr L)) →
    Dict.get (parsedChildren (some tag) fs cs) tag =
      (if L ++ (cs.filter (fun c => c.tag = tag)).map (parsed (some tag)) = [] then none
        else some (.arr (L ++ (cs.filter (fun c => c.tag = tag)).map (parsed (some tag))))) := by
  induction cs with
  | nil => intro fs L h; rw [parsedChildren]; simpa using h
  | cons c cs ih =>
    intro fs L h
    rw [parsedChildren]
    by_cases hc : c.tag = tag
    · have h1 : Dict.get (push (some tag) fs c.tag (parsed (some tag) c)) tag =
          (if L ++ [parsed (some tag) c] = [] then none else some (.arr (L ++ [parsed (some tag) c]))) := by
        rw [if_neg (by simp), hc]
        unfold push
        by_cases hL : L = []
        · subst hL
          rw [if_pos rfl] at h
          rw [h]
          simp [Dict.get_append, h, Dict.get_cons]
        · rw [if_neg hL] at h
          rw [h]
          simp only [Dict.get_set_same]
      rw [ih h1]
      simp [List.filter_cons, hc]
    · have h1 : Dict.get (push (some tag) fs c.tag (parsed (some tag) c)) tag = (if L = [] then none else some (.arr L)) := by
        rw [← h]
        unfold push
        split
        · simp [Dict.get_append, Dict.get_cons, hc]
        · exact Dict.get_set_other _ _ hc
        · exact Dict.get_set_other _ _ hc
      rw [ih h1]
      simp [List.filter_cons, hc]

theorem wrapped_get {w : List Str → Prop} {p : List Str} {k : Str} : {fs gs : List (Str × Json)} → WrappedFields w p fs gs →
    (Dict.get fs k = none ∧ Dict.get gs k = none) ∨ ∃ v u, Dict.get fs k = some v ∧ Dict.get gs k = some u ∧ Wrapped w (p ++ [k]) v u
  | _, _, .nil => .inl ⟨rfl, rfl⟩
  | _, _, .cons (k := k') h hr => by
    simp only [Dict.get_cons]
    by_cases he : k' = k
    · subst he
      simp only [if_true]
      exact .inr ⟨_, _, rfl, rfl, h⟩
    · simp only [if_neg he]
      exact wrapped_get hr

theorem wrapped_shows {w : List Str → Prop} {p : List Str} {tk : Str} (ht : isAttribute tk = false) : (cs : List Elem) → {l m : List Json} → WrappedItems w p l m →
    All₂ (fun j c => ∃ fs, j = .obj fs ∧ Shows tk fs c) l cs → All₂ (fun j c => ∃ fs, j = .obj fs ∧ Shows tk fs c) m cs
  | [], _, _, h, g => by cases g; cases h; exact .nil
  | c :: cs, _, _, h, g => by
    cases g with
    | cons g1 g2 =>
      obtain ⟨fs, rfl, g1⟩ := g1
      cases h with
      | dict h1 h2 => exact .cons ⟨_, rfl, shows_rel (keeps_wrap ht) ⟨_, _, h1⟩ c g1⟩ (wrapped_shows ht cs h2 g2)

/-- What is read of the elements of the root list. -/
theorem read_shows {valid : Str → List (Str × Str) → Bool} {q : Str → Str} {tag : Str} (htag : isAttribute tag = false ∧ tag ≠ s%"#text" ∧ '/' ∉ tag ∧ Py.endsWith s%"[]" tag = false)
    {e : Elem} (hd : ∀ c ∈ e.children, c.tag = tag → XmlDoc valid q c ∧ Filled c) {xml : List Json}
    (h : rootItems true (some tag) (parsed (some tag) e) = .ok xml) :
    All₂ (fun j c => ∃ fs, j = .obj fs ∧ Shows s%"#text" fs c) xml (e.children.filter (fun c => c.tag = tag)) := by
  obtain ⟨t, a, x, cs⟩ := e
  simp only [Elem.children] at hd ⊢
  obtain ⟨fs, hfs, hpar⟩ : ∃ fs, (match stripText x with
      | none => parsedChildren (some tag) (atAttribs a) cs
      | some t => push (some tag) (parsedChildren (some tag) (atAttribs a) cs) s%"#text" (.leaf (.str t))) = fs ∧
      parsed (some tag) (.mk t a x cs) = if fs = [] then .leaf .none else .obj fs := ⟨_, rfl, by rw [parsed]; cases stripText x <;> rfl⟩
  rw [hpar] at h
  have hat : Dict.get (atAttribs a) tag = none := by
    rw [Dict.get_none_iff]
    intro hm
    obtain ⟨f, hf, e⟩ := List.mem_map.1 hm
    obtain ⟨p, _, rfl⟩ := List.mem_map.1 hf
    rw [← e] at htag
    exact absurd htag.1 (by simp [isAttribute])
  have h0 := parsed_get (tag := tag) cs (fs := atAttribs a) (L := []) hat
  simp only [List.nil_append] at h0
  have h1 : Dict.get fs tag = Dict.get (parsedChildren (some tag) (atAttribs a) cs) tag := by
    rw [← hfs]
    split
    · rfl
    · unfold push
      have hne : s%"#text" ≠ tag := Ne.symm htag.2.1
      split
      · simp [Dict.get_append, Dict.get_cons, hne]
      · exact Dict.get_set_other _ _ hne
      · exact Dict.get_set_other _ _ hne
  rw [h0] at h1
  have hsh : All₂ (fun j c => ∃ fs, j = .obj fs ∧ Shows s%"#text" fs c) ((cs.filter (fun c => c.tag = tag)).map (parsed (some tag))) (cs.filter (fun c => c.tag = tag)) := by
    have : ∀ l : List Elem, (∀ c ∈ l, XmlDoc valid q c ∧ Filled c) → All₂ (fun j c => ∃ fs, j = .obj fs ∧ Shows s%"#text" fs c) (l.map (parsed (some tag))) l := by
      intro l
      induction l with
      | nil => intro _; exact .nil
      | cons c r ih =>
        intro hl
        obtain ⟨g1, g2⟩ := hl c (by simp)
        refine .cons (parsed_shows (by simpa using htag.2.1) c g1 g2) (ih (fun c hc => hl c (by simp [hc])))
    refine this _ ?_
    intro c hc
    rw [List.mem_filter] at hc
    exact hd c hc.1 (by simpa using hc.2)
  by_cases hnil : fs = []
  · rw [if_pos hnil] at h
    simp [rootItems] at h
  · rw [if_neg hnil] at h
    simp only [rootItems, if_true] at h
    have hsplit : Py.split '/' tag = [tag] := Py.split_no_sep htag.2.2.1
    rw [hsplit] at h
    simp only [pathSearch, htag.2.2.2, Bool.false_eq_true, if_false] at h
    rcases wrapped_get (k := tag) (C45_wrapped fs) with ⟨g1, g2⟩ | ⟨v, u, g1, g2, g3⟩
    · rw [g2] at h
      simp only [iterate, List.map_nil, Except.ok.injEq] at h
      subst h
      rw [g1] at h1
      split at h1
      · rename_i hl
        have : cs.filter (fun c => c.tag = tag) = [] := by simpa using hl
        rw [this]
        exact .nil
      · cases h1
    · rw [g2] at h
      rw [g1] at h1
      split at h1
      · cases h1
      · cases h1
        cases g3 with
        | list hi =>
          simp only [iterate, Except.ok.injEq] at h
          subst h
          exact wrapped_shows (by decide) _ hi hsh

theorem text_shows {n : Str} (hn : n ≠ s%"#text" ∧ n ≠ s%"text()") : {l m : List Json} → XmlItems n l m → (cs : List Elem) →
    All₂ (fun j c => ∃ fs, j = .obj fs ∧ Shows s%"#text" fs c) l cs → All₂ (fun j c => ∃ fs, j = .obj fs ∧ Shows s%"text()" fs c) (withTextI l) cs
  | _, _, .nil, cs, h => by cases h; simp only [withTextI]; exact .nil
  | _, _, .cons h1 h2, _, .cons (b := c) (m := cs) g1 g2 => by
    obtain ⟨fs, e, g1⟩ := g1
    cases e
    simp only [withTextI, withText]
    exact .cons ⟨_, rfl, shows_rel (keeps_text hn) ⟨rfl, _, h1⟩ c g1⟩ (text_shows hn h2 cs g2)

theorem order_shows {tk : Str} (ht : isAttribute tk = false) : (cs : List Elem) → {l m : List Json} → RearrangedItems l m →
    All₂ (fun j c => ∃ fs, j = .obj fs ∧ Shows tk fs c) l cs → All₂ (fun j c => ∃ fs, j = .obj fs ∧ Shows tk fs c) m cs
  | [], _, _, h, g => by cases g; cases h; exact .nil
  | c :: cs, _, _, h, g => by
    cases g with
    | cons g1 g2 =>
      obtain ⟨fs, rfl, g1⟩ := g1
      cases h with
      | cons h1 h2 =>
        cases h1 with
        | obj hf hp => exact .cons ⟨_, rfl, shows_rel (keeps_order ht) ⟨_, hf, hp⟩ c g1⟩ (order_shows ht cs h2 g2)

/-- The document that is written. -/
theorem write_shows {valid : Str → List (Str × Str) → Bool} {tag rt : Str} (htag : isAttribute tag = false ∧ tag ≠ s%"text()")
    {cs : List Elem} (ht : ∀ c ∈ cs, c.tag = tag) (hd : XmlDoc valid (qualify startNs) (.mk rt [] none cs)) {hs out : List Json}
    (h : All₂ (fun j c => ∃ fs, j = .obj fs ∧ Shows s%"text()" fs c) hs cs) (hp : hs.Perm out) (order : Option Order) :
    ∃ e', toXml valid [(tag, .arr out)] rt order = .ok e' ∧ SameXml (qualify startNs) (.mk rt [] none cs) e' := by
  have hobj : ∀ x ∈ hs, ∃ g, x = .obj g := by
    intro x hx
    obtain ⟨c, _, fs, e, _⟩ := all₂_left h x hx
    exact ⟨fs, e⟩
  have hshow : Shows s%"text()" [(tag, .arr out)] (.mk rt [] none cs) := by
    rw [Shows]
    refine ⟨by simp [htag.1, atAttribs], by simp [htag.2, stripText], ?_, ?_⟩
    · intro f hf _ _
      simp only [List.mem_singleton] at hf
      subst hf
      refine ⟨items_scalars.2 ?_, ?_⟩
      · intro a ha; obtain ⟨g, e⟩ := hobj _ (hp.mem_iff.2 ha); cases e
      · intro l m e hm; cases e; obtain ⟨g, e⟩ := hobj _ (hp.mem_iff.2 hm); cases e
    · refine ⟨(dictsOf (.arr hs)).map (fun g => (tag, g)), ?_, ?_⟩
      · have : kids [(tag, Json.arr out)] = (dictsOf (.arr out)).map (fun g => (tag, g)) := by simp [kids, htag.1]
        rw [this]
        exact (hp.symm.filterMap _).map _
      · rw [showsAll_iff]
        clear hp hobj hd
        induction h with
        | nil => exact .nil
        | cons h1 _ ih =>
          obtain ⟨fs, rfl, h1⟩ := h1
          exact .cons ⟨(ht _ (by simp)).symm, h1⟩ (ih (fun c hc => ht c (by simp [hc])))
  obtain ⟨h1, h2, h3⟩ := shows_render _ hd hshow
  obtain ⟨r, hr⟩ := (conversion_succeeds valid _ rt startNs h1).2 h2
  obtain ⟨e0, g1, g2⟩ := element_renders valid _ rt startNs h1 r hr
  obtain ⟨g3, g4⟩ := h3 e0 g1
  rw [if_pos g4] at g2
  subst g2
  unfold toXml
  rw [show dictToXml valid [(tag, .arr out)] rt [(s%"xml", s%"http://www.w3.org/XML/1998/namespace")] = .ok (some e0) from hr]
  cases order with
  | none => exact ⟨_, rfl, g3⟩
  | some o =>
    refine ⟨_, rfl, ?_⟩
    simp only
    obtain ⟨t0, a0, x0, cs0⟩ := e0
    cases g3 with
    | mk k1 k2 k3 k5 =>
      simp only [Elem.tag, Elem.attrib, Elem.text, Elem.children]
      have k4 : All₂ (fun c d => ∃ o, SortedAs o c d) cs0 (cs0.map (sortElement o)) := all₂_map_self (fun c => ⟨o, C44_sorted_by_schema o c⟩) cs0
      obtain ⟨ks', p1, p2⟩ := all₂_perm k3.symm k4
      exact .mk k1 (same_sorted_all cs k2 p2) p1.symm k5

/-- C73: the elements of an XML document that are in the root list (those named by the root list path) come back: read by `xmltodict`, flattened,
written to sheets, read in any arrangement, unflattened and written as XML, with or without XML schemas, they are the same elements with the same
attributes, texts and elements inside, up to order. -/
theorem C73_xml_document (valid : Str → List (Str × Str) → Bool) (n tag rt : Str) (fcfg : FCfg) (ucfg : UnCfg) (hf : PlainXmlFlatten n fcfg)
    (hu : PlainXmlUnflatten n ucfg) (htag : isAttribute tag = false ∧ tag ≠ s%"#text" ∧ tag ≠ s%"text()" ∧ '/' ∉ tag ∧ Py.endsWith s%"[]" tag = false)
    (q : Str → Str) (hq : Qualifies xmlPrefix q) (e : Elem) (hfill : ∀ c ∈ e.children, c.tag = tag → Filled c)
    (hd : XmlDoc valid q (.mk rt [] none (e.children.filter (fun c => c.tag = tag))))
    (xml json : List Json) (hread : rootItems true (some tag) (parsed (some tag) e) = .ok xml)
    (hx : XmlRoot n xml json) (hfit : (xmlTrip ucfg.row.conv n).FitsRoot json) :
    ∃ st, flatten fcfg xml = .ok st ∧
      ∀ (lines : List FLine) (sheets : List SheetIn), lines.Perm ((sheetsOf st).flatMap (·.lines)) →
        All₂ (xmlTrip ucfg.row.conv n).ReadBack lines ((rowsIn sheets).map (·.line)) →
        ∃ out w, unflatten ucfg sheets = .ok (out, w) ∧
          ∀ order, ∃ e', toXml valid [(tag, .arr out)] rt order = .ok e' ∧
            SameXml q (.mk rt [] none (e.children.filter (fun c => c.tag = tag))) e' := by
  rw [show q = qualify startNs from qualifies_eq hq] at hd ⊢
  obtain ⟨st, h1, h2⟩ := C73_xml_round_trip n fcfg ucfg hf hu xml json hx hfit
  refine ⟨st, h1, ?_⟩
  intro lines sheets hp hr
  obtain ⟨out, w, h3, h4⟩ := h2 lines sheets hp hr
  refine ⟨out, w, h3, ?_⟩
  intro order
  have hdc : ∀ c ∈ e.children, c.tag = tag → XmlDoc valid (qualify startNs) c ∧ Filled c := by
    intro c hc ht
    refine ⟨?_, hfill c hc ht⟩
    cases hd with
    | mk _ _ _ _ h5 => exact h5 c (List.mem_filter.2 ⟨hc, by simpa using ht⟩)
  have h5 := read_shows ⟨htag.1, htag.2.1, htag.2.2.2⟩ hdc hread
  have h6 := text_shows hx.idName.2 hx.items _ h5
  cases h4 with
  | arr hi hperm =>
    exact write_shows ⟨htag.1, htag.2.2.1⟩ (fun c hc => by simpa using (List.mem_filter.1 hc).2) hd (order_shows (by decide) _ hi h6) hperm order

/-! ### An example -/

/-- `<list version="1"><act xml:lang="en"><id>A1</id><title><nar> Hi </nar></title><sec code="1">x</sec><sec code="2"/></act>
<act><id>A2</id><sec code="1"/></act></list>` -/
def xmlEx : Elem := .mk s%"list" [(s%"version", s%"1")] none [
  .mk s%"act" [(s%"xml:lang", s%"en")] none [.mk s%"id" [] (some s%"A1") [], .mk s%"title" [] none [.mk s%"nar" [] (some s%" Hi ") []],
    .mk s%"sec" [(s%"code", s%"1")] (some s%"x") [], .mk s%"sec" [(s%"code", s%"2")] none []],
  .mk s%"act" [] none [.mk s%"id" [] (some s%"A2") [], .mk s%"sec" [(s%"code", s%"1")] none []]]

/-- As it is read: the only `sec` of the second `act` is a list too. -/
def xmlExDicts : List Json := [
  .obj [(s%"@xml:lang", .leaf (.str s%"en")), (s%"id", .obj [(s%"#text", .leaf (.str s%"A1"))]),
    (s%"title", .obj [(s%"nar", .obj [(s%"#text", .leaf (.str s%"Hi"))])]),
    (s%"sec", .arr [.obj [(s%"@code", .leaf (.str s%"1")), (s%"#text", .leaf (.str s%"x"))], .obj [(s%"@code", .leaf (.str s%"2"))]])],
  .obj [(s%"id", .obj [(s%"#text", .leaf (.str s%"A2"))]), (s%"sec", .arr [.obj [(s%"@code", .leaf (.str s%"1"))]])]]

def xmlExJson : List Json := [
  .obj [(s%"@xml:lang", .leaf (.str s%"en")), (s%"id", .leaf (.str s%"A1")),
    (s%"title", .obj [(s%"nar", .obj [(s%"text()", .leaf (.str s%"Hi"))])]),
    (s%"sec", .arr [.obj [(s%"@code", .leaf (.str s%"1")), (s%"text()", .leaf (.str s%"x"))], .obj [(s%"@code", .leaf (.str s%"2"))]])],
  .obj [(s%"id", .leaf (.str s%"A2")), (s%"sec", .arr [.obj [(s%"@code", .leaf (.str s%"1"))]])]]

theorem xmlEx_read : rootItems true (some s%"act") (parsed (some s%"act") xmlEx) = .ok xmlExDicts := by decide +kernel

theorem xmlEx_root : XmlRoot s%"id" xmlExDicts xmlExJson where
  idName := by decide
  items := by
    unfold xmlExDicts xmlExJson
    exact .cons (.attr rfl (by decide) (.id (.one (by decide) (.one (by decide) .text .nil)
      (.many (by decide) (by simp) (.cons (.attr rfl (by decide) .text) (.cons (.attr rfl (by decide) .nil) .nil)) .nil))))
      (.cons (.id (.many (by decide) (by simp) (.cons (.attr rfl (by decide) .nil) .nil) .nil)) .nil)
  noText := by decide +kernel

theorem xmlEx_fits (conv : ConvEnv) : (xmlTrip conv s%"id").FitsRoot xmlExJson where
  idName := by show GoodKey s%"id"; decide +kernel
  rootName := by intro rid h; cases h
  each := by
    have hT : (xmlTrip conv s%"id").types = fun _ => none := rfl
    have text : ∀ (ks : List Str) (s : Str), s ≠ [] → (xmlTrip conv s%"id").Fits ks (.leaf (.str s)) := by
      intro ks s h1
      simp only [Trip.Fits]
      exact ⟨rfl, C11_texts_return _ ks s h1 rfl (.inl rfl)⟩
    have noRoot : ∀ fs, (xmlTrip conv s%"id").NoRoot fs := by intro fs rid h; cases h
    have obj : ∀ fs : List (Str × Json), fs ≠ [] → (Dict.keys fs).Nodup → (∀ k ∈ Dict.keys fs, GoodKey k) →
        (Dict.get fs s%"id" = none ∨ ∃ a, Dict.get fs s%"id" = some (.leaf a)) → (xmlTrip conv s%"id").Object fs := by
      intro fs h1 h2 h3 h4
      refine ⟨h1, h2, h3, ?_⟩
      intro v hv
      have hv : Dict.get fs s%"id" = some v := hv
      show (match Dict.get fs s%"id" with | some (.leaf a) => some a | _ => none) ≠ none
      rcases h4 with h4 | ⟨a, h4⟩
      · rw [h4] at hv; cases hv
      · rw [h4]; simp
    have sec1 : ∀ ks s, s ≠ [] → (xmlTrip conv s%"id").FitsFields ks [(s%"@code", .leaf (.str s))] := by
      intro ks s hs
      simp only [Trip.FitsFields, and_true]
      exact text _ _ hs
    intro x hx
    simp only [xmlExJson, List.mem_cons, List.not_mem_nil, or_false] at hx
    rcases hx with rfl | rfl
    · refine ⟨_, rfl, obj _ (by simp) (by decide) (by decide +kernel) (.inr ⟨.str s%"A1", by decide⟩), ?_, ?_, by intro rid v h; cases h⟩
      · intro _ h; cases h
      · simp only [Trip.FitsFields, and_true]
        refine ⟨text _ _ (by simp), text _ _ (by simp), ?_, ?_⟩
        · simp only [Trip.Fits]
          refine ⟨.inl rfl, obj _ (by simp) (by decide) (by decide +kernel) (.inl (by decide)), noRoot _, ?_⟩
          simp only [Trip.FitsFields, Trip.Fits, and_true]
          refine ⟨.inl rfl, obj _ (by simp) (by decide) (by decide +kernel) (.inl (by decide)), noRoot _, ?_⟩
          exact ⟨rfl, C11_texts_return _ _ _ (by simp) rfl (.inl rfl)⟩
        · simp only [Trip.Fits]
          right
          refine ⟨by decide +kernel, .inl rfl, ?_, ?_⟩
          · simp only [Trip.FitsItems, and_true]
            refine ⟨⟨obj _ (by simp) (by decide) (by decide +kernel) (.inl (by decide)), noRoot _, by intro h; exact absurd rfl h, ?_⟩,
              obj _ (by simp) (by decide) (by decide +kernel) (.inl (by decide)), noRoot _, by intro h; exact absurd rfl h, sec1 _ _ (by simp)⟩
            simp only [Trip.FitsFields, and_true]
            exact ⟨text _ _ (by simp), text _ _ (by simp)⟩
          · refine List.Pairwise.cons ?_ (List.pairwise_singleton _ _)
            intro y hy a b ha
            cases ha
    · refine ⟨_, rfl, obj _ (by simp) (by decide) (by decide +kernel) (.inr ⟨.str s%"A2", by decide⟩), ?_, ?_, by intro rid v h; cases h⟩
      · intro _ h; cases h
      · simp only [Trip.FitsFields, and_true]
        refine ⟨text _ _ (by simp), ?_⟩
        simp only [Trip.Fits]
        right
        refine ⟨by decide +kernel, .inl rfl, ?_, List.pairwise_singleton _ _⟩
        simp only [Trip.FitsItems, and_true]
        exact ⟨obj _ (by simp) (by decide) (by decide +kernel) (.inl (by decide)), noRoot _, by intro h; exact absurd rfl h, sec1 _ _ (by simp)⟩
  distinct := by
    refine List.Pairwise.cons ?_ (List.pairwise_singleton _ _)
    intro y hy _ a b ha hb
    cases hy with
    | tail _ hy => cases hy
    | head => cases ha; cases hb; decide +kernel

theorem xmlEx_doc : XmlDoc (fun _ _ => true) (qualify startNs) (.mk s%"list" [] none (xmlEx.children.filter (fun c => c.tag = s%"act"))) ∧
    ∀ c ∈ xmlEx.children, c.tag = s%"act" → Filled c := by
  have leaf : ∀ (t : Str) (a : List (Str × Str)) (x : Option Str), (a.map (fun p => qualify startNs p.1)).Nodup → (∀ p ∈ a, Py.startsWith s%"xmlns" p.1 = false) →
      (isAttribute t = false ∧ t ≠ s%"#text" ∧ t ≠ s%"text()") → (cs : List Elem) → (∀ c ∈ cs, XmlDoc (fun _ _ => true) (qualify startNs) c) →
      XmlDoc (fun _ _ => true) (qualify startNs) (.mk t a x cs) := fun t a x h1 h2 h3 cs h4 => .mk h1 h2 (fun _ _ => rfl) h3 h4
  constructor
  · refine leaf _ _ _ (by simp) (by simp) (by decide) _ ?_
    intro c hc
    simp only [xmlEx, Elem.children, Elem.tag, decide_true, List.filter_cons, if_true, List.filter_nil, List.mem_cons, List.not_mem_nil, or_false] at hc
    rcases hc with rfl | rfl
    · refine leaf _ _ _ (by decide +kernel) (by decide +kernel) (by decide) _ ?_
      intro c hc
      simp only [List.mem_cons, List.not_mem_nil, or_false] at hc
      rcases hc with rfl | rfl | rfl | rfl
      · exact leaf _ _ _ (by simp) (by simp) (by decide) _ (by simp)
      · refine leaf _ _ _ (by simp) (by simp) (by decide) _ ?_
        intro c hc
        simp only [List.mem_singleton] at hc
        subst hc
        exact leaf _ _ _ (by simp) (by simp) (by decide) _ (by simp)
      · exact leaf _ _ _ (by decide +kernel) (by decide +kernel) (by decide) _ (by simp)
      · exact leaf _ _ _ (by decide +kernel) (by decide +kernel) (by decide) _ (by simp)
    · refine leaf _ _ _ (by simp) (by simp) (by decide) _ ?_
      intro c hc
      simp only [List.mem_cons, List.not_mem_nil, or_false] at hc
      rcases hc with rfl | rfl
      · exact leaf _ _ _ (by simp) (by simp) (by decide) _ (by simp)
      · exact leaf _ _ _ (by decide +kernel) (by decide +kernel) (by decide) _ (by simp)
  · intro c hc _
    simp only [xmlEx, Elem.children, List.mem_cons, List.not_mem_nil, or_false] at hc
    rcases hc with rfl | rfl
    · refine .mk (.inl (by simp)) ?_
      intro c hc
      simp only [List.mem_cons, List.not_mem_nil, or_false] at hc
      rcases hc with rfl | rfl | rfl | rfl
      · exact .mk (.inr (.inr ⟨_, rfl, by decide +kernel⟩)) (by simp)
      · refine .mk (.inr (.inl (by simp))) ?_
        intro c hc
        simp only [List.mem_singleton] at hc
        subst hc
        exact .mk (.inr (.inr ⟨_, rfl, by decide +kernel⟩)) (by simp)
      · exact .mk (.inl (by simp)) (by simp)
      · exact .mk (.inl (by simp)) (by simp)
    · refine .mk (.inr (.inl (by simp))) ?_
      intro c hc
      simp only [List.mem_cons, List.not_mem_nil, or_false] at hc
      rcases hc with rfl | rfl
      · exact .mk (.inr (.inr ⟨_, rfl, by decide +kernel⟩)) (by simp)
      · exact .mk (.inl (by simp)) (by simp)

/-- The example meets the hypotheses. -/
example : ∃ st, flatten { xml := true, rootId := none } xmlExDicts = .ok st ∧
      ∀ (lines : List FLine) (sheets : List SheetIn), lines.Perm ((sheetsOf st).flatMap (·.lines)) →
        All₂ (xmlTrip {} s%"id").ReadBack lines ((rowsIn sheets).map (·.line)) →
        ∃ out w, unflatten { row := { xml := true, types := fun _ => none }, rootId := none } sheets = .ok (out, w) ∧
          ∀ order, ∃ e', toXml (fun _ _ => true) [(s%"act", .arr out)] s%"list" order = .ok e' ∧
            SameXml (qualify startNs) (.mk s%"list" [] none (xmlEx.children.filter (fun c => c.tag = s%"act"))) e' :=
  C73_xml_document (fun _ _ => true) s%"id" s%"act" s%"list" { xml := true, rootId := none } { row := { xml := true, types := fun _ => none }, rootId := none } ⟨rfl, rfl, rfl, rfl, rfl, rfl, rfl, rfl, rfl⟩ ⟨rfl, rfl, rfl, rfl⟩ (by decide) _ (qualifies_qualify startNs) xmlEx
    xmlEx_doc.2 xmlEx_doc.1 xmlExDicts xmlExJson xmlEx_read xmlEx_root (xmlEx_fits {})

end Verif

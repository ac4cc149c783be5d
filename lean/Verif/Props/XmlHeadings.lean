import Verif.Proofs.XmlHeadings
import Verif.Props.XmlTrip
import Verif.Props.Describes
import Verif.Proofs.SaidDoc
/-! C83: what the headings of a spreadsheet say in XML mode. -/
namespace Verif
open Spec Xml

theorem rows_headings {sheets : List SheetIn} (hh : ∀ s ∈ sheets, s.headings ≠ none) : ∀ r ∈ rowsIn sheets, r.sheet.headings ≠ none := by
  intro r hr
  unfold rowsIn at hr
  obtain ⟨s, hs, hr⟩ := List.mem_flatMap.1 hr
  split at hr
  · cases hr
  · obtain ⟨p, -, rfl⟩ := List.mem_map.1 hr
    exact hh s hs

/-- C83: unflattening a spreadsheet in XML mode gives what unflattening it in JSON mode gives when the headings of texts have `/text()` added, except that the ids
are elements with a text.  (The run in JSON mode succeeds, and its headings fit together: the only warnings are those about rows that contradict each other and about duplicate headings.) -/
theorem C83_xml_mode (n : Str) (hn : IdName n) (cfg : UnCfg) (hu : PlainXmlUnflatten n cfg) (sheets : List SheetIn) (hh : ∀ s ∈ sheets, s.headings ≠ none)
    (hx : ∀ r ∈ rowsIn sheets, XmlLine cfg.row.conv n r.line) (out : List Json) (w : List Warn)
    (h : unflatten (jsonMode cfg) (sheets.map (textSheetIn n)) = .ok (out, w)) (hw : ∀ x ∈ w, betweenRows x) :
    ∃ w', unflatten cfg sheets = .ok (idElementsI n out, w') := by
  unfold unflatten at h
  cases hd : doUnflatten (jsonMode cfg) (sheets.map (textSheetIn n)) with
  | error e => rw [hd] at h; cases h
  | ok p =>
    obtain ⟨t, w0⟩ := p
    rw [hd] at h
    simp only [Except.ok.injEq, Prod.mk.injEq] at h
    obtain ⟨rfl, rfl⟩ := h
    obtain ⟨rows, gs, mw, h1, h2, rfl, -, h4⟩ := doUnflatten_ok hd
    have hq : ∀ y ∈ rows, y.warns = [] := by
      intro y hy
      obtain ⟨r, hr, hra⟩ := rowsAlone_mem h1 y hy
      cases hyw : y.warns with
      | nil => rfl
      | cons x xs =>
        exfalso
        have hxm : x ∈ y.warns := by rw [hyw]; simp
        exact row_between hra x hxm (hw x ((h4 x).2 (.inr (.inl ⟨y, hy, hxm⟩))))
    rw [rowsIn_texts] at h1
    have h5 := rows_texts hn (xrun_json hu) (rowsIn sheets) (rows_headings hh) hx h1 hq
    obtain ⟨mw', h6⟩ := foldRows_w (xrun_json hu) rows h2
    obtain ⟨w', h7, -⟩ := doUnflatten_of_rows h5 h6
    refine ⟨w', ?_⟩
    simp only [unflatten, h7, idElementsI_w, ← value_wG]

/-- Rows that name what they speak about and agree give no other warnings. -/
theorem names_between {n : Str} {cfg : UnCfg} (hu : PlainXmlUnflatten n cfg) {sheets : List SheetIn} (h : ∀ r ∈ rowsIn sheets, NamesAll (jsonMode cfg) n r.line)
    (hag : ∀ x y, Said (jsonMode cfg) n sheets x → Said (jsonMode cfg) n sheets y → x.Agree y) {out : List Json} {w : List Warn}
    (hr : unflatten (jsonMode cfg) sheets = .ok (out, w)) : ∀ x ∈ w, betweenRows x := by
  obtain ⟨gs, w0, h1, -, -, -, -, h2⟩ := run_exact (cfg := jsonMode cfg) rfl hu.idName sheets h hag
  simp only [unflatten, h1, Except.ok.injEq, Prod.mk.injEq] at hr
  obtain ⟨-, rfl⟩ := hr
  intro x hx
  rcases h2 x hx with ⟨s, -, hd, cols, rfl⟩ | ⟨r, -, c, -, v, cw, hv, hx⟩
  · trivial
  · unfold Column.value at hv
    rw [show (jsonMode cfg).row.types = fun _ => none from hu.types] at hv
    rw [untyped_warns hv] at hx
    cases hx

/-- C83: let the rows of a spreadsheet in XML mode name everything they speak about, without contradicting each other (where the heading of an element means its text).
Then there is exactly one element for each id that some row speaks about; its elements have the texts and attributes that the rows say, and nothing else. -/
theorem C83_exactly (n : Str) (hn : IdName n) (cfg : UnCfg) (hu : PlainXmlUnflatten n cfg) (sheets : List SheetIn) (hh : ∀ s ∈ sheets, s.headings ≠ none)
    (hx : ∀ r ∈ rowsIn sheets, XmlLine cfg.row.conv n r.line)
    (h : ∀ r ∈ rowsIn (sheets.map (textSheetIn n)), NamesAll (jsonMode cfg) n r.line)
    (hag : ∀ x y, Said (jsonMode cfg) n (sheets.map (textSheetIn n)) x → Said (jsonMode cfg) n (sheets.map (textSheetIn n)) y → x.Agree y) :
    ∃ out w keys, unflatten cfg sheets = .ok (idElementsI n out, w) ∧
      All₂ (fun (key : Atom × Val) j => ∃ fs, j = .obj fs ∧ IsSaid (jsonMode cfg) n (sheets.map (textSheetIn n)) key.1 key.2 fs) keys out ∧
      keys.Pairwise (fun a b => ¬ (atomEq a.1 b.1 = true ∧ a.2.pyEq b.2 = true)) ∧
      ∀ x, Said (jsonMode cfg) n (sheets.map (textSheetIn n)) x → ∃ key ∈ keys, atomEq x.root key.1 = true ∧ x.id.pyEq key.2 = true := by
  obtain ⟨out, w, keys, h1, h2⟩ := C80_exactly (jsonMode cfg) rfl n hu.idName _ h hag
  obtain ⟨w', h3⟩ := C83_xml_mode n hn cfg hu sheets hh hx out w h1 (names_between hu h hag h1)
  exact ⟨out, w', keys, h3, h2⟩

theorem str_of_eq {s : Str} {b : Atom} (h : atomEq (.str s) b = true) : b = .str s := by
  have hn : ∀ x c e, canonNum x c e ≠ .str s := by intro x c e; unfold canonNum; split <;> simp
  have hd : ∀ d : Dec, d.canon ≠ some (.str s) := by intro d; cases d <;> simp [Dec.canon, hn]
  have hc : b.canon = some (.str s) := by
    simp only [atomEq, Val.pyEq, Val.canon, show (Atom.str s).canon = some (.str s) from rfl, Option.map_some] at h
    cases hb : b.canon with
    | none => rw [hb] at h; simp at h
    | some c => rw [hb] at h; simp at h; rw [h]
  cases b with
  | str t => simp only [Atom.canon, Option.some.injEq, Canon.str.injEq] at hc; rw [hc]
  | int i => simp only [Atom.canon, Option.some.injEq] at hc; exact absurd hc (hn _ _ _)
  | bool i => simp only [Atom.canon, Option.some.injEq] at hc; exact absurd hc (hn _ _ _)
  | dec d => exact absurd hc (hd d)
  | float f => exact absurd hc (hd _)
  | none => cases hc
  | datetime d => cases hc
  | other t => cases hc

mutual
/-- Texts are equal only if they are the same. -/
theorem xmlFields_same {n : Str} : {fs gs hs : List (Str × Json)} → XmlFields n fs gs → SameJsonFields gs hs → RearrangedFields gs hs
  | _, _, _, .nil, h => by cases h; exact .nil
  | _, _, _, .attr _ _ hr, h => by
    cases h with
    | cons h1 h2 => exact .cons (sameText h1) (xmlFields_same hr h2)
  | _, _, _, .text, h => by
    cases h with
    | cons h1 h2 => cases h2; exact .cons (sameText h1) .nil
  | _, _, _, .id hr, h => by
    cases h with
    | cons h1 h2 => exact .cons (sameText h1) (xmlFields_same hr h2)
  | _, _, _, .one _ hi hr, h => by
    cases h with
    | cons h1 h2 =>
      cases h1 with
      | obj h3 h4 => exact .cons (.obj (xmlFields_same hi h3) h4) (xmlFields_same hr h2)
  | _, _, _, .many _ _ hi hr, h => by
    cases h with
    | cons h1 h2 =>
      cases h1 with
      | arr h3 h4 => exact .cons (.arr (xmlItems_same hi h3) h4 (.inl (xmlItems_objects hi))) (xmlFields_same hr h2)
theorem xmlItems_same {n : Str} : {l m hs : List Json} → XmlItems n l m → SameJsonItems m hs → RearrangedItems m hs
  | _, _, _, .nil, h => by cases h; exact .nil
  | _, _, _, .cons hf hr, h => by
    cases h with
    | cons h1 h2 =>
      cases h1 with
      | obj h3 h4 => exact .cons (.obj (xmlFields_same hf h3) h4) (xmlItems_same hr h2)
theorem sameText {s : Str} {j : Json} (h : SameJson (.leaf (.str s)) j) : Rearranged (.leaf (.str s)) j := by
  cases h with
  | leaf h =>
    rw [str_of_eq h]
    exact .leaf
theorem xmlItems_objects {n : Str} : {l m : List Json} → XmlItems n l m → ∀ x ∈ m, ∃ gs, x = .obj gs
  | _, _, .nil => by simp
  | _, _, .cons hf hr => by
    intro x hx
    rcases List.mem_cons.1 hx with rfl | hx
    · exact ⟨_, rfl⟩
    · exact xmlItems_objects hr x hx
end

/-- C83: if the rows of a spreadsheet, naming everything they speak about, say exactly what the elements of the root list of an XML document hold (each heading of an element meaning its text),
in whatever rows and sheets, then unflattening it in XML mode and writing it as XML, with or without XML schemas, gives these elements, up to order. -/
theorem C83_document (valid : Str → List (Str × Str) → Bool) (n : Str) (hn : IdName n) (tag rt : Str) (cfg : UnCfg) (hu : PlainXmlUnflatten n cfg)
    (htag : isAttribute tag = false ∧ tag ≠ s%"#text" ∧ tag ≠ s%"text()" ∧ '/' ∉ tag ∧ Py.endsWith s%"[]" tag = false)
    (q : Str → Str) (hq : Qualifies xmlPrefix q) (e : Elem) (hfill : ∀ c ∈ e.children, c.tag = tag → Filled c)
    (hd : XmlDoc valid q (.mk rt [] none (e.children.filter (fun c => c.tag = tag))))
    (xml : List Json) (docs : List (Atom × List (Str × Json))) (hread : Api.rootItems true (some tag) (parsed (some tag) e) = .ok xml)
    (hx : XmlRoot n xml (docs.map (fun d => .obj d.2))) (sheets : List SheetIn) (hh : ∀ s ∈ sheets, s.headings ≠ none)
    (hxl : ∀ r ∈ rowsIn sheets, XmlLine cfg.row.conv n r.line)
    (hna : ∀ r ∈ rowsIn (sheets.map (textSheetIn n)), NamesAll (jsonMode cfg) n r.line)
    (hde : Describes (jsonMode cfg) n (sheets.map (textSheetIn n)) docs) :
    ∃ out w, unflatten cfg sheets = .ok (out, w) ∧
      ∀ order, ∃ e', toXml valid [(tag, .arr out)] rt order = .ok e' ∧
        SameXml q (.mk rt [] none (e.children.filter (fun c => c.tag = tag))) e' := by
  rw [show q = qualify startNs from qualifies_eq hq] at hd ⊢
  obtain ⟨out, w, h1, h2⟩ := C80_describes (jsonMode cfg) rfl n hu.idName _ hna docs hde
  obtain ⟨w', h3⟩ := C83_xml_mode n hn cfg hu sheets hh hxl out w h1 (names_between hu hna hde.agree h1)
  refine ⟨_, w', h3, ?_⟩
  intro order
  have hdc : ∀ c ∈ e.children, c.tag = tag → XmlDoc valid (qualify startNs) c ∧ Filled c := by
    intro c hc ht
    refine ⟨?_, hfill c hc ht⟩
    cases hd with
    | mk _ _ _ _ h5 => exact h5 c (List.mem_filter.2 ⟨hc, by simpa using ht⟩)
  have h5 := read_shows ⟨htag.1, htag.2.1, htag.2.2.2⟩ hdc hread
  have h6 := text_shows hx.idName.2 hx.items _ h5
  have h7 : Rearranged (.arr (docs.map (fun d => .obj d.2))) (.arr out) := by
    cases h2 with
    | arr g1 g2 => exact .arr (xmlItems_same hx.items g1) g2 (.inl (xmlItems_objects hx.items))
  have h8 := rearranged_w (n := n) h7
  simp only [wJ] at h8
  rw [← withText_items hx.idName hx.items] at h8
  rw [idElementsI_w]
  cases h8 with
  | arr hi hperm =>
    exact write_shows ⟨htag.1, htag.2.2.1⟩ (fun c hc => by simpa using (List.mem_filter.1 hc).2) hd (order_shows (by decide) _ hi h6) hperm order

/-! ### An example -/

namespace XmlHeadEx
def cfg : UnCfg := { row := { xml := true, types := fun _ => none }, rootId := none }

/-- Three rows in two sheets. -/
def sheets : List SheetIn := [
  { name := s%"acts", headings := some [some s%"@xml:lang", some s%"id", some s%"title/nar", some s%"sec/0/@code", some s%"sec/0/id"], lines := [
    [(some s%"@xml:lang", .str s%"en"), (some s%"id", .str s%"A"), (some s%"title/nar", .str s%"Hi"), (some s%"sec/0/@code", .str s%"1"), (some s%"sec/0/id", .str s%"s")],
    [(some s%"@xml:lang", .str []), (some s%"id", .str s%"B"), (some s%"title/nar", .str []), (some s%"sec/0/@code", .str []), (some s%"sec/0/id", .str [])]] },
  { name := s%"secs", headings := some [some s%"id", some s%"sec/5/id", some s%"sec/5/nar"], lines := [
    [(some s%"id", .str s%"A"), (some s%"sec/5/id", .str s%"t"), (some s%"sec/5/nar", .str s%"x")]] }]

/-- `<list><act xml:lang="en"><id>A</id><title><nar>Hi</nar></title><sec code="1"><id>s</id></sec><sec><id>t</id><nar>x</nar></sec></act><act><id>B</id></act></list>` -/
def doc : Elem := .mk s%"list" [] none [
  .mk s%"act" [(s%"xml:lang", s%"en")] none [.mk s%"id" [] (some s%"A") [], .mk s%"title" [] none [.mk s%"nar" [] (some s%"Hi") []],
    .mk s%"sec" [(s%"code", s%"1")] none [.mk s%"id" [] (some s%"s") []],
    .mk s%"sec" [] none [.mk s%"id" [] (some s%"t") [], .mk s%"nar" [] (some s%"x") []]],
  .mk s%"act" [] none [.mk s%"id" [] (some s%"B") []]]

def read : List Json := [
  .obj [(s%"@xml:lang", .leaf (.str s%"en")), (s%"id", .obj [(s%"#text", .leaf (.str s%"A"))]), (s%"title", .obj [(s%"nar", .obj [(s%"#text", .leaf (.str s%"Hi"))])]),
    (s%"sec", .arr [.obj [(s%"@code", .leaf (.str s%"1")), (s%"id", .obj [(s%"#text", .leaf (.str s%"s"))])],
      .obj [(s%"id", .obj [(s%"#text", .leaf (.str s%"t"))]), (s%"nar", .obj [(s%"#text", .leaf (.str s%"x"))])]])],
  .obj [(s%"id", .obj [(s%"#text", .leaf (.str s%"B"))])]]

def first : List (Str × Json) := [(s%"@xml:lang", .leaf (.str s%"en")), (s%"id", .leaf (.str s%"A")), (s%"title", .obj [(s%"nar", .obj [(s%"text()", .leaf (.str s%"Hi"))])]),
    (s%"sec", .arr [.obj [(s%"@code", .leaf (.str s%"1")), (s%"id", .leaf (.str s%"s"))],
      .obj [(s%"id", .leaf (.str s%"t")), (s%"nar", .obj [(s%"text()", .leaf (.str s%"x"))])]])]
def second : List (Str × Json) := [(s%"id", .leaf (.str s%"B"))]

theorem lines_ok : ∀ r ∈ rowsIn sheets, XmlLine cfg.row.conv s%"id" r.line := by
  have h : ∀ r ∈ rowsIn sheets, ∀ c ∈ r.line, (∃ t h, c = (some h, .str t) ∧ (t ≠ [] → XmlParts s%"id" (pathList h))) := by
    have hs : rowsIn sheets = sheets.flatMap (fun s => (s.lines.zipIdx).map (fun p => ⟨s, p.2, p.1⟩)) := by rfl
    intro r hr c hc
    rw [hs] at hr
    obtain ⟨s, h1, h2⟩ := List.mem_flatMap.1 hr
    obtain ⟨p, h3, rfl⟩ := List.mem_map.1 h2
    simp only [sheets, List.mem_cons, List.not_mem_nil, or_false] at h1
    rcases h1 with rfl | rfl
    all_goals
      simp only [List.zipIdx_cons, List.zipIdx_nil, List.mem_cons, List.not_mem_nil, or_false] at h3
    · rcases h3 with rfl | rfl <;> simp only [List.mem_cons, List.not_mem_nil, or_false] at hc <;> rcases hc with rfl | rfl | rfl | rfl | rfl <;>
        exact ⟨_, _, rfl, fun _ => by decide +kernel⟩
    · subst h3
      simp only [List.mem_cons, List.not_mem_nil, or_false] at hc
      rcases hc with rfl | rfl | rfl <;> exact ⟨_, _, rfl, fun _ => by decide +kernel⟩
  intro r hr c hc hb
  obtain ⟨t, h, rfl, hp⟩ := h r hr c hc
  refine ⟨⟨h, rfl, hp ?_⟩, by simp, ?_⟩
  · rintro rfl; cases hb
  · cases t with
    | nil => cases hb
    | cons a b => rfl

theorem json_run : unflatten (jsonMode cfg) (sheets.map (textSheetIn s%"id")) = .ok ([.obj first, .obj second], []) := by decide +kernel

set_option synthInstance.maxSize 2000 in
theorem names : ∀ r ∈ rowsIn (sheets.map (textSheetIn s%"id")), NamesAll (jsonMode cfg) s%"id" r.line := namesAll_all (by decide +kernel)

set_option synthInstance.maxSize 2000 in
theorem agree : ∀ x y, Said (jsonMode cfg) s%"id" (sheets.map (textSheetIn s%"id")) x → Said (jsonMode cfg) s%"id" (sheets.map (textSheetIn s%"id")) y → x.Agree y :=
  agree_all (by decide +kernel)

/-- The sheets meet the hypotheses of the first theorem. -/
example : ∃ w', unflatten cfg sheets = .ok (idElementsI s%"id" [.obj first, .obj second], w') :=
  C83_xml_mode s%"id" (by decide) cfg ⟨rfl, rfl, rfl, rfl⟩ sheets (by simp [sheets]) lines_ok _ _ json_run (by simp)

/-- And of the second. -/
example : ∃ out w keys, unflatten cfg sheets = .ok (idElementsI s%"id" out, w) ∧
      All₂ (fun (key : Atom × Val) j => ∃ fs, j = .obj fs ∧ IsSaid (jsonMode cfg) s%"id" (sheets.map (textSheetIn s%"id")) key.1 key.2 fs) keys out ∧
      keys.Pairwise (fun a b => ¬ (atomEq a.1 b.1 = true ∧ a.2.pyEq b.2 = true)) ∧
      ∀ x, Said (jsonMode cfg) s%"id" (sheets.map (textSheetIn s%"id")) x → ∃ key ∈ keys, atomEq x.root key.1 = true ∧ x.id.pyEq key.2 = true :=
  C83_exactly s%"id" (by decide) cfg ⟨rfl, rfl, rfl, rfl⟩ sheets (by simp [sheets]) lines_ok names agree

theorem read_doc : Api.rootItems true (some s%"act") (parsed (some s%"act") doc) = .ok read := by decide +kernel

theorem root_doc : XmlRoot s%"id" read [.obj first, .obj second] where
  idName := by decide
  items := by
    unfold read first second
    exact .cons (.attr rfl (by decide) (.id (.one (by decide) (.one (by decide) .text .nil)
      (.many (by decide) (by simp) (.cons (.attr rfl (by decide) (.id .nil)) (.cons (.id (.one (by decide) .text .nil)) .nil)) .nil))))
      (.cons (.id .nil) .nil)
  noText := by decide +kernel

theorem doc_ok : XmlDoc (fun _ _ => true) (qualify startNs) (.mk s%"list" [] none (doc.children.filter (fun c => c.tag = s%"act"))) ∧
    ∀ c ∈ doc.children, c.tag = s%"act" → Filled c := by
  have leaf : ∀ (t : Str) (a : List (Str × Str)) (x : Option Str), (a.map (fun p => qualify startNs p.1)).Nodup → (∀ p ∈ a, Py.startsWith s%"xmlns" p.1 = false) →
      (isAttribute t = false ∧ t ≠ s%"#text" ∧ t ≠ s%"text()") → (cs : List Elem) → (∀ c ∈ cs, XmlDoc (fun _ _ => true) (qualify startNs) c) →
      XmlDoc (fun _ _ => true) (qualify startNs) (.mk t a x cs) := fun t a x h1 h2 h3 cs h4 => .mk h1 h2 (fun _ _ => rfl) h3 h4
  have one : ∀ t x : Str, (isAttribute t = false ∧ t ≠ s%"#text" ∧ t ≠ s%"text()") → XmlDoc (fun _ _ => true) (qualify startNs) (.mk t [] (some x) []) :=
    fun t x h => leaf t [] (some x) (by simp) (by simp) h [] (by simp)
  have full : ∀ t x : Str, (∃ c ∈ x, Py.isSpace c = false) → Filled (.mk t [] (some x) []) := fun t x h => .mk (.inr (.inr ⟨_, rfl, h⟩)) (by simp)
  constructor
  · refine leaf _ _ _ (by simp) (by simp) (by decide) _ ?_
    intro c hc
    simp only [doc, Elem.children, Elem.tag, decide_true, List.filter_cons, if_true, List.filter_nil, List.mem_cons, List.not_mem_nil, or_false] at hc
    rcases hc with rfl | rfl
    · refine leaf _ _ _ (by decide +kernel) (by decide +kernel) (by decide) _ ?_
      intro c hc
      simp only [List.mem_cons, List.not_mem_nil, or_false] at hc
      rcases hc with rfl | rfl | rfl | rfl
      · exact one _ _ (by decide)
      · refine leaf _ _ _ (by simp) (by simp) (by decide) _ ?_
        intro c hc
        simp only [List.mem_singleton] at hc
        subst hc
        exact one _ _ (by decide)
      · refine leaf _ _ _ (by decide +kernel) (by decide +kernel) (by decide) _ ?_
        intro c hc
        simp only [List.mem_singleton] at hc
        subst hc
        exact one _ _ (by decide)
      · refine leaf _ _ _ (by simp) (by simp) (by decide) _ ?_
        intro c hc
        simp only [List.mem_cons, List.not_mem_nil, or_false] at hc
        rcases hc with rfl | rfl <;> exact one _ _ (by decide)
    · refine leaf _ _ _ (by simp) (by simp) (by decide) _ ?_
      intro c hc
      simp only [List.mem_singleton] at hc
      subst hc
      exact one _ _ (by decide)
  · intro c hc _
    simp only [doc, Elem.children, List.mem_cons, List.not_mem_nil, or_false] at hc
    rcases hc with rfl | rfl
    · refine .mk (.inl (by simp)) ?_
      intro c hc
      simp only [List.mem_cons, List.not_mem_nil, or_false] at hc
      rcases hc with rfl | rfl | rfl | rfl
      · exact full _ _ (by decide +kernel)
      all_goals
        refine .mk (.inr (.inl (by simp))) ?_
        intro c hc
        simp only [List.mem_cons, List.not_mem_nil, or_false] at hc
      · subst hc; exact full _ _ (by decide +kernel)
      · subst hc; exact full _ _ (by decide +kernel)
      · rcases hc with rfl | rfl <;> exact full _ _ (by decide +kernel)
    · refine .mk (.inr (.inl (by simp))) ?_
      intro c hc
      simp only [List.mem_singleton] at hc
      subst hc
      exact full _ _ (by decide +kernel)

theorem describes : ∃ r r', Describes (jsonMode cfg) s%"id" (sheets.map (textSheetIn s%"id")) [(r, first), (r', second)] := by
  obtain ⟨out, w, docs, h1, h2, h3⟩ := describes_own (jsonMode cfg) rfl s%"id" rfl _ names agree
  rw [json_run] at h1
  simp only [Except.ok.injEq, Prod.mk.injEq] at h1
  rw [← h1.1] at h2
  match docs, h2, h3 with
  | [(r, a), (r', b)], h2, h3 =>
    simp only [List.map_cons, List.map_nil, List.cons.injEq, Json.obj.injEq, and_true] at h2
    obtain ⟨rfl, rfl⟩ := h2
    exact ⟨r, r', h3⟩

/-- And, with the document that they say, of the third. -/
example : ∃ out w, unflatten cfg sheets = .ok (out, w) ∧ ∀ order, ∃ e', toXml (fun _ _ => true) [(s%"act", .arr out)] s%"list" order = .ok e' ∧
    SameXml (qualify startNs) (.mk s%"list" [] none (doc.children.filter (fun c => c.tag = s%"act"))) e' := by
  obtain ⟨r, r', h⟩ := describes
  exact C83_document (fun _ _ => true) s%"id" (by decide) s%"act" s%"list" cfg ⟨rfl, rfl, rfl, rfl⟩ (by decide) _ (qualifies_qualify startNs) doc doc_ok.2 doc_ok.1
    read [(r, first), (r', second)] read_doc root_doc sheets (by simp [sheets]) lines_ok names h
end XmlHeadEx

end Verif

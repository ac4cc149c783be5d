import Verif.Spec.TypedCell
import Verif.Proofs.Str
import Verif.Proofs.DecEq
/-! C79 in XML mode: the types of the schema count for the texts of elements. -/
namespace Verif
open Spec

theorem pathList_element {h : Str} (hh : ElementName h) : pathList h = [h] := by
  simp [pathList, Py.split_no_sep hh.single, hh.noBrackets]

theorem till_element {h : Str} (hh : ElementName h) : pathTillNow [h] = h := by
  simp [pathTillNow, hh.noNumber, Py.join]

/-- One row with one cell: if it gives one field that is not the id, the document is this field. -/
theorem one_row {cfg : UnCfg} {name h : Str} {a : Atom} (ha : a.blank = false) (hr : cfg.rootId = none) (hn : cfg.idName ≠ some h) {t : Tree} {w : List Warn}
    (hrow : unflattenRow cfg.row cfg.idName [(h, ⟨.atom a, ⟨name, 1, 2, h⟩, []⟩)] = .ok ([(h, t)], w)) :
    unflatten cfg (oneCell name h a) = .ok ([.obj [(h, treeToValue (treeToLists t))]], w) := by
  have hd : headingWarns name [some h] = [] := by simp [headingWarns, findHeadings, Dict.get, Dict.set]
  have hb : blankLine [(some h, a)] = false := by simp [blankLine, ha]
  have hk : ∀ n, cfg.idName = some n → Dict.get [(h, t)] n = none := by
    intro n he
    have : n ≠ h := fun e => hn (by rw [he, e])
    simp [Dict.get, List.find?, Ne.symm this]
  have hkey : rowKey cfg.idName cfg.row.xml [(h, t)] = .ok none := by
    unfold rowKey
    cases e : cfg.idName with
    | none => rfl
    | some n => simp only [hk n e]
  have happ : ∀ td : TDict, td.append cfg.idName cfg.row.xml [(h, t)] = .ok { td with rest := td.rest ++ [[(h, t)]] } := by
    intro td
    have : itemKey cfg.idName cfg.row.xml [(h, t)] = .ok none := by
      unfold itemKey
      cases e : cfg.idName with
      | none => rfl
      | some n => simp only [hk n e]
    simp [TDict.append, this]
  simp [unflatten, doUnflatten, addSheets, oneCell, addLines, addLine, hb, lineCells, hrow, addRow, rootKey, hr, keyGet, keySet, addToGroup, hkey, happ, hd, groupsToList, keyedToLists,
    itemsToLists, listToValue, toValue, toLists]

theorem get_empty {κ α : Type} [DecidableEq κ] (k : κ) : Dict.get ([] : List (κ × α)) k = none := rfl

theorem no_int : Py.int? [] = none := by decide +kernel

/-- The row of one element. -/
theorem element_row {cfg : RowCfg} (hx : cfg.xml = true) {idn : Option Str} {h : Str} (hh : ElementName h) {c : Cell} (hb : c.value.blank = false) {ty : Option CType}
    (hty : currentType cfg h h c [] = ty) (h1 : ty ≠ some .array) (h2 : ty ≠ some .object) {v : Val} {w : List Warn}
    (hc : convertCell cfg ty c.value = .ok (v, w)) (hv : v.blank = false) :
    unflattenRow cfg idn [(h, c)] = .ok ([(h, .obj [(s%"text()", .cell { c with value := v })])], w) := by
  have h3 : arrayIndex [] ty = none := by simp [arrayIndex, no_int, h1]
  simp only [unflattenRow, placeAll, hb, pathList_element hh, place, hh.noNumber, List.nil_append, till_element hh, List.headD_nil, hty, no_int, Option.isSome_none, Bool.false_and,
    Bool.false_eq_true, if_false, h3, h2, ne_eq, not_true_eq_false, and_false, or_self, placeLeaf, hc, hv, putCell, hx, if_true, hh.noAttribute, h1, leafBlocked, get_empty, Dict.set,
    mapW, id, List.append_nil, toTemp, List.isEmpty_cons]

/-- The row of one element that is an array. -/
theorem element_array_row {cfg : RowCfg} (hx : cfg.xml = true) {idn : Option Str} {h : Str} (hh : ElementName h) {c : Cell} (hb : c.value.blank = false)
    (hty : currentType cfg h h c [] = some .array) (hid : idn ≠ some s%"text()") {v : Val} {w : List Warn}
    (hc : convertCell cfg (some .array) c.value = .ok (v, w)) (hv : v.blank = false) :
    unflattenRow cfg idn [(h, c)] = .ok ([(h, .tmp [] [[(s%"text()", .cell { c with value := v })]])], w) := by
  have h3 : arrayIndex [] (some .array) = some (-1) := by simp [arrayIndex, no_int]
  have h4 : itemKey idn true [(s%"text()", .cell { c with value := v })] = .ok none := by
    unfold itemKey
    cases idn with
    | none => rfl
    | some n =>
      have : s%"text()" ≠ n := fun e => hid (by rw [e])
      simp [Dict.get, this]
  simp [unflattenRow, placeAll, hb, pathList_element hh, place, hh.noNumber, till_element hh, hty, no_int, h3, ladAt, hx, placeLeaf, hc, hv, putCell, hh.noAttribute, leafBlocked,
    get_empty, Dict.set, mapW, toTemp, toTempItems, sortIdx, insertIdx, appendAll, TDict.append, h4]

/-- The row of one field, outside XML mode. -/
theorem field_row {cfg : RowCfg} (hx : cfg.xml = false) {idn : Option Str} {h : Str} (hh : ElementName h) {c : Cell} (hb : c.value.blank = false) {ty : Option CType}
    (hty : currentType cfg h h c [] = ty) (h1 : ty ≠ some .array) (h2 : ty ≠ some .object) {v : Val} {w : List Warn}
    (hc : convertCell cfg ty c.value = .ok (v, w)) (hv : v.blank = false) :
    unflattenRow cfg idn [(h, c)] = .ok ([(h, .cell { c with value := v })], w) := by
  have h3 : arrayIndex [] ty = none := by simp [arrayIndex, no_int, h1]
  simp only [unflattenRow, placeAll, hb, pathList_element hh, place, hh.noNumber, List.nil_append, till_element hh, List.headD_nil, hty, no_int, Option.isSome_none, Bool.false_and,
    Bool.false_eq_true, if_false, h3, h2, ne_eq, not_true_eq_false, and_false, or_self, placeLeaf, hc, hv, putCell, hx, leafBlocked, get_empty, Dict.set,
    mapW, id, List.append_nil, toTemp]

/-- C79: outside XML mode, the cell of a field whose type is not array (of objects) or object (or that has none) is what the type makes of the cell, with the same warnings;
dates and times are no exception. -/
theorem C79_json_field (cfg : UnCfg) (hx : cfg.row.xml = false) (hr : cfg.rootId = none) (name h : Str) (hh : ElementName h) (hn : cfg.idName ≠ some h)
    (ty : Option CType) (hty : cfg.row.types h = ty) (h1 : ty ≠ some .array) (h2 : ty ≠ some .object) (a : Atom) (ha : a.blank = false) (v : Val) (w : List Warn)
    (hc : convertType cfg.row.conv (ty.getD .untyped) a = .ok (v, w)) (hv : v.blank = false) :
    unflatten cfg (oneCell name h a) = .ok ([.obj [(h, v.toJson)]], w) := by
  have ht : currentType cfg.row h h ⟨.atom a, ⟨name, 1, 2, h⟩, []⟩ [] = ty := by
    unfold currentType
    cases a with
    | datetime t => simpa [hx] using hty
    | _ => simpa using hty
  have hrow := field_row hx (idn := cfg.idName) hh (c := ⟨.atom a, ⟨name, 1, 2, h⟩, []⟩) (by simpa [Val.blank] using ha) ht h1 h2
    (v := v) (w := w) (by simp [convertCell, hx, hc]) hv
  rw [one_row ha hr hn hrow]
  rfl

/-- C79 in XML mode: the cell of an element whose type is not array or object (or that has none) holds, as text of the element, what the type makes of the cell, with the same warnings as anywhere
(a date and time aside). -/
theorem C79_xml_element (cfg : UnCfg) (hx : cfg.row.xml = true) (hr : cfg.rootId = none) (name h : Str) (hh : ElementName h) (hn : cfg.idName ≠ some h)
    (ty : Option CType) (hty : cfg.row.types h = ty) (h1 : ty ≠ some .array) (h2 : ty ≠ some .object) (a : Atom) (ha : a.blank = false) (had : ∀ t, a ≠ .datetime t) (v : Val) (w : List Warn)
    (hc : convertType cfg.row.conv (ty.getD .untyped) a = .ok (v, w)) (hv : v.blank = false) :
    unflatten cfg (oneCell name h a) = .ok ([.obj [(h, .obj [(s%"text()", v.toJson)])]], w) := by
  have ht : currentType cfg.row h h ⟨.atom a, ⟨name, 1, 2, h⟩, []⟩ [] = ty := by
    unfold currentType
    cases a with
    | datetime t => exact absurd rfl (had t)
    | _ => simpa using hty
  have hrow := element_row hx (idn := cfg.idName) hh (c := ⟨.atom a, ⟨name, 1, 2, h⟩, []⟩) (by simpa [Val.blank] using ha) ht h1 h2
    (v := v) (w := w) (by simp [convertCell, h1, hc]) hv
  rw [one_row ha hr hn hrow]
  rfl

/-- A date and time is written as a date, whatever type the schema gives the element, unless the name of the element has `datetime` in it. -/
theorem C79_xml_date (cfg : UnCfg) (hx : cfg.row.xml = true) (hr : cfg.rootId = none) (name h : Str) (hh : ElementName h) (hn : cfg.idName ≠ some h)
    (hd : Py.contains s%"datetime" h = false) (d : PyDatetime) (hne : d.dateIso ≠ []) :
    unflatten cfg (oneCell name h (.datetime d)) = .ok ([.obj [(h, .obj [(s%"text()", .leaf (.str d.dateIso))])]], []) := by
  have hb : (Atom.str d.dateIso).blank = false := by
    cases e : d.dateIso with
    | nil => exact absurd e hne
    | cons => rfl
  have hrow := element_row hx (idn := cfg.idName) hh (c := ⟨.atom (.datetime d), ⟨name, 1, 2, h⟩, []⟩) rfl (ty := some .date)
    (by simp [currentType, hx, hd]) (by simp) (by simp) (v := .atom (.str d.dateIso)) (w := []) (by simp [convertCell, convertType, Atom.blank]) (by simpa [Val.blank] using hb)
  rw [one_row rfl hr hn hrow]
  rfl

/-- An array in one cell is one element with the text as it is. -/
theorem C79_xml_array (cfg : UnCfg) (hx : cfg.row.xml = true) (hr : cfg.rootId = none) (name h : Str) (hh : ElementName h) (hn : cfg.idName ≠ some h)
    (hid : cfg.idName ≠ some s%"text()") (hty : cfg.row.types h = some .array) (s : Str) (hs : s ≠ []) :
    unflatten cfg (oneCell name h (.str s)) = .ok ([.obj [(h, .arr [.obj [(s%"text()", .leaf (.str s))]])]], []) := by
  have hb : (Atom.str s).blank = false := by cases s with | nil => exact absurd rfl hs | cons => rfl
  have hrow := element_array_row hx (idn := cfg.idName) hh (c := ⟨.atom (.str s), ⟨name, 1, 2, h⟩, []⟩) (by simpa [Val.blank] using hb) (by simpa [currentType] using hty) hid
    (v := .atom (.str s)) (w := []) (by simp [convertCell, hx, convertType, hb, Py.str]) (by simpa [Val.blank] using hb)
  rw [one_row hb hr hn hrow]
  rfl

namespace TypedCellEx

/-- A schema with a number, a list and a date, in XML mode. -/
def cfg : UnCfg := { row := { xml := true, types := fun k => if k = s%"n" then some .number else if k = s%"l" then some .array else none }, rootId := none }

theorem element {h : Str} (h1 : h ≠ [] ∧ isint h = false ∧ Py.startsWith s%"@" h = false ∧ '/' ∉ h ∧ Py.rstrip (fun c => c = '[' || c = ']') h = h) : ElementName h :=
  ⟨h1.1, h1.2.1, h1.2.2.1, h1.2.2.2.1, h1.2.2.2.2⟩

/-- The text 12 in the number column, and a text that is none. -/
example : (∃ v w, convertType {} .number (.str s%"12") = .ok (v, w) ∧ v.blank = false ∧
      unflatten cfg (oneCell s%"main" s%"n" (.str s%"12")) = .ok ([.obj [(s%"n", .obj [(s%"text()", v.toJson)])]], w)) ∧
    ∃ w, w.length = 1 ∧ unflatten cfg (oneCell s%"main" s%"n" (.str s%"twelve")) = .ok ([.obj [(s%"n", .obj [(s%"text()", .leaf (.str s%"twelve"))])]], w) := by
  refine ⟨⟨_, _, rfl, by decide +kernel, C79_xml_element cfg rfl rfl _ _ (element (by decide +kernel)) (by decide +kernel) (some .number) rfl (by decide) (by decide) _ (by decide +kernel)
    (by intro t h; cases h) _ _ rfl (by decide +kernel)⟩, ?_⟩
  exact ⟨_, rfl, C79_xml_element cfg rfl rfl _ _ (element (by decide +kernel)) (by decide +kernel) (some .number) rfl (by decide) (by decide) _ (by decide +kernel)
    (by intro t h; cases h) (.atom (.str s%"twelve")) [_] rfl (by decide +kernel)⟩

/-- The number column and a date and time in a text column, outside XML mode. -/
example : unflatten { rootId := none, row := { types := fun _ => some .number } } (oneCell s%"main" s%"n" (.str s%"12")) = .ok ([.obj [(s%"n", .leaf (.dec (.fin false 12 0)))]], []) ∧
    ∀ d : PyDatetime, d.localIso ≠ [] → unflatten { rootId := none, row := { types := fun _ => some .string } } (oneCell s%"main" s%"date" (.datetime d)) =
      .ok ([.obj [(s%"date", .leaf (.str d.localIso))]], []) := by
  refine ⟨C79_json_field _ rfl rfl _ _ (element (by decide +kernel)) (by decide +kernel) (some .number) rfl (by decide) (by decide) _ (by decide +kernel) (.atom (.dec (.fin false 12 0))) [] rfl
    (by decide +kernel), ?_⟩
  intro d hd
  refine C79_json_field _ rfl rfl _ _ (element (by decide +kernel)) (by decide +kernel) (some .string) rfl (by decide) (by decide) _ rfl (.atom (.str d.localIso)) [] ?_ ?_
  · simp [convertType, Atom.blank]
  · cases e : d.localIso with
    | nil => exact absurd e hd
    | cons => rfl

/-- A date and time. -/
example (d : PyDatetime) (hne : d.dateIso ≠ []) : unflatten cfg (oneCell s%"main" s%"date" (.datetime d)) = .ok ([.obj [(s%"date", .obj [(s%"text()", .leaf (.str d.dateIso))])]], []) :=
  C79_xml_date cfg rfl rfl _ _ (element (by decide +kernel)) (by decide +kernel) (by decide +kernel) d hne

/-- The list column. -/
example : unflatten cfg (oneCell s%"main" s%"l" (.str s%"a;b")) = .ok ([.obj [(s%"l", .arr [.obj [(s%"text()", .leaf (.str s%"a;b"))]])]], []) :=
  C79_xml_array cfg rfl rfl _ _ (element (by decide +kernel)) (by decide +kernel) (by decide +kernel) rfl _ (by decide)

end TypedCellEx

end Verif

import Verif.Spec.Geometry
import Verif.Proofs.XmlFlat
import Verif.Proofs.DecEq
/-! C87: geometries are flattened to their texts. -/
namespace Verif
open Spec

/-- What is asked of the settings. -/
structure GeoFlat (cfg : FCfg) : Prop where
  wkt : cfg.wkt = true
  lib : cfg.geoLib = true
  json : cfg.xml = false
  filter : cfg.filter = none
  rollup : cfg.rollup = []
  idName : cfg.idName ≠ s%"type" ∧ cfg.idName ≠ s%"coordinates"
  rootId : cfg.rootId ≠ some s%"type" ∧ cfg.rootId ≠ some s%"coordinates"

theorem get_asTexts (cfg : FCfg) {k : Str} (hk : plainKey cfg k = false) (fs : List (Str × Json)) : Dict.get (asTextsIn cfg fs) k = Dict.get fs k := by
  induction fs with
  | nil => simp [asTextsIn]
  | cons p r ih =>
    obtain ⟨k', v⟩ := p
    rw [asTextsIn, Dict.get_cons, Dict.get_cons, ih]
    by_cases h : k' = k
    · subst h; simp [hk]
    · simp [h]

theorem keys_asTexts (cfg : FCfg) (fs : List (Str × Json)) : (asTextsIn cfg fs).map (·.1) = fs.map (·.1) := by
  induction fs with
  | nil => simp [asTextsIn]
  | cons p r ih => obtain ⟨k', v⟩ := p; simp [asTextsIn, ih]

theorem has_of_keys {α : Type} (fs gs : List (Str × α)) (k : Str) (h : fs.map (·.1) = gs.map (·.1)) : Dict.has fs k = Dict.has gs k := by
  induction fs generalizing gs with
  | nil => cases gs with
    | nil => rfl
    | cons => cases h
  | cons p r ih =>
    cases gs with
    | nil => cases h
    | cons q s =>
      obtain ⟨a, b⟩ := p
      obtain ⟨c, d⟩ := q
      simp only [List.map_cons, List.cons.injEq] at h
      obtain ⟨rfl, h⟩ := h
      have := ih s h
      unfold Dict.has at this ⊢
      rw [Dict.get_cons, Dict.get_cons]
      by_cases e : a = k
      · simp [e]
      · simpa [e] using this

theorem isGeometry_asTexts (cfg : FCfg) (fs : List (Str × Json)) : isGeometry (asTextsIn cfg fs) = isGeometry fs := by
  unfold isGeometry
  rw [has_of_keys _ fs _ (keys_asTexts cfg fs), has_of_keys _ fs _ (keys_asTexts cfg fs)]

theorem id_not_plain (cfg : FCfg) : plainKey cfg cfg.idName = false := by simp [plainKey]
theorem root_not_plain (cfg : FCfg) {r : Str} (h : cfg.rootId = some r) : plainKey cfg r = false := by simp [plainKey, h]

/-- Before the loop over the keys, an object is not distinguished from the one with texts. -/
theorem prologue_asTexts {cfg : FCfg} (ref : SheetRef) (pn : Str) (b : Bool) (pids : List (Str × Json)) (flat : Option FLine) (hc : cfg.filter = none) {fs : List (Str × Json)}
    (hg : isGeometry fs = false) (st : FState) :
    prologue cfg ref pn b pids flat (asTextsIn cfg fs) st = prologue cfg ref pn b pids flat fs st := by
  have hg' := isGeometry_asTexts cfg fs
  rw [hg] at hg'
  unfold isGeometry at hg hg'
  have h1 : geoStage cfg ref pn flat (asTextsIn cfg fs) st = geoStage cfg ref pn flat fs st := by
    unfold geoStage
    simp [Bool.and_assoc, hg, hg']
  unfold prologue
  rw [h1]
  simp only [filteredOut, hc, addRootId, addId, get_asTexts cfg (id_not_plain cfg)]
  cases e : cfg.rootId with
  | none => rfl
  | some r => simp only [get_asTexts cfg (root_not_plain cfg e)]

theorem parseValue_name {cfg : FCfg} (hx : cfg.xml = false) {ref : SheetRef} {pn : Str} {pids : List (Str × Json)} {key : Str} {v : Json} {flat : FLine} {st : FState}
    {p : (Str × FLine) × FState} (h : parseValue cfg ref pn pids key v flat st = .ok p) : p.1.1 = pn := by
  cases v with
  | leaf a =>
    rw [parseValue] at h
    simp only [hx, Bool.false_and, Bool.false_eq_true, if_false] at h
    split at h
    · cases h; rfl
    · cases h
  | obj fs =>
    rw [parseValue] at h
    split at h
    · cases h
    · cases h; rfl
    · unfold andThen at h
      split at h
      · cases h
      · cases h; rfl
  | arr l =>
    rw [parseValue] at h
    split at h
    · cases h; rfl
    · unfold andThen at h
      split at h
      · cases h
      · dsimp only at h
        split at h
        · cases h
        · cases h; rfl

theorem strip_field {pn k : Str} (hp : pn.head? ≠ some '/') (hk : k ≠ []) (hs : '/' ∉ k) : Py.strip (· = '/') (pn ++ (k ++ s%"/")) = pn ++ k := by
  have hne : pn ++ k ≠ [] := by simp [hk]
  have hhead : (pn ++ k).head? ≠ some '/' := by
    cases pn with
    | nil =>
      cases k with
      | nil => exact absurd rfl hk
      | cons c r => intro e; simp at e; exact hs (by simp [e])
    | cons c r => simpa using hp
  have hlast : (pn ++ k).getLast? ≠ some '/' := by
    rw [List.getLast?_append]
    intro e
    cases el : k.getLast? with
    | none => exact hk (List.getLast?_eq_none_iff.1 el)
    | some c =>
      rw [el] at e
      simp only [Option.some_or, Option.some.injEq] at e
      subst e
      exact hs (List.mem_of_getLast? el)
  rw [← List.append_assoc]
  have : Py.lstrip (fun c => decide (c = '/')) (pn ++ k ++ s%"/") = pn ++ k ++ s%"/" := by
    cases e : pn ++ k with
    | nil => exact absurd e hne
    | cons c r =>
      have : c ≠ '/' := by intro h; apply hhead; rw [e, h]; rfl
      simp [Py.lstrip, this]
  unfold Py.strip
  rw [this]
  exact rstrip_slash hlast hne

theorem skip_all {cfg : FCfg} {ref : SheetRef} {pn : Str} {pids : List (Str × Json)} {fs : List (Str × Json)} (h : fs.all (fun p => p.1 = s%"type" || p.1 = s%"coordinates") = true)
    (flat : FLine) (st : FState) : parseFields cfg ref pn pids true fs flat st = .ok (flat, st) := by
  induction fs with
  | nil => rw [parseFields]
  | cons p r ih =>
    obtain ⟨k, v⟩ := p
    rw [List.all_cons, Bool.and_eq_true] at h
    rw [parseFields, if_pos (by simpa using h.1)]
    exact ih h.2

theorem get_none_of_all {fs : List (Str × Json)} (h : fs.all (fun p => p.1 = s%"type" || p.1 = s%"coordinates") = true) {k : Str} (h1 : k ≠ s%"type") (h2 : k ≠ s%"coordinates") :
    Dict.get fs k = none := by
  induction fs with
  | nil => rfl
  | cons p r ih =>
    obtain ⟨k', v⟩ := p
    rw [List.all_cons, Bool.and_eq_true] at h
    rw [Dict.get_cons, if_neg, ih h.2]
    rintro rfl
    have := h.1
    simp [h1, h2] at this

/-- A geometry is one cell with its text. -/
theorem geometry_cell {cfg : FCfg} (hc : GeoFlat cfg) (ref : SheetRef) {pn : Str} (hp : pn.head? ≠ some '/') (pids : List (Str × Json)) {key : Str} (hk : key ≠ []) (hs : '/' ∉ key)
    {fs : List (Str × Json)} (hg : isGeometry fs = true) {t : Str} (ht : textOf cfg fs = some t) (flat : FLine) (st : FState) :
    parseValue cfg ref pn pids key (.leaf (.str t)) flat st = parseValue cfg ref pn pids key (.obj fs) flat st := by
  unfold textOf at ht
  split at ht
  · next hall =>
    unfold isGeometry at hg
    have h1 := get_none_of_all hall hc.idName.1 hc.idName.2
    have h2 : ∀ (pids : List (Str × Json)) (st : FState), addRootId cfg ref fs pids st = (pids, st) := by
      intro pids st
      unfold addRootId
      cases e : cfg.rootId with
      | none => rfl
      | some r =>
        have := get_none_of_all hall (k := r) (by rintro rfl; exact hc.rootId.1 e) (by rintro rfl; exact hc.rootId.2 e)
        simp [addId, this]
    rw [parseValue, parseValue]
    simp only [prologue, geoStage, hc.wkt, Bool.true_and, hg, if_true, hc.lib, ht, filteredOut, hc.filter, Bool.false_eq_true, if_false, startLine, Option.getD_some, h2, addId, h1,
      skip_all hall, andThen, hc.json, Bool.false_and, put, strip_field hp hk hs, Atom.basic]
  · cases ht

theorem basic_items (cfg : FCfg) (l : List Json) : (asTextsItems cfg l).mapM basicStr = l.mapM basicStr := by
  induction l with
  | nil => simp [asTextsItems]
  | cons j r ih => cases j <;> simp [asTextsItems, ih, basicStr]

theorem inner_items (cfg : FCfg) (l : List Json) : (asTextsItems cfg l).mapM innerJoin = l.mapM innerJoin := by
  induction l with
  | nil => simp [asTextsItems]
  | cons j r ih => cases j <;> simp [asTextsItems, ih, innerJoin]

theorem join_items (cfg : FCfg) (l : List Json) : joinArray (asTextsItems cfg l) = joinArray l := by
  simp [joinArray, basic_items, inner_items]

theorem head_below {pn k : Str} (hp : pn.head? ≠ some '/') (hk : k ≠ []) (hs : '/' ∉ k) (x : Str) : (pn ++ (k ++ x)).head? ≠ some '/' := by
  cases pn with
  | nil =>
    cases k with
    | nil => exact absurd rfl hk
    | cons c r => intro e; simp at e; exact hs (by simp [e])
  | cons c r => simpa using hp

theorem plain_parts {cfg : FCfg} {k : Str} (h : plainKey cfg k = true) : k ≠ [] ∧ '/' ∉ k := by
  simp [plainKey] at h
  exact ⟨h.1.1.1, h.1.1.2⟩

mutual
theorem fields_asTexts {cfg : FCfg} (hc : GeoFlat cfg) (ref : SheetRef) (pn : Str) (hp : pn.head? ≠ some '/') (pids : List (Str × Json)) (skip : Bool) :
    ∀ (fs : List (Str × Json)) (flat : FLine) (st : FState), parseFields cfg ref pn pids skip (asTextsIn cfg fs) flat st = parseFields cfg ref pn pids skip fs flat st
  | [], flat, st => by rw [asTextsIn]
  | (k, v) :: r, flat, st => by
    have ih := fields_asTexts hc ref pn hp pids skip r
    have hv : ∀ st, parseValue cfg ref pn pids k (if plainKey cfg k then asTexts cfg v else v) flat st = parseValue cfg ref pn pids k v flat st := by
      intro st
      by_cases h : plainKey cfg k = true
      · rw [if_pos h]; exact value_asTexts hc ref pn hp pids k (plain_parts h).1 (plain_parts h).2 v flat st
      · rw [if_neg h]
    rw [asTextsIn, parseFields, parseFields]
    simp only [ih, hv]
    split
    · rfl
    · split
      · rfl
      · generalize e : parseValue cfg ref pn pids k v flat _ = m
        cases m with
        | error x => rfl
        | ok p =>
          have := parseValue_name hc.json e
          obtain ⟨⟨pn', fl⟩, st'⟩ := p
          simp only at this
          subst this
          simp only [andThen]
          exact ih fl st'
termination_by structural fs => fs
theorem value_asTexts {cfg : FCfg} (hc : GeoFlat cfg) (ref : SheetRef) (pn : Str) (hp : pn.head? ≠ some '/') (pids : List (Str × Json)) (key : Str) (hk : key ≠ []) (hs : '/' ∉ key) :
    ∀ (v : Json) (flat : FLine) (st : FState), parseValue cfg ref pn pids key (asTexts cfg v) flat st = parseValue cfg ref pn pids key v flat st
  | .leaf a, flat, st => by rw [asTexts]
  | .obj fs, flat, st => by
    rw [asTexts]
    by_cases hg : isGeometry fs = true
    · rw [if_pos hg]
      cases ht : textOf cfg fs with
      | none => rfl
      | some t => exact geometry_cell hc ref hp pids hk hs hg ht flat st
    · rw [if_neg hg, parseValue, parseValue, prologue_asTexts ref _ _ _ _ hc.filter (by simpa using hg)]
      have ih := fun pids skip fl st => fields_asTexts hc ref (pn ++ (key ++ s%"/")) (head_below hp hk hs _) pids skip fs fl st
      simp only [ih]
  | .arr l, flat, st => by
    rw [asTexts, parseValue, parseValue, join_items]
    have ih := fun name st => items_asTexts hc name (pn ++ (key ++ s%"/0/")) (head_below hp hk hs _) pids l st
    simp only [ih, rollupStage, hc.rollup, List.isEmpty_nil, Bool.true_or, if_true]
termination_by structural v => v
theorem items_asTexts {cfg : FCfg} (hc : GeoFlat cfg) (name : Str) (pn : Str) (hp : pn.head? ≠ some '/') (pids : List (Str × Json)) :
    ∀ (l : List Json) (st : FState), parseItems cfg name pn pids (asTextsItems cfg l) st = parseItems cfg name pn pids l st
  | [], st => by rw [asTextsItems]
  | .leaf a :: r, st => by
    rw [asTextsItems, parseItems, parseItems, items_asTexts hc name pn hp pids r]
  | .arr _ :: r, st => by rw [asTextsItems, parseItems, parseItems]
  | .obj fs :: r, st => by
    have ih := items_asTexts hc name pn hp pids r
    rw [asTextsItems, parseItems, parseItems]
    by_cases hg : isGeometry fs = true
    · rw [if_pos hg]; simp only [ih]
    · have ih2 := fun pids skip fl st => fields_asTexts hc (some name) pn hp pids skip fs fl st
      rw [if_neg hg, prologue_asTexts _ _ _ _ _ hc.filter (by simpa using hg)]
      simp only [ih, ih2]
termination_by structural l => l
end

theorem root_asTexts {cfg : FCfg} (hc : GeoFlat cfg) (l : List Json) : ∀ (n : Nat) (st : FState), parseRootList cfg n (asTextsItems cfg l) st = parseRootList cfg n l st := by
  induction l with
  | nil => intro n st; rw [asTextsItems]
  | cons j r ih =>
    intro n st
    have hj : ∀ fs, parseRootItem cfg n (.obj (if isGeometry fs then fs else asTextsIn cfg fs)) st = parseRootItem cfg n (.obj fs) st := by
      intro fs
      by_cases hg : isGeometry fs = true
      · rw [if_pos hg]
      · rw [if_neg hg]
        simp only [parseRootItem]
        rw [prologue_asTexts _ _ _ _ _ hc.filter (by simpa using hg)]
        simp only [fields_asTexts hc none [] (by simp)]
    cases j with
    | leaf a => rw [asTextsItems, parseRootList, parseRootList]; simp only [ih]
    | arr a => rw [asTextsItems, parseRootList, parseRootList]; simp only [ih]
    | obj fs => rw [asTextsItems, parseRootList, parseRootList, hj]; simp only [ih]

/-- C87: with conversion of geometries, a document is flattened exactly like the document in which each geometry (an object of `type` and `coordinates`) is replaced by its text:
the same sheets, columns, lines and warnings, or the same error. -/
theorem C87_geometries (cfg : FCfg) (hc : GeoFlat cfg) (root : List Json) : flatten cfg (asTextsItems cfg root) = flatten cfg root := by
  unfold flatten
  rw [root_asTexts hc]

/-! ### A concrete case -/
namespace GeometryExample

/-- Settings with conversion, of a single text. -/
def cfg : FCfg := { wkt := true, wktOf := fun _ => some s%"POINT (1 2)" }
def point : Json := .obj [(s%"type", .leaf (.str s%"Point")), (s%"coordinates", .arr [.leaf (.int 1), .leaf (.int 2)])]
/-- A geometry two objects down, and one in an item of an array. -/
def doc : Json := .obj [(s%"id", .leaf (.str s%"1")), (s%"site", .obj [(s%"place", point), (s%"name", .leaf (.str s%"a"))]),
  (s%"parts", .arr [.obj [(s%"id", .leaf (.str s%"p")), (s%"area", point)]])]
def textDoc : Json := .obj [(s%"id", .leaf (.str s%"1")), (s%"site", .obj [(s%"place", .leaf (.str s%"POINT (1 2)")), (s%"name", .leaf (.str s%"a"))]),
  (s%"parts", .arr [.obj [(s%"id", .leaf (.str s%"p")), (s%"area", .leaf (.str s%"POINT (1 2)"))]])]

theorem fits : GeoFlat cfg := ⟨rfl, rfl, rfl, rfl, rfl, by decide, by decide⟩

theorem texts : asTextsItems cfg [doc] = [textDoc] := by rfl

example : flatten cfg [textDoc] = flatten cfg [doc] := texts ▸ C87_geometries cfg fits [doc]

/-- The sheets of the document with geometries. -/
example : (flatten cfg [doc]).map (fun st => (st.main.columns, st.subs.map (fun p => (p.1, p.2.columns)))) =
    .ok ([s%"id", s%"site/place", s%"site/name"], [(s%"parts", [s%"id", s%"parts/0/id", s%"parts/0/area"])]) := by decide +kernel

end GeometryExample

end Verif

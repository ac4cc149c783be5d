import Verif.Proofs.AtRun
import Verif.Props.Twice
import Verif.Proofs.DecEq
/-! C06: the order of rows and sheets does not matter. -/
namespace Verif
open Spec

/-! ### From cell trees to JSON -/

theorem sameJson_val {a b : Val} (h : a.pyEq b = true) : SameJson a.toJson b.toJson := by
  have atoms : ∀ (l m : List Atom) (c : List Canon), l.mapM Atom.canon = some c → m.mapM Atom.canon = some c →
      SameJsonItems (l.map .leaf) (m.map .leaf) := by
    intro l
    induction l with
    | nil =>
      intro m c h1 h2
      simp at h1; subst h1
      cases m with
      | nil => exact .nil
      | cons x r => simp [List.mapM_cons, Option.bind_eq_some_iff] at h2
    | cons x r ih =>
      intro m c h1 h2
      simp only [List.mapM_cons, Option.bind_eq_bind, Option.bind_eq_some_iff, Option.pure_def, Option.some.injEq] at h1
      obtain ⟨cx, hx, cr, hr, rfl⟩ := h1
      cases m with
      | nil => simp at h2
      | cons y s =>
        simp only [List.mapM_cons, Option.bind_eq_bind, Option.bind_eq_some_iff, Option.pure_def, Option.some.injEq, List.cons.injEq] at h2
        obtain ⟨cy, hy, cs, hs, rfl, rfl⟩ := h2
        refine .cons (.leaf ?_) (ih s _ hr hs)
        simp [atomEq, Val.pyEq, Val.canon, hx, hy]
  have rows : ∀ (l m : List (List Atom)) (c : List (List Canon)), l.mapM (fun r => r.mapM Atom.canon) = some c →
      m.mapM (fun r => r.mapM Atom.canon) = some c →
      SameJsonItems (l.map (fun r => .arr (r.map .leaf))) (m.map (fun r => .arr (r.map .leaf))) := by
    intro l
    induction l with
    | nil =>
      intro m c h1 h2
      simp at h1; subst h1
      cases m with
      | nil => exact .nil
      | cons x r => simp [List.mapM_cons, Option.bind_eq_some_iff] at h2
    | cons x r ih =>
      intro m c h1 h2
      simp only [List.mapM_cons, Option.bind_eq_bind, Option.bind_eq_some_iff, Option.pure_def, Option.some.injEq] at h1
      obtain ⟨cx, hx, cr, hr, rfl⟩ := h1
      cases m with
      | nil => simp at h2
      | cons y s =>
        simp only [List.mapM_cons, Option.bind_eq_bind, Option.bind_eq_some_iff, Option.pure_def, Option.some.injEq, List.cons.injEq] at h2
        obtain ⟨cy, hy, cs, hs, rfl, rfl⟩ := h2
        exact .cons (.arr (atoms x y _ hx hy) (.refl _)) (ih s _ hr hs)
  unfold Val.pyEq at h
  split at h
  · next x y hx hy =>
    have hxy : x = y := by simpa using h
    subst hxy
    cases a with
    | atom a =>
      cases b with
      | atom b =>
        refine .leaf ?_
        simp only [atomEq, Val.pyEq, hx, hy]; simp
      | arr l =>
        simp only [Val.canon, Option.map_eq_some_iff] at hx hy
        obtain ⟨_, _, rfl⟩ := hx; obtain ⟨_, _, h⟩ := hy; cases h
      | arr2 l =>
        simp only [Val.canon, Option.map_eq_some_iff] at hx hy
        obtain ⟨_, _, rfl⟩ := hx; obtain ⟨_, _, h⟩ := hy; cases h
      | geo g => simp [Val.canon] at hy
    | arr l =>
      cases b with
      | arr m =>
        simp only [Val.canon, Option.map_eq_some_iff] at hx hy
        obtain ⟨c, h1, rfl⟩ := hx; obtain ⟨d, h2, h⟩ := hy; cases h
        exact .arr (atoms l m _ h1 h2) (.refl _)
      | atom l =>
        simp only [Val.canon, Option.map_eq_some_iff] at hx hy
        obtain ⟨_, _, rfl⟩ := hx; obtain ⟨_, _, h⟩ := hy; cases h
      | arr2 l =>
        simp only [Val.canon, Option.map_eq_some_iff] at hx hy
        obtain ⟨_, _, rfl⟩ := hx; obtain ⟨_, _, h⟩ := hy; cases h
      | geo g => simp [Val.canon] at hy
    | arr2 l =>
      cases b with
      | arr2 m =>
        simp only [Val.canon, Option.map_eq_some_iff] at hx hy
        obtain ⟨c, h1, rfl⟩ := hx; obtain ⟨d, h2, h⟩ := hy; cases h
        exact .arr (rows l m _ h1 h2) (.refl _)
      | atom l =>
        simp only [Val.canon, Option.map_eq_some_iff] at hx hy
        obtain ⟨_, _, rfl⟩ := hx; obtain ⟨_, _, h⟩ := hy; cases h
      | arr l =>
        simp only [Val.canon, Option.map_eq_some_iff] at hx hy
        obtain ⟨_, _, rfl⟩ := hx; obtain ⟨_, _, h⟩ := hy; cases h
      | geo g => simp [Val.canon] at hy
    | geo g => simp [Val.canon] at hx
  · cases h

theorem toValue_map (fs : List (Str × CTree)) : toValue fs = fs.map (fun e => (e.1, treeToValue e.2)) := by
  induction fs with
  | nil => rfl
  | cons e r ih => obtain ⟨k, t⟩ := e; simp [toValue, ih]

theorem listToValue_map (is : List (List (Str × CTree))) : listToValue is = is.map (fun fs => .obj (toValue fs)) := by
  induction is with
  | nil => rfl
  | cons e r ih => simp [listToValue, ih]

mutual
theorem sameJson_of : {t u : CTree} → SameData t u → SameJson (treeToValue t) (treeToValue u)
  | _, _, .cell h => by simp only [treeToValue]; exact sameJson_val h
  | _, _, .obj (gs := gs) h p => by
      simp only [treeToValue]
      refine .obj (sameJsonFields_of h) ?_
      rw [toValue_map, toValue_map]; exact p.map _
  | _, _, .list h p => by
      simp only [treeToValue]
      refine .arr (sameJsonItems_of h) ?_
      rw [listToValue_map, listToValue_map]; exact p.map _
theorem sameJsonFields_of : {fs gs : List (Str × CTree)} → SameFields fs gs → SameJsonFields (toValue fs) (toValue gs)
  | _, _, .nil => by simp only [toValue]; exact .nil
  | _, _, .cons h r => by simp only [toValue]; exact .cons (sameJson_of h) (sameJsonFields_of r)
theorem sameJsonItems_of : {is js : List (List (Str × CTree))} → SameObjects is js → SameJsonItems (listToValue is) (listToValue js)
  | _, _, .nil => by simp only [listToValue]; exact .nil
  | _, _, .cons h r => by
      simp only [listToValue]
      refine .cons ?_ (sameJsonItems_of r)
      have := sameJson_of h
      simpa only [treeToValue] using this
end

/-! ### The theorem -/

/-- What the rows of a run are: filed under an id, without conflicts in themselves. -/
theorem rows_good {cfg : UnCfg} {sheets : List SheetIn} {rows : List Row} {gs : Groups} {mw : List Warn}
    (e1 : rowsAlone cfg (rowsIn sheets) = .ok rows) (e2 : foldRows cfg rows [] = .ok (gs, mw))
    (hid : ∀ r ∈ rowsIn sheets, AllIdentified cfg r) :
    ∀ x ∈ rows, Filed cfg x ∧ Ident cfg x ∧ Clean (encR cfg x).2 := by
  intro x hx
  obtain ⟨r, hr, hrx⟩ := rowsAlone_mem e1 x hx
  have he := foldRows_each e2 x hx
  have hi := ident_of_row (counts_rowsIn hr) hrx he (hid r hr)
  obtain ⟨td, td', w, he⟩ := he
  obtain ⟨k', hk', hkk⟩ := hi.id
  rcases addToGroup_cases he with ⟨hk, -, -, hrk⟩ | ⟨k, hk, hh, hrk, -⟩
  · rw [hk'] at hrk; cases hrk
  · rw [hk'] at hrk; cases hrk
    refine ⟨⟨k', hk', hh⟩, hi, ?_⟩
    simp only [encR, hk, Option.getD_some]
    refine clean_encRow hi.root hkk ?_
    intro p u hu
    exact clean_of_wf p (.obj x.fields) u (by simpa [WFTree] using rowAlone_wf hrx) (by simpa [IdT] using hi.fields) hu

theorem rows_agree {cfg : UnCfg} {sheets : List SheetIn} {rows : List Row} {gs : Groups} {mw : List Warn}
    (e1 : rowsAlone cfg (rowsIn sheets) = .ok rows) (e2 : foldRows cfg rows [] = .ok (gs, mw))
    (hid : ∀ r ∈ rowsIn sheets, AllIdentified cfg r) (hcon : Consistent cfg (rowsIn sheets)) :
    ∀ x ∈ rows, ∀ y ∈ rows, Agr (encR cfg x).2 (encR cfg y).2 := by
  intro x hx y hy
  obtain ⟨r, hr, hrx⟩ := rowsAlone_mem e1 x hx
  obtain ⟨r', hr', hry⟩ := rowsAlone_mem e1 y hy
  obtain ⟨⟨k, hk, -⟩, -, -⟩ := rows_good e1 e2 hid x hx
  obtain ⟨⟨k', hk', -⟩, -, -⟩ := rows_good e1 e2 hid y hy
  obtain ⟨w, hw⟩ := alone_run (counts_rowsIn hr) hrx (foldRows_each e2 x hx)
  obtain ⟨w', hw'⟩ := alone_run (counts_rowsIn hr') hry (foldRows_each e2 y hy)
  have hko : keyOf cfg x = some k := by unfold keyOf; rw [hk]
  have hko' : keyOf cfg y = some k' := by unfold keyOf; rw [hk']
  simp only [encR, hko, hko', Option.getD_some]
  refine agr_encRow (fun h1 h2 => ?_)
  have h1' : sameRoot cfg r r' = true := by
    rw [rowAlone_root hrx, rowAlone_root hry] at h1
    exact h1
  have ha := hcon r hr r' hr' h1' _ _ _ _ hw hw'
  have ha' := agreeItems_iff.1 ha _ (by simp) _ (by simp) k k' (cellId_toLists (rowKey_ok hk)) (cellId_toLists (rowKey_ok hk')) h2
  intro p a b hpa hpb
  refine agr_of_agree (n := cfg.idName) (xml := cfg.row.xml) p (.obj x.fields) (.obj y.fields) a b ?_ ?_ ?_ hpa hpb
  · simpa [WFTree] using rowAlone_wf hrx
  · simpa [WFTree] using rowAlone_wf hry
  · simpa [Agree, treeToLists] using ha'

theorem dupWarns_mem {sheets : List SheetIn} {x : Warn} (h : x ∈ dupWarns sheets) : ∃ s ∈ sheets, ∃ heading cols, x = .dupHeading heading cols s.name := by
  simp only [dupWarns, List.mem_flatMap] at h
  obtain ⟨s, h1, h2⟩ := h
  split at h2
  · simp only [headingWarns, List.mem_filterMap] at h2
    obtain ⟨e, -, he⟩ := h2
    split at he
    · cases he; exact ⟨s, h1, _, _, rfl⟩
    · cases he
  · cases h2

/-- C06, with the warnings about headings as the model collects them. -/
theorem any_order_core (cfg : UnCfg) (sheets sheets' : List SheetIn) (out : List (List (Str × CTree))) (w : List Warn)
    (h : doUnflatten cfg sheets = .ok (out, w))
    (hid : ∀ r ∈ rowsIn sheets, AllIdentified cfg r) (hcon : Consistent cfg (rowsIn sheets))
    (hl : ∀ l, l ∈ (rowsIn sheets').map (·.line) ↔ l ∈ (rowsIn sheets).map (·.line)) :
    ∃ out' w' objs, doUnflatten cfg sheets' = .ok (out', w') ∧ SameObjects out objs ∧ objs.Perm out' ∧
      ∀ x ∈ w', x ∈ dupWarns sheets' ∨ ∃ r ∈ rowsIn sheets', ∃ o wr, doUnflatten cfg [alone r] = .ok (o, wr) ∧ x ∈ wr := by
  obtain ⟨rows, gs, mw, e1, e2, rfl, wf, hwarn⟩ := doUnflatten_ok h
  obtain ⟨ps, p1, p2, p3⟩ := rowsAlone_pairs e1
  have hgood := rows_good e1 e2 hid
  have hagr := rows_agree e1 e2 hid hcon
  obtain ⟨gs1, u1, u2, u3, u4⟩ := run_union rows (fun x hx => (hgood x hx).1) (fun x hx => (hgood x hx).2.2) hagr
  rw [u1] at e2
  cases e2
  -- the other rows
  have hpair : ∀ r' ∈ rowsIn sheets', ∃ x ∈ rows, ∃ x', rowAlone cfg r' = .ok x' ∧ x'.root = x.root ∧
      tlF noLoc x'.fields = tlF noLoc x.fields ∧ rowKey cfg.idName cfg.row.xml x'.fields = rowKey cfg.idName cfg.row.xml x.fields := by
    intro r' hr'
    obtain ⟨r, hr, hrl⟩ := List.mem_map.1 ((hl r'.line).1 (List.mem_map_of_mem hr'))
    rw [← p1] at hr
    obtain ⟨p, hp, rfl⟩ := List.mem_map.1 hr
    obtain ⟨x', h1, h2, h3, h4, h5⟩ := rowAlone_line hrl (p3 p hp)
    exact ⟨p.2, by rw [← p2]; exact List.mem_map_of_mem hp, x', h1, h2, h3, h5⟩
  have hpair' : ∀ x ∈ rows, ∃ r' ∈ rowsIn sheets', ∃ x', rowAlone cfg r' = .ok x' ∧ x'.root = x.root ∧
      tlF noLoc x'.fields = tlF noLoc x.fields ∧ rowKey cfg.idName cfg.row.xml x'.fields = rowKey cfg.idName cfg.row.xml x.fields := by
    intro x hx
    rw [← p2] at hx
    obtain ⟨p, hp, rfl⟩ := List.mem_map.1 hx
    obtain ⟨r', hr', hrl⟩ := List.mem_map.1 ((hl p.1.line).2 (by
      rw [← p1]; exact List.mem_map_of_mem (f := (·.line)) (List.mem_map_of_mem (f := (·.1)) hp)))
    obtain ⟨x', h1, h2, h3, h4, h5⟩ := rowAlone_line hrl.symm (p3 p hp)
    exact ⟨r', hr', x', h1, h2, h3, h5⟩
  have hall : ∀ rs : List RowIn, (∀ r ∈ rs, ∃ x, rowAlone cfg r = .ok x) → ∃ xs, rowsAlone cfg rs = .ok xs := by
    intro rs
    induction rs with
    | nil => intro _; exact ⟨[], rfl⟩
    | cons r rs ih =>
      intro hr
      obtain ⟨xs, h1⟩ := ih (fun r h => hr r (by simp [h]))
      obtain ⟨x, hx⟩ := hr r (by simp)
      exact ⟨x :: xs, by simp [rowsAlone, hx, h1]⟩
  obtain ⟨rows', e1'⟩ := hall (rowsIn sheets') (fun r hr => by
    obtain ⟨x, _, x', h, _⟩ := hpair r hr; exact ⟨x', h⟩)
  obtain ⟨ps', p1', p2', p3'⟩ := rowsAlone_pairs e1'
  -- facts about pairs of rows
  have key : ∀ x x' : Row, x ∈ rows → x'.root = x.root → tlF noLoc x'.fields = tlF noLoc x.fields →
      rowKey cfg.idName cfg.row.xml x'.fields = rowKey cfg.idName cfg.row.xml x.fields →
      Filed cfg x' ∧ Clean (encR cfg x').2 ∧ Bel (encR cfg x').2 (encR cfg x).2 ∧ Bel (encR cfg x).2 (encR cfg x').2 := by
    intro x x' hx hr ht hk
    obtain ⟨⟨k, hk1, hh⟩, hi, hg⟩ := hgood x hx
    obtain ⟨k1, hk1', hkk⟩ := hi.id
    rw [hk1] at hk1'; cases hk1'
    have hko : keyOf cfg x = some k := by unfold keyOf; rw [hk1]
    have hko' : keyOf cfg x' = some k := by unfold keyOf; rw [hk, hk1]
    obtain ⟨r, hr0, hrx⟩ := rowsAlone_mem e1 x hx
    have gx : Clean (.obj x.fields) := by
      intro p u hu
      exact clean_of_wf p (.obj x.fields) u (by simpa [WFTree] using rowAlone_wf hrx) (by simpa [IdT] using hi.fields) hu
    have htl : tl noLoc (.obj x'.fields) = tl noLoc (.obj x.fields) := by simp [tl, ht]
    have gx' : Clean (.obj x'.fields) := clean_of_tl htl.symm gx
    simp only [encR, hko, hko', Option.getD_some, hr]
    refine ⟨⟨k, by rw [hk, hk1], hh⟩, clean_encRow hi.root hkk gx', ?_, ?_⟩
    · exact bel_encRow hi.root hkk (bel_of_tl htl gx')
    · exact bel_encRow hi.root hkk (bel_of_tl htl.symm gx)
  have hrow' : ∀ x' ∈ rows', ∃ x ∈ rows, Filed cfg x' ∧ Clean (encR cfg x').2 ∧ Bel (encR cfg x').2 (encR cfg x).2 := by
    intro x' hx'
    rw [← p2'] at hx'
    obtain ⟨p, hp, rfl⟩ := List.mem_map.1 hx'
    obtain ⟨x, hx, x', h1, h2, h3, h4⟩ := hpair p.1 (by rw [← p1']; exact List.mem_map_of_mem hp)
    rw [p3' p hp] at h1; cases h1
    obtain ⟨k1, k2, k3, -⟩ := key x p.2 hx h2 h3 h4
    exact ⟨x, hx, k1, k2, k3⟩
  have hrow : ∀ x ∈ rows, ∃ x' ∈ rows', Bel (encR cfg x).2 (encR cfg x').2 := by
    intro x hx
    obtain ⟨r', hr', x', h1, h2, h3, h4⟩ := hpair' x hx
    rw [← p1'] at hr'
    obtain ⟨p, hp, rfl⟩ := List.mem_map.1 hr'
    rw [p3' p hp] at h1; cases h1
    exact ⟨p.2, by rw [← p2']; exact List.mem_map_of_mem hp, (key x p.2 hx h2 h3 h4).2.2.2⟩
  have hbel' : ∀ x' ∈ rows', Bel (encR cfg x').2 (enc gs) := by
    intro x' hx'
    obtain ⟨x, hx, -, -, hb⟩ := hrow' x' hx'
    exact hb.trans (u3 x hx)
  obtain ⟨gs', v1, v2, v3, v4⟩ := run_union rows' (fun x hx => by obtain ⟨_, _, h, _⟩ := hrow' x hx; exact h)
    (fun x hx => by obtain ⟨_, _, _, h, _⟩ := hrow' x hx; exact h)
    (fun x hx y hy => agr_of_bel (hbel' x hx) (hbel' y hy))
  have b1 : Bel (enc gs') (enc gs) := v4 _ _ hbel'
  have b2 : Bel (enc gs) (enc gs') := u4 _ _ (fun x hx => by
    obtain ⟨x', hx', hb⟩ := hrow x hx
    exact hb.trans (v3 x' hx'))
  obtain ⟨objs, o1, o2⟩ := groups_same gs gs' (same_of_bel _ _ u2 v2 b2 b1)
  obtain ⟨w', hw', hww⟩ := doUnflatten_of_rows e1' v1
  refine ⟨groupsToList gs', w', objs, hw', o1, o2, ?_⟩
  intro y hy
  rcases (hww y).1 hy with hy | ⟨x', hx', hy⟩ | hy
  · exact Or.inl hy
  · right
    have he := foldRows_each v1 x' hx'
    obtain ⟨r', hr', hrx'⟩ := rowsAlone_mem e1' x' hx'
    obtain ⟨wr, hwr⟩ := alone_run (counts_rowsIn hr') hrx' he
    refine ⟨r', hr', _, wr, hwr, ?_⟩
    obtain ⟨rows2, gs2, mw2, f1, f2, -, -, f3⟩ := doUnflatten_ok hwr
    have hc := counts_rowsIn hr'
    have : rowsAlone cfg (rowsIn [alone r']) = .ok [x'] := by
      have := rowsAlone_alone cfg [r'] (by simpa using hc)
      simp only [List.map_cons, List.map_nil] at this
      rw [this]; simp [rowsAlone, hrx']
    rw [this] at f1; cases f1
    exact (f3 y).2 (Or.inr (Or.inl ⟨x', by simp, hy⟩))
  · simp at hy

/-- C06: let the rows carry ids and not contradict each other.  Any other sheets made of the same lines (in any order,
in any arrangement into sheets) can be unflattened as well, and give the same data: the same objects, up to the order of
objects, fields and array items.  No contradiction is reported: all warnings are about headings of single sheets, or also
given by a single row on its own. -/
theorem C06_any_order (cfg : UnCfg) (sheets sheets' : List SheetIn) (out : List (List (Str × CTree))) (w : List Warn)
    (h : doUnflatten cfg sheets = .ok (out, w))
    (hid : ∀ r ∈ rowsIn sheets, AllIdentified cfg r) (hcon : Consistent cfg (rowsIn sheets))
    (hl : ∀ l, l ∈ (rowsIn sheets').map (·.line) ↔ l ∈ (rowsIn sheets).map (·.line)) :
    ∃ out' w' objs, doUnflatten cfg sheets' = .ok (out', w') ∧ SameObjects out objs ∧ objs.Perm out' ∧
      ∀ x ∈ w', (∃ s ∈ sheets', ∃ heading cols, x = .dupHeading heading cols s.name) ∨ ∃ r ∈ rowsIn sheets', ∃ o wr, doUnflatten cfg [alone r] = .ok (o, wr) ∧ x ∈ wr := by
  obtain ⟨out', w', objs, h1, h2, h3, h4⟩ := any_order_core cfg sheets sheets' out w h hid hcon hl
  exact ⟨out', w', objs, h1, h2, h3, fun x hx => (h4 x hx).imp dupWarns_mem id⟩

/-- C06, for the JSON output. -/
theorem C06_any_order_json (cfg : UnCfg) (sheets sheets' : List SheetIn) (out : List Json) (w : List Warn)
    (h : unflatten cfg sheets = .ok (out, w))
    (hid : ∀ r ∈ rowsIn sheets, AllIdentified cfg r) (hcon : Consistent cfg (rowsIn sheets))
    (hl : ∀ l, l ∈ (rowsIn sheets').map (·.line) ↔ l ∈ (rowsIn sheets).map (·.line)) :
    ∃ out' w', unflatten cfg sheets' = .ok (out', w') ∧ SameJson (.arr out) (.arr out') := by
  unfold unflatten at h
  split at h
  · cases h
  · next o wo ho =>
    cases h
    obtain ⟨out', w', objs, h1, h2, h3, -⟩ := C06_any_order cfg sheets sheets' o w ho hid hcon hl
    refine ⟨listToValue out', w', by simp [unflatten, h1], .arr (sameJsonItems_of h2) ?_⟩
    rw [listToValue_map, listToValue_map]; exact h3.map _

/-! ### An example -/

/-- Two sheets: a main sheet and one of grandchildren. -/
def orderMain : SheetIn := { name := s%"main", lines := [
  [(some s%"id", .int 1), (some s%"t", .str s%"x"), (some s%"l/0/id", .str s%"p")],
  [(some s%"id", .int 2), (some s%"t", .str s%"y")]] }
def orderSub : SheetIn := { name := s%"sub", lines := [
  [(some s%"id", .int 1), (some s%"l/0/id", .str s%"p"), (some s%"l/0/v", .int 7)],
  [(some s%"id", .int 1), (some s%"l/0/id", .str s%"q"), (some s%"t", .str s%"x")]] }
/-- The same lines, shuffled into three sheets. -/
def orderOther : List SheetIn := [
  { name := s%"one", lines := [[(some s%"id", .int 1), (some s%"l/0/id", .str s%"q"), (some s%"t", .str s%"x")]] },
  { name := s%"two", lines := [
      [(some s%"id", .int 2), (some s%"t", .str s%"y")],
      [(some s%"id", .int 1), (some s%"l/0/id", .str s%"p"), (some s%"l/0/v", .int 7)]] },
  { name := s%"three", lines := [[(some s%"id", .int 1), (some s%"t", .str s%"x"), (some s%"l/0/id", .str s%"p")]] }]

def orderRows : List RowIn := [⟨orderMain, 0, orderMain.lines[0]⟩, ⟨orderMain, 1, orderMain.lines[1]⟩, ⟨orderSub, 0, orderSub.lines[0]⟩, ⟨orderSub, 1, orderSub.lines[1]⟩]

example : rowsIn [orderMain, orderSub] = orderRows := rfl

/-- What the rows give on their own. -/
def orderAlone : List (List (Str × CTree)) := [
  [(s%"id", .cell ⟨.atom (.int 1), ⟨s%"main", 1, 2, s%"id"⟩, []⟩), (s%"t", .cell ⟨.atom (.str s%"x"), ⟨s%"main", 2, 2, s%"t"⟩, []⟩),
      (s%"l", .list [[(s%"id", .cell ⟨.atom (.str s%"p"), ⟨s%"main", 3, 2, s%"l/0/id"⟩, []⟩)]])],
  [(s%"id", .cell ⟨.atom (.int 2), ⟨s%"main", 1, 3, s%"id"⟩, []⟩), (s%"t", .cell ⟨.atom (.str s%"y"), ⟨s%"main", 2, 3, s%"t"⟩, []⟩)],
  [(s%"id", .cell ⟨.atom (.int 1), ⟨s%"sub", 1, 2, s%"id"⟩, []⟩),
      (s%"l", .list [[(s%"id", .cell ⟨.atom (.str s%"p"), ⟨s%"sub", 2, 2, s%"l/0/id"⟩, []⟩), (s%"v", .cell ⟨.atom (.int 7), ⟨s%"sub", 3, 2, s%"l/0/v"⟩, []⟩)]])],
  [(s%"id", .cell ⟨.atom (.int 1), ⟨s%"sub", 1, 3, s%"id"⟩, []⟩),
      (s%"l", .list [[(s%"id", .cell ⟨.atom (.str s%"q"), ⟨s%"sub", 2, 3, s%"l/0/id"⟩, []⟩)]]), (s%"t", .cell ⟨.atom (.str s%"x"), ⟨s%"sub", 3, 3, s%"t"⟩, []⟩)]]

theorem orderAlone_eq : ∀ r ∈ orderRows, ∃ o ∈ orderAlone, doUnflatten {} [alone r] = .ok ([o], []) := by
  intro r hr
  simp only [orderRows, List.mem_cons, List.not_mem_nil, or_false] at hr
  rcases hr with rfl | rfl | rfl | rfl
  · exact ⟨_, .head _, by with_unfolding_all rfl⟩
  · exact ⟨_, .tail _ (.head _), by with_unfolding_all rfl⟩
  · exact ⟨_, .tail _ (.tail _ (.head _)), by with_unfolding_all rfl⟩
  · exact ⟨_, .tail _ (.tail _ (.tail _ (.head _))), by with_unfolding_all rfl⟩

/-- All rows carry ids. -/
theorem order_identified : ∀ r ∈ rowsIn [orderMain, orderSub], AllIdentified {} r := by
  intro r hr
  refine ⟨?_, ?_⟩
  · have hr' : r ∈ orderRows := hr
    simp only [orderRows, List.mem_cons, List.not_mem_nil, or_false] at hr'
    rcases hr' with rfl | rfl | rfl | rfl <;> decide +kernel
  intro o w h
  obtain ⟨o', ho', e⟩ := orderAlone_eq r hr
  rw [e] at h
  simp only [Except.ok.injEq, Prod.mk.injEq, List.cons.injEq, and_true] at h
  rw [← h.1]
  clear e h
  revert o'
  simp only [orderAlone, List.mem_cons, List.not_mem_nil, or_false, forall_eq_or_imp, forall_eq]
  simp only [IdentifiedFields, Identified, IdentifiedItems, ne_eq, reduceCtorEq, not_false_eq_true, implies_true, and_true]
  decide +kernel

/-- The rows do not contradict each other. -/
theorem order_consistent : Consistent {} (rowsIn [orderMain, orderSub]) := by
  intro r hr r' hr' _ o w o' w' h h'
  obtain ⟨a, ha, e⟩ := orderAlone_eq r hr
  obtain ⟨a', ha', e'⟩ := orderAlone_eq r' hr'
  rw [e] at h; rw [e'] at h'
  simp only [Except.ok.injEq, Prod.mk.injEq, List.cons.injEq, and_true] at h h'
  rw [← h.1, ← h'.1]
  clear e e' h h'
  revert a a'
  simp only [orderAlone, List.mem_cons, List.not_mem_nil, or_false, forall_eq_or_imp, forall_eq]
  simp [AgreeItems, AgreeFields, Agree, Dict.get_cons, cellId]
  decide +kernel

/-- The other sheets consist of the same lines. -/
theorem order_lines : ∀ l, l ∈ (rowsIn orderOther).map (·.line) ↔ l ∈ (rowsIn [orderMain, orderSub]).map (·.line) := by
  intro l
  have e1 : (rowsIn orderOther).map (·.line) = [orderSub.lines[1], orderMain.lines[1], orderSub.lines[0], orderMain.lines[0]] := rfl
  have e2 : (rowsIn [orderMain, orderSub]).map (·.line) = [orderMain.lines[0], orderMain.lines[1], orderSub.lines[0], orderSub.lines[1]] := rfl
  rw [e1, e2]
  simp only [List.mem_cons, List.not_mem_nil, or_false]
  grind

/-- The two outputs: the same data in a different order. -/
example : (unflatten {} [orderMain, orderSub]).map (·.1) =
      .ok [.obj [(s%"id", .leaf (.int 1)), (s%"t", .leaf (.str s%"x")),
          (s%"l", .arr [.obj [(s%"id", .leaf (.str s%"p")), (s%"v", .leaf (.int 7))], .obj [(s%"id", .leaf (.str s%"q"))]])],
        .obj [(s%"id", .leaf (.int 2)), (s%"t", .leaf (.str s%"y"))]] ∧
    (unflatten {} orderOther).map (·.1) =
      .ok [.obj [(s%"id", .leaf (.int 1)),
          (s%"l", .arr [.obj [(s%"id", .leaf (.str s%"q"))], .obj [(s%"id", .leaf (.str s%"p")), (s%"v", .leaf (.int 7))]]),
          (s%"t", .leaf (.str s%"x"))],
        .obj [(s%"id", .leaf (.int 2)), (s%"t", .leaf (.str s%"y"))]] := by
  decide +kernel

/-- Contradicting rows: the first value wins, so the order matters. -/
example : (unflatten {} [{ name := s%"a", lines := [[(some s%"id", .int 1), (some s%"t", .int 1)], [(some s%"id", .int 1), (some s%"t", .int 2)]] }]).map (·.1) =
      .ok [.obj [(s%"id", .leaf (.int 1)), (s%"t", .leaf (.int 1))]] ∧
    (unflatten {} [{ name := s%"a", lines := [[(some s%"id", .int 1), (some s%"t", .int 2)], [(some s%"id", .int 1), (some s%"t", .int 1)]] }]).map (·.1) =
      .ok [.obj [(s%"id", .leaf (.int 1)), (s%"t", .leaf (.int 2))]] := by
  decide +kernel

end Verif

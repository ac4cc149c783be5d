import Verif.Spec.Flatten
import Verif.Proofs.EmitState
/-! Flattening without titles, WKT, XML and rollup: the lines are those of the specification. -/
namespace Verif
open Spec

/-- A path as `parent_name`. -/
def pnOf (p : List Str) : Str := p.flatMap (fun x => x ++ s%"/")

theorem pnOf_append (p q : List Str) : pnOf (p ++ q) = pnOf p ++ pnOf q := by simp [pnOf]

theorem pathText_snoc (p : List Str) (k : Str) : pathText (p ++ [k]) = pnOf p ++ k := by
  unfold pathText
  induction p with
  | nil => rfl
  | cons x r ih =>
    cases r with
    | nil => simp [Py.join, pnOf]
    | cons y r' =>
      simp only [List.cons_append] at ih ⊢
      rw [Py.join, ih]
      simp [pnOf]

/-- The fields wanted. -/
def keepOf (cfg : FCfg) (p : List Str) (k : Str) : Bool := !dropped cfg (pnOf p) k

theorem rn_plain {cfg : FCfg} (h : Plain cfg) (ref : SheetRef) (k : Str) : rn cfg ref k = k := by
  simp [rn, h.titles]

theorem subSheetName_plain {cfg : FCfg} (h : Plain cfg) (p : List Str) (k : Str) :
    subSheetName cfg (pnOf p) k = sheetName cfg.trunc (p ++ [k]) := by
  simp [subSheetName, h.titles, sheetName, pnOf]

theorem evLines_none {ref : SheetRef} {ev : List Ev} (h : ∀ r l, Ev.line r l ∉ ev) : evLines ref ev = [] := by
  simp only [evLines, List.filterMap_eq_nil_iff]
  intro e he
  cases e with
  | line r l => exact absurd he (h r l)
  | _ => rfl

theorem emitParentIds_plain {cfg : FCfg} (h : Plain cfg) (ref : SheetRef) (ps : List (Str × Json)) (flat : FLine) :
    ∃ ev, emitParentIds cfg ref ps flat = .ok (Dict.update flat ps, ev) ∧ ∀ r l, Ev.line r l ∉ ev := by
  induction ps generalizing flat with
  | nil => exact ⟨[], rfl, by simp⟩
  | cons e r ih =>
    obtain ⟨k, v⟩ := e
    obtain ⟨ev, h1, h2⟩ := ih (Dict.set flat k v)
    refine ⟨.key ref k :: ev, ?_, by simpa using h2⟩
    have hv : parentIdValue cfg v = .ok v := by simp [parentIdValue, h.xml]
    simp only [emitParentIds, hv, rn_plain h, h1, Out.after]
    rfl

theorem emitAddId_plain {cfg : FCfg} (h : Plain cfg) (ref : SheetRef) (name field : Str) (fs pids : List (Str × Json)) :
    (emitAddId cfg ref name field fs pids).1 = Spec.addId name field fs pids := by
  unfold emitAddId Spec.addId
  cases Dict.get fs field with
  | none => rfl
  | some v => simp only [rn_plain h]

theorem emitIds_plain {cfg : FCfg} (h : Plain cfg) (ref : SheetRef) (p : List Str) (pids fs : List (Str × Json)) :
    (emitIds cfg ref (pnOf p) pids fs).1 = idsBelow (idOpts cfg) p fs pids := by
  unfold emitIds idsBelow emitRootId
  simp only [pathText_snoc, emitAddId_plain h, idOpts]
  cases cfg.rootId with
  | none => rfl
  | some rid => simp only [emitAddId_plain h]

theorem emitPrologue_plain {cfg : FCfg} (h : Plain cfg) (ref : SheetRef) (p : List Str) (topSub : Bool)
    (pids fs : List (Str × Json)) (flat : Option FLine) (hf : filteredOut cfg (pnOf p) fs = false) :
    ∃ ev, emitPrologue cfg ref (pnOf p) topSub pids flat fs =
        .ok (some (idsBelow (idOpts cfg) p fs pids,
          (if topSub then Dict.update (flat.getD []) pids else flat.getD []), false), ev) ∧
      ∀ r l, Ev.line r l ∉ ev := by
  have hids := emitIds_lines cfg ref (pnOf p) pids fs
  unfold emitPrologue emitGeo
  simp only [h.wkt, Bool.false_and, Bool.false_eq_true, if_false, Out.bind, emitStart, hf]
  cases topSub with
  | false =>
    refine ⟨(emitIds cfg ref (pnOf p) pids fs).2, ?_, hids⟩
    simp [emitStartLine, emitIds_plain h]
  | true =>
    obtain ⟨ev, h1, h2⟩ := emitParentIds_plain h ref pids (flat.getD [])
    refine ⟨ev ++ (emitIds cfg ref (pnOf p) pids fs).2, ?_, ?_⟩
    · simp [emitStartLine, h1, emitIds_plain h]
    · intro r l hm
      rcases List.mem_append.1 hm with hm | hm
      · exact h2 r l hm
      · exact hids r l hm

theorem filteredOut_deep (cfg : FCfg) {p : List Str} (hp : p ≠ []) (fs : List (Str × Json)) :
    filteredOut cfg (pnOf p) fs = false := by
  unfold filteredOut
  split
  · rfl
  · split
    · next h =>
      cases p with
      | nil => exact absurd rfl hp
      | cons x r => simp [pnOf] at h
    · rfl

/-- The sub-sheet lines the specification wants for one sheet. -/
def wanted (cfg : FCfg) (name : Str) (is : List Item) : List FLine :=
  (is.filter (fun i => sheetName cfg.trunc i.array = name)).map (Item.line (idOpts cfg) (keepOf cfg))

theorem wanted_append (cfg : FCfg) (name : Str) (a b : List Item) :
    wanted cfg name (a ++ b) = wanted cfg name a ++ wanted cfg name b := by simp [wanted]

def cellEntries (cs : List (List Str × Json)) : List (Str × Json) := cs.map (fun c => (pathText c.1, c.2))

theorem cellEntries_append (a b : List (List Str × Json)) : cellEntries (a ++ b) = cellEntries a ++ cellEntries b := by
  simp [cellEntries]

theorem update_append {κ α : Type} [DecidableEq κ] (d a b : List (κ × α)) :
    Dict.update d (a ++ b) = Dict.update (Dict.update d a) b := by simp [Dict.update]

/-- The events add exactly these lines. -/
structure Adds (cfg : FCfg) (ev : List Ev) (is : List Item) : Prop where
  main : evLines none ev = []
  sub : ∀ name, evLines (some name) ev = wanted cfg name is

theorem Adds.append {cfg : FCfg} {e1 e2 : List Ev} {a b : List Item} (h1 : Adds cfg e1 a) (h2 : Adds cfg e2 b) :
    Adds cfg (e1 ++ e2) (a ++ b) :=
  ⟨by simp [h1.main, h2.main], fun n => by simp [h1.sub, h2.sub, wanted_append]⟩

theorem Adds.none {cfg : FCfg} {ev : List Ev} (h : ∀ r l, Ev.line r l ∉ ev) : Adds cfg ev [] :=
  ⟨evLines_none h, fun _ => by rw [evLines_none h]; rfl⟩

theorem idsOf_snoc (o : IdOpts) (around : List (List Str × List (Str × Json))) (p : List Str) (fs : List (Str × Json)) :
    idsBelow o p fs (idsOf o around) = idsOf o (around ++ [(p, fs)]) := by simp [idsOf]

mutual
theorem emitFields_plain {cfg : FCfg} (h : Plain cfg) (ref : SheetRef) (p : List Str) (ar : List (List Str × List (Str × Json)))
    (fs : List (Str × Json)) (flat fl : FLine) (ev : List Ev)
    (he : emitFields cfg ref (pnOf p) (idsOf (idOpts cfg) ar) false fs flat = .ok (fl, ev)) :
    fl = Dict.update flat (cellEntries (cells (keepOf cfg) p fs)) ∧
      Adds cfg ev (items (keepOf cfg) p ar fs) := by
  match fs with
  | [] =>
    rw [emitFields] at he
    simp only [Except.ok.injEq, Prod.mk.injEq] at he
    obtain ⟨rfl, rfl⟩ := he
    rw [cells, items]
    exact ⟨rfl, Adds.none (by simp)⟩
  | (k, v) :: r =>
    have rec_ := fun flat fl ev he => emitFields_plain h ref p ar r flat fl ev he
    rw [emitFields] at he
    rw [if_neg (by simp)] at he
    obtain ⟨ev1, he', rfl⟩ := Out.after_ok.1 he
    clear he
    rename _ => he
    rw [cells, items]
    have h0 : Adds cfg [Ev.seen (Py.replaceAll s%"/0" [] (pnOf p) ++ k)] [] := Adds.none (by simp)
    cases hd : dropped cfg (pnOf p) k with
    | true =>
      rw [if_pos hd] at he
      have hk : keepOf cfg p k = false := by simp [keepOf, hd]
      obtain ⟨h1, h2⟩ := rec_ _ _ _ he
      simp only [hk, Bool.false_eq_true, if_false, List.nil_append]
      exact ⟨h1, by simpa using h0.append h2⟩
    | false =>
      rw [if_neg (by simp [hd])] at he
      have hk : keepOf cfg p k = true := by simp [keepOf, hd]
      obtain ⟨⟨pn', fl1⟩, e1, e2, h1, h2, rfl⟩ := Out.bind_ok.1 he
      obtain ⟨rfl, h3, h4⟩ := emitValue_plain h ref p ar k v flat pn' fl1 e1 h1
      obtain ⟨h5, h6⟩ := rec_ _ _ _ h2
      simp only [hk, if_true, cellEntries_append, update_append]
      exact ⟨by rw [h5, h3], by simpa using h0.append (h4.append h6)⟩
termination_by structural fs
theorem emitValue_plain {cfg : FCfg} (h : Plain cfg) (ref : SheetRef) (p : List Str) (ar : List (List Str × List (Str × Json))) (k : Str)
    (v : Json) (flat : FLine) (pn' : Str) (fl : FLine) (ev : List Ev)
    (he : emitValue cfg ref (pnOf p) (idsOf (idOpts cfg) ar) k v flat = .ok ((pn', fl), ev)) :
    pn' = pnOf p ∧ fl = Dict.update flat (cellEntries (valueCells (keepOf cfg) (p ++ [k]) v)) ∧
      Adds cfg ev (valueItems (keepOf cfg) (p ++ [k]) ar v) := by
  have hput : ∀ v, (emitPut cfg ref (pnOf p ++ k) v flat).bind (fun fl => .ok ((pnOf p, fl), [])) = .ok ((pn', fl), ev) →
      pn' = pnOf p ∧ fl = Dict.update flat (cellEntries [(p ++ [k], v)]) ∧ Adds cfg ev [] := by
    intro v hv
    simp only [emitPut, Out.bind, Except.ok.injEq, Prod.mk.injEq, rn_plain h] at hv
    obtain ⟨⟨rfl, rfl⟩, rfl⟩ := hv
    exact ⟨rfl, by simp [cellEntries, Dict.update, pathText_snoc], Adds.none (by simp)⟩
  match v with
  | .leaf a =>
    rw [emitValue] at he
    split at he
    · rw [if_neg (by simp [h.xml])] at he
      rw [valueCells, valueItems]
      exact hput _ he
    · cases he
  | .obj gs =>
    rw [emitValue] at he
    obtain ⟨s, e1, e2, h1, h2, rfl⟩ := Out.bind_ok.1 he
    have hpn : pnOf p ++ (k ++ s%"/") = pnOf (p ++ [k]) := by simp [pnOf]
    rw [hpn] at h1 h2
    obtain ⟨ev0, h3, h4⟩ := emitPrologue_plain h ref (p ++ [k]) false (idsOf (idOpts cfg) ar) gs (some flat) (filteredOut_deep cfg (by simp) gs)
    rw [h3] at h1
    simp only [Except.ok.injEq, Prod.mk.injEq, Bool.false_eq_true, if_false, Option.getD_some] at h1
    obtain ⟨rfl, rfl⟩ := h1
    dsimp only at h2
    obtain ⟨fl1, e3, e4, h5, h6, rfl⟩ := Out.bind_ok.1 h2
    simp only [Except.ok.injEq, Prod.mk.injEq] at h6
    obtain ⟨⟨rfl, rfl⟩, rfl⟩ := h6
    rw [idsOf_snoc] at h5
    obtain ⟨h7, h8⟩ := emitFields_plain h ref (p ++ [k]) _ gs flat fl1 e3 h5
    rw [valueCells, valueItems]
    exact ⟨rfl, h7, by simpa using (Adds.none (cfg := cfg) h4).append h8⟩
  | .arr l =>
    rw [emitValue] at he
    rw [valueCells, valueItems]
    cases hj : joinArray l with
    | some t => simp only [hj] at he ⊢; exact hput _ he
    | none =>
      simp only [hj] at he ⊢
      simp only [emitRollup, h.rollup, List.isEmpty_nil, Bool.true_or, if_true] at he
      obtain ⟨fl1, e1, e2, h1, h2, rfl⟩ := Out.bind_ok.1 he
      simp only [Except.ok.injEq, Prod.mk.injEq] at h1
      obtain ⟨rfl, rfl⟩ := h1
      obtain ⟨e3, h3, rfl⟩ := Out.after_ok.1 h2
      obtain ⟨⟨⟩, e4, e5, h4, h5, rfl⟩ := Out.bind_ok.1 h3
      simp only [Except.ok.injEq, Prod.mk.injEq] at h5
      obtain ⟨⟨rfl, rfl⟩, rfl⟩ := h5
      have hpn : pnOf p ++ (k ++ s%"/0/") = pnOf (p ++ [k] ++ [s%"0"]) := by simp [pnOf]
      rw [hpn, subSheetName_plain h] at h4
      have h6 := emitItems_plain h (p ++ [k]) ar l e4 h4
      refine ⟨rfl, rfl, ?_⟩
      have h0 : Adds cfg [Ev.sheet (subSheetName cfg (pnOf p) k)] [] := Adds.none (by simp)
      simpa using h0.append h6
termination_by structural v
theorem emitItems_plain {cfg : FCfg} (h : Plain cfg) (p : List Str) (ar : List (List Str × List (Str × Json))) (l : List Json) (ev : List Ev)
    (he : emitItems cfg (sheetName cfg.trunc p) (pnOf (p ++ [s%"0"])) (idsOf (idOpts cfg) ar) l = .ok ((), ev)) :
    Adds cfg ev (arrayItems (keepOf cfg) p ar l) := by
  match l with
  | [] =>
    rw [emitItems] at he
    simp only [Except.ok.injEq, Prod.mk.injEq, true_and] at he
    subst he
    rw [arrayItems]
    exact Adds.none (by simp)
  | .leaf a :: r =>
    rw [emitItems] at he
    rw [arrayItems]
    split at he
    · exact emitItems_plain h p ar r ev he
    · cases he
  | .arr _ :: r => rw [emitItems] at he; cases he
  | .obj fs :: r =>
    have rec_ := fun ev he => emitItems_plain h p ar r ev he
    rw [emitItems] at he
    rw [arrayItems]
    obtain ⟨s, e1, e2, h1, h2, rfl⟩ := Out.bind_ok.1 he
    obtain ⟨ev0, h3, h4⟩ := emitPrologue_plain h (some (sheetName cfg.trunc p)) (p ++ [s%"0"]) true (idsOf (idOpts cfg) ar) fs none
      (filteredOut_deep cfg (by simp) fs)
    rw [h3] at h1
    simp only [Except.ok.injEq, Prod.mk.injEq, if_true, Option.getD_none] at h1
    obtain ⟨rfl, rfl⟩ := h1
    dsimp only at h2
    obtain ⟨fl1, e3, e4, h5, h6, rfl⟩ := Out.bind_ok.1 h2
    obtain ⟨e5, h7, rfl⟩ := Out.after_ok.1 h6
    rw [idsOf_snoc] at h5
    obtain ⟨h8, h9⟩ := emitFields_plain h _ (p ++ [s%"0"]) _ fs _ fl1 e3 h5
    have h10 := rec_ _ h7
    have hline : Adds cfg [Ev.line (some (sheetName cfg.trunc p)) fl1] [⟨p, ar, fs⟩] := by
      refine ⟨rfl, ?_⟩
      intro name
      by_cases hn : sheetName cfg.trunc p = name
      · simp [evLines, evLine, wanted, hn, h8, Item.line, cellEntries]
      · simp [evLines, evLine, wanted, hn]
    have := (Adds.none (cfg := cfg) h4).append (h9.append (hline.append h10))
    simpa using this
termination_by structural l
end

/-- The objects of the root list that are wanted. -/
theorem emitRootList_plain {cfg : FCfg} (h : Plain cfg) (hf : cfg.filter = none) (n : Nat) (l : List Json) (ev : List Ev)
    (he : emitRootList cfg n l = .ok ((), ev)) :
    evLines none ev = (objects l).map (fun fs => toLine (cells (keepOf cfg) [] fs)) ∧
      ∀ name, evLines (some name) ev = wanted cfg name (docItems (keepOf cfg) l) := by
  induction l generalizing n ev with
  | nil =>
    rw [emitRootList] at he
    simp only [Except.ok.injEq, Prod.mk.injEq, true_and] at he
    subst he
    exact ⟨rfl, fun _ => rfl⟩
  | cons j r ih =>
    rw [emitRootList] at he
    obtain ⟨⟨⟩, e1, e2, h1, h2, rfl⟩ := Out.bind_ok.1 he
    obtain ⟨h3, h4⟩ := ih _ _ h2
    unfold emitRootItem at h1
    cases j with
    | leaf a =>
      simp only [Except.ok.injEq, Prod.mk.injEq, true_and] at h1
      have hn : ∀ r l, Ev.line r l ∉ e1 := by rw [← h1]; intro r l; split <;> simp
      exact ⟨by simp [evLines_none hn, h3, objects], fun name => by simp [evLines_none hn, h4, docItems, objects]⟩
    | arr a =>
      simp only [Except.ok.injEq, Prod.mk.injEq, true_and] at h1
      have hn : ∀ r l, Ev.line r l ∉ e1 := by rw [← h1]; intro r l; simp
      exact ⟨by simp [evLines_none hn, h3, objects], fun name => by simp [evLines_none hn, h4, docItems, objects]⟩
    | obj fs =>
      obtain ⟨s, e3, e4, h5, h6, rfl⟩ := Out.bind_ok.1 h1
      obtain ⟨ev0, h7, h8⟩ := emitPrologue_plain h none [] false [] fs none (by simp [filteredOut, hf])
      rw [show pnOf [] = [] from rfl] at h7
      rw [h7] at h5
      simp only [Except.ok.injEq, Prod.mk.injEq, Bool.false_eq_true, if_false, Option.getD_none] at h5
      obtain ⟨rfl, rfl⟩ := h5
      dsimp only at h6
      obtain ⟨fl1, e5, e6, h9, h10, rfl⟩ := Out.bind_ok.1 h6
      simp only [Except.ok.injEq, Prod.mk.injEq, true_and] at h10
      subst h10
      rw [show idsBelow (idOpts cfg) [] fs [] = idsOf (idOpts cfg) [([], fs)] from rfl] at h9
      obtain ⟨h11, h12⟩ := emitFields_plain h none [] _ fs _ fl1 e5 h9
      constructor
      · have hl : evLines none [Ev.line none fl1] = [fl1] := rfl
        simp only [evLines_append, evLines_none h8, h12.main, h3, objects, hl, h11, toLine, cellEntries, List.nil_append,
          List.append_nil, List.map_cons, List.singleton_append]
        rfl
      · intro name
        have hl : evLines (some name) [Ev.line none fl1] = [] := rfl
        simp only [evLines_append, evLines_none h8, h12.sub, hl, List.nil_append, List.append_nil, docItems, objects,
          List.flatMap_cons, wanted_append]
        rw [h4]; rfl

end Verif

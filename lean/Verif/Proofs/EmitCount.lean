import Verif.Proofs.EmitPlain
import Verif.Proofs.EmitRollup
/-! How many lines are emitted, whatever titles and rollup. -/
namespace Verif
open Spec

/-- The number of lines of each sheet. -/
structure LineCounts (cfg : FCfg) (ev : List Ev) (is : List Item) : Prop where
  main : evLines none ev = []
  sub : ∀ name, (evLines (some name) ev).length = (is.filter (fun i => sheetOf cfg i.array = name)).length

theorem LineCounts.append {cfg : FCfg} {e1 e2 : List Ev} {a b : List Item} (h1 : LineCounts cfg e1 a) (h2 : LineCounts cfg e2 b) :
    LineCounts cfg (e1 ++ e2) (a ++ b) :=
  ⟨by simp [h1.main, h2.main], fun n => by simp [h1.sub, h2.sub]⟩

theorem LineCounts.none {cfg : FCfg} {ev : List Ev} (h : ∀ r l, Ev.line r l ∉ ev) : LineCounts cfg ev [] :=
  ⟨evLines_none h, fun _ => by rw [evLines_none h]; rfl⟩

theorem subSheetName_sheetOf (cfg : FCfg) (p : List Str) (k : Str) : subSheetName cfg (pnOf p) k = sheetOf cfg (p ++ [k]) := by
  simp only [subSheetName, sheetOf, List.dropLast_concat, sheetName]
  simp only [List.getLast?_append, List.getLast?_singleton, Option.some_or, Option.getD_some, pnOf]
  generalize (if cfg.useTitles = true then
      cfg.schema.bind fun sp => Dict.get sp.subTitles (List.flatMap (fun x => x ++ ['/']) p, k) else none) = o
  cases o <;> rfl

theorem parentIds_noLine (cfg : FCfg) (ref : SheetRef) (ps : List (Str × Json)) (flat fl : FLine) (ev : List Ev)
    (h : emitParentIds cfg ref ps flat = .ok (fl, ev)) : ∀ r l, Ev.line r l ∉ ev := by
  induction ps generalizing flat ev with
  | nil => cases h; simp
  | cons e r ih =>
    obtain ⟨k, v⟩ := e
    rw [emitParentIds] at h
    cases hp : parentIdValue cfg v with
    | error e => simp only [hp] at h; cases h
    | ok v' =>
      simp only [hp] at h
      obtain ⟨e1, h1, rfl⟩ := Out.after_ok.1 h
      have := ih _ _ h1
      intro r l; simp [this r l]

theorem prologue_noGeo {cfg : FCfg} (hw : cfg.wkt = false) (ref : SheetRef) (pn : Str) (topSub : Bool)
    (pids fs : List (Str × Json)) (flat : Option FLine) (hf : filteredOut cfg pn fs = false) (s : Start) (ev : List Ev)
    (h : emitPrologue cfg ref pn topSub pids flat fs = .ok (s, ev)) :
    (∃ pids' fl, s = some (pids', fl, false)) ∧ ∀ r l, Ev.line r l ∉ ev := by
  unfold emitPrologue emitGeo at h
  simp only [hw, Bool.false_and, Bool.false_eq_true, if_false] at h
  obtain ⟨g, e1, e2, h1, h2, rfl⟩ := Out.bind_ok.1 h
  cases h1
  unfold emitStart at h2
  simp only [hf, Bool.false_eq_true, if_false] at h2
  obtain ⟨fl, e3, e4, h3, h4, rfl⟩ := Out.bind_ok.1 h2
  cases h4
  refine ⟨⟨_, _, rfl⟩, ?_⟩
  have h5 : ∀ r l, Ev.line r l ∉ e3 := by
    unfold emitStartLine at h3
    split at h3
    · exact parentIds_noLine _ _ _ _ _ _ h3
    · cases h3; simp
  intro r l
  simp [h5 r l, emitIds_lines]

theorem rollupOnes_noLine (cfg : FCfg) (ref : SheetRef) (pn key : Str) (fs : List (Str × Json)) (flat fl : FLine) (ev : List Ev)
    (h : emitRollupOnes cfg ref pn key fs flat = .ok (fl, ev)) : ∀ r l, Ev.line r l ∉ ev := by
  induction fs generalizing flat ev with
  | nil => cases h; simp
  | cons e r ih =>
    obtain ⟨k, v⟩ := e
    rw [emitRollupOnes] at h
    obtain ⟨x, e1, e2, h1, h2, rfl⟩ := Out.bind_ok.1 h
    have h3 := ih _ _ h2
    have h4 : ∀ r l, Ev.line r l ∉ e1 := by
      unfold emitRollupOne at h1
      split at h1
      · cases h1; simp
      · split at h1
        · cases h1
        · split at h1 <;> cases h1 <;> simp
    intro r l; simp [h3 r l, h4 r l]

theorem rollupMany_noLine (cfg : FCfg) (ref : SheetRef) (pn key : Str) (ks : List Str) (flat : FLine) (r : SheetRef) (l : FLine) :
    Ev.line r l ∉ (emitRollupMany cfg ref pn key ks flat).2 := by
  induction ks generalizing flat with
  | nil => simp [emitRollupMany]
  | cons k ks ih =>
    rw [emitRollupMany]
    split
    · simp [ih]
    · exact ih _

theorem rollup_noLine (cfg : FCfg) (ref : SheetRef) (pn key : Str) (is : List Json) (flat fl : FLine) (ev : List Ev)
    (h : emitRollup cfg ref pn key is flat = .ok (fl, ev)) : ∀ r l, Ev.line r l ∉ ev := by
  unfold emitRollup at h
  split at h
  · cases h; simp
  · split at h
    · cases h
    · split at h
      · cases h; simp
      · exact rollupOnes_noLine _ _ _ _ _ _ _ _ h
      · cases h
      · split at h
        · cases h
        · next ks _ =>
          simp only [Except.ok.injEq] at h
          have := rollupMany_noLine cfg ref pn key (cfg.order (dedup ks)) flat
          rw [h] at this; exact this

mutual
theorem emitFields_counts {cfg : FCfg} (hw : cfg.wkt = false) (hx : cfg.xml = false) (ref : SheetRef) (p : List Str)
    (ar : List (List Str × List (Str × Json))) (pids fs : List (Str × Json)) (flat fl : FLine) (ev : List Ev)
    (he : emitFields cfg ref (pnOf p) pids false fs flat = .ok (fl, ev)) :
    LineCounts cfg ev (items (keepOf cfg) p ar fs) := by
  match fs with
  | [] => rw [emitFields] at he; cases he; rw [items]; exact LineCounts.none (by simp)
  | (k, v) :: r =>
    have rec_ := fun flat fl ev he => emitFields_counts hw hx ref p ar pids r flat fl ev he
    rw [emitFields] at he
    rw [if_neg (by simp)] at he
    obtain ⟨ev1, he', rfl⟩ := Out.after_ok.1 he
    clear he
    rename _ => he
    rw [items]
    have h0 : LineCounts cfg [Ev.seen (Py.replaceAll s%"/0" [] (pnOf p) ++ k)] [] := LineCounts.none (by simp)
    cases hd : dropped cfg (pnOf p) k with
    | true =>
      rw [if_pos hd] at he
      have hk : keepOf cfg p k = false := by simp [keepOf, hd]
      simp only [hk, Bool.false_eq_true, if_false, List.nil_append]
      simpa using h0.append (rec_ _ _ _ he)
    | false =>
      rw [if_neg (by simp [hd])] at he
      have hk : keepOf cfg p k = true := by simp [keepOf, hd]
      obtain ⟨⟨pn', fl1⟩, e1, e2, h1, h2, rfl⟩ := Out.bind_ok.1 he
      obtain ⟨rfl, h4⟩ := emitValue_counts hw hx ref p ar pids k v flat pn' fl1 e1 h1
      simp only [hk, if_true]
      simpa using h0.append (h4.append (rec_ _ _ _ h2))
termination_by structural fs
theorem emitValue_counts {cfg : FCfg} (hw : cfg.wkt = false) (hx : cfg.xml = false) (ref : SheetRef) (p : List Str)
    (ar : List (List Str × List (Str × Json))) (pids : List (Str × Json)) (k : Str) (v : Json) (flat : FLine) (pn' : Str) (fl : FLine)
    (ev : List Ev) (he : emitValue cfg ref (pnOf p) pids k v flat = .ok ((pn', fl), ev)) :
    pn' = pnOf p ∧ LineCounts cfg ev (valueItems (keepOf cfg) (p ++ [k]) ar v) := by
  have hput : ∀ v, (emitPut cfg ref (pnOf p ++ k) v flat).bind (fun fl => .ok ((pnOf p, fl), [])) = .ok ((pn', fl), ev) →
      pn' = pnOf p ∧ LineCounts cfg ev [] := by
    intro v hv
    simp only [emitPut, Out.bind, Except.ok.injEq, Prod.mk.injEq] at hv
    obtain ⟨⟨rfl, rfl⟩, rfl⟩ := hv
    exact ⟨rfl, LineCounts.none (by simp)⟩
  match v with
  | .leaf a =>
    rw [emitValue] at he
    split at he
    · rw [if_neg (by simp [hx])] at he
      rw [valueItems]
      exact hput _ he
    · cases he
  | .obj gs =>
    rw [emitValue] at he
    obtain ⟨s, e1, e2, h1, h2, rfl⟩ := Out.bind_ok.1 he
    have hpn : pnOf p ++ (k ++ s%"/") = pnOf (p ++ [k]) := by simp [pnOf]
    rw [hpn] at h1 h2
    obtain ⟨⟨pids', fl0, rfl⟩, h4⟩ := prologue_noGeo hw _ _ _ _ _ _ (filteredOut_deep cfg (by simp) gs) _ _ h1
    dsimp only at h2
    obtain ⟨fl1, e3, e4, h5, h6, rfl⟩ := Out.bind_ok.1 h2
    simp only [Except.ok.injEq, Prod.mk.injEq] at h6
    obtain ⟨⟨rfl, rfl⟩, rfl⟩ := h6
    have h7 := emitFields_counts hw hx ref (p ++ [k]) (ar ++ [(p ++ [k], gs)]) pids' gs fl0 fl1 e3 h5
    rw [valueItems]
    exact ⟨rfl, by simpa using (LineCounts.none (cfg := cfg) h4).append h7⟩
  | .arr l =>
    rw [emitValue] at he
    rw [valueItems]
    cases hj : joinArray l with
    | some t => simp only [hj] at he ⊢; exact hput _ he
    | none =>
      simp only [hj] at he ⊢
      obtain ⟨fl1, e1, e2, h1, h2, rfl⟩ := Out.bind_ok.1 he
      obtain ⟨e3, h3, rfl⟩ := Out.after_ok.1 h2
      obtain ⟨⟨⟩, e4, e5, h4, h5, rfl⟩ := Out.bind_ok.1 h3
      simp only [Except.ok.injEq, Prod.mk.injEq] at h5
      obtain ⟨⟨rfl, rfl⟩, rfl⟩ := h5
      have hpn : pnOf p ++ (k ++ s%"/0/") = pnOf (p ++ [k] ++ [s%"0"]) := by simp [pnOf]
      rw [hpn, subSheetName_sheetOf] at h4
      have h6 := emitItems_counts hw hx (p ++ [k]) ar pids l e4 h4
      refine ⟨rfl, ?_⟩
      have h0 : LineCounts cfg [Ev.sheet (subSheetName cfg (pnOf p) k)] [] := LineCounts.none (by simp)
      simpa using (LineCounts.none (cfg := cfg) (rollup_noLine _ _ _ _ _ _ _ _ h1)).append (h0.append h6)
termination_by structural v
theorem emitItems_counts {cfg : FCfg} (hw : cfg.wkt = false) (hx : cfg.xml = false) (p : List Str)
    (ar : List (List Str × List (Str × Json))) (pids : List (Str × Json)) (l : List Json) (ev : List Ev)
    (he : emitItems cfg (sheetOf cfg p) (pnOf (p ++ [s%"0"])) pids l = .ok ((), ev)) :
    LineCounts cfg ev (arrayItems (keepOf cfg) p ar l) := by
  match l with
  | [] =>
    rw [emitItems] at he
    cases he
    rw [arrayItems]
    exact LineCounts.none (by simp)
  | .leaf a :: r =>
    rw [emitItems] at he
    rw [arrayItems]
    split at he
    · exact emitItems_counts hw hx p ar pids r ev he
    · cases he
  | .arr _ :: r => rw [emitItems] at he; cases he
  | .obj fs :: r =>
    have rec_ := fun ev he => emitItems_counts hw hx p ar pids r ev he
    rw [emitItems] at he
    rw [arrayItems]
    obtain ⟨s, e1, e2, h1, h2, rfl⟩ := Out.bind_ok.1 he
    obtain ⟨⟨pids', fl0, rfl⟩, h4⟩ := prologue_noGeo hw _ _ _ _ _ _ (filteredOut_deep cfg (by simp) fs) _ _ h1
    dsimp only at h2
    obtain ⟨fl1, e3, e4, h5, h6, rfl⟩ := Out.bind_ok.1 h2
    obtain ⟨e5, h7, rfl⟩ := Out.after_ok.1 h6
    have h9 := emitFields_counts hw hx _ (p ++ [s%"0"]) (ar ++ [(p ++ [s%"0"], fs)]) pids' fs _ fl1 e3 h5
    have h10 := rec_ _ h7
    have hline : LineCounts cfg [Ev.line (some (sheetOf cfg p)) fl1] [⟨p, ar, fs⟩] := by
      refine ⟨rfl, ?_⟩
      intro name
      by_cases hn : sheetOf cfg p = name
      · simp [evLines, evLine, hn]
      · simp [evLines, evLine, hn]
    have := (LineCounts.none (cfg := cfg) h4).append (h9.append (hline.append h10))
    simpa using this
termination_by structural l
end

theorem emitRootList_counts {cfg : FCfg} (hw : cfg.wkt = false) (hx : cfg.xml = false) (hf : cfg.filter = none) (n : Nat) (l : List Json)
    (ev : List Ev) (he : emitRootList cfg n l = .ok ((), ev)) :
    (evLines none ev).length = (objects l).length ∧
      ∀ name, (evLines (some name) ev).length = ((docItems (keepOf cfg) l).filter (fun i => sheetOf cfg i.array = name)).length := by
  induction l generalizing n ev with
  | nil => rw [emitRootList] at he; cases he; exact ⟨rfl, fun _ => rfl⟩
  | cons j r ih =>
    rw [emitRootList] at he
    obtain ⟨⟨⟩, e1, e2, h1, h2, rfl⟩ := Out.bind_ok.1 he
    obtain ⟨h3, h4⟩ := ih _ _ h2
    unfold emitRootItem at h1
    cases j with
    | leaf a =>
      simp only [Except.ok.injEq, Prod.mk.injEq, true_and] at h1
      have hn : ∀ r l, Ev.line r l ∉ e1 := by rw [← h1]; intro r l; split <;> simp
      exact ⟨by simp [evLines_none hn, h3, objects], fun name => by simp [evLines_none hn, h4, docItems, objects]⟩
    | arr a =>
      simp only [Except.ok.injEq, Prod.mk.injEq, true_and] at h1
      have hn : ∀ r l, Ev.line r l ∉ e1 := by rw [← h1]; intro r l; simp
      exact ⟨by simp [evLines_none hn, h3, objects], fun name => by simp [evLines_none hn, h4, docItems, objects]⟩
    | obj fs =>
      obtain ⟨s, e3, e4, h5, h6, rfl⟩ := Out.bind_ok.1 h1
      obtain ⟨⟨pids', fl0, rfl⟩, h8⟩ := prologue_noGeo hw _ _ _ _ _ _ (by simp [filteredOut, hf]) _ _ h5
      dsimp only at h6
      obtain ⟨fl1, e5, e6, h9, h10, rfl⟩ := Out.bind_ok.1 h6
      simp only [Except.ok.injEq, Prod.mk.injEq, true_and] at h10
      subst h10
      have h12 := emitFields_counts hw hx none [] [([], fs)] pids' fs _ fl1 e5 h9
      constructor
      · have hl : evLines none [Ev.line none fl1] = [fl1] := rfl
        simp only [evLines_append, evLines_none h8, h12.main, hl, objects, List.nil_append, List.length_append, List.length_cons,
          List.length_nil, h3]
        omega
      · intro name
        have hl : evLines (some name) [Ev.line none fl1] = [] := rfl
        simp only [evLines_append, evLines_none h8, hl, List.nil_append, List.append_nil, docItems, objects,
          List.flatMap_cons, List.length_append, List.filter_append, h12.sub]
        rw [h4]; rfl

end Verif

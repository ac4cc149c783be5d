import Verif.Proofs.DecEq
import Verif.Proofs.EmitCount
import Verif.Proofs.FlatItems
import Verif.Props.FlattenFilter
import Verif.Props.FlattenLines
import Verif.Props.FlattenPreserve
/-! C30: rollup. -/
namespace Verif
open Spec

/-! ### Sub-sheets -/

theorem run_onSubs (cfg : FCfg) (ev : List Ev) (a b : FState) (h : a.subs = b.subs) :
    (runEv cfg ev a).subs = (runEv cfg (ev.filter Ev.onSubs) b).subs := by
  induction ev generalizing a b with
  | nil => exact h
  | cons e r ih =>
    rw [runEv_cons]
    have hsk : e.onSubs = false → (e.apply cfg a).subs = a.subs →
        (runEv cfg r (e.apply cfg a)).subs = (runEv cfg ((e :: r).filter Ev.onSubs) b).subs := by
      intro h1 h2
      rw [List.filter_cons, h1]
      exact ih _ _ (by rw [h2, h])
    have hdo : e.onSubs = true → (e.apply cfg a).subs = (e.apply cfg b).subs →
        (runEv cfg r (e.apply cfg a)).subs = (runEv cfg ((e :: r).filter Ev.onSubs) b).subs := by
      intro h1 h2
      rw [List.filter_cons, h1, if_pos rfl, runEv_cons]
      exact ih _ _ h2
    cases e with
    | key ref k =>
      cases ref with
      | none => exact hsk rfl rfl
      | some n => exact hdo rfl (by simp only [Ev.apply, FState.setSheet, FState.sheet, h])
    | line ref l =>
      cases ref with
      | none => exact hsk rfl rfl
      | some n => exact hdo rfl (by simp only [Ev.apply, FState.setSheet, FState.sheet, h])
    | sheet n => exact hdo rfl (by simp only [Ev.apply, FState.ensure, h]; split <;> simp [h])
    | warn w => exact hsk rfl rfl
    | seen p => exact hsk rfl rfl

theorem runEv_noRollup (cfg : FCfg) (ev : List Ev) (st : FState) : runEv (noRollup cfg) ev st = runEv cfg ev st := by
  induction ev generalizing st with
  | nil => rfl
  | cons e r ih =>
    rw [runEv_cons, runEv_cons, ih]
    rfl

/-- C30: the sub-sheets (columns and lines) are the same as without rollup, whatever the other options. -/
theorem C30_sub_sheets_unchanged (cfg : FCfg) (hx : cfg.xml = false) (root : List Json) (st : FState)
    (h : flatten cfg root = .ok st) : ∃ st', flatten { cfg with rollup := [] } root = .ok st' ∧ st'.subs = st.subs := by
  obtain ⟨ev, he, rfl⟩ := flatten_ok.1 h
  obtain ⟨⟨⟩, e2, h1, -, h2⟩ := emitRootList_subs cfg hx root 0 () ev he
  refine ⟨_, flatten_ok.2 ⟨e2, h1, rfl⟩, ?_⟩
  change (finish (noRollup cfg) (runEv (noRollup cfg) e2 (initState cfg))).subs = _
  rw [runEv_noRollup]
  have hs : (runEv cfg e2 (initState cfg)).subs = (runEv cfg ev (initState cfg)).subs := by
    rw [run_onSubs cfg e2 _ _ rfl, run_onSubs cfg ev _ _ rfl, h2]
  rw [finish_subs, finish_subs, hs]
  rfl

/-! ### The line of the main sheet -/

def rollEntries (cfg : FCfg) (key : Str) : Json → List (Str × Json)
  | .arr [.obj gs] =>
    (gs.filter (fun kv => !rollupDropped cfg [] key kv.1 && rollupWarned cfg [] key (key ++ (s%"/0/" ++ kv.1)))).map
      (fun kv => (key ++ (s%"/0/" ++ kv.1), kv.2))
  | .arr l =>
    match joinArray l, allKeys l with
    | none, some ks =>
      ((cfg.order (dedup ks)).filter (fun k => !rollupDropped cfg [] key k && rollupWarned cfg [] key (key ++ (s%"/0/" ++ k)))).map
        (fun k => (key ++ (s%"/0/" ++ k), .leaf (.str rollupText)))
    | _, _ => []
  | _ => []

theorem rollEntries_join {cfg : FCfg} {key : Str} {l : List Json} {t : Str} (hj : joinArray l = some t) :
    rollEntries cfg key (.arr l) = [] := by
  unfold rollEntries
  split
  · next heq => cases heq; cases hj
  · next heq => cases heq; rw [hj]
  · rfl

/-- Plain options, but for rollup. -/
structure PlainR (cfg : FCfg) : Prop where
  titles : cfg.useTitles = false
  wkt : cfg.wkt = false
  xml : cfg.xml = false
  rollup : cfg.rollup ≠ []

theorem PlainR.plain {cfg : FCfg} (h : PlainR cfg) : Plain (noRollup cfg) := ⟨h.titles, h.wkt, h.xml, rfl⟩

theorem rn_plainR {cfg : FCfg} (h : PlainR cfg) (ref : SheetRef) (k : Str) : rn cfg ref k = k := by simp [rn, h.titles]

theorem rollupField_plain {cfg : FCfg} (h : PlainR cfg) (key full : Str) :
    rollupField cfg [] key full = if rollupWarned cfg [] key full then some full else none := by
  unfold rollupField rollupWarned
  cases cfg.schema with
  | none => simp
  | some sp => simp [h.titles]

theorem emitRollupOnes_plain {cfg : FCfg} (h : PlainR cfg) (key : Str) (gs : List (Str × Json)) (flat fl : FLine) (ev : List Ev)
    (he : emitRollupOnes cfg none [] key gs flat = .ok (fl, ev)) :
    fl = Dict.update flat ((gs.filter (fun kv => !rollupDropped cfg [] key kv.1 && rollupWarned cfg [] key (key ++ (s%"/0/" ++ kv.1)))).map
      (fun kv => (key ++ (s%"/0/" ++ kv.1), kv.2))) := by
  induction gs generalizing flat ev with
  | nil => cases he; rfl
  | cons e r ih =>
    obtain ⟨k, v⟩ := e
    rw [emitRollupOnes] at he
    obtain ⟨x, e1, e2, h1, h2, rfl⟩ := Out.bind_ok.1 he
    have h3 := ih _ _ h2
    unfold emitRollupOne at h1
    rw [List.filter_cons]
    dsimp only
    cases hd : rollupDropped cfg [] key k with
    | true =>
      rw [hd] at h1
      simp only [if_true] at h1
      cases h1
      simpa using h3
    | false =>
      rw [hd] at h1
      simp only [Bool.false_eq_true, if_false] at h1
      split at h1
      · cases h1
      · simp only [List.nil_append] at h1
        rw [rollupField_plain h] at h1
        cases hw : rollupWarned cfg [] key (key ++ (s%"/0/" ++ k)) with
        | true =>
          rw [hw] at h1
          simp only [if_true, emitPut, rn_plainR h] at h1
          cases h1
          simp only [Bool.not_false, Bool.true_and, if_true, List.map_cons]
          rw [h3]; rfl
        | false =>
          rw [hw] at h1
          simp only [Bool.false_eq_true, if_false] at h1
          cases h1
          simpa using h3

theorem emitRollupMany_plain {cfg : FCfg} (h : PlainR cfg) (key : Str) (ks : List Str) (flat : FLine) :
    (emitRollupMany cfg none [] key ks flat).1 =
    Dict.update flat ((ks.filter (fun k => !rollupDropped cfg [] key k && rollupWarned cfg [] key (key ++ (s%"/0/" ++ k)))).map
        (fun k => (key ++ (s%"/0/" ++ k), .leaf (.str rollupText)))) := by
  induction ks generalizing flat with
  | nil => rfl
  | cons k r ih =>
    rw [emitRollupMany, List.filter_cons]
    simp only [List.nil_append, rn_plainR h]
    split
    · rw [ih]; rfl
    · exact ih _

theorem emitRollup_plain {cfg : FCfg} (h : PlainR cfg) (key : Str) (l : List Json) (hj : joinArray l = none) (flat fl : FLine)
    (ev : List Ev) (he : emitRollup cfg none [] key l flat = .ok (fl, ev)) :
    fl = Dict.update flat (rollEntries cfg key (.arr l)) := by
  unfold emitRollup at he
  rw [if_neg (by simp [h.rollup]), if_neg (by simp [h.titles])] at he
  split at he
  · cases hj
  · next fs =>
    rw [rollEntries]
    exact emitRollupOnes_plain h _ _ _ _ _ he
  · cases he
  · next h1 h2 h3 =>
    split at he
    · cases he
    · next ks hks =>
      simp only [Except.ok.injEq] at he
      have := emitRollupMany_plain h key (cfg.order (dedup ks)) flat
      rw [he] at this
      rw [rollEntries]
      · simp only [hj, hks]; exact this
      · intro gs hg; exact h2 gs hg

def rootEntries (cfg : FCfg) (fs : List (Str × Json)) : List (Str × Json) :=
  fs.flatMap (fun kv => if keepOf cfg [] kv.1 then
    cellEntries (valueCells (keepOf cfg) [kv.1] kv.2) ++ rollEntries cfg kv.1 kv.2 else [])

theorem emitFields_root {cfg : FCfg} (h : PlainR cfg) (ar : List (List Str × List (Str × Json)))
    (fs : List (Str × Json)) (flat fl : FLine) (ev : List Ev)
    (he : emitFields cfg none [] (idsOf (idOpts cfg) ar) false fs flat = .ok (fl, ev)) :
    fl = Dict.update flat (rootEntries cfg fs) := by
  induction fs generalizing flat ev with
  | nil => rw [emitFields] at he; cases he; rfl
  | cons e r ih =>
    obtain ⟨k, v⟩ := e
    rw [emitFields] at he
    rw [if_neg (by simp)] at he
    obtain ⟨ev1, he', rfl⟩ := Out.after_ok.1 he
    clear he
    rename _ => he
    have hre : rootEntries cfg ((k, v) :: r) = (if keepOf cfg [] k then
        cellEntries (valueCells (keepOf cfg) [k] v) ++ rollEntries cfg k v else []) ++ rootEntries cfg r := rfl
    rw [hre]
    cases hd : dropped cfg [] k with
    | true =>
      rw [if_pos hd] at he
      have hk : keepOf cfg [] k = false := by simp [keepOf, pnOf, hd]
      simp only [hk, Bool.false_eq_true, if_false, List.nil_append]
      exact ih _ _ he
    | false =>
      rw [if_neg (by simp [hd])] at he
      have hk : keepOf cfg [] k = true := by simp [keepOf, pnOf, hd]
      obtain ⟨⟨pn', fl1⟩, e1, e2, h1, h2, rfl⟩ := Out.bind_ok.1 he
      simp only [hk, if_true, update_append]
      have key : pn' = [] ∧ fl1 = Dict.update (Dict.update flat (cellEntries (valueCells (keepOf cfg) [k] v)))
          (rollEntries cfg k v) := by
        have hplain : emitValue (noRollup cfg) none [] (idsOf (idOpts cfg) ar) k v flat = .ok ((pn', fl1), e1) →
            pn' = [] ∧ fl1 = Dict.update flat (cellEntries (valueCells (keepOf cfg) [k] v)) := by
          intro hh
          obtain ⟨a, b, -⟩ := emitValue_plain h.plain none [] ar k v flat pn' fl1 e1 hh
          exact ⟨a, b⟩
        cases v with
        | leaf a => exact hplain (by rw [← h1, emitValue, emitValue]; rfl)
        | obj gs =>
          refine hplain ?_
          rw [← h1, emitValue, emitValue, emitPrologue_noRollup]
          have rec_ := fun pids' skip fl => emitFields_noRollup cfg [] cfg.order h.xml none ([] ++ (k ++ s%"/")) (by simp) pids' skip gs fl
          simp only [rec_]
        | arr l =>
          cases hj : joinArray l with
          | some t =>
            rw [rollEntries_join hj]
            refine hplain ?_
            rw [← h1, emitValue, emitValue, hj]; rfl
          | none =>
            rw [emitValue, hj] at h1
            obtain ⟨fl2, e3, e4, h3, h4, rfl⟩ := Out.bind_ok.1 h1
            obtain ⟨e5, h5, rfl⟩ := Out.after_ok.1 h4
            obtain ⟨⟨⟩, e6, e7, h6, h7, rfl⟩ := Out.bind_ok.1 h5
            cases h7
            have := emitRollup_plain h k l hj flat fl1 e3 h3
            rw [valueCells, hj]
            exact ⟨rfl, by simpa [cellEntries, Dict.update] using this⟩
      obtain ⟨rfl, rfl⟩ := key
      rw [← ih _ _ h2]

/-- If the root object could be flattened, arrays with several items consist of objects. -/
theorem emitFields_root_keys {cfg : FCfg} (h : PlainR cfg) (pids : List (Str × Json))
    (fs : List (Str × Json)) (flat fl : FLine) (ev : List Ev)
    (he : emitFields cfg none [] pids false fs flat = .ok (fl, ev)) :
    ∀ k l, (k, .arr l) ∈ fs → keepOf cfg [] k = true → 2 ≤ l.length → joinArray l = none → (allKeys l).isSome := by
  induction fs generalizing flat ev with
  | nil => simp
  | cons e r ih =>
    obtain ⟨k0, v0⟩ := e
    rw [emitFields] at he
    rw [if_neg (by simp)] at he
    obtain ⟨ev1, he', rfl⟩ := Out.after_ok.1 he
    clear he
    rename _ => he
    by_cases hd : dropped cfg [] k0 = true
    · rw [if_pos hd] at he
      intro k l hm hkeep hlen hj
      rcases List.mem_cons.1 hm with hm | hm
      · cases hm
        simp [keepOf, pnOf, hd] at hkeep
      · exact ih _ _ he k l hm hkeep hlen hj
    rw [if_neg hd] at he
    obtain ⟨⟨pn', fl1⟩, e1, e2, h1, h2, rfl⟩ := Out.bind_ok.1 he
    have hpn := (emitValue_counts h.wkt h.xml none [] [] pids k0 v0 flat pn' fl1 e1 h1).1
    rw [show pnOf [] = [] from rfl] at hpn
    subst hpn
    intro k l hm hkeep hlen hj
    rcases List.mem_cons.1 hm with hm | hm
    · cases hm
      rw [emitValue, hj] at h1
      obtain ⟨fl2, e3, e4, h3, h4, rfl⟩ := Out.bind_ok.1 h1
      unfold emitRollup at h3
      rw [if_neg (by simp [h.rollup]), if_neg (by simp [h.titles])] at h3
      split at h3
      · simp at hlen
      · simp at hlen
      · simp at hlen
      · cases hk : allKeys l with
        | none => rw [hk] at h3; cases h3
        | some ks => rfl
    · exact ih _ _ h2 k l hm hkeep hlen hj

/-- The lines of the main sheet. -/
theorem emitRootList_rollup {cfg : FCfg} (h : PlainR cfg) (hf : cfg.filter = none) (n : Nat) (l : List Json) (ev : List Ev)
    (he : emitRootList cfg n l = .ok ((), ev)) :
    evLines none ev = (objects l).map (fun fs => Dict.update [] (rootEntries cfg fs)) ∧
      (∀ fs ∈ objects l, ∀ k l, (k, .arr l) ∈ fs → keepOf cfg [] k = true → 2 ≤ l.length → joinArray l = none → (allKeys l).isSome) := by
  induction l generalizing n ev with
  | nil =>
    rw [emitRootList] at he
    cases he
    exact ⟨rfl, by simp [objects]⟩
  | cons j r ih =>
    rw [emitRootList] at he
    obtain ⟨⟨⟩, e1, e2, h1, h2, rfl⟩ := Out.bind_ok.1 he
    obtain ⟨h3, h3'⟩ := ih _ _ h2
    unfold emitRootItem at h1
    cases j with
    | leaf a =>
      simp only [Except.ok.injEq, Prod.mk.injEq, true_and] at h1
      have hn : ∀ r l, Ev.line r l ∉ e1 := by rw [← h1]; intro r l; split <;> simp
      exact ⟨by simp [evLines_none hn, h3, objects], h3'⟩
    | arr a =>
      simp only [Except.ok.injEq, Prod.mk.injEq, true_and] at h1
      have hn : ∀ r l, Ev.line r l ∉ e1 := by rw [← h1]; intro r l; simp
      exact ⟨by simp [evLines_none hn, h3, objects], h3'⟩
    | obj fs =>
      obtain ⟨s, e3, e4, h5, h6, rfl⟩ := Out.bind_ok.1 h1
      obtain ⟨ev0, h7, h8⟩ := emitPrologue_plain h.plain none [] false [] fs none (by simp [filteredOut, withRollup, hf])
      rw [show pnOf [] = [] from rfl, emitPrologue_noRollup] at h7
      rw [h7] at h5
      simp only [Except.ok.injEq, Prod.mk.injEq, Bool.false_eq_true, if_false, Option.getD_none] at h5
      obtain ⟨rfl, rfl⟩ := h5
      dsimp only at h6
      obtain ⟨fl1, e5, e6, h9, h10, rfl⟩ := Out.bind_ok.1 h6
      simp only [Except.ok.injEq, Prod.mk.injEq, true_and] at h10
      subst h10
      rw [show idsBelow (idOpts (noRollup cfg)) [] fs [] = idsOf (idOpts cfg) [([], fs)] from rfl] at h9
      have h11 := emitFields_root h _ fs _ fl1 e5 h9
      have hsub : evLines none e5 = [] := (emitFields_counts h.wkt h.xml none [] [] _ fs _ fl1 e5 h9).main
      have hl : evLines none [Ev.line none fl1] = [fl1] := rfl
      refine ⟨?_, ?_⟩
      · simp only [evLines_append, evLines_none h8, hsub, h3, objects, hl, h11, List.nil_append,
            List.append_nil, List.map_cons, List.singleton_append]
        rfl
      · intro fs' hfs'
        rcases List.mem_cons.1 hfs' with rfl | hfs'
        · exact emitFields_root_keys h _ _ _ _ _ h9
        · exact h3' fs' hfs'

theorem mapM_none {α β : Type} {f : α → Option β} {l : List α} {x : α} (hx : x ∈ l) (h : f x = none) : l.mapM f = none := by
  induction l with
  | nil => simp at hx
  | cons a r ih =>
    rw [List.mapM_cons]
    rcases List.mem_cons.1 hx with rfl | hx
    · rw [h]; rfl
    · rw [ih hx]; cases f a <;> rfl

theorem joinArray_obj {l : List Json} {gs : List (Str × Json)} (h : .obj gs ∈ l) : joinArray l = none := by
  unfold joinArray
  rw [mapM_none h rfl, mapM_none h rfl]; rfl

theorem mem_dedup (l : List Str) (x : Str) : x ∈ dedup l ↔ x ∈ l := by
  induction l with
  | nil => simp [dedup]
  | cons a r ih =>
    rw [dedup, List.mem_cons, List.mem_filter, ih, List.mem_cons]
    by_cases h : x = a <;> simp [h]

theorem mem_allKeys {l : List Json} {ks : List Str} (h : allKeys l = some ks) (k : Str) :
    k ∈ ks ↔ ∃ gs v, .obj gs ∈ l ∧ (k, v) ∈ gs := by
  induction l generalizing ks with
  | nil => cases h; simp
  | cons j r ih =>
    cases j with
    | leaf a => cases h
    | arr a => cases h
    | obj fs =>
      rw [allKeys] at h
      cases hr : allKeys r with
      | none => rw [hr] at h; cases h
      | some ks' =>
        rw [hr] at h; cases h
        have hfs : k ∈ fs.map (·.1) ↔ ∃ v, (k, v) ∈ fs := by
          simp only [List.mem_map, Prod.exists]
          constructor
          · rintro ⟨a, b, hm, rfl⟩; exact ⟨b, hm⟩
          · rintro ⟨v, hm⟩; exact ⟨k, v, hm, rfl⟩
        rw [List.mem_append, ih hr, hfs]
        constructor
        · rintro (⟨v, hv⟩ | ⟨gs, v, hm, hv⟩)
          · exact ⟨fs, v, by simp, hv⟩
          · exact ⟨gs, v, by simp [hm], hv⟩
        · rintro ⟨gs, v, hm, hv⟩
          rcases List.mem_cons.1 hm with hm | hm
          · cases hm; exact Or.inl ⟨v, hv⟩
          · exact Or.inr ⟨gs, v, hm, hv⟩

theorem rolls_iff (cfg : FCfg) (key k : Str) : rollupWarned cfg [] key (key ++ (s%"/0/" ++ k)) = true ↔ Rolls cfg key k := by
  have hp : pathText [key, s%"0", k] = key ++ (s%"/0/" ++ k) := by simp [pathText, Py.join]
  unfold rollupWarned Rolls
  rw [hp]
  simp only [Bool.or_eq_true, List.contains_iff_mem, List.nil_append]
  cases cfg.schema with
  | none => simp
  | some sp => simp [or_comm]

/-- The fields that are rolled up, given what is preserved. -/
def RollsKept (cfg : FCfg) (key k : Str) : Prop := (keepOf cfg [] key = true ∧ rollupDropped cfg [] key k = false) ∧ Rolls cfg key k

theorem mem_rootEntries {cfg : FCfg} (hord : ∀ l x, x ∈ cfg.order l ↔ x ∈ l) {fs : List (Str × Json)}
    (hk : ∀ k l, (k, .arr l) ∈ fs → keepOf cfg [] k = true → 2 ≤ l.length → joinArray l = none → (allKeys l).isSome) (h : Str) (v : Json) :
    (h, v) ∈ rootEntries cfg fs ↔ ∃ q, h = pathText q ∧ (HasCell (keepOf cfg) [] fs q v ∨ Rolled (RollsKept cfg) fs q v) := by
  have hpt : ∀ key k, pathText [key, s%"0", k] = key ++ (s%"/0/" ++ k) := by intro key k; simp [pathText, Py.join]
  simp only [rootEntries, List.mem_flatMap]
  constructor
  · rintro ⟨⟨k, w⟩, hm, h1⟩
    dsimp only at h1
    by_cases hke : keepOf cfg [] k = true
    case neg => rw [if_neg hke] at h1; cases h1
    rw [if_pos hke] at h1
    rcases List.mem_append.1 h1 with h1 | h1
    · obtain ⟨q, hq, rfl⟩ := mem_cellEntries.1 h1
      refine ⟨q, rfl, Or.inl ?_⟩
      have := (mem_valueCells (keepOf cfg) [] k w q v).1 hq
      rcases this with ⟨a, rfl, rfl, rfl⟩ | ⟨l, t, rfl, hj, rfl, rfl⟩ | ⟨gs, rfl, hg⟩
      · exact .scalar hm hke
      · exact .list hm hke hj
      · exact .deep hm hke hg
    · unfold rollEntries at h1
      split at h1
      · next gs _ =>
        simp only [List.mem_map, List.mem_filter, Prod.mk.injEq, Bool.and_eq_true, Bool.not_eq_eq_eq_not, Bool.not_true, rolls_iff] at h1
        obtain ⟨⟨k', v'⟩, ⟨hm', hr⟩, he, rfl⟩ := h1
        exact ⟨[k, s%"0", k'], by rw [hpt]; exact he.symm, Or.inr (.one hm ⟨⟨hke, hr.1⟩, hr.2⟩ hm')⟩
      · next l hno _ =>
        split at h1
        · next ks hj hks =>
          simp only [List.mem_map, List.mem_filter, Prod.mk.injEq, Bool.and_eq_true, Bool.not_eq_eq_eq_not, Bool.not_true, rolls_iff, hord, mem_dedup] at h1
          obtain ⟨k', ⟨hm', hr⟩, he, rfl⟩ := h1
          obtain ⟨gs, w, hgs, hw⟩ := (mem_allKeys hks k').1 hm'
          refine ⟨[k, s%"0", k'], by rw [hpt]; exact he.symm, Or.inr (.many hm ?_ hgs hw ⟨⟨hke, hr.1⟩, hr.2⟩)⟩
          match l, hgs, hno with
          | [], hgs, _ => simp at hgs
          | [j], hgs, hno =>
            simp only [List.mem_singleton] at hgs; subst hgs
            exact absurd rfl (hno gs)
          | _ :: _ :: _, _, _ => simp
        · simp at h1
      · simp at h1
  · rintro ⟨q, rfl, hc | hc⟩
    · have : ∃ k w, (k, w) ∈ fs ∧ keepOf cfg [] k = true ∧ (q, v) ∈ valueCells (keepOf cfg) [k] w := by
        cases hc with
        | scalar hm hke => exact ⟨_, _, hm, hke, (mem_valueCells (keepOf cfg) [] _ _ _ _).2 (Or.inl ⟨_, rfl, rfl, rfl⟩)⟩
        | list hm hke hj => exact ⟨_, _, hm, hke, (mem_valueCells (keepOf cfg) [] _ _ _ _).2 (Or.inr (Or.inl ⟨_, _, rfl, hj, rfl, rfl⟩))⟩
        | deep hm hke hg => exact ⟨_, _, hm, hke, (mem_valueCells (keepOf cfg) [] _ _ _ _).2 (Or.inr (Or.inr ⟨_, rfl, hg⟩))⟩
      obtain ⟨k, w, hm, hke, hq⟩ := this
      refine ⟨(k, w), hm, ?_⟩
      rw [if_pos hke]
      exact List.mem_append_left _ (mem_cellEntries.2 ⟨q, hq, rfl⟩)
    · cases hc with
      | one hm hr hv =>
        refine ⟨(_, _), hm, ?_⟩
        rw [if_pos hr.1.1]
        apply List.mem_append_right
        rw [hpt]
        simp only [rollEntries, List.mem_map, List.mem_filter, Prod.mk.injEq, Bool.and_eq_true, Bool.not_eq_eq_eq_not, Bool.not_true, rolls_iff]
        exact ⟨_, ⟨hv, hr.1.2, hr.2⟩, rfl, rfl⟩
      | @many key l gs k w hm hlen hgs hw hr =>
        refine ⟨(_, _), hm, ?_⟩
        rw [if_pos hr.1.1]
        apply List.mem_append_right
        rw [hpt]
        have hj := joinArray_obj hgs
        have hks := hk _ _ hm hr.1.1 hlen hj
        rw [Option.isSome_iff_exists] at hks
        obtain ⟨ks, hks⟩ := hks
        rw [rollEntries]
        · simp only [hj, hks, List.mem_map, List.mem_filter, Prod.mk.injEq, Bool.and_eq_true, Bool.not_eq_eq_eq_not, Bool.not_true, rolls_iff, hord, mem_dedup]
          exact ⟨k, ⟨(mem_allKeys hks k).2 ⟨gs, w, hgs, hw⟩, hr.1.2, hr.2⟩, rfl, rfl⟩
        · intro gs' he; subst he; simp at hlen

/-- No two different values for one path. -/
theorem rolled_unique {keep : List Str → Str → Bool} {rolls : Str → Str → Prop} {fs : List (Str × Json)} (hc : CleanKeys (.obj fs)) {q : List Str} {v w : Json}
    (h1 : HasCell keep [] fs q v ∨ Rolled rolls fs q v) (h2 : HasCell keep [] fs q w ∨ Rolled rolls fs q w) : v = w := by
  have hc' := hc
  rw [CleanKeys] at hc'
  have mixed : ∀ q v w, HasCell keep [] fs q v → Rolled rolls fs q w → False := by
    intro q v w hv hw
    have harr : ∃ key k l, q = [key, s%"0", k] ∧ (key, .arr l) ∈ fs ∧ joinArray l = none := by
      cases hw with
      | one hm _ _ => exact ⟨_, _, _, rfl, hm, joinArray_obj (List.mem_singleton.2 rfl)⟩
      | many hm _ hg _ _ => exact ⟨_, _, _, rfl, hm, joinArray_obj hg⟩
    obtain ⟨key, k, l, rfl, hm, hj⟩ := harr
    generalize hq : [key, s%"0", k] = q at hv
    cases hv with
    | scalar _ _ => simp at hq
    | list _ _ _ => simp at hq
    | deep hm' _ hg =>
      obtain ⟨k2, r, hq2, -⟩ := hg.starts
      rw [hq2] at hq
      simp only [List.nil_append, List.cons_append, List.cons.injEq] at hq
      obtain ⟨rfl, -⟩ := hq
      have := nodup_fst_unique hc'.1 hm hm'
      cases this
  rcases h1 with h1 | h1 <;> rcases h2 with h2 | h2
  · exact h1.unique h2 hc
  · exact absurd h2 (mixed _ _ _ h1)
  · exact absurd h1 (mixed _ _ _ h2)
  · cases h1 with
    | one hm _ hv =>
      cases h2 with
      | one hm' _ hv' =>
        have := nodup_fst_unique hc'.1 hm hm'
        cases this
        have hcl := cleanFields_mem hc'.2.2 hm
        rw [CleanKeys, CleanList, CleanKeys] at hcl
        exact nodup_fst_unique hcl.1.1 hv hv'
      | many hm' hl _ _ _ =>
        have := nodup_fst_unique hc'.1 hm hm'
        cases this
        simp at hl
    | many hm hl _ _ _ =>
      cases h2 with
      | one hm' _ hv' =>
        have := nodup_fst_unique hc'.1 hm hm'
        cases this
        simp at hl
      | many hm' hl _ _ _ => rfl

theorem rolled_clean {keep : List Str → Str → Bool} {rolls : Str → Str → Prop} {fs : List (Str × Json)} (hc : CleanKeys (.obj fs)) {q : List Str} {v : Json}
    (h1 : HasCell keep [] fs q v ∨ Rolled rolls fs q v) : q ≠ [] ∧ ∀ x ∈ q, '/' ∉ x := by
  rcases h1 with h | h
  · obtain ⟨k, r, hq, -⟩ := h.starts
    exact ⟨by rw [hq]; simp, h.clean hc (by simp)⟩
  · rw [CleanKeys] at hc
    have cl : ∀ l gs, .obj gs ∈ l → CleanList l → CleanKeys (.obj gs) := by
      intro l gs hm hcl
      induction l with
      | nil => simp at hm
      | cons a r ih =>
        rw [CleanList] at hcl
        rcases List.mem_cons.1 hm with rfl | hm
        · exact hcl.1
        · exact ih hm hcl.2
    have key : ∀ key l gs k v, (key, .arr l) ∈ fs → .obj gs ∈ l → (k, v) ∈ gs → ∀ x ∈ [key, s%"0", k], '/' ∉ x := by
      intro key l gs k v hm hg hv x hx
      have hcl := cleanFields_mem hc.2.2 hm
      rw [CleanKeys] at hcl
      have hcg := cl l gs hg hcl
      rw [CleanKeys] at hcg
      simp only [List.mem_cons, List.not_mem_nil, or_false] at hx
      rcases hx with rfl | rfl | rfl
      · exact hc.2.1 _ (Dict.mem_keys_of_mem hm)
      · decide
      · exact hcg.2.1 _ (Dict.mem_keys_of_mem hv)
    cases h with
    | one hm _ hv => exact ⟨by simp, key _ _ _ _ _ hm (List.mem_singleton.2 rfl) hv⟩
    | many hm _ hg hv _ => exact ⟨by simp, key _ _ _ _ _ hm hg hv⟩

theorem rollup_lines {cfg : FCfg} (hpl : PlainR cfg) (hf : cfg.filter = none) (hs : FromSchemaParser cfg)
    (hord : ∀ l x, x ∈ cfg.order l ↔ x ∈ l) {root : List Json} (hc : ∀ fs ∈ objects root, CleanKeys (.obj fs)) {st : FState}
    (h : flatten cfg root = .ok st) :
    All₂ (fun fs line => ∀ heading v, Dict.get line heading = some v ↔
        ∃ q, heading = pathText q ∧ (HasCell (keepOf cfg) [] fs q v ∨ Rolled (RollsKept cfg) fs q v))
      (objects root) st.main.lines := by
  obtain ⟨ev, he, rfl⟩ := flatten_ok.1 h
  obtain ⟨h1, h2⟩ := emitRootList_rollup hpl hf 0 root ev he
  rw [(result_lines hs ev _ rfl).1, h1]
  apply all₂_map_right
  intro fs hfs heading v
  have hmem := mem_rootEntries hord (h2 fs hfs)
  have hcl := hc fs hfs
  rw [← hmem]
  constructor
  · intro hg
    rcases get_update_mem hg with hm | ⟨-, hm⟩
    · exact hm
    · simp [Dict.get] at hm
  · intro hm
    apply get_update_of_unique _ hm
    intro w hw
    obtain ⟨q, he, h3⟩ := (hmem _ _).1 hm
    obtain ⟨q', he', h4⟩ := (hmem _ _).1 hw
    have a := rolled_clean hcl h3
    have b := rolled_clean hcl h4
    have := pathText_inj a.1 b.1 a.2 b.2 (he.symm.trans he')
    subst this
    exact (rolled_unique hcl h3 h4).symm

theorem rollup_imp_mem {α β : Type} {R S : α → β → Prop} {a : List α} {b : List β} (h : All₂ R a b)
    (hi : ∀ x ∈ a, ∀ y ∈ b, R x y → S x y) : All₂ S a b := by
  induction h with
  | nil => exact .nil
  | @cons x y xs ys h1 _ ih =>
    exact .cons (hi x (by simp) y (by simp) h1) (ih (fun x hx y hy => hi x (by simp [hx]) y (by simp [hy])))

theorem rolled_congr {R S : Str → Str → Prop} {fs : List (Str × Json)}
    (h : ∀ key l gs k v, (key, .arr l) ∈ fs → .obj gs ∈ l → (k, v) ∈ gs → (R key k ↔ S key k)) {q : List Str} {v : Json} :
    Rolled R fs q v ↔ Rolled S fs q v := by
  constructor
  · intro hr
    cases hr with
    | one h1 h2 h3 => exact .one h1 ((h _ _ _ _ _ h1 (List.mem_singleton.2 rfl) h3).1 h2) h3
    | many h1 h2 h3 h4 h5 => exact .many h1 h2 h3 h4 ((h _ _ _ _ _ h1 h3 h4).1 h5)
  · intro hr
    cases hr with
    | one h1 h2 h3 => exact .one h1 ((h _ _ _ _ _ h1 (List.mem_singleton.2 rfl) h3).2 h2) h3
    | many h1 h2 h3 h4 h5 => exact .many h1 h2 h3 h4 ((h _ _ _ _ _ h1 h3 h4).2 h5)

/-- C30: with rollup, the line of a root object on the main sheet has exactly the values it has without rollup, plus, under
`field/0/key`, the values of the only object in an array that is rolled up, or a warning text if there are several objects. -/
theorem C30_main_lines (cfg : FCfg) (ht : cfg.useTitles = false) (hw : cfg.wkt = false) (hx : cfg.xml = false)
    (hr : cfg.rollup ≠ []) (hf : cfg.filter = none) (hp : cfg.preserve = []) (hs : FromSchemaParser cfg)
    (hord : ∀ l x, x ∈ cfg.order l ↔ x ∈ l) (root : List Json) (hc : ∀ fs ∈ objects root, CleanKeys (.obj fs)) (st : FState)
    (h : flatten cfg root = .ok st) :
    All₂ (fun fs line => ∀ heading v, Dict.get line heading = some v ↔
        ∃ q, heading = pathText q ∧ (HasCell everything [] fs q v ∨ Rolled (Rolls cfg) fs q v))
      (objects root) st.main.lines := by
  refine rollup_imp_mem (rollup_lines ⟨ht, hw, hx, hr⟩ hf hs hord hc h) ?_
  intro fs _ line _ hl heading v
  rw [hl heading v, keepOf_nil hp]
  refine exists_congr (fun q => and_congr_right fun _ => or_congr_right (rolled_congr ?_))
  intro key l gs k v _ _ _
  exact ⟨fun h => h.2, fun h => ⟨⟨by rw [keepOf_nil hp]; rfl, by simp [rollupDropped, hp]⟩, h⟩⟩

theorem rollupDropped_listed {cfg : FCfg} {listed : List (List Str)} {root : List Json} (hg : GoodList listed root)
    (hcfg : cfg.preserve = preserveSet (listed.map pathText)) {key k : Str} (hkey : '/' ∉ key) (hk : '/' ∉ k) :
    rollupDropped cfg [] key k = false ↔ RollsListed listed key k := by
  have hpt : ([] : Str) ++ (key ++ '/' :: k) = pathText [key, k] := by simp [pathText, Py.join]
  have hset := mem_preserveSet hg.path hg.trim
  have hne : cfg.preserve ≠ [] := by
    intro hc
    obtain ⟨l, r, hl⟩ := List.exists_cons_of_ne_nil hg.some
    have : pathText l ∈ preserveSet (listed.map pathText) := (hset _).2 ⟨l, by rw [hl]; simp, .inl rfl⟩
    rw [← hcfg, hc] at this
    cases this
  have hinj : ∀ q, q ≠ [] → (∀ x ∈ q, '/' ∉ x) → pathText [key, k] = pathText q → q = [key, k] := by
    intro q h1 h2 h3
    exact (pathText_inj (by simp) h1 (by simp [hkey, hk]) h2 h3).symm
  unfold rollupDropped RollsListed
  rw [hpt]
  have : (!cfg.preserve.isEmpty && !cfg.preserve.contains (pathText [key, k])) = false ↔ pathText [key, k] ∈ cfg.preserve := by
    have : cfg.preserve.isEmpty = false := by cases h : cfg.preserve with
      | nil => exact absurd h hne
      | cons _ _ => rfl
    simp [this]
  rw [this, hcfg, hset]
  constructor
  · rintro ⟨l, hl, h | ⟨q, x, hq, rfl, h | h⟩⟩
    · obtain ⟨h1, h2⟩ := hg.path l hl
      rw [hinj l h1 (fun x hx => (h2 x hx).2) h] at hl
      exact .inl hl
    · obtain ⟨h1, h2⟩ := hg.path _ hl
      rw [hinj q hq (fun y hy => (h2 y (by simp [hy])).2) h] at hl
      exact .inr ⟨x, hl⟩
    · have := (hg.path _ hl).2 x (by simp)
      rw [← h] at this
      exact absurd (by simp [pathText, Py.join]) this.2
  · rintro (h | ⟨x, h⟩)
    · exact ⟨_, h, .inl rfl⟩
    · exact ⟨_, h, .inr ⟨[key, k], x, by simp, rfl, .inl rfl⟩⟩

/-- C30: with a list of fields to be preserved, the main-sheet line of a root object has the fields of the object to be preserved (as without rollup, C29), and
those values that rollup adds for which the list has the field (or a field of it). -/
theorem C30_preserved_fields (cfg : FCfg) (ht : cfg.useTitles = false) (hw : cfg.wkt = false) (hx : cfg.xml = false)
    (hr : cfg.rollup ≠ []) (hf : cfg.filter = none) (hs : FromSchemaParser cfg) (hord : ∀ l x, x ∈ cfg.order l ↔ x ∈ l)
    (listed : List (List Str)) (hcfg : cfg.preserve = preserveSet (listed.map pathText)) (root : List Json)
    (hg : GoodList listed root) (hc : ∀ fs ∈ objects root, CleanKeys (.obj fs))
    (hz : ∀ j ∈ root, ∀ p w, At j p w → ∀ k ∈ p, k.head? ≠ some '0') (st : FState) (h : flatten cfg root = .ok st) :
    All₂ (fun fs line => ∀ heading v, Dict.get line heading = some v ↔
        ∃ q, heading = pathText q ∧ (HasCell (preserved listed) [] fs q v ∨ Rolled (fun key k => Rolls cfg key k ∧ RollsListed listed key k) fs q v))
      (objects root) st.main.lines := by
  refine rollup_imp_mem (rollup_lines ⟨ht, hw, hx, hr⟩ hf hs hord hc h) ?_
  intro fs hfs line _ hl heading v
  rw [hl heading v]
  refine exists_congr (fun q => and_congr_right fun _ => or_congr ?_ (rolled_congr ?_))
  · rw [← mem_cells, ← mem_cells, (kept_cells hg hcfg hc hz hfs).1]
  · intro key l gs k v h1 h2 h3
    have hcl := hc fs hfs
    rw [CleanKeys] at hcl
    have hkey := hcl.2.1 key (Dict.mem_keys_of_mem h1)
    have hcl2 := clean_mem hcl.2.2 h1
    rw [CleanKeys] at hcl2
    have hcl3 := clean_mem_list hcl2 h2
    rw [CleanKeys] at hcl3
    have hk := hcl3.2.1 k (Dict.mem_keys_of_mem h3)
    rw [RollsKept, rollupDropped_listed hg hcfg hkey hk]
    have hkeep : RollsListed listed key k → keepOf cfg [] key = true := by
      intro hrl
      rw [(reached_field hg hcfg (reached_root hg hc hz hfs) (fun _ => mem_objects hfs) h1).1]
      refine decide_eq_true (.inr (.inl ?_))
      rcases hrl with h | ⟨x, h⟩
      · exact ⟨_, h, ⟨[k], rfl⟩⟩
      · exact ⟨_, h, ⟨[k, x], rfl⟩⟩
    exact ⟨fun h => ⟨h.2, h.1.2⟩, fun h => ⟨⟨hkeep h.2, h.2⟩, h.1⟩⟩

/-! ### A concrete case -/

set_option synthInstance.maxSize 4000 in
/-- An array with one object and one with two, both rolled up. -/
example : (flatten { rollup := [s%"a", s%"b"] }
      [.obj [(s%"id", .leaf (.str s%"1")), (s%"a", .arr [.obj [(s%"x", .leaf (.int 1)), (s%"y", .leaf (.int 2))]]),
        (s%"b", .arr [.obj [(s%"x", .leaf (.int 3))], .obj [(s%"x", .leaf (.int 4))]]), (s%"c", .arr [.obj [(s%"x", .leaf (.int 5))]])]]).map
      (fun st => (st.main.lines, st.subs.map (fun s => (s.1, s.2.lines)))) =
    .ok ([[(s%"id", .leaf (.str s%"1")), (s%"a/0/x", .leaf (.int 1)), (s%"a/0/y", .leaf (.int 2)),
        (s%"b/0/x", .leaf (.str s%"WARNING: More than one value supplied, consult the relevant sub-sheet for the data."))]],
      [(s%"a", [[(s%"id", .leaf (.str s%"1")), (s%"a/0/x", .leaf (.int 1)), (s%"a/0/y", .leaf (.int 2))]]),
       (s%"b", [[(s%"id", .leaf (.str s%"1")), (s%"b/0/x", .leaf (.int 3))], [(s%"id", .leaf (.str s%"1")), (s%"b/0/x", .leaf (.int 4))]]),
       (s%"c", [[(s%"id", .leaf (.str s%"1")), (s%"c/0/x", .leaf (.int 5))]])]) := by
  decide +kernel

set_option synthInstance.maxSize 4000 in
/-- With fields to preserve: of the only object of `a`, the listed field is rolled up; `c` is listed as a whole, and although it is flattened to its sheet, none of
its fields is rolled up. -/
example : (flatten { rollup := [s%"a", s%"c"], preserve := preserveSet [s%"id", s%"a/x", s%"c"] }
      [.obj [(s%"id", .leaf (.str s%"1")), (s%"a", .arr [.obj [(s%"x", .leaf (.int 1)), (s%"y", .leaf (.int 2))]]),
        (s%"c", .arr [.obj [(s%"x", .leaf (.int 5))]])]]).map
      (fun st => (st.main.lines, st.subs.map (fun s => (s.1, s.2.lines)))) =
    .ok ([[(s%"id", .leaf (.str s%"1")), (s%"a/0/x", .leaf (.int 1))]],
      [(s%"a", [[(s%"id", .leaf (.str s%"1")), (s%"a/0/x", .leaf (.int 1))]]),
       (s%"c", [[(s%"id", .leaf (.str s%"1")), (s%"c/0/x", .leaf (.int 5))]])]) := by
  decide +kernel

/-- Why C30 is about field names: with titles but no schema, rollup raises. -/
example : (flatten { rollup := [s%"a"], useTitles := true } [.obj [(s%"a", .arr [.obj [(s%"x", .leaf (.int 1))]])]]).map
    (fun st => st.main.lines) = .error .type := by
  decide +kernel

end Verif

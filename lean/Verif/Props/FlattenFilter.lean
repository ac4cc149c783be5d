import Verif.Proofs.DecEq
import Verif.Proofs.EmitFilter
import Verif.Props.Flatten
/-! C28: filtering. -/
namespace Verif
open Spec

/-- Events that do something to the sheets. -/
def Ev.onSheets : Ev → Bool
  | .warn _ | .seen _ => false
  | _ => true

/-- Same sheets. -/
def SameSheets (a b : FState) : Prop := a.main = b.main ∧ a.subs = b.subs

theorem SameSheets.sheet {a b : FState} (h : SameSheets a b) (ref : SheetRef) : a.sheet ref = b.sheet ref := by
  cases ref with
  | none => exact h.1
  | some n => simp only [FState.sheet, h.2]

theorem SameSheets.set {a b : FState} (h : SameSheets a b) (ref : SheetRef) (s : Sheet) :
    SameSheets (a.setSheet ref s) (b.setSheet ref s) := by
  cases ref with
  | none => exact ⟨rfl, h.2⟩
  | some n => exact ⟨h.1, by simp only [FState.setSheet, h.2]⟩

theorem run_onSheets (cfg : FCfg) (ev : List Ev) (a b : FState) (h : SameSheets a b) :
    SameSheets (runEv cfg ev a) (runEv cfg (ev.filter Ev.onSheets) b) := by
  induction ev generalizing a b with
  | nil => exact h
  | cons e r ih =>
    rw [runEv_cons]
    cases e with
    | key ref k =>
      simp only [List.filter_cons, Ev.onSheets, if_true, runEv_cons]
      apply ih
      simp only [Ev.apply, h.sheet]
      exact h.set _ _
    | line ref l =>
      simp only [List.filter_cons, Ev.onSheets, if_true, runEv_cons]
      apply ih
      simp only [Ev.apply, h.sheet]
      exact h.set _ _
    | sheet n =>
      simp only [List.filter_cons, Ev.onSheets, if_true, runEv_cons]
      apply ih
      simp only [Ev.apply, FState.ensure, h.2]
      split
      · exact h
      · exact ⟨h.1, rfl⟩
    | warn w =>
      simp only [List.filter_cons, Ev.onSheets, Bool.false_eq_true, if_false]
      exact ih _ _ h
    | seen p =>
      simp only [List.filter_cons, Ev.onSheets, Bool.false_eq_true, if_false]
      exact ih _ _ h

theorem finish_sheets {cfg cfg' : FCfg} (h : cfg.removeEmpty = cfg'.removeEmpty) (hs : cfg.schema = cfg'.schema) {a b : FState}
    (hab : SameSheets a b) : SameSheets (finish cfg a) (finish cfg' b) := by
  have : isSchemaSheet cfg = isSchemaSheet cfg' := by funext n; simp only [isSchemaSheet, hs]
  exact ⟨by rw [finish_main, finish_main, hab.1], by rw [finish_subs, finish_subs, h, hab.2, this]⟩

theorem runEv_noFilter (cfg : FCfg) (ev : List Ev) (st : FState) : runEv (noFilter cfg) ev st = runEv cfg ev st := by
  induction ev generalizing st with
  | nil => rfl
  | cons e r ih =>
    rw [runEv_cons, runEv_cons, ih]
    rfl

/-- The same result as far as the sheets are concerned. -/
def SimSheets (a b : Out Unit) : Prop :=
  match a, b with
  | .ok (_, e1), .ok (_, e2) => e1.filter Ev.onSheets = e2.filter Ev.onSheets
  | .error e1, .error e2 => e1 = e2
  | _, _ => False

theorem SimSheets.bind {a b : Out Unit} {f g : Unit → Out Unit} (h : SimSheets a b) (hf : SimSheets (f ()) (g ())) :
    SimSheets (a.bind f) (b.bind g) := by
  unfold SimSheets at h
  split at h
  · unfold Out.bind
    dsimp only
    generalize f () = x at *
    generalize g () = y at *
    unfold SimSheets at hf
    split at hf
    · simp [SimSheets, h, hf]
    · simp [SimSheets, hf]
    · exact absurd hf id
  · subst h; simp [SimSheets, Out.bind]
  · exact absurd h id

theorem emitRootItem_matching {cfg : FCfg} (fs : List (Str × Json)) (hf : filteredOut cfg [] fs = false) (n m : Nat) :
    emitRootItem (noFilter cfg) m (.obj fs) = emitRootItem cfg n (.obj fs) := by
  unfold emitRootItem
  simp only [emitPrologue_noFilter _ _ _ _ _ _ _ hf, emitFields_noFilter]

theorem emitRootItem_other {cfg : FCfg} (n : Nat) (fs : List (Str × Json))
    (hw : cfg.wkt = true → Dict.has fs s%"type" = false ∨ Dict.has fs s%"coordinates" = false) (hf : filteredOut cfg [] fs = true) :
    emitRootItem cfg n (.obj fs) = .ok ((), []) := by
  have h : (cfg.wkt && Dict.has fs s%"type" && Dict.has fs s%"coordinates") = false := by
    cases hc : cfg.wkt with
    | false => rfl
    | true => rcases hw hc with h | h <;> simp [h]
  simp [emitRootItem, emitPrologue, emitGeo, h, Out.bind, emitStart, hf]

theorem filteredOut_selected {cfg : FCfg} {f v : Str} (hf : cfg.filter = some (f, v)) (fs : List (Str × Json)) :
    filteredOut cfg [] fs = !selected f v (.obj fs) := by
  simp only [filteredOut, hf, selected, List.isEmpty_nil, if_true]
  split <;> simp_all

theorem emitRootList_filter {cfg : FCfg} {f v : Str} (hf : cfg.filter = some (f, v)) (l : List Json)
    (hw : cfg.wkt = true → ∀ fs, .obj fs ∈ l → Dict.has fs s%"type" = false ∨ Dict.has fs s%"coordinates" = false) (n m : Nat) :
    SimSheets (emitRootList cfg n l) (emitRootList (noFilter cfg) m (l.filter (selected f v))) := by
  induction l generalizing n m with
  | nil => simp [emitRootList, SimSheets]
  | cons j r ih =>
    rw [emitRootList]
    replace ih := ih (fun hc fs hm => hw hc fs (by simp [hm]))
    have hskip : ∀ ev : List Ev, ev.filter Ev.onSheets = [] → emitRootItem cfg n j = .ok ((), ev) → selected f v j = false →
        SimSheets ((emitRootItem cfg n j).bind fun _ => emitRootList cfg (n + 1) r)
          (emitRootList (noFilter cfg) m ((j :: r).filter (selected f v))) := by
      intro ev hev he hsel
      rw [List.filter_cons, hsel, he]
      simp only [Bool.false_eq_true, if_false]
      have := ih (n + 1) m
      simp only [Out.bind]
      generalize emitRootList cfg (n + 1) r = x at *
      generalize emitRootList (noFilter cfg) m (r.filter (selected f v)) = y at *
      unfold SimSheets at this
      split at this
      · simpa [SimSheets, hev] using this
      · simpa [SimSheets] using this
      · exact absurd this id
    cases j with
    | leaf a => exact hskip _ (by split <;> rfl) rfl rfl
    | arr a => exact hskip [Ev.warn (.notAnObject n)] rfl rfl rfl
    | obj fs =>
      cases hsel : selected f v (.obj fs) with
      | false => exact hskip [] rfl (emitRootItem_other n fs (fun hc => hw hc fs (by simp)) (by rw [filteredOut_selected hf, hsel]; rfl)) hsel
      | true =>
        rw [List.filter_cons, hsel]
        simp only [if_true]
        rw [emitRootList, emitRootItem_matching fs (by rw [filteredOut_selected hf, hsel]; rfl) n m]
        refine SimSheets.bind ?_ (ih _ _)
        cases emitRootItem cfg n (.obj fs) <;> simp [SimSheets]

/-- C28: with a filter, the sheets (or the error) are exactly those of flattening, without the filter, the objects that have the
value in the field (provided, if geometries are to be converted, that no root object is one itself). -/
theorem C28_filter_selects (cfg : FCfg) (f v : Str) (hf : cfg.filter = some (f, v)) (root : List Json)
    (hw : cfg.wkt = true → ∀ fs, .obj fs ∈ root → Dict.has fs s%"type" = false ∨ Dict.has fs s%"coordinates" = false) :
    sheetsResult (flatten cfg root) = sheetsResult (flatten { cfg with filter := none } (root.filter (selected f v))) := by
  have h := emitRootList_filter hf root hw 0 0
  have hx : ∀ (cfg : FCfg) (root : List Json) e, emitRootList cfg 0 root = .error e → flatten cfg root = .error e := by
    intro cfg root e he
    have h := parseRootList_run cfg 0 root _ (titlesOK_init cfg)
    rw [he] at h; simp only [Does] at h
    unfold flatten; rw [h]
  change sheetsResult (flatten cfg root) = sheetsResult (flatten (noFilter cfg) (root.filter (selected f v)))
  unfold SimSheets at h
  split at h
  · next u1 e1 u2 e2 h1 h2 =>
    rw [flatten_ok.2 ⟨e1, h1, rfl⟩, flatten_ok.2 ⟨e2, h2, rfl⟩]
    rw [runEv_noFilter]
    have hs : SameSheets (runEv cfg e1 (initState cfg)) (runEv cfg e2 (initState cfg)) := by
      have a := run_onSheets cfg e1 _ _ (⟨rfl, rfl⟩ : SameSheets (initState cfg) (initState cfg))
      have b := run_onSheets cfg e2 _ _ (⟨rfl, rfl⟩ : SameSheets (initState cfg) (initState cfg))
      rw [h] at a
      exact ⟨a.1.trans b.1.symm, a.2.trans b.2.symm⟩
    have := finish_sheets (cfg := cfg) (cfg' := noFilter cfg) rfl rfl hs
    simp only [sheetsResult, Except.ok.injEq, Prod.mk.injEq]
    exact this
  · next e1 e2 h1 h2 => rw [hx _ _ _ h1, hx _ _ _ h2, h]
  · exact absurd h id

/-! ### A concrete case -/

set_option synthInstance.maxSize 4000 in
/-- Two of four elements match; the others have another value, or no such field, or are no objects. -/
example : (sheetsResult (flatten { filter := some (s%"type", s%"a") }
      [.obj [(s%"type", .leaf (.str s%"a")), (s%"x", .leaf (.int 1))], .obj [(s%"type", .leaf (.str s%"b")), (s%"y", .leaf (.int 2))],
        .leaf (.int 7), .obj [(s%"z", .leaf (.int 3))], .obj [(s%"type", .leaf (.str s%"a")), (s%"l", .arr [.obj []])]])).map
      (fun r => ((r.1.headings, r.1.lines), r.2.map (fun s => (s.1, s.2.lines)))) =
    .ok (([s%"type", s%"x"], [[(s%"type", .leaf (.str s%"a")), (s%"x", .leaf (.int 1))], [(s%"type", .leaf (.str s%"a"))]]),
      [(s%"l", [[]])]) := by
  decide +kernel

/-- Why the hypothesis on geometries: a root object that is a geometry raises even if the filter excludes it. -/
example : (flatten { filter := some (s%"a", s%"b"), wkt := true, wktOf := fun _ => some s%"POINT (1 2)" }
      [.obj [(s%"type", .leaf (.str s%"Point")), (s%"coordinates", .arr [.leaf (.int 1), .leaf (.int 2)])]]).map (fun st => st.main.lines) =
    .error .type := by
  decide +kernel

end Verif

import Verif.Proofs.DecEq
import Verif.Props.FlattenRollup
/-! C50: the order in which rollup visits the keys of several objects does not matter. -/
namespace Verif
open Spec

/-- The main-sheet events apart from lines, up to order of columns. -/
structure EvSame (a b : List Ev) : Prop where
  subs : a.filter Ev.onSubs = b.filter Ev.onSubs
  keys : ∀ k, .key none k ∈ a ↔ .key none k ∈ b
  warns : a.filterMap (fun e => match e with | .warn w => some w | _ => none) = b.filterMap (fun e => match e with | .warn w => some w | _ => none)
  seen : a.filterMap (fun e => match e with | .seen w => some w | _ => none) = b.filterMap (fun e => match e with | .seen w => some w | _ => none)
  lines : All₂ SameLine (evLines none a) (evLines none b)

theorem all₂_append {α β : Type} {R : α → β → Prop} {a c : List α} {b d : List β} (h1 : All₂ R a b) (h2 : All₂ R c d) :
    All₂ R (a ++ c) (b ++ d) := by
  induction h1 with
  | nil => exact h2
  | cons h _ ih => exact .cons h ih

theorem sameLine_refl (a : FLine) : SameLine a a := fun _ => rfl

theorem all₂_refl {α : Type} {R : α → α → Prop} (h : ∀ a, R a a) (l : List α) : All₂ R l l := by
  induction l with
  | nil => exact .nil
  | cons a r ih => exact .cons (h a) ih

theorem EvSame.refl (a : List Ev) : EvSame a a := ⟨rfl, fun _ => Iff.rfl, rfl, rfl, all₂_refl sameLine_refl _⟩

theorem EvSame.append {a b c d : List Ev} (h1 : EvSame a b) (h2 : EvSame c d) : EvSame (a ++ c) (b ++ d) :=
  ⟨by simp [h1.subs, h2.subs], fun k => by simp [h1.keys, h2.keys], by simp [h1.warns, h2.warns], by simp [h1.seen, h2.seen],
    by simpa using all₂_append h1.lines h2.lines⟩

theorem Spec.SameLine.set {a b : FLine} (h : SameLine a b) (k : Str) (v : Json) : SameLine (Dict.set a k v) (Dict.set b k v) := by
  intro x; rw [Dict.get_set, Dict.get_set, h x]

/-- If the first succeeds, so does the second, with the same result up to order. -/
def SimOrd {α : Type} (same : α → α → Prop) (a b : Out α) : Prop :=
  ∀ x e1, a = .ok (x, e1) → ∃ y e2, b = .ok (y, e2) ∧ same x y ∧ EvSame e1 e2

theorem SimOrd.refl {α : Type} {same : α → α → Prop} (h : ∀ a, same a a) (a : Out α) : SimOrd same a a :=
  fun x e he => ⟨x, e, he, h x, EvSame.refl _⟩

theorem SimOrd.bind {α β : Type} {sa : α → α → Prop} {sb : β → β → Prop} {a b : Out α} {f g : α → Out β}
    (h : SimOrd sa a b) (hf : ∀ x y, sa x y → SimOrd sb (f x) (g y)) : SimOrd sb (a.bind f) (b.bind g) := by
  intro z e he
  obtain ⟨x, e1, e2, h1, h2, rfl⟩ := Out.bind_ok.1 he
  obtain ⟨y, e3, h3, h4, h5⟩ := h x e1 h1
  obtain ⟨z', e4, h6, h7, h8⟩ := hf x y h4 z e2 h2
  exact ⟨z', e3 ++ e4, Out.bind_ok.2 ⟨y, e3, e4, h3, h6, rfl⟩, h7, h5.append h8⟩

theorem SimOrd.after {α : Type} {sa : α → α → Prop} {a b : Out α} (ev : List Ev) (h : SimOrd sa a b) :
    SimOrd sa (Out.after ev a) (Out.after ev b) := by
  intro z e he
  obtain ⟨e1, h1, rfl⟩ := Out.after_ok.1 he
  obtain ⟨y, e3, h3, h4, h5⟩ := h z e1 h1
  exact ⟨y, ev ++ e3, Out.after_ok.2 ⟨e3, h3, rfl⟩, h4, (EvSame.refl ev).append h5⟩

def samePnLine : Str × FLine → Str × FLine → Prop := fun a b => a.1 = b.1 ∧ SameLine a.2 b.2

def sameStartLine : Start → Start → Prop
  | none, none => True
  | some (p, a, s), some (q, b, t) => p = q ∧ SameLine a b ∧ s = t
  | _, _ => False

def sameOptLine : Option FLine → Option FLine → Prop
  | none, none => True
  | some a, some b => SameLine a b
  | _, _ => False

theorem sameOptLine_getD {a b : Option FLine} (h : sameOptLine a b) : SameLine (a.getD []) (b.getD []) := by
  cases a <;> cases b
  · exact sameLine_refl _
  · exact absurd h id
  · exact absurd h id
  · exact h

theorem simOrd_prologue (cfg : FCfg) (pn : Str) (fs : List (Str × Json)) (fl fl' : Option FLine) (hfl : sameOptLine fl fl')
    (pids : List (Str × Json)) :
    SimOrd sameStartLine (emitPrologue cfg none pn false pids fl fs) (emitPrologue cfg none pn false pids fl' fs) := by
  unfold emitPrologue
  refine SimOrd.bind (sa := fun g g' => match g, g' with
    | none, none => True
    | some (a, s), some (b, t) => sameOptLine a b ∧ s = t
    | _, _ => False) ?_ ?_
  · unfold emitGeo
    split
    · split
      · cases cfg.wktOf fs with
        | none => intro z e he; exact ⟨z, e, he, by cases he; trivial, EvSame.refl _⟩
        | some t =>
          cases fl with
          | none => intro z e he; cases he
          | some a =>
            cases fl' with
            | none => exact absurd hfl id
            | some b =>
              intro z e he
              cases he
              exact ⟨_, _, rfl, ⟨SameLine.set hfl _ _, rfl⟩, EvSame.refl _⟩
      · intro z e he; cases he
        exact ⟨_, _, rfl, ⟨hfl, rfl⟩, EvSame.refl _⟩
    · intro z e he; cases he
      exact ⟨_, _, rfl, ⟨hfl, rfl⟩, EvSame.refl _⟩
  · intro g g' hg
    match g, g', hg with
    | none, none, _ => intro z e he; cases he; exact ⟨_, _, rfl, trivial, EvSame.refl _⟩
    | some (a, s), some (b, t), h =>
      obtain ⟨h, rfl⟩ := h
      unfold emitStart
      dsimp only
      split
      · intro z e he; cases he; exact ⟨_, _, rfl, trivial, EvSame.refl _⟩
      · simp only [emitStartLine, Bool.false_eq_true, if_false]
        intro z e he; cases he
        exact ⟨_, _, rfl, ⟨rfl, sameOptLine_getD h, rfl⟩, EvSame.refl _⟩

theorem emitPut_ord (cfg : FCfg) (pn k : Str) (v : Json) {fl fl' : FLine} (h : SameLine fl fl') :
    SimOrd samePnLine ((emitPut cfg none k v fl).bind (fun fl => .ok ((pn, fl), [])))
      ((emitPut cfg none k v fl').bind (fun fl => .ok ((pn, fl), []))) := by
  intro z e he
  cases he
  exact ⟨_, _, rfl, ⟨rfl, h.set _ _⟩, EvSame.refl _⟩

theorem simOrd_put (cfg : FCfg) (k : Str) (v : Json) {fl fl' : FLine} (h : SameLine fl fl') :
    SimOrd SameLine (emitPut cfg none k v fl) (emitPut cfg none k v fl') := by
  intro z e he
  cases he
  exact ⟨_, _, rfl, h.set _ _, EvSame.refl _⟩

theorem simOrd_ok {fl fl' : FLine} (h : SameLine fl fl') : SimOrd SameLine (.ok (fl, [])) (.ok (fl', [])) := by
  intro z e he
  cases he
  exact ⟨_, _, rfl, h, EvSame.refl _⟩

theorem simOrd_ones (cfg : FCfg) (pn key : Str) (fs : List (Str × Json)) {fl fl' : FLine} (h : SameLine fl fl') :
    SimOrd SameLine (emitRollupOnes cfg none pn key fs fl) (emitRollupOnes cfg none pn key fs fl') := by
  induction fs generalizing fl fl' with
  | nil => exact simOrd_ok h
  | cons e r ih =>
    obtain ⟨k, v⟩ := e
    rw [emitRollupOnes, emitRollupOnes]
    refine SimOrd.bind (sa := SameLine) ?_ (fun x y hxy => ih hxy)
    unfold emitRollupOne
    split
    · exact simOrd_ok h
    · split
      · intro z e he; cases he
      · split
        · exact simOrd_put _ _ _ h
        · exact simOrd_ok h

/-- What the keys of several objects add. -/
def manyKeys (cfg : FCfg) (pn key : Str) (ks : List Str) : List Str :=
  (ks.filter (fun k => !rollupDropped cfg pn key k && rollupWarned cfg pn key (pn ++ (key ++ (s%"/0/" ++ k))))).map
    (fun k => pn ++ (key ++ (s%"/0/" ++ k)))

theorem emitRollupMany_eq (cfg : FCfg) (pn key : Str) (ks : List Str) (flat : FLine) :
    emitRollupMany cfg none pn key ks flat =
      (Dict.update flat ((manyKeys cfg pn key ks).map (fun k => (rn cfg none k, .leaf (.str rollupText)))),
       (manyKeys cfg pn key ks).flatMap (fun k => [.warn (.rollupMany (pn ++ key)), .key none k])) := by
  induction ks generalizing flat with
  | nil => rfl
  | cons k r ih =>
    rw [emitRollupMany]
    unfold manyKeys at ih ⊢
    rw [List.filter_cons]
    split
    · rw [ih]; rfl
    · exact ih _

theorem get_update_const {d : FLine} {ks : List Str} {v : Json} (f : Str → Str) (h : Str) :
    Dict.get (Dict.update d (ks.map (fun k => (f k, v)))) h = if h ∈ ks.map f then some v else Dict.get d h := by
  split
  · next hm =>
    simp only [List.mem_map] at hm
    obtain ⟨k, hk, he⟩ := hm
    apply get_update_of_unique
    · intro w hw
      simp only [List.mem_map, Prod.mk.injEq] at hw
      obtain ⟨_, _, _, rfl⟩ := hw; rfl
    · simp only [List.mem_map, Prod.mk.injEq]; exact ⟨k, hk, he, trivial⟩
  · next hm =>
    apply get_update_of_not
    simpa [Dict.keys, List.map_map, Function.comp_def] using hm

theorem evLines_many (key : Str) (ks : List Str) (ref : SheetRef) :
    evLines ref (ks.flatMap (fun k => [Ev.warn (.rollupMany key), Ev.key none k])) = [] := by
  apply evLines_none
  intro r l h
  simp at h

theorem many_same (cfg : FCfg) (pn key : Str) {ks ks' : List Str} (hp : ks.Perm ks') {fl fl' : FLine} (h : SameLine fl fl') :
    SimOrd SameLine (.ok (emitRollupMany cfg none pn key ks fl)) (.ok (emitRollupMany cfg none pn key ks' fl')) := by
  have hm : (manyKeys cfg pn key ks).Perm (manyKeys cfg pn key ks') := (hp.filter _).map _
  intro z e he
  rw [emitRollupMany_eq] at he
  cases he
  refine ⟨_, _, by rw [emitRollupMany_eq], ?_, ?_⟩
  · intro x
    rw [get_update_const (rn cfg none), get_update_const (rn cfg none), h x]
    have : x ∈ (manyKeys cfg pn key ks).map (rn cfg none) ↔ x ∈ (manyKeys cfg pn key ks').map (rn cfg none) := (hm.map _).mem_iff
    simp only [this]
  · have hs : ∀ l : List Str, (l.flatMap (fun k => [Ev.warn (.rollupMany (pn ++ key)), Ev.key none k])).filter Ev.onSubs = [] := by
      intro l; induction l with
      | nil => rfl
      | cons a r ih => rw [List.flatMap_cons, List.filter_append, ih]; rfl
    have hw : ∀ l : List Str, (l.flatMap (fun k => [Ev.warn (.rollupMany (pn ++ key)), Ev.key none k])).filterMap
        (fun e => match e with | .warn w => some w | _ => none) = List.replicate l.length (.rollupMany (pn ++ key)) := by
      intro l; induction l with
      | nil => rfl
      | cons a r ih => rw [List.flatMap_cons, List.filterMap_append, ih]; rfl
    have hsn : ∀ l : List Str, (l.flatMap (fun k => [Ev.warn (.rollupMany (pn ++ key)), Ev.key none k])).filterMap
        (fun e => match e with | .seen w => some w | _ => none) = [] := by
      intro l; induction l with
      | nil => rfl
      | cons a r ih => rw [List.flatMap_cons, List.filterMap_append, ih]; rfl
    refine ⟨by rw [hs, hs], ?_, by rw [hw, hw, hm.length_eq], by rw [hsn, hsn], by rw [evLines_many, evLines_many]; exact .nil⟩
    intro k
    simp [List.mem_flatMap, hm.mem_iff]

theorem simOrd_rollup (cfg : FCfg) (o : List Str → List Str) (hperm : ∀ l, (cfg.order l).Perm (o l)) (pn key : Str) (is : List Json)
    {fl fl' : FLine} (h : SameLine fl fl') :
    SimOrd SameLine (emitRollup cfg none pn key is fl) (emitRollup (withRollup cfg cfg.rollup o) none pn key is fl') := by
  have h1 : ∀ ks fl, emitRollupMany (withRollup cfg cfg.rollup o) none pn key ks fl = emitRollupMany cfg none pn key ks fl := by
    intro ks fl
    rw [emitRollupMany_eq, emitRollupMany_eq]
    rfl
  have h2 : ∀ fs fl, emitRollupOnes (withRollup cfg cfg.rollup o) none pn key fs fl = emitRollupOnes cfg none pn key fs fl := by
    intro fs
    induction fs with
    | nil => intro fl; rfl
    | cons e r ih =>
      intro fl
      obtain ⟨k, v⟩ := e
      rw [emitRollupOnes, emitRollupOnes, funext ih]
      rfl
  unfold emitRollup
  simp only [h1, h2]
  change SimOrd SameLine _ (if (cfg.rollup.isEmpty || !pn.isEmpty) = true then _ else if (cfg.useTitles && cfg.schema.isNone) = true then _ else _)
  split
  · exact simOrd_ok h
  · split
    · intro z e he; cases he
    · split
      · exact simOrd_ok h
      · exact simOrd_ones _ _ _ _ h
      · intro z e he; cases he
      · split
        · intro z e he; cases he
        · exact many_same cfg pn key (hperm _) h

mutual
theorem emitFields_ord (cfg : FCfg) (hx : cfg.xml = false) (o : List Str → List Str) (hperm : ∀ l, (cfg.order l).Perm (o l)) (pn : Str)
    (pids : List (Str × Json)) (skip : Bool) (fs : List (Str × Json)) (flat flat' : FLine) (hs : SameLine flat flat') :
    SimOrd SameLine (emitFields cfg none pn pids skip fs flat) (emitFields (withRollup cfg cfg.rollup o) none pn pids skip fs flat') := by
  match fs with
  | [] => rw [emitFields, emitFields]; exact simOrd_ok hs
  | (k, v) :: r =>
    have rec_ := fun pn fl fl' h => emitFields_ord cfg hx o hperm pn pids skip r fl fl' h
    rw [emitFields, emitFields]
    have hd : dropped (withRollup cfg cfg.rollup o) pn k = dropped cfg pn k := rfl
    rw [hd]
    split
    · exact rec_ _ _ _ hs
    · refine SimOrd.after _ ?_
      split
      · exact rec_ _ _ _ hs
      · refine SimOrd.bind (emitValue_ord cfg hx o hperm pn pids k v flat flat' hs) ?_
        intro x y hxy
        obtain ⟨p1, l1⟩ := x
        obtain ⟨p2, l2⟩ := y
        obtain ⟨h1, h2⟩ := hxy
        dsimp only at h1 h2
        subst h1
        exact rec_ _ _ _ h2
termination_by structural fs
theorem emitValue_ord (cfg : FCfg) (hx : cfg.xml = false) (o : List Str → List Str) (hperm : ∀ l, (cfg.order l).Perm (o l)) (pn : Str)
    (pids : List (Str × Json)) (key : Str) (v : Json) (flat flat' : FLine) (hs : SameLine flat flat') :
    SimOrd samePnLine (emitValue cfg none pn pids key v flat) (emitValue (withRollup cfg cfg.rollup o) none pn pids key v flat') := by
  match v with
  | .leaf a =>
    rw [emitValue, emitValue]
    have hx' : (withRollup cfg cfg.rollup o).xml = false := hx
    rw [hx, hx']
    simp only [Bool.false_and, Bool.false_eq_true, if_false]
    split
    · exact emitPut_ord cfg _ _ _ hs
    · intro z e he; cases he
  | .obj fs =>
    have rec_ := fun pids' skip fl fl' h => emitFields_ord cfg hx o hperm (pn ++ (key ++ s%"/")) pids' skip fs fl fl' h
    rw [emitValue, emitValue, emitPrologue_noRollup]
    refine SimOrd.bind (simOrd_prologue cfg _ fs (some flat) (some flat') hs pids) ?_
    intro g g' hg
    match g, g', hg with
    | none, none, _ =>
      intro z e he; cases he; exact ⟨_, _, rfl, ⟨rfl, hs⟩, EvSame.refl _⟩
    | some (p, x, s), some (q, y, t), hg =>
      obtain ⟨rfl, hxy, rfl⟩ := hg
      refine SimOrd.bind (rec_ p s x y hxy) ?_
      intro a b hab z e he; cases he; exact ⟨_, _, rfl, ⟨rfl, hab⟩, EvSame.refl _⟩
  | .arr l =>
    have rec_ := emitItems_noRollup cfg cfg.rollup o hx (subSheetName cfg pn key) (pn ++ (key ++ s%"/0/")) (by simp) pids l
    rw [emitValue, emitValue]
    have h1 : subSheetName (withRollup cfg cfg.rollup o) pn key = subSheetName cfg pn key := rfl
    rw [h1]
    cases joinArray l with
    | some t => exact emitPut_ord cfg _ _ _ hs
    | none =>
      dsimp only
      rw [rec_]
      refine SimOrd.bind (simOrd_rollup cfg o hperm pn key l hs) ?_
      intro fl fl' hfl
      refine SimOrd.after _ ?_
      refine SimOrd.bind (SimOrd.refl (same := fun _ _ => True) (fun _ => trivial) _) ?_
      intro _ _ _ z e he; cases he; exact ⟨_, _, rfl, ⟨rfl, hfl⟩, EvSame.refl _⟩
termination_by structural v
end

theorem emitRootList_ord (cfg : FCfg) (hx : cfg.xml = false) (o : List Str → List Str) (hperm : ∀ l, (cfg.order l).Perm (o l))
    (l : List Json) (n : Nat) :
    SimOrd (fun _ _ => True) (emitRootList cfg n l) (emitRootList (withRollup cfg cfg.rollup o) n l) := by
  induction l generalizing n with
  | nil => exact SimOrd.refl (fun _ => trivial) _
  | cons j r ih =>
    rw [emitRootList, emitRootList]
    refine SimOrd.bind (sa := fun _ _ => True) ?_ (fun _ _ _ => ih _)
    unfold emitRootItem
    cases j with
    | leaf a => exact SimOrd.refl (fun _ => trivial) _
    | arr a => exact SimOrd.refl (fun _ => trivial) _
    | obj fs =>
      dsimp only
      rw [emitPrologue_noRollup]
      refine SimOrd.bind (SimOrd.refl (same := Eq) (fun _ => rfl) _) ?_
      intro g g' hg
      subst hg
      match g with
      | none => exact SimOrd.refl (fun _ => trivial) _
      | some (p, x, s) =>
        refine SimOrd.bind (emitFields_ord cfg hx o hperm [] p s fs x x (sameLine_refl x)) ?_
        intro a b hab z e he; cases he
        refine ⟨_, _, rfl, trivial, ⟨rfl, by simp, rfl, rfl, ?_⟩⟩
        exact .cons hab .nil

theorem run_warns (cfg : FCfg) (ev : List Ev) (st : FState) : (runEv cfg ev st).warns = st.warns ++
    ev.filterMap (fun e => match e with | .warn w => some w | _ => none) := by
  induction ev generalizing st with
  | nil => simp
  | cons e r ih =>
    rw [runEv_cons, ih, List.filterMap_cons]
    have hset : ∀ ref s, (st.setSheet ref s).warns = st.warns := by intro ref s; cases ref <;> rfl
    cases e with
    | warn w => simp [Ev.apply, FState.warn]
    | sheet n => simp only [Ev.apply, FState.ensure]; split <;> rfl
    | key ref k => simp only [Ev.apply, hset]
    | line ref l => simp only [Ev.apply, hset]
    | seen p => rfl

theorem run_seen (cfg : FCfg) (ev : List Ev) (st : FState) : (runEv cfg ev st).seen = st.seen ++
    ev.filterMap (fun e => match e with | .seen w => some w | _ => none) := by
  induction ev generalizing st with
  | nil => simp
  | cons e r ih =>
    rw [runEv_cons, ih, List.filterMap_cons]
    have hset : ∀ ref s, (st.setSheet ref s).seen = st.seen := by intro ref s; cases ref <;> rfl
    cases e with
    | warn w => rfl
    | sheet n => simp only [Ev.apply, FState.ensure]; split <;> rfl
    | key ref k => simp only [Ev.apply, hset]
    | line ref l => simp only [Ev.apply, hset]
    | seen p => simp [Ev.apply]

theorem runEv_withRollup (cfg : FCfg) (rl : List Str) (o : List Str → List Str) (ev : List Ev) (st : FState) :
    runEv (withRollup cfg rl o) ev st = runEv cfg ev st := by
  induction ev generalizing st with
  | nil => rfl
  | cons e r ih =>
    rw [runEv_cons, runEv_cons, ih]
    rfl

theorem dropEmpty_warns (cfg : FCfg) (st : FState) : (dropEmptySheets cfg st).warns = st.warns ∧ (dropEmptySheets cfg st).seen = st.seen := by
  unfold dropEmptySheets; split <;> exact ⟨rfl, rfl⟩

/-- C50: whatever the order in which the keys of rolled up objects are visited, the sub-sheets, the warnings, the values of
every main-sheet line and the set of main-sheet columns are the same. -/
theorem C50_rollup_order_irrelevant (cfg : FCfg) (hx : cfg.xml = false) (hs : FromSchemaParser cfg) (o : List Str → List Str)
    (h1 : ∀ l, (cfg.order l).Perm l) (h2 : ∀ l, (o l).Perm l) (root : List Json) (st : FState) (h : flatten cfg root = .ok st) :
    ∃ st', flatten { cfg with order := o } root = .ok st' ∧ st'.subs = st.subs ∧ st'.warns = st.warns ∧
      (∀ x, x ∈ st'.main.headings ↔ x ∈ st.main.headings) ∧ All₂ SameLine st.main.lines st'.main.lines := by
  obtain ⟨ev, he, rfl⟩ := flatten_ok.1 h
  obtain ⟨⟨⟩, e2, h3, -, hsame⟩ := emitRootList_ord cfg hx o (fun l => (h1 l).trans (h2 l).symm) root 0 () ev he
  refine ⟨_, flatten_ok.2 ⟨e2, h3, rfl⟩, ?_⟩
  have hfin : finish { cfg with order := o } = finish cfg := rfl
  have hrun : runEv { cfg with order := o } e2 (initState { cfg with order := o }) = runEv cfg e2 (initState cfg) :=
    runEv_withRollup cfg cfg.rollup o e2 _
  rw [hrun, hfin]
  refine ⟨?_, ?_, ?_, ?_⟩
  · have hs : (runEv cfg e2 (initState cfg)).subs = (runEv cfg ev (initState cfg)).subs := by
      rw [run_onSubs cfg e2 _ _ rfl, run_onSubs cfg ev _ _ rfl, hsame.subs]
    rw [finish_subs, finish_subs, hs]
  · have hw : (runEv cfg e2 (initState cfg)).warns = (runEv cfg ev (initState cfg)).warns := by
      rw [run_warns, run_warns, hsame.warns]
    have hseen : (runEv cfg e2 (initState cfg)).seen = (runEv cfg ev (initState cfg)).seen := by
      rw [run_seen, run_seen, hsame.seen]
    unfold finish warnMissing
    dsimp only
    rw [(dropEmpty_warns cfg _).2, (dropEmpty_warns cfg _).2, hseen]
    split
    · rw [(dropEmpty_warns cfg _).1, (dropEmpty_warns cfg _).1, hw]
    · simp only [FState.warn, (dropEmpty_warns cfg _).1, hw]
  · intro x
    rw [finish_main, finish_main]
    have key : ∀ ev, x ∈ (runEv cfg ev (initState cfg)).main.headings ↔
        x ∈ (initState cfg).main.headings ∨ ∃ k, .key none k ∈ ev ∧ rn cfg none k = x := by
      intro ev
      have := mem_run_headings (titlesOK_init cfg) ev none x
      rw [show (runEv cfg ev (initState cfg)).main = (runEv cfg ev (initState cfg)).sheet none from rfl, this]
      constructor
      · rintro (h | ⟨e, he, hh⟩)
        · exact Or.inl h
        · unfold evHead at hh
          split at hh
          · split at hh
            · next k hr => simp only [Option.some.injEq] at hh; subst hr; exact Or.inr ⟨_, he, hh⟩
            · cases hh
          · cases hh
      · rintro (h | ⟨k, he, hh⟩)
        · exact Or.inl h
        · exact Or.inr ⟨_, he, by simp [evHead, hh]⟩
    rw [key, key]
    simp only [hsame.keys]
  · rw [(result_lines hs ev _ rfl).1]
    rw [(result_lines hs e2 _ rfl).1]
    exact hsame.lines

/-! ### A concrete case -/

/-- The hypotheses of C50 hold for the two orders used here, the order of the document and its reverse; the columns then come in
another order, but the lines have the same values. -/
example :
    (∀ l : List Str, (id l).Perm l) ∧ (∀ l : List Str, l.reverse.Perm l) ∧
    (flatten { rollup := [s%"b"], order := id } [.obj [(s%"b", .arr [.obj [(s%"x", .leaf (.int 3)), (s%"y", .leaf (.int 4))], .obj []])]]).map
      (fun st => st.main.headings) = .ok [s%"b/0/x", s%"b/0/y"] ∧
    (flatten { rollup := [s%"b"], order := List.reverse } [.obj [(s%"b", .arr [.obj [(s%"x", .leaf (.int 3)), (s%"y", .leaf (.int 4))], .obj []])]]).map
      (fun st => st.main.headings) = .ok [s%"b/0/y", s%"b/0/x"] :=
  ⟨fun _ => .refl _, fun l => l.reverse_perm, by decide +kernel, by decide +kernel⟩

end Verif

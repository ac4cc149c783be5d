import Verif.Proofs.Columns
import Verif.Spec.RoundTrip
import Verif.Proofs.EmitPlain
import Verif.Proofs.EmitCount
/-! Flattening with titles: the lines are those of the specification with other headings. -/
namespace Verif
open Spec

/-- Other names for the keys. -/
def mapKeys {α : Type} (τ : Str → Str) (l : List (Str × α)) : List (Str × α) := l.map (fun e => (τ e.1, e.2))

theorem mapKeys_append {α : Type} (τ : Str → Str) (a b : List (Str × α)) : mapKeys τ (a ++ b) = mapKeys τ a ++ mapKeys τ b := by
  simp [mapKeys]

theorem mapKeys_keys {α : Type} (τ : Str → Str) (a : List (Str × α)) : Dict.keys (mapKeys τ a) = (Dict.keys a).map τ := by
  simp [mapKeys, Dict.keys]

theorem mapKeys_set {α : Type} {τ : Str → Str} {S : Str → Prop} (hi : ∀ a b, S a → S b → τ a = τ b → a = b) {d : List (Str × α)} {k : Str} (v : α)
    (hd : ∀ x ∈ Dict.keys d, S x) (hk : S k) : mapKeys τ (Dict.set d k v) = Dict.set (mapKeys τ d) (τ k) v := by
  induction d with
  | nil => rfl
  | cons e r ih =>
    obtain ⟨k', w⟩ := e
    have hk' : S k' := hd k' (by simp [Dict.keys])
    have hr : ∀ x ∈ Dict.keys r, S x := fun x hx => hd x (by simp only [Dict.keys, List.map_cons, List.mem_cons] at hx ⊢; exact .inr hx)
    have ih := ih hr
    by_cases h : k' = k
    · subst h
      simp [mapKeys, Dict.set]
    · have h2 : τ k' ≠ τ k := fun e => h (hi _ _ hk' hk e)
      simp only [mapKeys] at ih
      simp [mapKeys, Dict.set, h, h2, ih]

theorem mapKeys_update {α : Type} {τ : Str → Str} {S : Str → Prop} (hi : ∀ a b, S a → S b → τ a = τ b → a = b) {d e : List (Str × α)}
    (hd : ∀ x ∈ Dict.keys d, S x) (he : ∀ x ∈ Dict.keys e, S x) : mapKeys τ (Dict.update d e) = Dict.update (mapKeys τ d) (mapKeys τ e) := by
  induction e generalizing d with
  | nil => rfl
  | cons x r ih =>
    obtain ⟨k, v⟩ := x
    have hk : S k := he k (by simp [Dict.keys])
    have hr : ∀ x ∈ Dict.keys r, S x := fun x hx => he x (by simp only [Dict.keys, List.map_cons, List.mem_cons] at hx ⊢; exact .inr hx)
    have := ih (d := Dict.set d k v) (fun x hx => by
      rcases Dict.mem_keys_set.1 hx with h | h
      · rw [h]; exact hk
      · exact hd x h) hr
    rw [mapKeys_set hi v hd hk] at this
    simpa [Dict.update, mapKeys] using this

theorem mapKeys_get {α : Type} {τ : Str → Str} {S : Str → Prop} (hi : ∀ a b, S a → S b → τ a = τ b → a = b) {d : List (Str × α)} {k : Str}
    (hd : ∀ x ∈ Dict.keys d, S x) (hk : S k) : Dict.get (mapKeys τ d) (τ k) = Dict.get d k := by
  induction d with
  | nil => rfl
  | cons e r ih =>
    obtain ⟨k', w⟩ := e
    have hk' : S k' := hd k' (by simp [Dict.keys])
    have hr : ∀ x ∈ Dict.keys r, S x := fun x hx => hd x (by simp only [Dict.keys, List.map_cons, List.mem_cons] at hx ⊢; exact .inr hx)
    have ih := ih hr
    simp only [mapKeys] at ih
    simp only [mapKeys, List.map_cons, Dict.get_cons, ih]
    by_cases h : k' = k
    · subst h; simp
    · have h2 : τ k' ≠ τ k := fun e => h (hi _ _ hk' hk e)
      simp [h, h2]

/-- The options of a flattening with titles, and titles that tell paths apart. -/
structure Titling (T : Trip) (cfg : FCfg) (τ : Str → Str) (S : Str → Prop) : Prop where
  wkt : cfg.wkt = false
  xml : cfg.xml = false
  rollup : cfg.rollup = []
  preserve : cfg.preserve = []
  filter : cfg.filter = none
  idName : cfg.idName = T.idName
  rootId : cfg.rootId = T.rootId
  inj : ∀ a b, S a → S b → τ a = τ b → a = b

/-- On this sheet the path has its title. -/
def On (cfg : FCfg) (τ : Str → Str) (S : Str → Prop) (ref : SheetRef) (k : Str) : Prop := S k ∧ rn cfg ref k = τ k

/-- On the sheet of the item, its cells and the ids it carries have their titles. -/
structure ItemOn (cfg : FCfg) (τ : Str → Str) (S : Str → Prop) (i : Item) : Prop where
  cells : ∀ c ∈ cells everything (i.array ++ [s%"0"]) i.fields, On cfg τ S (some (sheetOf cfg i.array)) (pathText c.1)
  ids : ∀ k ∈ Dict.keys (idsOf (idOpts cfg) i.around), S k ∧ rn cfg (some (sheetOf cfg i.array)) (τ k) = τ k

/-- The lines of a sub-sheet. -/
def wantedT (cfg : FCfg) (τ : Str → Str) (name : Str) (is : List Item) : List FLine :=
  (is.filter (fun i => sheetOf cfg i.array = name)).map (fun i => mapKeys τ (Item.line (idOpts cfg) everything i))

theorem wantedT_append (cfg : FCfg) (τ : Str → Str) (name : Str) (a b : List Item) :
    wantedT cfg τ name (a ++ b) = wantedT cfg τ name a ++ wantedT cfg τ name b := by simp [wantedT]

/-- The columns asked for by the events are titles. -/
def TitleKeyed (cfg : FCfg) (τ : Str → Str) (S : Str → Prop) (ev : List Ev) : Prop := ∀ r k, Ev.key r k ∈ ev → ∃ x, S x ∧ rn cfg r k = τ x

theorem TitleKeyed.append {cfg : FCfg} {τ : Str → Str} {S : Str → Prop} {a b : List Ev} (h1 : TitleKeyed cfg τ S a) (h2 : TitleKeyed cfg τ S b) : TitleKeyed cfg τ S (a ++ b) := by
  intro r k h
  rcases List.mem_append.1 h with h | h
  · exact h1 r k h
  · exact h2 r k h

structure AddsT (cfg : FCfg) (τ : Str → Str) (S : Str → Prop) (ev : List Ev) (is : List Item) : Prop where
  keys : TitleKeyed cfg τ S ev
  main : evLines none ev = []
  sub : ∀ name, evLines (some name) ev = wantedT cfg τ name is

theorem AddsT.append {cfg : FCfg} {τ : Str → Str} {S : Str → Prop} {e1 e2 : List Ev} {a b : List Item} (h1 : AddsT cfg τ S e1 a) (h2 : AddsT cfg τ S e2 b) :
    AddsT cfg τ S (e1 ++ e2) (a ++ b) :=
  ⟨h1.keys.append h2.keys, by simp [h1.main, h2.main], fun n => by simp [h1.sub, h2.sub, wantedT_append]⟩

theorem AddsT.none {cfg : FCfg} {τ : Str → Str} {S : Str → Prop} {ev : List Ev} (h : ∀ r l, Ev.line r l ∉ ev) (hk : TitleKeyed cfg τ S ev) : AddsT cfg τ S ev [] :=
  ⟨hk, evLines_none h, fun _ => by rw [evLines_none h]; rfl⟩

theorem emitParentIds_titled {T : Trip} {cfg : FCfg} {τ : Str → Str} {S : Str → Prop} (h : Titling T cfg τ S) (ref : SheetRef) (ids : List (Str × Json))
    (hS : ∀ k ∈ Dict.keys ids, S k) (hr : ∀ k ∈ Dict.keys ids, rn cfg ref (τ k) = τ k) (flat : FLine) :
    ∃ ev, emitParentIds cfg ref (mapKeys τ ids) flat = .ok (Dict.update flat (mapKeys τ ids), ev) ∧ (∀ r l, Ev.line r l ∉ ev) ∧ TitleKeyed cfg τ S ev := by
  induction ids generalizing flat with
  | nil => exact ⟨[], rfl, by simp, by simp [TitleKeyed]⟩
  | cons e r ih =>
    obtain ⟨k, v⟩ := e
    have hk := hr k (by simp [Dict.keys])
    have hSk := hS k (by simp [Dict.keys])
    obtain ⟨ev, h1, h2, h3⟩ := ih (fun x hx => hS x (by simp only [Dict.keys, List.map_cons, List.mem_cons] at hx ⊢; exact .inr hx)) (fun x hx => hr x (by simp only [Dict.keys, List.map_cons, List.mem_cons] at hx ⊢; exact .inr hx)) (Dict.set flat (τ k) v)
    refine ⟨.key ref (τ k) :: ev, ?_, by simpa using h2, ?_⟩
    case refine_2 =>
      intro r' k' hm
      rcases List.mem_cons.1 hm with hm | hm
      · cases hm; exact ⟨k, hSk, hk⟩
      · exact h3 r' k' hm
    have hv : parentIdValue cfg v = .ok v := by simp [parentIdValue, h.xml]
    simp only [mapKeys] at h1
    simp only [mapKeys, List.map_cons, emitParentIds, hv, hk, h1, Out.after]
    rfl

theorem leaf_cell {T : Trip} {fs : List (Str × Json)} {k : Str} {a : Atom} (hg : Dict.get fs k = some (.leaf a)) (p : List Str) :
    (p ++ [k], Json.leaf a) ∈ cells everything p fs := by
  induction fs with
  | nil => cases hg
  | cons e r ih =>
    obtain ⟨k', v⟩ := e
    rw [cells]
    simp only [Dict.get_cons] at hg
    by_cases hk : k' = k
    · subst hk
      simp only [if_true, Option.some.injEq] at hg
      subst hg
      simp [everything, valueCells]
    · simp only [hk, if_false] at hg
      exact List.mem_append_right _ (ih hg)

theorem id_is_on {T : Trip} {cfg : FCfg} {τ : Str → Str} {S : Str → Prop} (h : Titling T cfg τ S) (ref : SheetRef) (p : List Str) (fs : List (Str × Json))
    (hO : T.Object fs) (hc : ∀ c ∈ cells everything p fs, On cfg τ S ref (pathText c.1)) (hne : Dict.get fs cfg.idName ≠ none) :
    On cfg τ S ref (pnOf p ++ cfg.idName) := by
  cases hg : Dict.get fs cfg.idName with
  | none => exact absurd hg hne
  | some v =>
    have h1 := hO.2.2.2 v (by rw [← h.idName]; exact hg)
    unfold Trip.idOf at h1
    rw [← h.idName, hg] at h1
    cases v with
    | leaf a =>
      have := hc _ (leaf_cell (T := T) hg p)
      rwa [pathText_snoc] at this
    | obj _ => exact absurd rfl h1
    | arr _ => exact absurd rfl h1

theorem emitIds_titled {T : Trip} {cfg : FCfg} {τ : Str → Str} {S : Str → Prop} (h : Titling T cfg τ S) (ref : SheetRef) (p : List Str) (ids fs : List (Str × Json))
    (hS : ∀ k ∈ Dict.keys ids, S k) (hO : T.Object fs) (hc : ∀ c ∈ cells everything p fs, On cfg τ S ref (pathText c.1))
    (hr : ∀ rid, cfg.rootId = some rid → Dict.get fs rid ≠ none → On cfg τ S ref rid) :
    (emitIds cfg ref (pnOf p) (mapKeys τ ids) fs).1 = mapKeys τ (idsBelow (idOpts cfg) p fs ids) ∧
      ∀ k ∈ Dict.keys (idsBelow (idOpts cfg) p fs ids), S k := by
  have step : ∀ (name field : Str) (ids : List (Str × Json)), (∀ k ∈ Dict.keys ids, S k) → (Dict.get fs field ≠ none → On cfg τ S ref name) →
      (emitAddId cfg ref name field fs (mapKeys τ ids)).1 = mapKeys τ (Spec.addId name field fs ids) ∧
        ∀ k ∈ Dict.keys (Spec.addId name field fs ids), S k := by
    intro name field ids hS hon
    unfold emitAddId Spec.addId
    cases hg : Dict.get fs field with
    | none => exact ⟨rfl, hS⟩
    | some v =>
      obtain ⟨g1, g2⟩ := hon (by simp [hg])
      refine ⟨?_, ?_⟩
      · simp only [g2]; rw [mapKeys_set h.inj v hS g1]
      · intro k hk
        rcases Dict.mem_keys_set.1 hk with hk | hk
        · rw [hk]; exact g1
        · exact hS k hk
  have hidon := id_is_on h ref p fs hO hc
  unfold emitIds idsBelow emitRootId
  simp only [pathText_snoc, idOpts]
  cases hrid : cfg.rootId with
  | none => exact step _ _ ids hS hidon
  | some rid =>
    dsimp only
    obtain ⟨g1, g2⟩ := step rid rid ids hS (hr rid hrid)
    rw [g1]
    exact step _ _ _ g2 hidon

theorem emitPrologue_titled {T : Trip} {cfg : FCfg} {τ : Str → Str} {S : Str → Prop} (h : Titling T cfg τ S) (ref : SheetRef) (p : List Str) (topSub : Bool)
    (ids fs : List (Str × Json)) (flat : Option FLine)
    (hS : ∀ k ∈ Dict.keys ids, S k) (hO : T.Object fs) (hc : ∀ c ∈ cells everything p fs, On cfg τ S ref (pathText c.1))
    (hr : ∀ rid, cfg.rootId = some rid → Dict.get fs rid ≠ none → On cfg τ S ref rid)
    (ht : topSub = true → ∀ k ∈ Dict.keys ids, rn cfg ref (τ k) = τ k) :
    ∃ ev, emitPrologue cfg ref (pnOf p) topSub (mapKeys τ ids) flat fs =
        .ok (some (mapKeys τ (idsBelow (idOpts cfg) p fs ids),
          (if topSub then Dict.update (flat.getD []) (mapKeys τ ids) else flat.getD []), false), ev) ∧
      ((∀ r l, Ev.line r l ∉ ev) ∧ TitleKeyed cfg τ S ev) ∧ ∀ k ∈ Dict.keys (idsBelow (idOpts cfg) p fs ids), S k := by
  have hk : TitleKeyed cfg τ S (emitIds cfg ref (pnOf p) (mapKeys τ ids) fs).2 := by
    intro r k hm
    obtain ⟨rfl, hcase⟩ := keys_emitIds hm
    rcases hcase with ⟨rfl, hne⟩ | ⟨rid, hrid, rfl, hne⟩
    · obtain ⟨g1, g2⟩ := id_is_on h r p fs hO hc hne
      exact ⟨_, g1, g2⟩
    · obtain ⟨g1, g2⟩ := hr _ hrid hne
      exact ⟨_, g1, g2⟩
  have hl := emitIds_lines cfg ref (pnOf p) (mapKeys τ ids) fs
  obtain ⟨hids, hS'⟩ := emitIds_titled h ref p ids fs hS hO hc hr
  have hf : filteredOut cfg (pnOf p) fs = false := by simp [filteredOut, h.filter]
  unfold emitPrologue emitGeo
  simp only [h.wkt, Bool.false_and, Bool.false_eq_true, if_false, Out.bind, emitStart, hf]
  cases topSub with
  | false =>
    refine ⟨(emitIds cfg ref (pnOf p) (mapKeys τ ids) fs).2, ?_, ⟨hl, hk⟩, hS'⟩
    simp [emitStartLine, hids]
  | true =>
    obtain ⟨ev, h1, h2, h3⟩ := emitParentIds_titled h ref ids hS (ht rfl) (flat.getD [])
    refine ⟨ev ++ (emitIds cfg ref (pnOf p) (mapKeys τ ids) fs).2, ?_, ⟨?_, h3.append hk⟩, hS'⟩
    · simp [emitStartLine, h1, hids]
    · intro r l hm
      rcases List.mem_append.1 hm with hm | hm
      · exact h2 r l hm
      · exact hl r l hm

mutual
theorem emitFields_titled {T : Trip} {cfg : FCfg} {τ : Str → Str} {S : Str → Prop} (h : Titling T cfg τ S) (ref : SheetRef) (p ks : List Str)
    (ar : List (List Str × List (Str × Json))) (fs : List (Str × Json)) (flat : FLine) (hfit : T.FitsFields ks fs)
    (hS : ∀ k ∈ Dict.keys (idsOf (idOpts cfg) ar), S k)
    (hc : ∀ c ∈ cells everything p fs, On cfg τ S ref (pathText c.1)) (hi : ∀ i ∈ items everything p ar fs, ItemOn cfg τ S i) :
    ∃ ev, emitFields cfg ref (pnOf p) (mapKeys τ (idsOf (idOpts cfg) ar)) false fs flat =
        .ok (Dict.update flat (mapKeys τ (cellEntries (cells everything p fs))), ev) ∧ AddsT cfg τ S ev (items everything p ar fs) := by
  match fs with
  | [] =>
    rw [emitFields, cells, items]
    exact ⟨[], rfl, AddsT.none (by simp) (by simp [TitleKeyed])⟩
  | (k, v) :: r =>
    rw [Trip.FitsFields] at hfit
    rw [cells] at hc
    rw [items] at hi
    simp only [everything, if_true, List.mem_append] at hc hi
    obtain ⟨e1, h1, h2⟩ := emitValue_titled h ref p (ks ++ [k]) ar k v flat hfit.1 hS (fun c hm => hc c (.inl hm)) (fun i hm => hi i (.inl hm))
    obtain ⟨e2, h3, h4⟩ := emitFields_titled h ref p ks ar r (Dict.update flat (mapKeys τ (cellEntries (valueCells everything (p ++ [k]) v))))
      hfit.2 hS (fun c hm => hc c (.inr hm)) (fun i hm => hi i (.inr hm))
    have hd : dropped cfg (pnOf p) k = false := by simp [dropped, h.preserve]
    refine ⟨[Ev.seen (Py.replaceAll s%"/0" [] (pnOf p) ++ k)] ++ (e1 ++ e2), ?_, ?_⟩
    · rw [emitFields, if_neg (by simp), if_neg (by simp [hd])]
      refine Out.after_ok.2 ⟨_, Out.bind_ok.2 ⟨_, _, _, h1, ?_, rfl⟩, rfl⟩
      rw [cells]
      simp only [everything, if_true, cellEntries_append, mapKeys_append, update_append]
      exact h3
    · rw [items]
      simp only [everything, if_true]
      have h0 : AddsT cfg τ S [Ev.seen (Py.replaceAll s%"/0" [] (pnOf p) ++ k)] [] := AddsT.none (by simp) (by simp [TitleKeyed])
      exact h0.append (h2.append h4)
termination_by structural fs
theorem emitValue_titled {T : Trip} {cfg : FCfg} {τ : Str → Str} {S : Str → Prop} (h : Titling T cfg τ S) (ref : SheetRef) (p ks : List Str)
    (ar : List (List Str × List (Str × Json))) (k : Str) (v : Json) (flat : FLine) (hfit : T.Fits ks v)
    (hS : ∀ k ∈ Dict.keys (idsOf (idOpts cfg) ar), S k)
    (hc : ∀ c ∈ valueCells everything (p ++ [k]) v, On cfg τ S ref (pathText c.1))
    (hi : ∀ i ∈ valueItems everything (p ++ [k]) ar v, ItemOn cfg τ S i) :
    ∃ ev, emitValue cfg ref (pnOf p) (mapKeys τ (idsOf (idOpts cfg) ar)) k v flat =
        .ok ((pnOf p, Dict.update flat (mapKeys τ (cellEntries (valueCells everything (p ++ [k]) v)))), ev) ∧
      AddsT cfg τ S ev (valueItems everything (p ++ [k]) ar v) := by
  have hput : ∀ v, On cfg τ S ref (pathText (p ++ [k])) →
      (emitPut cfg ref (pnOf p ++ k) v flat).bind (fun fl => .ok ((pnOf p, fl), [])) =
        .ok ((pnOf p, Dict.update flat (mapKeys τ (cellEntries [(p ++ [k], v)]))), [.key ref (pnOf p ++ k)] ++ []) := by
    intro v hon
    rw [pathText_snoc] at hon
    simp [emitPut, Out.bind, hon.2, mapKeys, cellEntries, Dict.update, pathText_snoc]
  have hkey : On cfg τ S ref (pathText (p ++ [k])) → TitleKeyed cfg τ S ([.key ref (pnOf p ++ k)] ++ []) := by
    intro hon r k' hm
    simp only [List.append_nil, List.mem_singleton, Ev.key.injEq] at hm
    obtain ⟨rfl, rfl⟩ := hm
    rw [pathText_snoc] at hon
    exact ⟨_, hon.1, hon.2⟩
  match v with
  | .leaf a =>
    rw [Trip.Fits] at hfit
    rw [valueCells] at hc
    rw [emitValue, if_pos hfit.1, if_neg (by simp [h.xml]), valueCells, valueItems]
    exact ⟨_, hput _ (hc _ (List.mem_singleton.2 rfl)), AddsT.none (by simp) (hkey (hc _ (List.mem_singleton.2 rfl)))⟩
  | .obj gs =>
    rw [Trip.Fits] at hfit
    obtain ⟨-, hO, hN, hF⟩ := hfit
    rw [valueCells] at hc
    rw [valueItems] at hi
    have hpn : pnOf p ++ (k ++ s%"/") = pnOf (p ++ [k]) := by simp [pnOf]
    obtain ⟨ev0, h3, h4, h5⟩ := emitPrologue_titled h ref (p ++ [k]) false (idsOf (idOpts cfg) ar) gs (some flat) hS hO hc
      (fun rid hrid hne => absurd (hN rid (by rw [← h.rootId]; exact hrid)) hne) (by simp)
    rw [idsOf_snoc] at h3 h5
    obtain ⟨ev1, h6, h7⟩ := emitFields_titled h ref (p ++ [k]) ks (ar ++ [(p ++ [k], gs)]) gs flat hF h5 hc hi
    rw [emitValue, hpn, valueCells, valueItems]
    refine ⟨ev0 ++ (ev1 ++ []), Out.bind_ok.2 ⟨_, _, _, h3, ?_, rfl⟩, ?_⟩
    · simp only [Bool.false_eq_true, if_false, Option.getD_some]
      exact Out.bind_ok.2 ⟨_, ev1, [], h6, rfl, rfl⟩
    · have := (AddsT.none (cfg := cfg) (τ := τ) (S := S) h4.1 h4.2).append h7
      simpa using this
  | .arr l =>
    rw [emitValue]
    rw [valueCells] at hc ⊢
    rw [valueItems] at hi ⊢
    rw [Trip.Fits] at hfit
    cases hj : joinArray l with
    | some t =>
      simp only [hj] at hc ⊢
      exact ⟨_, hput _ (hc _ (List.mem_singleton.2 rfl)), AddsT.none (by simp) (hkey (hc _ (List.mem_singleton.2 rfl)))⟩
    | none =>
      simp only [hj] at hc hi hfit ⊢
      have hF : T.FitsItems ks l := by simpa using (hfit.resolve_left (by simp)).2.2.1
      have hpn : pnOf p ++ (k ++ s%"/0/") = pnOf (p ++ [k] ++ [s%"0"]) := by simp [pnOf]
      obtain ⟨ev, h1, h2⟩ := emitItems_titled h (p ++ [k]) ks ar l hF hS hi
      rw [hpn, subSheetName_sheetOf]
      simp only [emitRollup, h.rollup, List.isEmpty_nil, Bool.true_or, if_true]
      refine ⟨[] ++ ([Ev.sheet (sheetOf cfg (p ++ [k]))] ++ (ev ++ [])), Out.bind_ok.2 ⟨flat, [], _, rfl, Out.after_ok.2
        ⟨_, Out.bind_ok.2 ⟨(), ev, [], h1, rfl, rfl⟩, rfl⟩, rfl⟩, ?_⟩
      have h0 : AddsT cfg τ S [Ev.sheet (sheetOf cfg (p ++ [k]))] [] := AddsT.none (by simp) (by simp [TitleKeyed])
      simpa using h0.append h2
termination_by structural v
theorem emitItems_titled {T : Trip} {cfg : FCfg} {τ : Str → Str} {S : Str → Prop} (h : Titling T cfg τ S) (p ks : List Str)
    (ar : List (List Str × List (Str × Json))) (l : List Json) (hfit : T.FitsItems ks l)
    (hS : ∀ k ∈ Dict.keys (idsOf (idOpts cfg) ar), S k) (hi : ∀ i ∈ arrayItems everything p ar l, ItemOn cfg τ S i) :
    ∃ ev, emitItems cfg (sheetOf cfg p) (pnOf (p ++ [s%"0"])) (mapKeys τ (idsOf (idOpts cfg) ar)) l = .ok ((), ev) ∧
      AddsT cfg τ S ev (arrayItems everything p ar l) := by
  match l with
  | [] =>
    rw [emitItems, arrayItems]
    exact ⟨[], rfl, AddsT.none (by simp) (by simp [TitleKeyed])⟩
  | .leaf a :: r => simp [Trip.FitsItems] at hfit
  | .arr _ :: r => simp [Trip.FitsItems] at hfit
  | .obj fs :: r =>
    rw [Trip.FitsItems] at hfit
    obtain ⟨⟨hO, hN, -, hF⟩, hR⟩ := hfit
    rw [arrayItems] at hi
    simp only [List.mem_append, List.mem_cons] at hi
    have hme := hi _ (.inr (.inl rfl))
    have hce := hme.cells
    have hie := hme.ids
    dsimp only at hce hie
    obtain ⟨ev0, h3, h4, h5⟩ := emitPrologue_titled h (some (sheetOf cfg p)) (p ++ [s%"0"]) true (idsOf (idOpts cfg) ar) fs none hS hO hce
      (fun rid hrid hne => absurd (hN rid (by rw [← h.rootId]; exact hrid)) hne) (fun _ k hk => (hie k hk).2)
    rw [idsOf_snoc] at h3 h5
    obtain ⟨ev1, h6, h7⟩ := emitFields_titled h (some (sheetOf cfg p)) (p ++ [s%"0"]) ks (ar ++ [(p ++ [s%"0"], fs)]) fs
      (Dict.update [] (mapKeys τ (idsOf (idOpts cfg) ar))) hF h5 hce (fun i hm => hi i (.inl hm))
    obtain ⟨ev2, h8, h9⟩ := emitItems_titled h p ks ar r hR hS (fun i hm => hi i (.inr (.inr hm)))
    rw [emitItems, arrayItems]
    refine ⟨ev0 ++ (ev1 ++ ([Ev.line (some (sheetOf cfg p)) (Dict.update (Dict.update [] (mapKeys τ (idsOf (idOpts cfg) ar))) (mapKeys τ (cellEntries (cells everything (p ++ [s%"0"]) fs))))] ++ ev2)), Out.bind_ok.2 ⟨_, _, _, h3, ?_, rfl⟩, ?_⟩
    · simp only [if_true, Option.getD_none]
      exact Out.bind_ok.2 ⟨_, ev1, _, h6, Out.after_ok.2 ⟨_, h8, rfl⟩, rfl⟩
    · have hline : AddsT cfg τ S [Ev.line (some (sheetOf cfg p)) (Dict.update (Dict.update [] (mapKeys τ (idsOf (idOpts cfg) ar)))
          (mapKeys τ (cellEntries (cells everything (p ++ [s%"0"]) fs))))] [⟨p, ar, fs⟩] := by
        refine ⟨by simp [TitleKeyed], rfl, ?_⟩
        intro name
        by_cases hn : sheetOf cfg p = name
        · have hk1 : ∀ x ∈ Dict.keys (idsOf (idOpts cfg) ar), S x := hS
          have hk2 : ∀ x ∈ Dict.keys (cellEntries (cells everything (p ++ [s%"0"]) fs)), S x := by
            intro x hx
            simp only [Dict.keys, cellEntries, List.map_map, List.mem_map] at hx
            obtain ⟨c, hc, rfl⟩ := hx
            exact (hce c hc).1
          have e : mapKeys τ (Item.line (idOpts cfg) everything ⟨p, ar, fs⟩) =
              Dict.update (Dict.update [] (mapKeys τ (idsOf (idOpts cfg) ar))) (mapKeys τ (cellEntries (cells everything (p ++ [s%"0"]) fs))) := by
            have e0 : Item.line (idOpts cfg) everything ⟨p, ar, fs⟩ =
              Dict.update (Dict.update [] (idsOf (idOpts cfg) ar)) (cellEntries (cells everything (p ++ [s%"0"]) fs)) := rfl
            rw [e0, mapKeys_update h.inj _ hk2, mapKeys_update h.inj (by simp [Dict.keys]) hk1]
            · rfl
            · intro x hx
              rcases Dict.mem_keys_update.1 hx with hx | hx
              · simp [Dict.keys] at hx
              · exact hk1 x hx
          simp [evLines, evLine, wantedT, hn, e]
        · simp [evLines, evLine, wantedT, hn]
      have := (AddsT.none (cfg := cfg) (τ := τ) (S := S) h4.1 h4.2).append (h7.append (hline.append h9))
      simpa using this
termination_by structural l
end

/-- The root objects fit (what flattening needs of `FitsRoot`). -/
theorem emitRootList_titled {T : Trip} {cfg : FCfg} {τ : Str → Str} {S : Str → Prop} (h : Titling T cfg τ S) (n : Nat) (l : List Json)
    (hfit : ∀ x ∈ l, ∃ fs, x = .obj fs ∧ T.Object fs ∧ T.FitsFields [] fs ∧ ∀ rid v, T.rootId = some rid → Dict.get fs rid = some v → ∃ a, v = .leaf a)
    (hc : ∀ fs ∈ objects l, ∀ c ∈ cells everything [] fs, On cfg τ S none (pathText c.1)) (hi : ∀ i ∈ docItems everything l, ItemOn cfg τ S i) :
    ∃ ev, emitRootList cfg n l = .ok ((), ev) ∧ evLines none ev = (objects l).map (fun fs => mapKeys τ (toLine (cells everything [] fs))) ∧
      (∀ name, evLines (some name) ev = wantedT cfg τ name (docItems everything l)) ∧ TitleKeyed cfg τ S ev := by
  induction l generalizing n with
  | nil => exact ⟨[], rfl, rfl, fun _ => rfl, by simp [TitleKeyed]⟩
  | cons j r ih =>
    obtain ⟨fs, rfl, hO, hF, hroot⟩ := hfit j (by simp)
    simp only [objects, docItems, List.flatMap_cons, List.mem_append, List.mem_cons] at hc hi
    obtain ⟨ev2, h1, h2, h3, h9⟩ := ih (n + 1) (fun x hx => hfit x (by simp [hx])) (fun fs hm => hc fs (.inr hm)) (fun i hm => hi i (.inr hm))
    have hce := hc fs (.inl rfl)
    obtain ⟨ev0, h4, h5, h6⟩ := emitPrologue_titled h none [] false [] fs none (by simp [Dict.keys]) hO hce (by
      intro rid hrid hne
      cases hg : Dict.get fs rid with
      | none => exact absurd hg hne
      | some v =>
        obtain ⟨a, rfl⟩ := hroot rid v (by rw [← h.rootId]; exact hrid) hg
        exact hce _ (leaf_cell (T := T) hg [])) (by simp)
    rw [show idsBelow (idOpts cfg) [] fs [] = idsOf (idOpts cfg) [([], fs)] from rfl] at h4 h6
    rw [show pnOf [] = [] from rfl] at h4
    obtain ⟨ev1, h7, h8⟩ := emitFields_titled h none [] [] [([], fs)] fs [] hF h6 hce (fun i hm => hi i (.inl hm))
    rw [show pnOf [] = [] from rfl] at h7
    have hk2 : ∀ x ∈ Dict.keys (cellEntries (cells everything [] fs)), S x := by
      intro x hx
      simp only [Dict.keys, cellEntries, List.map_map, List.mem_map] at hx
      obtain ⟨c, hc, rfl⟩ := hx
      exact (hce c hc).1
    have e : Dict.update [] (mapKeys τ (cellEntries (cells everything [] fs))) = mapKeys τ (toLine (cells everything [] fs)) := by
      rw [toLine, show (cells everything [] fs).map (fun c => (pathText c.1, c.2)) = cellEntries (cells everything [] fs) from rfl,
        mapKeys_update h.inj (by simp [Dict.keys]) hk2]
      rfl
    rw [e] at h7
    refine ⟨(ev0 ++ (ev1 ++ [Ev.line none (mapKeys τ (toLine (cells everything [] fs)))])) ++ ev2, ?_, ?_, ?_, ?_⟩
    · rw [emitRootList]
      refine Out.bind_ok.2 ⟨(), _, _, ?_, h1, rfl⟩
      unfold emitRootItem
      refine Out.bind_ok.2 ⟨_, _, _, h4, ?_, rfl⟩
      exact Out.bind_ok.2 ⟨_, ev1, _, h7, rfl, rfl⟩
    · have hl : evLines none [Ev.line none (mapKeys τ (toLine (cells everything [] fs)))] = [mapKeys τ (toLine (cells everything [] fs))] := rfl
      simp only [evLines_append, evLines_none h5.1, h8.main, h2, objects, hl, List.nil_append, List.map_cons, List.singleton_append]
    · intro name
      have hl : evLines (some name) [Ev.line none (mapKeys τ (toLine (cells everything [] fs)))] = [] := rfl
      simp only [evLines_append, evLines_none h5.1, h8.sub, hl, List.nil_append, List.append_nil, docItems, objects, List.flatMap_cons, wantedT_append]
      rw [h3]; rfl
    · exact (h5.2.append (h8.keys.append (by simp [TitleKeyed]))).append h9

end Verif

import Verif.Proofs.RowDoc
/-! A line of the document that is read back gives a labelled row. -/
namespace Verif
open Spec

/-- The labelled row of a place of the root object number `i`. -/
structure RowOfPlace (T : Trip) (i : Nat) (fs0 : List (Str × Json)) (pl : Place) (x : LRow) : Prop where
  root : x.root = T.rootCell fs0
  label : x.label = labelOf T i fs0
  clean : Clean (.obj x.fields)
  leafy : Leafy (.obj x.fields)
  cells : ∀ p c, Tree.sub p (.obj x.fields) = some (.cell c) → ∃ P b, OnLine T fs0 pl P b ∧ SamePos p P ∧ c.value = back T (keysP P) b
  has : ∀ P b, OnLine T fs0 pl P b → ∃ c, Tree.sub P (.obj x.fields) = some (.cell c) ∧ c.value = back T (keysP P) b

theorem lineHas_of {T : Trip} {fs0 : List (Str × Json)} (ho : T.Object fs0) (hf : T.FitsFields [] fs0) {pl : Place} (hp : Fine T fs0 pl)
    {fl : FLine} (hi : IsLine T fs0 pl fl) {l : Line} (hr : T.ReadBack fl l) : LineHas T (OnLine T fs0 pl) l where
  columns := hr.columns
  from_ := by
    intro h a hm hb
    obtain ⟨s, b, rfl, hg, rfl⟩ := hr.from_ h a hm hb
    obtain ⟨P, b', hS, rfl, e⟩ := hi.sound s _ hg
    cases e
    exact ⟨P, b, hS, rfl, rfl⟩
  all := by
    intro P b hS
    obtain ⟨-, ⟨j, hj⟩, -⟩ := (lineOf ho hf hp).cell P b hS
    exact hr.all _ b (hi.complete P b hS) hj.1

theorem path_single {P : List PKey} {k : Str} (h : okP P) (he : strs P = [k]) : P = [.field k] := by
  cases P with
  | nil => cases he
  | cons s P =>
    cases P with
    | cons t P => simp [strs] at he
    | nil =>
      cases s with
      | item l => exact absurd h (by simp [okP])
      | field k' => simp [strs, strP] at he; rw [he]

/-- The root id cell of the line. -/
theorem rootKey_of {T : Trip} {cfg : UnCfg} (hrid : cfg.rootId = T.rootId) {fs0 : List (Str × Json)} (ho : T.Object fs0)
    (hf : T.FitsFields [] fs0) (hrn : ∀ rid, T.rootId = some rid → rid ≠ T.idName ∧ '/' ∉ rid)
    (hrl : ∀ rid v, T.rootId = some rid → Dict.get fs0 rid = some v → ∃ a, v = .leaf a)
    {pl : Place} (hp : Fine T fs0 pl) {fl : FLine} (hi : IsLine T fs0 pl fl) {l : Line} (hr : T.ReadBack fl l) :
    rootKey cfg l = T.rootCell fs0 := by
  unfold rootKey Trip.rootCell
  rw [hrid]
  cases hrt : T.rootId with
  | none => rfl
  | some rid =>
    simp only
    have hpt : pathText (strs [.field rid]) = rid := by simp [strs, strP, pathText, Py.join]
    cases hg : Dict.get fs0 rid with
    | some v =>
      obtain ⟨a, rfl⟩ := hrl rid v hrt hg
      have hS : OnLine T fs0 pl [.field rid] a := by
        by_cases he : pl.path = []
        · rcases hp.ends with e | ⟨-, Q, i, hQ⟩
          · subst e
            exact OnLine.own (kk := [rid]) (HasCell.scalar (p := []) (Dict.get_eq_some_mem hg) rfl)
          · rw [he] at hQ; simp at hQ
        · exact OnLine.root hrt he hg
      have hm := (lineHas_of ho hf hp hi hr).all _ _ hS
      rw [hpt] at hm
      rw [Dict.get_of_mem hr.columns hm]
      rfl
    | none =>
      have hno : Dict.get fl rid = none := by
        cases hgl : Dict.get fl rid with
        | none => rfl
        | some j =>
          exfalso
          obtain ⟨P, b, hS, e, -⟩ := hi.sound rid j hgl
          have hc := (lineOf ho hf hp).cell P b hS
          obtain ⟨h1, h2, -⟩ := (address_docT (T := T) (.obj fs0)).1 fs0 [] rfl ho hf P _ hc.1
          have hne : P ≠ [] := by rintro rfl; have := hc.1; simp [Tree.sub] at this
          have hs : strs P = [rid] := pathText_inj (by simpa [strs] using hne) (by simp) (strs_noSlash h2)
            (by simpa using (hrn rid hrt).2) (by rw [← e]; simp [pathText, Py.join])
          have := path_single h1 hs
          rw [this] at hc
          have hcell := hc.1
          simp only [Tree.sub, get_docF, hg] at hcell
          simp at hcell
      cases hgl : Dict.get l (some rid) with
      | none => rfl
      | some a =>
        have := hr.noRoot rid hrt hno a (Dict.get_eq_some_mem hgl)
        rw [this]; rfl

/-- The id of the line's root object. -/
theorem rowKey_of {T : Trip} {fs0 : List (Str × Json)} (ho : T.Object fs0) (hf : T.FitsFields [] fs0) {pl : Place} (hp : Fine T fs0 pl)
    {rf : RFields} (hrow : RowIs T (labelsP pl.path) (OnLine T fs0 pl) rf) (i : Nat) :
    rowKey (some T.idName) false (forgetF (labF (labelsP pl.path) rf)) =
      .ok (if (labelOf T i fs0).hashable then some (labelOf T i fs0) else none) := by
  unfold rowKey
  simp only [get_forgetF, get_labF]
  cases hid : T.idOf fs0 with
  | some a =>
    have hS : OnLine T fs0 pl [.field T.idName] a := by
      rcases hp.ends with e | ⟨hin, -⟩
      · subst e
        exact OnLine.own (kk := [T.idName]) (idOf_cell hid)
      · exact OnLine.anc (R := []) hin hid
    obtain ⟨-, c, hc, hv⟩ := hrow.has _ _ hS
    have hcv : c.value = .atom a := by
      rw [hv]
      exact (fits_id hf hid).leaf
    have hg : Dict.get rf T.idName = some (.cell c) := by
      simp only [addrOf, rget] at hc
      cases hg : Dict.get rf T.idName with
      | none => rw [hg] at hc; cases hc
      | some t =>
        rw [hg] at hc
        cases t with
        | cell d => simpa using hc
        | obj g => simp [rget] at hc
        | lad is => simp at hc
    rw [hg]
    simp only [Option.map_some, labT, forget, hcv, labelOf, hid]
    rfl
  | none =>
    have hg : Dict.get rf T.idName = none := by
      cases hg : Dict.get rf T.idName with
      | none => rfl
      | some t =>
        exfalso
        have hsub : Tree.sub [.field T.idName] (.obj (labF (labelsP pl.path) rf)) = some (labT (labelsP pl.path) t) := by
          simp [Tree.sub, get_labF, hg]
        have hne : rf ≠ [] := by rintro rfl; simp at hg
        obtain ⟨q, c, hq⟩ := leafy_labF hrow.full hne hrow.shape _ _ hsub
        have hfull : Tree.sub ([.field T.idName] ++ q) (.obj (labF (labelsP pl.path) rf)) = some (.cell c) := by
          rw [sub_append, hsub]; exact hq
        obtain ⟨a, ha, hsp⟩ := sub_labF hrow.shape hfull
        obtain ⟨P, b, hS, hok, rfl, -⟩ := hrow.get a c ha
        have hl := lineOf ho hf hp
        rw [pos_addrOf hok _ (hl.cell P b hS).2.2] at hsp
        have hcell := (hl.cell P b hS).1
        rw [← sub_same hsp] at hcell
        simp only [List.singleton_append, Tree.sub, get_docF, id_none ho hid] at hcell
        simp at hcell
    rw [hg, labelOf_hashable, hid]
    rfl

theorem rowOfPlace {T : Trip} {cfg : UnCfg} (hx : cfg.row.xml = false) (ht : cfg.row.types = T.types) (hc : cfg.row.conv = T.conv)
    (hn : cfg.idName = some T.idName) (hrid : cfg.rootId = T.rootId) {fs0 : List (Str × Json)} (ho : T.Object fs0)
    (hf : T.FitsFields [] fs0) (hrn : ∀ rid, T.rootId = some rid → rid ≠ T.idName ∧ '/' ∉ rid)
    (hrl : ∀ rid v, T.rootId = some rid → Dict.get fs0 rid = some v → ∃ a, v = .leaf a)
    {pl : Place} (hp : Fine T fs0 pl) {fl : FLine} (hi : IsLine T fs0 pl fl) (i : Nat) (r : RowIn) (hr : T.ReadBack fl r.line) :
    hasData r.line = true ∧ ∃ y x, rowAlone cfg r = .ok y ∧ Labels cfg y x ∧ RowOfPlace T i fs0 pl x := by
  have hl := lineOf ho hf hp
  have hh := lineHas_of ho hf hp hi hr
  obtain ⟨rf, w, hu, hrow, -⟩ := row_of_line hx ht hc ho hf hl hh r.sheet.name r.sheet.headings r.number
  obtain ⟨P0, b0, hS0⟩ := hl.some
  refine ⟨?_, ⟨r.sheet.name, rootKey cfg r.line, forgetF (labF (labelsP pl.path) rf), w⟩,
    ⟨r.sheet.name, T.rootCell fs0, labelOf T i fs0, labF (labelsP pl.path) rf⟩, ?_, ?_, ?_⟩
  · obtain ⟨-, ⟨j, hj⟩, -⟩ := hl.cell _ _ hS0
    simp only [hasData, List.any_eq_true, Bool.not_eq_true']
    exact ⟨_, hh.all _ _ hS0, hj.1⟩
  · unfold rowAlone
    rw [hn, hu]
  · refine ⟨rfl, rootKey_of hrid ho hf hrn hrl hp hi hr, ?_, rfl, ?_⟩
    · simp only [Trip.rootCell]
      split
      · rfl
      · split <;> rfl
    · rw [hn, hx]
      exact rowKey_of ho hf hp hrow i
  · have hne : rf ≠ [] := by
      rintro rfl
      obtain ⟨-, c, h, -⟩ := hrow.has _ _ hS0
      rw [rget_nil] at h; cases h
    refine ⟨rfl, rfl, ?_, leafy_labF hrow.full hne hrow.shape, ?_, ?_⟩
    · refine clean_labF hrow.full hrow.shape ?_
      intro a c h
      obtain ⟨P, b, hS, -, -, hv⟩ := hrow.get a c h
      obtain ⟨-, ⟨j, hj⟩, -⟩ := hl.cell _ _ hS
      rw [hv]
      exact ⟨hj.back.2.2.1, hj.back.2.2.2.1⟩
    · intro p c h
      obtain ⟨a, ha, hsp⟩ := sub_labF hrow.shape h
      obtain ⟨P, b, hS, hok, rfl, hv⟩ := hrow.get a c ha
      rw [pos_addrOf hok _ (hl.cell P b hS).2.2] at hsp
      exact ⟨P, b, hS, hsp, hv⟩
    · intro P b hS
      obtain ⟨hok, c, hc, hv⟩ := hrow.has P b hS
      have := sub_pos _ hrow.shape hc
      rw [pos_addrOf hok _ (hl.cell P b hS).2.2] at this
      exact ⟨c, this, hv⟩

end Verif

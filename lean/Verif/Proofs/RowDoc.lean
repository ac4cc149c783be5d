import Verif.Proofs.RowOf
import Verif.Props.FlattenRollup
/-! The rows that a document's lines are read back as. -/
namespace Verif
open Spec

/-- The line has exactly the values of the place. -/
structure IsLine (T : Trip) (fs0 : List (Str × Json)) (pl : Place) (fl : FLine) : Prop where
  sound : ∀ s j, Dict.get fl s = some j → ∃ P b, OnLine T fs0 pl P b ∧ s = pathText (strs P) ∧ j = .leaf b
  complete : ∀ P b, OnLine T fs0 pl P b → Dict.get fl (pathText (strs P)) = some (.leaf b)

theorem clean_basic {l : List Json} {ss : List Str} (h : l.mapM basicStr = some ss) : ∀ x ∈ l, CleanKeys x := by
  intro x hx
  cases x with
  | leaf a => simp [CleanKeys]
  | obj fs => rw [mapM_none hx rfl] at h; cases h
  | arr l => rw [mapM_none hx rfl] at h; cases h

theorem cleanList_of {l : List Json} (h : ∀ x ∈ l, CleanKeys x) : CleanList l := by
  induction l with
  | nil => trivial
  | cons e r ih => exact ⟨h e (by simp), ih (fun x hx => h x (by simp [hx]))⟩

theorem clean_joined {l : List Json} {t : Str} (h : joinArray l = some t) : ∀ x ∈ l, CleanKeys x := by
  unfold joinArray at h
  split at h
  · exact clean_basic (by assumption)
  · simp only [Option.map_eq_some_iff] at h
    obtain ⟨ss, h1, -⟩ := h
    intro x hx
    cases x with
    | leaf a => simp [CleanKeys]
    | obj fs => rw [mapM_none hx rfl] at h1; cases h1
    | arr m =>
      simp only [CleanKeys]
      apply cleanList_of
      cases hm : m.mapM basicStr with
      | some s => exact clean_basic hm
      | none => rw [mapM_none hx (by simp [innerJoin, hm])] at h1; cases h1

theorem clean_fits {T : Trip} (v : Json) : ∀ ks, (T.Fits ks v → CleanKeys v) ∧
    ∀ fs, v = .obj fs → T.Object fs → T.FitsFields ks fs → CleanKeys (.obj fs) := by
  have cf : ∀ fs : List (Str × Json), (∀ e ∈ fs, CleanKeys e.2) → CleanFields fs := by
    intro fs h
    induction fs with
    | nil => trivial
    | cons e r ih => exact ⟨h e (by simp), ih (fun x hx => h x (by simp [hx]))⟩
  induction v using Json.ind with
  | leaf a => exact fun ks => ⟨fun _ => by simp [CleanKeys], fun fs e => by cases e⟩
  | obj fs ih =>
    intro ks
    have B : T.Object fs → T.FitsFields ks fs → CleanKeys (.obj fs) := by
      intro ho h
      exact ⟨ho.2.1, fun k hk => (ho.2.2.1 k hk).2.1, cf fs (fun e he => (ih e he _).1 (fitsFields_iff.1 h e he))⟩
    refine ⟨fun h => ?_, fun gs e => by cases e; exact B⟩
    simp only [Trip.Fits] at h
    exact B h.2.1 h.2.2.2
  | arr l ih =>
    refine fun ks => ⟨fun h => ?_, fun fs e => by cases e⟩
    simp only [Trip.Fits] at h
    rcases h with ⟨t, ht, -⟩ | ⟨hj, -, hi, hd⟩
    · simp only [CleanKeys]
      apply cleanList_of
      -- a list in one cell has no objects
      exact clean_joined ht
    · simp only [CleanKeys]
      apply cleanList_of
      intro x hx
      obtain ⟨fs, rfl, ho, -, -, hf⟩ := fitsItems_iff.1 hi x hx
      exact (ih _ hx ks).2 fs rfl ho hf

/-- The line of a root object. -/
theorem isLine_root {T : Trip} {fs0 : List (Str × Json)} (ho : T.Object fs0) (hf : T.FitsFields [] fs0) :
    IsLine T fs0 ⟨[], [], fs0⟩ (toLine (cells everything [] fs0)) := by
  have hcl := (clean_fits (T := T) (.obj fs0) []).2 fs0 rfl ho hf
  have hp := fun (hn : T.Named fs0) => fine_root ho hn hf
  refine ⟨?_, ?_⟩
  · intro s j h
    rcases entries_sound h with ⟨q, rfl, hc⟩ | h
    · have hm : (q, j) ∈ valueCells everything [] (.obj fs0) := by
        simp only [valueCells]; exact (mem_cells _ _ _ _ _).2 hc
      obtain ⟨b, j', rfl, -⟩ := own_cells (T := T) (.obj fs0) [] q j ⟨ho, hf⟩ hm
      refine ⟨_, b, OnLine.own (kk := q) hc, ?_, rfl⟩
      simp [strs_flds]
    · simp at h
  · intro P b h
    cases h with
    | @own kk b hc =>
      simp only [List.nil_append, strs_flds]
      exact entries_complete [] hcl (by simp) hc
    | anc hm => cases hm
    | root _ hne => exact absurd rfl hne

theorem pairwise_len_unique {α : Type} {l : List (List Str × α)} (h : l.Pairwise (fun a b => a.1.length < b.1.length)) {x y : List Str × α}
    (hx : x ∈ l) (hy : y ∈ l) (he : x.1.length = y.1.length) : x = y := by
  induction l with
  | nil => cases hx
  | cons e r ih =>
    rw [List.pairwise_cons] at h
    rcases List.mem_cons.1 hx with rfl | hx' <;> rcases List.mem_cons.1 hy with rfl | hy'
    · rfl
    · have := h.1 y hy'; omega
    · have := h.1 x hx'; omega
    · exact ih h.2 hx' hy'

/-- The line of an object in an array. -/
theorem isLine_sub {T : Trip} {fs0 : List (Str × Json)} (ho : T.Object fs0) (hf : T.FitsFields [] fs0)
    (hid : GoodKey T.idName) (hrn : ∀ rid, T.rootId = some rid → rid ≠ T.idName ∧ '/' ∉ rid)
    (hrl : ∀ rid v, T.rootId = some rid → Dict.get fs0 rid = some v → ∃ a, v = .leaf a)
    {pl : Place} (h : pl ∈ lv T [] [] (.obj fs0)) :
    IsLine T fs0 pl (pl.item.line ⟨T.idName, T.rootId⟩ everything) ∧ ItemOK pl.item := by
  have hcl := (clean_fits (T := T) (.obj fs0) []).2 fs0 rfl ho hf
  have hfine := fine_sub ho hf h
  have hok : ItemOK pl.item := by
    apply docItems_ok everything [.obj fs0] (by simp [objects]; exact hcl)
    simp only [docItems, objects, List.flatMap_cons, List.flatMap_nil, List.append_nil]
    have := items_lf T [] [([], fs0)] fs0
    simp only [strs, List.map_nil, List.map_cons] at this
    rw [this]
    simp only [lv, List.nil_append] at h
    exact List.mem_map.2 ⟨_, h, rfl⟩
  obtain ⟨hin, Q, i, hQ⟩ := hfine.ends.resolve_left (by
    rintro rfl
    obtain ⟨s, X, e⟩ := lv_pre T (.obj fs0) [] [] _ h
    simp at e)
  have hbase : (strs [], fs0) ∈ pl.item.around := List.mem_map.2 ⟨_, hin, rfl⟩
  have harr : pl.item.array ++ [s%"0"] = strs pl.path := by
    simp only [Place.item, hQ, List.dropLast_concat, strs_append]
    rfl
  have hne : pl.path ≠ [] := by rw [hQ]; simp
  have hh := item_line_holds (o := ⟨T.idName, T.rootId⟩) (keep := everything) hok
  have hcarry := item_line_carries (o := ⟨T.idName, T.rootId⟩) (keep := everything) hok hid.2.1
    (fun rid hr => ⟨(hrn rid hr).2, (hrn rid hr).1⟩)
  rw [harr] at hh
  refine ⟨⟨?_, ?_⟩, hok⟩
  · intro s j hg
    rcases hh.sound s j hg with ⟨q, rfl, hc⟩ | ⟨p, gs0, hm, hx⟩
    · obtain ⟨kk, rfl, hc'⟩ := hasCell_shift.1 hc
      have hm : (kk, j) ∈ valueCells everything [] (.obj pl.fields) := by
        simp only [valueCells]; exact (mem_cells _ _ _ _ _).2 hc'
      obtain ⟨b, j', rfl, -⟩ := own_cells (T := T) (.obj pl.fields) (keysP pl.path) kk j ⟨hfine.object, hfine.fits⟩ hm
      refine ⟨_, b, OnLine.own hc', ?_, rfl⟩
      rw [strs_append, strs_flds]
    · obtain ⟨⟨R, gs⟩, hR, e⟩ := List.mem_map.1 hm
      cases e
      obtain ⟨h1, h2, h3, h4, h5, h6⟩ := hfine.around _ hR
      rcases hx with ⟨rfl, hgid⟩ | ⟨hr, hg2⟩
      · cases hi : T.idOf gs with
        | none => exact absurd hi (h4.2.2.2 j hgid)
        | some b =>
          have := idOf_get hi
          simp only at hgid
          rw [this] at hgid
          cases hgid
          refine ⟨_, b, OnLine.anc hR hi, ?_, rfl⟩
          rw [strs_append]; rfl
      · simp only at hr
        rcases h6 with rfl | h6
        · have := pairwise_len_unique hok.around.incr hm hbase rfl
          simp only [Prod.mk.injEq, true_and] at this
          subst this
          obtain ⟨b, rfl⟩ := hrl s j hr hg2
          refine ⟨_, b, OnLine.root hr hne hg2, ?_, rfl⟩
          rfl
        · rw [h6 s hr] at hg2; cases hg2
  · intro P b hS
    cases hS with
    | @own kk b hc =>
      rw [strs_append, strs_flds]
      exact hh.complete _ _ (hasCell_shift.2 ⟨kk, rfl, hc⟩)
    | @anc R gs b hm hi =>
      rw [strs_append]
      exact hcarry.id (strs R) gs (.leaf b) (List.mem_map.2 ⟨_, hm, rfl⟩) (idOf_get hi)
    | @root rid b hr hne hg =>
      show Dict.get _ (pathText [rid]) = _
      have e : pathText [rid] = rid := by simp [pathText, Py.join]
      rw [e]
      obtain ⟨outer, inner, ho'⟩ := List.append_of_mem hbase
      refine hcarry.rootId rid outer _ fs0 inner (.leaf b) hr ho' hg ?_
      intro a ha
      have hma : a ∈ pl.item.around := by rw [ho']; simp [ha]
      have hlen := pairwise_mid (by rw [← ho']; exact hok.around.incr) a ha
      obtain ⟨⟨R, gs'⟩, hR, rfl⟩ := List.mem_map.1 hma
      rcases (hfine.around _ hR).2.2.2.2.2 with h6 | h6
      · simp only at h6
        subst h6
        simp [strs] at hlen
      · exact h6 rid hr

end Verif

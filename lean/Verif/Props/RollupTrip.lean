import Verif.Spec.RollupTrip
import Verif.Proofs.SaidTrip
/-! C81: a document that is flattened with rollup comes back when the spreadsheet is read. -/
namespace Verif
open Spec

theorem mem_docItems {T : Trip} {root : List Json} {it : Item} :
    it ∈ docItems everything root ↔ ∃ (i : Nat) (fs : List (Str × Json)) (pl : Place), (objects root)[i]? = some fs ∧ pl ∈ lv T [] [] (.obj fs) ∧ it = pl.item := by
  have key : ∀ fs, items everything [] [([], fs)] fs = (lv T [] [] (.obj fs)).map Place.item := by
    intro fs
    have h2 := items_lf T [] [([], fs)] fs
    simp only [strs, List.map_nil, List.map_cons] at h2
    rw [h2]
    simp [lv]
  simp only [docItems, List.mem_flatMap, key, List.mem_map]
  constructor
  · rintro ⟨fs, h1, pl, h2, rfl⟩
    obtain ⟨i, hi⟩ := List.mem_iff_getElem?.1 h1
    exact ⟨i, fs, pl, hi, h2, rfl⟩
  · rintro ⟨i, fs, pl, h1, h2, rfl⟩
    exact ⟨fs, List.mem_of_getElem? h1, pl, h2, rfl⟩

theorem spotLine_sub {T : Trip} {fs : List (Str × Json)} {pl : Place} (h : pl ∈ lv T [] [] (.obj fs)) (i : Nat) :
    spotLine T (i, fs, pl) = pl.item.line ⟨T.idName, T.rootId⟩ everything := by
  obtain ⟨s, X, hX⟩ := lv_pre T (.obj fs) [] [] pl h
  simp only [spotLine]
  rw [if_neg (by rw [hX]; simp)]

/-- The lines of the sub-sheets. -/
theorem rollup_sub_lines {T : Trip} {cfg : FCfg} (ht : cfg.useTitles = false) (hw : cfg.wkt = false) (hx : cfg.xml = false)
    (hf : cfg.filter = none) (hp : cfg.preserve = []) (hs : FromSchemaParser cfg) (hid : cfg.idName = T.idName) (hrid : cfg.rootId = T.rootId)
    {root : List Json} {st : FState} (h : flatten cfg root = .ok st) :
    ((st.subs.map (·.2)).flatMap (·.lines)).Perm ((docItems everything root).map (Item.line ⟨T.idName, T.rootId⟩ everything)) := by
  obtain ⟨st', h1, h2⟩ := C30_sub_sheets_unchanged cfg hx root st h
  have h3 := all_lines (cfg := { cfg with rollup := [] }) ⟨ht, hw, hx, rfl⟩ hf hp hs h1
  have h4 := (C23_one_line_per_object { cfg with rollup := [] } ⟨ht, hw, hx, rfl⟩ hf hp hs root st' h1).1
  simp only [sheetsOf, List.flatMap_cons, h4] at h3
  have h5 := (List.perm_append_left_iff _).1 h3
  rw [h2] at h5
  have hopt : idOpts { cfg with rollup := [] } = ⟨T.idName, T.rootId⟩ := by simp [idOpts, hid, hrid]
  rw [hopt] at h5
  exact h5

theorem all₂_pair {α β : Type} {R : α → β → Prop} {l : List α} {m : List β} (h : All₂ R l m) : ∀ i : Nat, ∀ b, m[i]? = some b → ∃ a, l[i]? = some a ∧ R a b := by
  induction h with
  | nil => intro i b hb; simp at hb
  | @cons a b l m h1 _ ih =>
    intro i c hc
    cases i with
    | zero => simp only [List.getElem?_cons_zero, Option.some.injEq] at hc ⊢; subst hc; exact ⟨a, rfl, h1⟩
    | succ i => simp only [List.getElem?_cons_succ] at hc ⊢; exact ih i c hc

theorem all₂_pair_left {α β : Type} {R : α → β → Prop} {l : List α} {m : List β} (h : All₂ R l m) : ∀ i : Nat, ∀ a, l[i]? = some a → ∃ b, m[i]? = some b ∧ R a b := by
  induction h with
  | nil => intro i b hb; simp at hb
  | @cons a b l m h1 _ ih =>
    intro i c hc
    cases i with
    | zero => simp only [List.getElem?_cons_zero, Option.some.injEq] at hc ⊢; subst hc; exact ⟨b, rfl, h1⟩
    | succ i => simp only [List.getElem?_cons_succ] at hc ⊢; exact ih i c hc

/-- The only object of an array of a root object is one of the objects in arrays. -/
theorem single_item {T : Trip} {root : List Json} {fs : List (Str × Json)} (hm : fs ∈ objects root) {key : Str} {gs : List (Str × Json)}
    (h : (key, .arr [.obj gs]) ∈ fs) : ∃ it ∈ docItems everything root, it.fields = gs := by
  obtain ⟨i, hi⟩ := List.mem_iff_getElem?.1 hm
  refine ⟨_, (mem_docItems (T := T)).2 ⟨i, fs, ⟨[] ++ [.field key] ++ [.item (labelOf T 0 gs)], [([], fs)], gs⟩, hi, ?_, rfl⟩, rfl⟩
  simp only [lv, List.nil_append, lf_flatMap, List.mem_flatMap]
  refine ⟨_, h, ?_⟩
  have hj : joinArray [Json.obj gs] = none := by simp [joinArray, basicStr, innerJoin]
  simp [lv, hj, la]

/-- C81: a document whose objects all have ids is flattened with rollup, where arrays to be rolled up have one item each and the item's id is rolled up too.
Whenever sheets have the data of the lines of all the flattened sheets (in any order and arrangement of lines, columns and sheets), unflattening them succeeds
and gives the document, up to the order of fields and items: the item that is on the main sheet and on its own sheet comes back once.  The only warnings are about
doubled headings, and those of the conversion of cells. -/
theorem C81_rollup_round_trip (T : Trip) (fcfg : FCfg) (ucfg : UnCfg) (ht : fcfg.useTitles = false) (hw : fcfg.wkt = false) (hx : fcfg.xml = false)
    (hro : fcfg.rollup ≠ []) (hf : fcfg.filter = none) (hk : fcfg.preserve = []) (hs : FromSchemaParser fcfg)
    (hord : ∀ l x, x ∈ fcfg.order l ↔ x ∈ l) (hid : fcfg.idName = T.idName) (hrid : fcfg.rootId = T.rootId) (hr : T.Reads ucfg)
    (root : List Json) (hfit : T.FitsRoot root) (hids : T.AllHaveIds root) (hroll : T.RollsWell (Rolls fcfg) root)
    (st : FState) (h : flatten fcfg root = .ok st) (lines : List FLine) (sheets : List SheetIn)
    (hperm : lines.Perm ((sheetsOf st).flatMap (·.lines))) (hread : All₂ T.ReadBack lines ((rowsIn sheets).map (·.line))) :
    ∃ out w, unflatten ucfg sheets = .ok (out, w) ∧ Rearranged (.arr root) (.arr out) ∧
      ∀ y ∈ w, (∃ s ∈ sheets, ∃ heading cols, y = .dupHeading heading cols s.name) ∨
        ∃ r ∈ rowsIn sheets, ∃ c ∈ columns r.line, ∃ v cw, c.value ucfg.row = .ok (v, cw) ∧ y ∈ cw := by
  have hmain := C30_main_lines fcfg ht hw hx hro hf hk hs hord root (by
    intro fs hm
    obtain ⟨ho, -, hff, -⟩ := fitsRoot_mem hfit hm
    exact (clean_fits (T := T) (.obj fs) []).2 fs rfl ho hff) st h
  have hsub := rollup_sub_lines ht hw hx hf hk hs hid hrid h
  have hwell : ∀ fs ∈ objects root, RollsWell T (Rolls fcfg) fs := by
    intro fs hm key l gs k v h1 h2 h3 h4
    obtain ⟨rfl, g2⟩ := hroll fs hm key l gs k v h1 h2 h3 h4
    obtain ⟨it, g3, rfl⟩ := single_item (T := T) hm h1
    exact ⟨rfl, g2, hids.2 it g3⟩
  -- each row is about one of the objects
  have hrow : ∀ r ∈ rowsIn sheets, ∃ i fs S, (objects root)[i]? = some fs ∧ RowFor T ucfg i fs S r.line := by
    intro r hrm
    obtain ⟨fl, hfl, hrb⟩ := all₂_right hread r.line (List.mem_map.2 ⟨r, hrm, rfl⟩)
    have hfl := hperm.mem_iff.1 hfl
    simp only [sheetsOf, List.flatMap_cons, List.mem_append] at hfl
    rcases hfl with hfl | hfl
    · obtain ⟨i, hi⟩ := List.mem_iff_getElem?.1 hfl
      obtain ⟨fs, h1, h2⟩ := all₂_pair hmain i fl hi
      exact ⟨i, fs, _, h1, rowFor_rolled hr hfit h1 (hids.1 fs (List.mem_of_getElem? h1)) (hwell fs (List.mem_of_getElem? h1)) h2 hrb⟩
    · obtain ⟨it, h1, rfl⟩ := List.mem_map.1 (hsub.mem_iff.1 hfl)
      obtain ⟨i, fs, pl, h2, h3, rfl⟩ := (mem_docItems (T := T)).1 h1
      rw [← spotLine_sub h3 i] at hrb
      exact ⟨i, fs, _, h2, rowFor_spot hr hfit (s := (i, fs, pl)) (mem_spots.2 ⟨h2, .inr h3⟩) (hids.1 fs (List.mem_of_getElem? h2)) (hids.2 _ h1) hrb⟩
  have hline : ∀ fl ∈ (sheetsOf st).flatMap (·.lines), ∃ r ∈ rowsIn sheets, T.ReadBack fl r.line := by
    intro fl hfl
    obtain ⟨l, hl, hrb⟩ := all₂_left hread fl (hperm.mem_iff.2 hfl)
    obtain ⟨r, hrm, rfl⟩ := List.mem_map.1 hl
    exact ⟨r, hrm, hrb⟩
  refine said_doc hr hfit sheets ?_ ?_ ?_ ?_
  · intro r hrm
    obtain ⟨i, fs, S, h1, h2⟩ := hrow r hrm
    exact (h2.spec hr hfit h1 (hids.1 fs (List.mem_of_getElem? h1))).1
  · rintro x ⟨r, hrm, hx⟩
    obtain ⟨i, fs, S, h1, h2⟩ := hrow r hrm
    exact (h2.spec hr hfit h1 (hids.1 fs (List.mem_of_getElem? h1))).2.1 x hx
  · intro i fs p d hi hd
    obtain ⟨ho, hn, hff, hrt⟩ := fitsRoot_mem hfit (List.mem_of_getElem? hi)
    have hid0 := hids.1 fs (List.mem_of_getElem? hi)
    rcases cover (T := T) (.obj fs) [] p [] d (by exact ⟨ho, hff⟩) .nil (by simpa [docT, keysP] using hd) with
      ⟨kk, b, h1, rfl⟩ | ⟨pl, hpl, kk, b, h1, h2⟩
    · simp only [valueCells] at h1
      obtain ⟨fl, hfl, hrl⟩ := all₂_pair_left hmain i fs hi
      obtain ⟨r, hrm, hrb⟩ := hline fl (by
        simp only [sheetsOf, List.flatMap_cons, List.mem_append]
        exact .inl (List.mem_of_getElem? hfl))
      obtain ⟨x, g1, g2, g3, g4⟩ := ((rowFor_rolled hr hfit hi hid0 (hwell fs (List.mem_of_getElem? hi)) hrl hrb).spec hr hfit hi hid0).2.2 _ _
        (.inl (OnLine.own (kk := kk) ((mem_cells _ _ _ _ _).1 h1)))
      refine ⟨x, ⟨r, hrm, g1⟩, g2, g3, ?_⟩
      rw [g4]
      refine all₂_same _ ?_
      intro y hy
      obtain ⟨z, _, rfl⟩ := List.mem_map.1 hy
      rfl
    · have hit : pl.item ∈ docItems everything root := (mem_docItems (T := T)).2 ⟨i, fs, pl, hi, hpl, rfl⟩
      obtain ⟨r, hrm, hrb⟩ := hline (pl.item.line ⟨T.idName, T.rootId⟩ everything) (by
        simp only [sheetsOf, List.flatMap_cons, List.mem_append]
        exact .inr (hsub.mem_iff.2 (List.mem_map.2 ⟨_, hit, rfl⟩)))
      rw [← spotLine_sub hpl i] at hrb
      obtain ⟨x, g1, g2, g3, g4⟩ := ((rowFor_spot hr hfit (s := (i, fs, pl)) (mem_spots.2 ⟨hi, .inr hpl⟩) hid0 (hids.2 _ hit) hrb).spec hr hfit hi hid0).2.2 _ _
        (OnLine.own (kk := kk) h1)
      refine ⟨x, ⟨r, hrm, g1⟩, g2, g3, ?_⟩
      rw [g4]
      simpa using h2
  · intro i fs hi
    rw [labelOf_hashable]
    cases hg : T.idOf fs with
    | none => exact absurd hg (hids.1 fs (List.mem_of_getElem? hi))
    | some _ => rfl

end Verif

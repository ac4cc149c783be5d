import Verif.Props.RollupTrip
import Verif.Props.RollupWhen
import Verif.Props.RoundTrip
import Verif.Proofs.DecEq
/-! C81: a document that is flattened with rollup comes back through files. -/
namespace Verif
open Spec

/-- The values of a line are as written to the file, in the columns of its sheet. -/
theorem readBack_line {T : Trip} {fcfg : FCfg} {cell : Option Json → Atom} (hc : ∀ a, cell (some (.leaf a)) = T.write a) (hb : (cell none).blank = true)
    (hs : FromSchemaParser fcfg) {root : List Json} {st : FState} (hst : flatten fcfg root = .ok st)
    {s : Sheet} (hm : s ∈ sheetsOf st) (hn : s.headings.Nodup) {l : FLine} (hl : l ∈ s.lines) (hleaf : ∀ k v, Dict.get l k = some v → ∃ b, v = .leaf b)
    (hroot : cell none = .none ∨ ∀ rid, T.rootId = some rid → Dict.get l rid ≠ none) :
    T.ReadBack l (s.headings.map (fun h => (some h, cell (Dict.get l h)))) := by
  refine ⟨?_, ?_, ?_, ?_⟩
  · rw [List.map_map]
    have : ((fun x : Option Str × Atom => x.1) ∘ fun h => (some h, cell (Dict.get l h))) = some := rfl
    rw [this]
    exact hn.map _ (fun a b hab e => hab (Option.some.inj e))
  · intro h a hm' hna
    obtain ⟨k, _, he⟩ := List.mem_map.1 hm'
    simp only [Prod.mk.injEq] at he
    cases hg : Dict.get l k with
    | none =>
      rw [hg] at he
      rw [← he.2, hb] at hna
      cases hna
    | some j =>
      obtain ⟨b, rfl⟩ := hleaf k j hg
      rw [hg, hc] at he
      exact ⟨k, b, he.1.symm, hg, he.2.symm⟩
  · intro k b hg _
    have hk := (C25_every_value_has_a_column fcfg hs root st hst s hm).1 _ hl k (by
      have := Dict.get_eq_some_mem hg
      exact List.mem_map.2 ⟨_, this, rfl⟩)
    refine List.mem_map.2 ⟨k, hk, ?_⟩
    rw [hg, hc]
  · intro rid hrid hg a ha
    obtain ⟨k, _, he⟩ := List.mem_map.1 ha
    simp only [Prod.mk.injEq, Option.some.injEq] at he
    obtain ⟨rfl, he⟩ := he
    rw [hg] at he
    rcases hroot with hroot | hroot
    · rw [← he, hroot]
    · exact absurd hg (hroot k hrid)

/-- The lines that are read are, one by one, lines of the sheets. -/
theorem held_lines {cell : Option Json → Atom} {R : FLine → Line → Prop} {order : List Sheet} {sheets : List SheetIn}
    (hall : ∀ s ∈ order, ∀ l ∈ s.lines, ∀ line, Kept (s.headings.map (fun h => (some h, cell (Dict.get l h)))) line → R l line ∧ hasData line = true)
    (hread : All₂ (SheetHolds cell) order sheets) : All₂ R (order.flatMap (·.lines)) ((rowsIn sheets).map (·.line)) := by
  rw [rowsIn_lines]
  induction hread with
  | nil => exact .nil
  | @cons s sh order' sheets' h2 h3 ih =>
    simp only [List.flatMap_cons]
    refine all₂_app ?_ (ih (fun x hx => hall x (by simp [hx])))
    have h4 := hall s (by simp)
    obtain ⟨h5, ls, h6, h7⟩ := h2
    have h8 : ∀ line ∈ ls, hasData line = true := by
      intro line hl
      obtain ⟨l, hl', h8⟩ := all₂_mem_right h6 hl
      exact (h4 l hl' line h8).2
    rw [h7, List.filter_eq_self.2 h8]
    by_cases hempty : s.lines = []
    · rw [hempty] at h6
      cases h6
      rw [hempty]
      simp only [ite_self]
      exact .nil
    · have hne : s.headings ≠ [] := by
        intro he
        obtain ⟨l, hl⟩ := List.exists_mem_of_ne_nil _ hempty
        have := (h4 l hl [] ⟨[], by simp [he], by simp⟩).2
        cases this
      rw [if_neg (by rw [h5]; simpa using hne)]
      generalize hL : s.lines = L at h6 ⊢
      rw [hL] at h4
      clear hL hempty h7 h8
      induction h6 with
      | nil => exact .nil
      | cons h10 _ ih => exact .cons (h4 _ (by simp) _ h10).1 (ih (fun l hl => h4 l (by simp [hl])))

theorem hasCell_leaf {keep : List Str → Str → Bool} {p : List Str} {fs : List (Str × Json)} {q : List Str} {v : Json} (h : HasCell keep p fs q v) :
    ∃ b, v = .leaf b := by
  induction h with
  | scalar _ _ => exact ⟨_, rfl⟩
  | list _ _ _ => exact ⟨_, rfl⟩
  | deep _ _ _ ih => exact ih

theorem RowFor.hasData {T : Trip} {cfg : UnCfg} {i : Nat} {fs : List (Str × Json)} {S : List PKey → Atom → Prop} {l : Line} (h : RowFor T cfg i fs S l) :
    hasData l = true := by
  obtain ⟨a, ha, -⟩ := h.says.id
  have h1 := h.has.all _ _ ha
  obtain ⟨-, j, hj⟩ := h.says.cell _ _ ha
  exact List.any_eq_true.2 ⟨_, h1, by simp [hj.1]⟩

/-- Documents that fit, with simple values in the arrays of one object, can be flattened with rollup. -/
theorem rollable_fits {T : Trip} {fs : List (Str × Json)} (hf : T.FitsFields [] fs)
    (h1 : ∀ key gs k v, (key, .arr [.obj gs]) ∈ fs → (k, v) ∈ gs → ∃ a : Atom, v = .leaf a ∧ a.basic = true) : Rollable fs := by
  intro key l hm hj
  have h2 : T.Fits [key] (.arr l) := by
    have : ∀ (ks : List Str) (fs : List (Str × Json)), T.FitsFields ks fs → ∀ k v, (k, v) ∈ fs → T.Fits (ks ++ [k]) v := by
      intro ks fs
      induction fs with
      | nil => intro _ k v hm; cases hm
      | cons e r ih =>
        obtain ⟨k0, v0⟩ := e
        intro h k v hm
        simp only [Trip.FitsFields] at h
        rcases List.mem_cons.1 hm with hm | hm
        · cases hm; exact h.1
        · exact ih h.2 k v hm
    exact this [] fs hf key _ hm
  simp only [Trip.Fits] at h2
  rcases h2 with ⟨t, h2, -⟩ | ⟨-, -, h2, -⟩
  · rw [hj] at h2; cases h2
  refine ⟨?_, ?_⟩
  · clear hj hm
    induction l with
    | nil => intro j hm; cases hm
    | cons j r ih =>
      cases j with
      | leaf a => simp [Trip.FitsItems] at h2
      | arr a => simp [Trip.FitsItems] at h2
      | obj gs =>
        simp only [Trip.FitsItems] at h2
        intro j hm
        rcases List.mem_cons.1 hm with rfl | hm
        · exact ⟨gs, rfl⟩
        · exact ih h2.2 j hm
  · rintro gs rfl k v hkv
    exact h1 key gs k v hm hkv

/-- C81: such a document is flattened with rollup exactly if the values of the objects that are alone in an array of a root object are neither
objects nor arrays. -/
theorem C81_flattens_iff (T : Trip) (fcfg : FCfg) (ht : fcfg.useTitles = false) (hw : fcfg.wkt = false) (hx : fcfg.xml = false)
    (hro : fcfg.rollup ≠ []) (hf : fcfg.filter = none) (hk : fcfg.preserve = []) (root : List Json) (hfit : T.FitsRoot root) :
    (∃ st, flatten fcfg root = .ok st) ↔
      ∀ fs ∈ objects root, ∀ key gs k v, (key, .arr [.obj gs]) ∈ fs → (k, v) ∈ gs → ∃ a : Atom, v = .leaf a ∧ a.basic = true := by
  rw [C30_flatten_iff fcfg ht hw hx hro hf hk]
  constructor
  · intro h fs hm key gs k v h1 h2
    exact ((h fs hm).2 key _ h1 (joinArray_obj (List.mem_singleton.2 rfl))).2 gs rfl k v h2
  · intro h fs hm
    have h1 := (fitsRoot_mem hfit hm).2.2.1
    exact ⟨(flattenable_fits (T := T) (.obj fs) []).2 fs rfl h1, rollable_fits h1 (h fs hm)⟩

/-- What the lines are, and what a row with the data of a line is. -/
theorem rollup_lines_rows (T : Trip) (fcfg : FCfg) (ucfg : UnCfg) (ht : fcfg.useTitles = false) (hw : fcfg.wkt = false) (hx : fcfg.xml = false)
    (hro : fcfg.rollup ≠ []) (hf : fcfg.filter = none) (hk : fcfg.preserve = []) (hs : FromSchemaParser fcfg)
    (hord : ∀ l x, x ∈ fcfg.order l ↔ x ∈ l) (hid : fcfg.idName = T.idName) (hrid : fcfg.rootId = T.rootId) (hr : T.Reads ucfg)
    (root : List Json) (hfit : T.FitsRoot root) (hids : T.AllHaveIds root) (hroll : T.RollsWell (Rolls fcfg) root)
    (st : FState) (h : flatten fcfg root = .ok st) : ∀ fl ∈ (sheetsOf st).flatMap (·.lines),
    (∀ k v, Dict.get fl k = some v → ∃ b, v = .leaf b) ∧ (∀ rid, T.rootId = some rid → (∀ fs ∈ objects root, Dict.get fs rid ≠ none) → Dict.get fl rid ≠ none) ∧
      ∀ l, T.ReadBack fl l → hasData l = true := by
  have hmain := C30_main_lines fcfg ht hw hx hro hf hk hs hord root (by
    intro fs hm
    obtain ⟨ho, -, hff, -⟩ := fitsRoot_mem hfit hm
    exact (clean_fits (T := T) (.obj fs) []).2 fs rfl ho hff) st h
  have hsub := rollup_sub_lines ht hw hx hf hk hs hid hrid h
  have hsimple := (C81_flattens_iff T fcfg ht hw hx hro hf hk root hfit).1 ⟨st, h⟩
  intro fl hfl
  simp only [sheetsOf, List.flatMap_cons, List.mem_append] at hfl
  rcases hfl with hfl | hfl
  · obtain ⟨i, hi⟩ := List.mem_iff_getElem?.1 hfl
    obtain ⟨fs, h1, h2⟩ := all₂_pair hmain i fl hi
    have hm := List.mem_of_getElem? h1
    obtain ⟨ho, -, hff, hrt⟩ := fitsRoot_mem hfit hm
    refine ⟨?_, ?_, ?_⟩
    · intro k v hg
      obtain ⟨q, -, hq | hq⟩ := (h2 k v).1 hg
      · exact hasCell_leaf hq
      · cases hq with
        | one g1 g2 g3 =>
          obtain ⟨a, ha, -⟩ := hsimple fs hm _ _ _ _ g1 g3
          exact ⟨a, ha⟩
        | many => exact ⟨_, rfl⟩
    · intro rid g1 g2 g3
      cases hv : Dict.get fs rid with
      | none => exact g2 fs hm hv
      | some v =>
        obtain ⟨a, rfl, -⟩ := hrt rid v g1 hv
        have := (h2 rid (.leaf a)).2 ⟨[rid], by simp [pathText, Py.join], .inl (by
          have := HasCell.scalar (keep := everything) (p := []) (Dict.get_eq_some_mem hv) rfl
          simpa using this)⟩
        rw [g3] at this
        cases this
    · intro l hrb
      refine (rowFor_rolled hr hfit h1 (hids.1 fs hm) (rolls := Rolls fcfg) ?_ h2 hrb).hasData
      intro key l gs k v h1 h2 h3 h4
      obtain ⟨rfl, g2⟩ := hroll fs hm key l gs k v h1 h2 h3 h4
      obtain ⟨it, g3, rfl⟩ := single_item (T := T) hm h1
      exact ⟨rfl, g2, hids.2 it g3⟩
  · obtain ⟨it, h1, rfl⟩ := List.mem_map.1 (hsub.mem_iff.1 hfl)
    obtain ⟨i, fs, pl, h2, h3, rfl⟩ := (mem_docItems (T := T)).1 h1
    have hm := List.mem_of_getElem? h2
    have hsp : (i, fs, pl) ∈ spots T root := mem_spots.2 ⟨h2, .inr h3⟩
    have hline := spot_line hfit hsp
    rw [spotLine_sub h3 i] at hline
    obtain ⟨ho, -, hff, hrt⟩ := fitsRoot_mem hfit hm
    refine ⟨?_, ?_, ?_⟩
    · intro k v hg
      obtain ⟨_, b, _, _, rfl⟩ := hline.sound k v hg
      exact ⟨b, rfl⟩
    · intro rid g1 g2 g3
      cases hv : Dict.get fs rid with
      | none => exact g2 fs hm hv
      | some v =>
        obtain ⟨a, rfl, -⟩ := hrt rid v g1 hv
        obtain ⟨s, X, hX⟩ := lv_pre T (.obj fs) [] [] pl h3
        have h5 := hline.complete _ _ (OnLine.root g1 (by rw [hX]; simp) hv)
        have h4 : pathText (strs [PKey.field rid]) = rid := by simp [strs, strP, pathText, Py.join]
        rw [h4, g3] at h5
        cases h5
    · intro l hrb
      rw [← spotLine_sub h3 i] at hrb
      exact (rowFor_spot hr hfit (s := (i, fs, pl)) hsp (hids.1 fs hm) (hids.2 _ h1) hrb).hasData

/-- C81 for sheets that are written to a file and read, where empty cells at the end of lines may be missing. -/
theorem C81_round_trip_of_held (T : Trip) (fcfg : FCfg) (ucfg : UnCfg) (ht : fcfg.useTitles = false) (hw : fcfg.wkt = false) (hx : fcfg.xml = false)
    (hro : fcfg.rollup ≠ []) (hf : fcfg.filter = none) (hk : fcfg.preserve = []) (hs : FromSchemaParser fcfg)
    (hord : ∀ l x, x ∈ fcfg.order l ↔ x ∈ l) (hid : fcfg.idName = T.idName) (hrid : fcfg.rootId = T.rootId) (hr : T.Reads ucfg)
    (cell : Option Json → Atom) (hc : ∀ a, cell (some (.leaf a)) = T.write a) (hb : (cell none).blank = true)
    (root : List Json) (hfit : T.FitsRoot root) (hids : T.AllHaveIds root) (hroll : T.RollsWell (Rolls fcfg) root)
    (hroot : cell none = .none ∨ ∀ rid, T.rootId = some rid → ∀ fs ∈ objects root, Dict.get fs rid ≠ none)
    (st : FState) (h : flatten fcfg root = .ok st) (hn : ∀ s ∈ sheetsOf st, s.headings.Nodup)
    (order : List Sheet) (sheets : List SheetIn) (hperm : order.Perm (sheetsOf st)) (hread : All₂ (SheetHolds cell) order sheets) :
    ∃ out w, unflatten ucfg sheets = .ok (out, w) ∧ Rearranged (.arr root) (.arr out) := by
  obtain ⟨out, w, h1, h2, -⟩ := C81_rollup_round_trip T fcfg ucfg ht hw hx hro hf hk hs hord hid hrid hr root hfit hids hroll st h
    (order.flatMap (·.lines)) sheets (hperm.flatMap_right _) (held_lines (cell := cell) (by
      intro s hm l hl line hkept
      have hm' := hperm.mem_iff.1 hm
      obtain ⟨g1, g2, g3⟩ := rollup_lines_rows T fcfg ucfg ht hw hx hro hf hk hs hord hid hrid hr root hfit hids hroll st h l
        (List.mem_flatMap.2 ⟨s, hm', hl⟩)
      have g4 := readBack_kept (readBack_line hc hb hs h hm' (hn s hm') hl g1 (hroot.imp id (fun h rid hrid => g2 rid hrid (h rid hrid)))) hkept
      exact ⟨g4, g3 _ g4⟩) hread)
  exact ⟨out, w, h1, h2⟩

/-- C81 for CSV files: the sheets flattened with rollup are written to CSV files, the files are read (in any order) and unflattened. -/
theorem C81_csv_round_trip (T : Trip) (fcfg : FCfg) (ucfg : UnCfg) (ht : fcfg.useTitles = false) (hw : fcfg.wkt = false) (hx : fcfg.xml = false)
    (hro : fcfg.rollup ≠ []) (hf : fcfg.filter = none) (hk : fcfg.preserve = []) (hs : FromSchemaParser fcfg)
    (hh : ∀ sp, fcfg.schema = some sp → sp.main.headings.Nodup ∧ ∀ n s, (n, s) ∈ sp.subs → s.headings.Nodup)
    (hord : ∀ l x, x ∈ fcfg.order l ↔ x ∈ l) (hid : fcfg.idName = T.idName) (hrid : fcfg.rootId = T.rootId) (hr : T.Reads ucfg)
    (strOf : Json → Str) (hwr : ∀ a, T.write a = .str (csvText strOf (some (.leaf a))))
    (root : List Json) (hfit : T.FitsRoot root) (hids : T.AllHaveIds root) (hroll : T.RollsWell (Rolls fcfg) root)
    (hsimple : ∀ fs ∈ objects root, ∀ key gs k v, (key, .arr [.obj gs]) ∈ fs → (k, v) ∈ gs → ∃ a : Atom, v = .leaf a ∧ a.basic = true)
    (hroot : ∀ rid, T.rootId = some rid → ∀ fs ∈ objects root, Dict.get fs rid ≠ none) :
    ∃ st, flatten fcfg root = .ok st ∧ ∀ (order : List Sheet), order.Perm (sheetsOf st) →
      (∀ s ∈ order, s.headings ≠ [] ∧ s.headings.head? ≠ some s%"#") → ∀ name : Sheet → Str,
      ∃ sheets, All₂ (fun s sh => ∃ g, csvGrid strOf s = .ok g ∧ csvSheet {} (name s) g = .ok sh) order sheets ∧
        ∃ out w, unflatten ucfg sheets = .ok (out, w) ∧ Rearranged (.arr root) (.arr out) := by
  obtain ⟨st, hst⟩ := (C81_flattens_iff T fcfg ht hw hx hro hf hk root hfit).2 hsimple
  refine ⟨st, hst, ?_⟩
  intro order hperm hhead name
  refine ⟨order.map (fun s => { name := name s, headings := some (s.headings.map some), lines := s.lines.map (fun l => s.headings.map (fun h => (some h, Atom.str (csvText strOf (Dict.get l h))))) }), ?_, ?_⟩
  · refine all₂_map_right _ ?_
    intro s hm
    obtain ⟨g, h1, h2⟩ := flatten_csv_reads_back fcfg hs hh root st hst s (hperm.mem_iff.1 hm) (hhead s hm).1 (hhead s hm).2 strOf (name s)
    exact ⟨g, h1, h2⟩
  · exact C81_round_trip_of_held T fcfg ucfg ht hw hx hro hf hk hs hord hid hrid hr (fun v => .str (csvText strOf v)) (fun a => (hwr a).symm) rfl
      root hfit hids hroll (.inr hroot) st hst (fun s hm => C26_no_repeated_headings fcfg hs hh root st hst s hm) order _ hperm
      (all₂_map_right _ (fun s _ => SheetReads.holds ⟨rfl, rfl⟩))

/-- C81 for worksheets: the sheets flattened with rollup are written to worksheets, read (in any order) and unflattened. -/
theorem C81_xlsx_round_trip (T : Trip) (fcfg : FCfg) (ucfg : UnCfg) (ht : fcfg.useTitles = false) (hw : fcfg.wkt = false) (hx : fcfg.xml = false)
    (hro : fcfg.rollup ≠ []) (hf : fcfg.filter = none) (hk : fcfg.preserve = []) (hs : FromSchemaParser fcfg)
    (hh : ∀ sp, fcfg.schema = some sp → sp.main.headings.Nodup ∧ ∀ n s, (n, s) ∈ sp.subs → s.headings.Nodup)
    (hord : ∀ l x, x ∈ fcfg.order l ↔ x ∈ l) (hid : fcfg.idName = T.idName) (hrid : fcfg.rootId = T.rootId) (hr : T.Reads ucfg)
    (hwr : ∀ a, T.write a = sheetAtom (some (.leaf a)))
    (root : List Json) (hfit : T.FitsRoot root) (hids : T.AllHaveIds root) (hroll : T.RollsWell (Rolls fcfg) root)
    (hsimple : ∀ fs ∈ objects root, ∀ key gs k v, (key, .arr [.obj gs]) ∈ fs → (k, v) ∈ gs → ∃ a : Atom, v = .leaf a ∧ a.basic = true) :
    ∃ st, flatten fcfg root = .ok st ∧ ∀ (order : List Sheet), order.Perm (sheetsOf st) →
      (∀ s ∈ order, (∀ h ∈ s.headings, h ≠ []) ∧ s.headings.head? ≠ some s%"#") → ∀ name : Sheet → Str,
      ∃ sheets, All₂ (fun s sh => ∃ g, xlsxGrid s = .ok g ∧ xlsxSheet {} (name s) g = .ok sh) order sheets ∧
        ∃ out w, unflatten ucfg sheets = .ok (out, w) ∧ Rearranged (.arr root) (.arr out) := by
  obtain ⟨st, hst⟩ := (C81_flattens_iff T fcfg ht hw hx hro hf hk root hfit).2 hsimple
  refine ⟨st, hst, ?_⟩
  intro order hperm hhead name
  have hn : ∀ s ∈ sheetsOf st, s.headings.Nodup := fun s hm => C26_no_repeated_headings fcfg hs hh root st hst s hm
  refine ⟨order.map (fun s => { name := name s, headings := some (s.headings.map some), lines := s.lines.map (fun l => s.headings.map (fun h => (some h, sheetAtom (Dict.get l h)))) }), ?_, ?_⟩
  · refine all₂_map_right _ ?_
    intro s hm
    have hm' := hperm.mem_iff.1 hm
    refine C33_xlsx_reads_back s (name s) (hn s hm') (hhead s hm).1 (hhead s hm).2 ?_
    intro line hl k v hg
    exact (rollup_lines_rows T fcfg ucfg ht hw hx hro hf hk hs hord hid hrid hr root hfit hids hroll st hst line
      (List.mem_flatMap.2 ⟨s, hm', hl⟩)).1 k v hg
  · exact C81_round_trip_of_held T fcfg ucfg ht hw hx hro hf hk hs hord hid hrid hr sheetAtom (fun a => (hwr a).symm) rfl
      root hfit hids hroll (.inl rfl) st hst hn order _ hperm (all₂_map_right _ (fun s _ => SheetReads.holds ⟨rfl, rfl⟩))

/-! ### A document -/

/-- `[{"ocid": "1", "id": "A", "dishes": [{"id": "d1", "name": "soup"}]}, {"ocid": "1", "id": "B", "dishes": [{"id": "d1", "name": "cake"}]}]` -/
def rollDoc : List Json :=
  [.obj [(s%"ocid", .leaf (.str s%"1")), (s%"id", .leaf (.str s%"A")),
      (s%"dishes", .arr [.obj [(s%"id", .leaf (.str s%"d1")), (s%"name", .leaf (.str s%"soup"))]])],
    .obj [(s%"ocid", .leaf (.str s%"1")), (s%"id", .leaf (.str s%"B")),
      (s%"dishes", .arr [.obj [(s%"id", .leaf (.str s%"d1")), (s%"name", .leaf (.str s%"cake"))]])]]

theorem rollDoc_fits : tripT.FitsRoot rollDoc where
  idName := by decide +kernel
  rootName := by
    intro rid h
    cases h
    decide +kernel
  each := by
    have text : ∀ (ks : List Str) (s : Str), s ≠ [] → tripT.types (pathText ks) = none → tripT.Fits ks (.leaf (.str s)) := by
      intro ks s h1 h2
      simp only [Trip.Fits]
      exact ⟨rfl, C11_texts_return tripT ks s h1 rfl (.inl h2)⟩
    have hid : ∀ fs : List (Str × Json), (∀ rid v, tripT.rootId = some rid → Dict.get fs rid = some v → ∃ s, v = .leaf (.str s)) →
        ∀ rid v, tripT.rootId = some rid → Dict.get fs rid = some v →
        ∃ a, v = .leaf a ∧ (Val.atom (tripT.write a)).pyEq (.atom (tripT.write a)) = true := by
      intro fs h rid v h1 h2
      obtain ⟨s, rfl⟩ := h rid v h1 h2
      exact ⟨_, rfl, by simp [tripT, csvText, Py.str, Val.pyEq, Val.canon, Atom.canon]⟩
    intro x hx
    simp only [rollDoc, List.mem_cons, List.not_mem_nil, or_false] at hx
    rcases hx with rfl | rfl <;>
    · refine ⟨_, rfl, ?_, ?_, ?_, hid _ ?_⟩
      · refine ⟨by simp, by decide +kernel, by decide +kernel, ?_⟩
        intro v hv; decide +kernel
      · intro _; decide +kernel
      · simp only [Trip.FitsFields, and_true]
        refine ⟨text _ _ (by simp) rfl, text _ _ (by simp) rfl, ?_⟩
        simp only [Trip.Fits]
        right
        refine ⟨by decide +kernel, .inl (by decide +kernel), ?_, List.pairwise_singleton _ _⟩
        simp only [Trip.FitsItems, and_true]
        refine ⟨⟨by simp, by decide +kernel, by decide +kernel, by intro v _; decide +kernel⟩, by intro rid h; cases h; decide +kernel,
          by intro _; decide +kernel, ?_⟩
        simp only [Trip.FitsFields, and_true]
        exact ⟨text _ _ (by simp) (by decide +kernel), text _ _ (by simp) (by decide +kernel)⟩
      · intro rid v h1 h2
        cases h1
        cases h2
        exact ⟨_, rfl⟩
  distinct := by
    refine List.Pairwise.cons ?_ (List.pairwise_singleton _ _)
    intro y hy h
    cases hy with
    | tail _ hy => cases hy
    | head =>
      intro a b ha hb
      cases ha
      cases hb
      decide +kernel

theorem rollDoc_ids : tripT.AllHaveIds rollDoc := by
  constructor
  · intro fs hm
    simp only [rollDoc, objects, List.mem_cons, List.not_mem_nil, or_false] at hm
    rcases hm with rfl | rfl <;> decide +kernel
  · intro it hm
    have h : ∀ it ∈ docItems everything rollDoc, (tripT.idOf it.fields).isSome = true := by decide +kernel
    have := h it hm
    intro hn
    rw [hn] at this
    cases this

/-- The document through CSV files, with the dishes rolled up. -/
example : ∃ st, flatten { rootId := some s%"ocid", rollup := [s%"dishes"] } rollDoc = .ok st ∧ ∀ (order : List Sheet), order.Perm (sheetsOf st) →
    (∀ s ∈ order, s.headings ≠ [] ∧ s.headings.head? ≠ some s%"#") → ∀ name : Sheet → Str,
    ∃ sheets, All₂ (fun s sh => ∃ g, csvGrid (fun _ => []) s = .ok g ∧ csvSheet {} (name s) g = .ok sh) order sheets ∧
      ∃ out w, unflatten { row := { types := tripT.types }, idName := some s%"id", rootId := some s%"ocid" } sheets = .ok (out, w) ∧
        Rearranged (.arr rollDoc) (.arr out) :=
  C81_csv_round_trip tripT _ _ rfl rfl rfl (by simp) rfl rfl (by intro sp h; cases h) (by intro sp h; cases h) (by intro l x; rfl) rfl rfl
    ⟨rfl, rfl, rfl, rfl, rfl⟩ _ (fun _ => rfl) rollDoc rollDoc_fits rollDoc_ids
    (by
      intro fs hm key l gs k v h1 h2 h3 h4
      have h5 : key = s%"dishes" := by
        rcases h4 with h4 | ⟨sp, h4, -⟩
        · simpa using h4
        · cases h4
      refine ⟨?_, .inl (by simp [h5])⟩
      simp only [rollDoc, objects, List.mem_cons, List.not_mem_nil, or_false] at hm
      rcases hm with rfl | rfl <;>
      · simp only [List.mem_cons, Prod.mk.injEq, reduceCtorEq, and_false, false_or, List.not_mem_nil, or_false, Json.arr.injEq] at h1
        obtain ⟨-, rfl⟩ := h1
        simp only [List.mem_singleton] at h2
        rw [h2])
    (by
      intro fs hm key gs k v h1 h2
      simp only [rollDoc, objects, List.mem_cons, List.not_mem_nil, or_false] at hm
      rcases hm with rfl | rfl <;>
      · simp only [List.mem_cons, Prod.mk.injEq, reduceCtorEq, and_false, false_or, List.not_mem_nil, or_false, Json.arr.injEq, List.cons.injEq, Json.obj.injEq, and_true] at h1
        obtain ⟨-, rfl⟩ := h1
        simp only [List.mem_cons, Prod.mk.injEq, List.not_mem_nil, or_false] at h2
        rcases h2 with ⟨-, rfl⟩ | ⟨-, rfl⟩ <;> exact ⟨_, rfl, rfl⟩)
    (by
      intro rid h fs hm
      cases h
      simp only [rollDoc, objects, List.mem_cons, List.not_mem_nil, or_false] at hm
      rcases hm with rfl | rfl <;> decide +kernel)

/-- Why the arrays that are rolled up need to have one item: with two dishes the main sheet has a warning in the cell of the id, and the warning comes back
as a dish. -/
example : (flatten { rootId := none, rollup := [s%"a"] } [.obj [(s%"id", .leaf (.str s%"1")),
        (s%"a", .arr [.obj [(s%"id", .leaf (.str s%"x"))], .obj [(s%"id", .leaf (.str s%"y"))]])]]).toOption.map (fun st => (sheetsOf st).map (·.lines)) =
      some [[[(s%"id", .leaf (.str s%"1")), (s%"a/0/id", .leaf (.str rollupText))]],
        [[(s%"id", .leaf (.str s%"1")), (s%"a/0/id", .leaf (.str s%"x"))], [(s%"id", .leaf (.str s%"1")), (s%"a/0/id", .leaf (.str s%"y"))]]] ∧
    (unflatten { idName := some s%"id" } [⟨s%"m", none, [[(some s%"id", .str s%"1"), (some s%"a/0/id", .str rollupText)]]⟩,
        ⟨s%"a", none, [[(some s%"id", .str s%"1"), (some s%"a/0/id", .str s%"x")], [(some s%"id", .str s%"1"), (some s%"a/0/id", .str s%"y")]]⟩]).toOption.map (·.1) =
      some [.obj [(s%"id", .leaf (.str s%"1")),
        (s%"a", .arr [.obj [(s%"id", .leaf (.str rollupText))], .obj [(s%"id", .leaf (.str s%"x"))], .obj [(s%"id", .leaf (.str s%"y"))]])]] := by
  constructor <;> decide +kernel

/-- Why the id has to be rolled up too, and why items need an id: an item without id comes back twice. -/
example : (flatten { rootId := none, rollup := [s%"a"] } [.obj [(s%"id", .leaf (.str s%"1")),
        (s%"a", .arr [.obj [(s%"n", .leaf (.str s%"x"))]])]]).toOption.map (fun st => (sheetsOf st).map (·.lines)) =
      some [[[(s%"id", .leaf (.str s%"1")), (s%"a/0/n", .leaf (.str s%"x"))]],
        [[(s%"id", .leaf (.str s%"1")), (s%"a/0/n", .leaf (.str s%"x"))]]] ∧
    (unflatten { idName := some s%"id" } [⟨s%"m", none, [[(some s%"id", .str s%"1"), (some s%"a/0/n", .str s%"x")]]⟩,
        ⟨s%"a", none, [[(some s%"id", .str s%"1"), (some s%"a/0/n", .str s%"x")]]⟩]).toOption.map (·.1) =
      some [.obj [(s%"id", .leaf (.str s%"1")), (s%"a", .arr [.obj [(s%"n", .leaf (.str s%"x"))], .obj [(s%"n", .leaf (.str s%"x"))]])]] := by
  constructor <;> decide +kernel

/-- With rollup, an object that is alone in an array of a root object must not have objects or arrays in it, even if another array is to be rolled up. -/
example : (∃ st, flatten {} [.obj [(s%"b", .arr [.obj [(s%"c", .obj [])]])]] = .ok st) ∧
    flatten { rollup := [s%"a"] } [.obj [(s%"b", .arr [.obj [(s%"c", .obj [])]])]] = .error .value := by
  constructor
  · exact ⟨_, rfl⟩
  · rfl

end Verif

import Verif.Proofs.TripDoc
import Verif.Props.Convert
/-! C11: a document that is flattened, written, read and unflattened comes back. -/
namespace Verif
open Spec

theorem flattenable_fits {T : Trip} (v : Json) : ∀ ks, (T.Fits ks v → Flattenable v) ∧
    ∀ fs, v = .obj fs → T.FitsFields ks fs → FlattenableFields fs := by
  induction v using Json.ind with
  | leaf a =>
    intro ks
    refine ⟨?_, by intro fs e; cases e⟩
    intro h
    simp only [Trip.Fits] at h
    exact h.1
  | obj fs ih =>
    intro ks
    have hF : ∀ gs, (∀ e ∈ gs, e ∈ fs) → T.FitsFields ks gs → FlattenableFields gs := by
      intro gs
      induction gs with
      | nil => intro _ _; simp [FlattenableFields]
      | cons e r ihr =>
        intro hm h
        obtain ⟨k, v⟩ := e
        simp only [Trip.FitsFields] at h
        simp only [FlattenableFields]
        exact ⟨(ih (k, v) (hm _ (by simp)) _).1 h.1, ihr (fun x hx => hm x (by simp [hx])) h.2⟩
    refine ⟨?_, ?_⟩
    · intro h
      simp only [Trip.Fits] at h
      simp only [Flattenable]
      exact hF fs (fun _ h => h) h.2.2.2
    · intro gs e h
      cases e
      exact hF fs (fun _ h => h) h
  | arr l ih =>
    intro ks
    refine ⟨?_, by intro fs e; cases e⟩
    intro h
    simp only [Trip.Fits] at h
    simp only [Flattenable]
    rcases h with ⟨t, ht, _⟩ | ⟨_, _, h, _⟩
    · left; simp [ht]
    · right
      have hI : ∀ m, (∀ x ∈ m, x ∈ l) → T.FitsItems ks m → FlattenableItems m := by
        intro m
        induction m with
        | nil => intro _ _; simp [FlattenableItems]
        | cons x r ihr =>
          intro hm h
          cases x with
          | leaf a => simp [Trip.FitsItems] at h
          | arr a => simp [Trip.FitsItems] at h
          | obj fs =>
            simp only [Trip.FitsItems] at h
            simp only [FlattenableItems]
            exact ⟨(ih _ (hm _ (by simp)) ks).2 fs rfl h.1.2.2.2, ihr (fun x hx => hm x (by simp [hx])) h.2⟩
      exact hI l (fun _ h => h) h

/-- C11: a document that fits is flattened; and whenever sheets have the data of the lines of all the flattened sheets (in any order
and arrangement of lines, columns and sheets), unflattening them succeeds and gives the document, up to the order of fields and items. -/
theorem C11_round_trip (T : Trip) (fcfg : FCfg) (ucfg : UnCfg) (hp : Plain fcfg) (hf : fcfg.filter = none) (hk : fcfg.preserve = [])
    (hs : FromSchemaParser fcfg) (hid : fcfg.idName = T.idName) (hrid : fcfg.rootId = T.rootId) (hr : T.Reads ucfg)
    (root : List Json) (hfit : T.FitsRoot root) :
    ∃ st, flatten fcfg root = .ok st ∧
      ∀ (lines : List FLine) (sheets : List SheetIn), lines.Perm ((sheetsOf st).flatMap (·.lines)) →
        All₂ T.ReadBack lines ((rowsIn sheets).map (·.line)) →
        ∃ out w, unflatten ucfg sheets = .ok (out, w) ∧ Rearranged (.arr root) (.arr out) := by
  obtain ⟨st, hst⟩ := C23_flatten_succeeds fcfg hp root (by
    intro fs hm
    exact (flattenable_fits (T := T) (.obj fs) []).2 fs rfl (fitsRoot_mem hfit hm).2.2.1)
  refine ⟨st, hst, ?_⟩
  intro lines sheets hperm hread
  have h1 := all_lines hp hf hk hs hst
  have hopt : idOpts fcfg = ⟨T.idName, T.rootId⟩ := by simp [idOpts, hid, hrid]
  rw [hopt] at h1
  obtain ⟨ss, hss, rfl⟩ := perm_map_lift (hperm.trans (h1.trans (spots_lines T root).symm)) (l := spots T root) rfl
  obtain ⟨ys, xs, gs, t, h2, h3, h4, h5, h6, h7, h8⟩ := spots_run hr hfit hss hread
  obtain ⟨w, h9, _⟩ := doUnflatten_of_rows h2 h3
  have hran : Ran T root ss xs t := ⟨hfit, hss, h4, h6, h7, h8⟩
  exact ⟨_, w, by simp only [unflatten, h9], hran.back h5⟩

/-! ### Through files -/

/-- The sheet `sh` that is read has the lines of the flattened sheet `s`, all with the columns of `s`; `cell` says what the values become. -/
def SheetReads (cell : Option Json → Atom) (s : Sheet) (sh : SheetIn) : Prop :=
  sh.headings = some (s.headings.map some) ∧ sh.lines = s.lines.map (fun l => s.headings.map (fun h => (some h, cell (Dict.get l h))))

theorem readBack_of {T : Trip} {fcfg : FCfg} {cell : Option Json → Atom} (hc : ∀ a, cell (some (.leaf a)) = T.write a) (hb : (cell none).blank = true)
    (hs : FromSchemaParser fcfg) {root : List Json} (hfit : T.FitsRoot root) {st : FState} (hst : flatten fcfg root = .ok st)
    (hroot : cell none = .none ∨ ∀ rid, T.rootId = some rid → ∀ fs ∈ objects root, Dict.get fs rid ≠ none)
    {s : Sheet} (hm : s ∈ sheetsOf st) (hn : s.headings.Nodup) {p : Spot} (hp : p ∈ spots T root) (hl : spotLine T p ∈ s.lines) :
    T.ReadBack (spotLine T p) (s.headings.map (fun h => (some h, cell (Dict.get (spotLine T p) h)))) := by
  have hline := spot_line hfit hp
  have hp1 := (mem_spots.1 hp).1
  obtain ⟨ho, hnm, hff, hrt⟩ := fitsRoot_mem hfit (List.mem_of_getElem? hp1)
  refine ⟨?_, ?_, ?_, ?_⟩
  · rw [List.map_map]
    have : ((fun x : Option Str × Atom => x.1) ∘ fun h => (some h, cell (Dict.get (spotLine T p) h))) = some := rfl
    rw [this]
    exact hn.map _ (fun a b hab e => hab (Option.some.inj e))
  · intro h a hm' hna
    obtain ⟨k, _, he⟩ := List.mem_map.1 hm'
    simp only [Prod.mk.injEq] at he
    cases hg : Dict.get (spotLine T p) k with
    | none =>
      rw [hg] at he
      rw [← he.2, hb] at hna
      cases hna
    | some j =>
      obtain ⟨P, b, _, _, rfl⟩ := hline.sound k j hg
      rw [hg, hc] at he
      exact ⟨k, b, he.1.symm, hg, he.2.symm⟩
  · intro k b hg _
    have hk := (C25_every_value_has_a_column fcfg hs root st hst s hm).1 _ hl k (by
      have := Dict.get_eq_some_mem hg
      exact List.mem_map.2 ⟨_, this, rfl⟩)
    refine List.mem_map.2 ⟨k, hk, ?_⟩
    rw [hg, hc]
  · intro rid hrid hg a ha
    obtain ⟨k, _, he⟩ := List.mem_map.1 ha
    simp only [Prod.mk.injEq, Option.some.injEq] at he
    obtain ⟨rfl, he⟩ := he
    rw [hg] at he
    rcases hroot with hroot | hroot
    · rw [← he, hroot]
    · have h1 := hroot _ hrid p.2.1 (List.mem_of_getElem? hp1)
      cases hv : Dict.get p.2.1 k with
      | none => exact absurd hv h1
      | some v =>
        obtain ⟨b, rfl, _⟩ := hrt _ _ hrid hv
        have h2 : OnLine T p.2.1 p.2.2 [.field k] b := by
          by_cases hpath : p.2.2.path = []
          · have hpl : p.2.2 = ⟨[], [], p.2.1⟩ := by
              rcases (mem_spots.1 hp).2 with h | h
              · exact h
              · obtain ⟨s, X, hX⟩ := lv_pre T (.obj p.2.1) [] [] _ h
                rw [hX] at hpath
                simp at hpath
            have h3 : HasCell everything [] p.2.2.fields [k] (.leaf b) := by
              rw [hpl]
              have := HasCell.scalar (keep := everything) (p := []) (Dict.get_eq_some_mem hv) rfl
              simpa using this
            have h4 := OnLine.own (T := T) (fs0 := p.2.1) h3
            rw [hpath] at h4
            exact h4
          · exact .root hrid hpath hv
        have h3 := hline.complete _ _ h2
        have h4 : pathText (strs [PKey.field k]) = k := by simp [strs, strP, pathText, Py.join]
        rw [h4, hg] at h3
        cases h3

theorem rowsIn_lines (sheets : List SheetIn) : (rowsIn sheets).map (·.line) =
    sheets.flatMap (fun s => if s.headings = some [] then [] else s.lines.filter hasData) := by
  unfold rowsIn
  rw [List.map_flatMap]
  congr 1
  funext s
  split
  · rfl
  · rw [List.map_map]
    have h1 : ∀ (ls : List Line) (n : Nat), ((ls.zipIdx n).filter (fun p => hasData p.1)).map ((fun r : RowIn => r.line) ∘ fun p => ⟨s, p.2, p.1⟩) = ls.filter hasData := by
      intro ls
      induction ls with
      | nil => intro n; rfl
      | cons l r ih =>
        intro n
        simp only [List.zipIdx_cons, List.filter_cons]
        split
        · simp only [List.map_cons, Function.comp, ih]
        · exact ih _
    exact h1 _ 0

theorem all₂_app {α β : Type} {R : α → β → Prop} {a c : List α} {b d : List β} (h : All₂ R a b) (h' : All₂ R c d) : All₂ R (a ++ c) (b ++ d) := by
  induction h with
  | nil => exact h'
  | cons h1 _ ih => exact .cons h1 ih

/-- A line that is read: empty cells at the end may be missing. -/
def Kept (full line : Line) : Prop := ∃ rest, full = line ++ rest ∧ ∀ p ∈ rest, p.2 = Atom.none

/-- As `SheetReads`, where empty cells at the end of lines, and lines without data, may be missing. -/
def SheetHolds (cell : Option Json → Atom) (s : Sheet) (sh : SheetIn) : Prop :=
  sh.headings = some (s.headings.map some) ∧ ∃ ls, All₂ (fun l line => Kept (s.headings.map (fun h => (some h, cell (Dict.get l h)))) line) s.lines ls ∧
    sh.lines.filter hasData = ls.filter hasData

theorem SheetReads.holds {cell : Option Json → Atom} {s : Sheet} {sh : SheetIn} (h : SheetReads cell s sh) : SheetHolds cell s sh := by
  refine ⟨h.1, _, ?_, by rw [h.2]⟩
  exact all₂_map_right _ (fun l _ => ⟨[], by simp, by simp⟩)

theorem readBack_kept {T : Trip} {fl : FLine} {full line : Line} (h : T.ReadBack fl full) (hk : Kept full line) : T.ReadBack fl line := by
  obtain ⟨rest, rfl, hr⟩ := hk
  refine ⟨?_, fun k a hm hb => h.from_ k a (by simp [hm]) hb, ?_, fun rid h1 h2 a hm => h.noRoot rid h1 h2 a (by simp [hm])⟩
  · have := h.columns
    rw [List.map_append, List.nodup_append] at this
    exact this.1
  · intro k b h1 h2
    rcases List.mem_append.1 (h.all k b h1 h2) with h3 | h3
    · exact h3
    · have := hr _ h3
      simp only at this
      rw [this] at h2
      cases h2

/-- C11 for sheets that are written to a file and read, where empty cells at the end of lines may be missing. -/
theorem C11_round_trip_of_held (T : Trip) (fcfg : FCfg) (ucfg : UnCfg) (hp : Plain fcfg) (hf : fcfg.filter = none) (hk : fcfg.preserve = [])
    (hs : FromSchemaParser fcfg) (hid : fcfg.idName = T.idName) (hrid : fcfg.rootId = T.rootId) (hr : T.Reads ucfg)
    (cell : Option Json → Atom) (hc : ∀ a, cell (some (.leaf a)) = T.write a) (hb : (cell none).blank = true)
    (root : List Json) (hfit : T.FitsRoot root)
    (hroot : cell none = .none ∨ ∀ rid, T.rootId = some rid → ∀ fs ∈ objects root, Dict.get fs rid ≠ none) :
    ∃ st, flatten fcfg root = .ok st ∧
      ((∀ s ∈ sheetsOf st, s.headings.Nodup) →
        ∀ (order : List Sheet) (sheets : List SheetIn), order.Perm (sheetsOf st) → All₂ (SheetHolds cell) order sheets →
        ∃ out w, unflatten ucfg sheets = .ok (out, w) ∧ Rearranged (.arr root) (.arr out)) := by
  obtain ⟨st, hst, hmain⟩ := C11_round_trip T fcfg ucfg hp hf hk hs hid hrid hr root hfit
  refine ⟨st, hst, ?_⟩
  intro hn order sheets hperm hread
  refine hmain (order.flatMap (·.lines)) sheets (hperm.flatMap_right _) ?_
  rw [rowsIn_lines]
  have h1 : ((sheetsOf st).flatMap (·.lines)).Perm ((spots T root).map (spotLine T)) := by
    have hopt : idOpts fcfg = ⟨T.idName, T.rootId⟩ := by simp [idOpts, hid, hrid]
    have := all_lines hp hf hk hs hst
    rw [hopt] at this
    exact this.trans (spots_lines T root).symm
  have hspot : ∀ s ∈ sheetsOf st, ∀ l ∈ s.lines, ∃ p ∈ spots T root, spotLine T p = l := by
    intro s hm l hl
    have : l ∈ (sheetsOf st).flatMap (·.lines) := List.mem_flatMap.2 ⟨s, hm, hl⟩
    exact List.mem_map.1 (h1.mem_iff.1 this)
  have hsub : ∀ s ∈ order, s ∈ sheetsOf st := fun s hm => hperm.mem_iff.1 hm
  clear hperm
  induction hread with
  | nil => exact .nil
  | @cons s sh order' sheets' h2 h3 ih =>
    simp only [List.flatMap_cons]
    refine all₂_app ?_ (ih (fun x hx => hsub x (by simp [hx])))
    have hsm := hsub s (by simp)
    have h4 : ∀ l ∈ s.lines, ∀ line, Kept (s.headings.map (fun h => (some h, cell (Dict.get l h)))) line → T.ReadBack l line ∧
        hasData line = true := by
      intro l hl line hkept
      obtain ⟨p, hp', rfl⟩ := hspot s hsm l hl
      have h5 := readBack_kept (readBack_of hc hb hs hfit hst hroot hsm (hn s hsm) hp' hl) hkept
      refine ⟨h5, ?_⟩
      have hp1 := (mem_spots.1 hp').1
      obtain ⟨ho, hnm, hff, hrt⟩ := fitsRoot_mem hfit (List.mem_of_getElem? hp1)
      exact (rowOfPlace hr.xml hr.types hr.conv hr.idName hr.rootId ho hff hfit.rootName
        (fun rid v h3 h4 => by obtain ⟨a, ha, _⟩ := hrt rid v h3 h4; exact ⟨a, ha⟩) (spot_fine hfit hp') (spot_line hfit hp') p.1
        ⟨sh, 0, _⟩ h5).1
    obtain ⟨h5, ls, h6, h7⟩ := h2
    have h8 : ∀ line ∈ ls, hasData line = true := by
      intro line hl
      obtain ⟨l, hl', h8⟩ := all₂_mem_right h6 hl
      exact (h4 l hl' line h8).2
    rw [h7, List.filter_eq_self.2 h8]
    by_cases hempty : s.lines = []
    · rw [hempty] at h6
      cases h6
      rw [hempty]
      simp only [ite_self]
      exact .nil
    · have hne : s.headings ≠ [] := by
        intro he
        obtain ⟨l, hl⟩ := List.exists_mem_of_ne_nil _ hempty
        have := (h4 l hl [] ⟨[], by simp [he], by simp⟩).2
        cases this
      rw [if_neg (by rw [h5]; simpa using hne)]
      have h9 : ∀ l ∈ s.lines, l ∈ s.lines := fun _ h => h
      generalize hL : s.lines = L at h6 h9 ⊢
      rw [hL] at h4
      clear hL hempty h7 h8
      induction h6 with
      | nil => exact .nil
      | cons h10 _ ih => exact .cons (h4 _ (by simp) _ h10).1 (ih (fun l hl => h4 l (by simp [hl])) (fun _ h => h))

/-- C11 for sheets that are written to a file and read, with all their columns. -/
theorem C11_round_trip_of_sheets (T : Trip) (fcfg : FCfg) (ucfg : UnCfg) (hp : Plain fcfg) (hf : fcfg.filter = none) (hk : fcfg.preserve = [])
    (hs : FromSchemaParser fcfg) (hid : fcfg.idName = T.idName) (hrid : fcfg.rootId = T.rootId) (hr : T.Reads ucfg)
    (cell : Option Json → Atom) (hc : ∀ a, cell (some (.leaf a)) = T.write a) (hb : (cell none).blank = true)
    (root : List Json) (hfit : T.FitsRoot root)
    (hroot : cell none = .none ∨ ∀ rid, T.rootId = some rid → ∀ fs ∈ objects root, Dict.get fs rid ≠ none) :
    ∃ st, flatten fcfg root = .ok st ∧
      ((∀ s ∈ sheetsOf st, s.headings.Nodup) →
        ∀ (order : List Sheet) (sheets : List SheetIn), order.Perm (sheetsOf st) → All₂ (SheetReads cell) order sheets →
        ∃ out w, unflatten ucfg sheets = .ok (out, w) ∧ Rearranged (.arr root) (.arr out)) := by
  obtain ⟨st, h1, h2⟩ := C11_round_trip_of_held T fcfg ucfg hp hf hk hs hid hrid hr cell hc hb root hfit hroot
  exact ⟨st, h1, fun hn order sheets hperm hread => h2 hn order sheets hperm (All₂.imp hread (fun _ _ h => h.holds))⟩

/-- C11 for CSV files: the flattened sheets are written to CSV files, the files are read (in any order) and unflattened.  Every root
object must have the root id, if there is one (a missing value and an empty one are the same in a CSV file). -/
theorem C11_csv_round_trip (T : Trip) (fcfg : FCfg) (ucfg : UnCfg) (hp : Plain fcfg) (hf : fcfg.filter = none) (hk : fcfg.preserve = [])
    (hs : FromSchemaParser fcfg)
    (hh : ∀ sp, fcfg.schema = some sp → sp.main.headings.Nodup ∧ ∀ n s, (n, s) ∈ sp.subs → s.headings.Nodup)
    (hid : fcfg.idName = T.idName) (hrid : fcfg.rootId = T.rootId) (hr : T.Reads ucfg)
    (strOf : Json → Str) (hw : ∀ a, T.write a = .str (csvText strOf (some (.leaf a))))
    (root : List Json) (hfit : T.FitsRoot root) (hroot : ∀ rid, T.rootId = some rid → ∀ fs ∈ objects root, Dict.get fs rid ≠ none) :
    ∃ st, flatten fcfg root = .ok st ∧ ∀ (order : List Sheet), order.Perm (sheetsOf st) →
      (∀ s ∈ order, s.headings ≠ [] ∧ s.headings.head? ≠ some s%"#") → ∀ name : Sheet → Str,
      ∃ sheets, All₂ (fun s sh => ∃ g, csvGrid strOf s = .ok g ∧ csvSheet {} (name s) g = .ok sh) order sheets ∧
        ∃ out w, unflatten ucfg sheets = .ok (out, w) ∧ Rearranged (.arr root) (.arr out) := by
  obtain ⟨st, hst, hmain⟩ := C11_round_trip_of_sheets T fcfg ucfg hp hf hk hs hid hrid hr (fun v => .str (csvText strOf v))
    (fun a => (hw a).symm) rfl root hfit (.inr hroot)
  refine ⟨st, hst, ?_⟩
  intro order hperm hhead name
  refine ⟨order.map (fun s => { name := name s, headings := some (s.headings.map some), lines := s.lines.map (fun l => s.headings.map (fun h => (some h, Atom.str (csvText strOf (Dict.get l h))))) }), ?_, ?_⟩
  · refine all₂_map_right _ ?_
    intro s hm
    obtain ⟨g, h1, h2⟩ := flatten_csv_reads_back fcfg hs hh root st hst s (hperm.mem_iff.1 hm) (hhead s hm).1 (hhead s hm).2 strOf (name s)
    exact ⟨g, h1, h2⟩
  · exact hmain (fun s hm => C26_no_repeated_headings fcfg hs hh root st hst s hm) order _ hperm
      (all₂_map_right _ (fun s _ => ⟨rfl, rfl⟩))

/-- C11 for worksheets: the flattened sheets are written to worksheets, read (in any order) and unflattened. -/
theorem C11_xlsx_round_trip (T : Trip) (fcfg : FCfg) (ucfg : UnCfg) (hp : Plain fcfg) (hf : fcfg.filter = none) (hk : fcfg.preserve = [])
    (hs : FromSchemaParser fcfg)
    (hh : ∀ sp, fcfg.schema = some sp → sp.main.headings.Nodup ∧ ∀ n s, (n, s) ∈ sp.subs → s.headings.Nodup)
    (hid : fcfg.idName = T.idName) (hrid : fcfg.rootId = T.rootId) (hr : T.Reads ucfg)
    (hw : ∀ a, T.write a = sheetAtom (some (.leaf a))) (root : List Json) (hfit : T.FitsRoot root) :
    ∃ st, flatten fcfg root = .ok st ∧ ∀ (order : List Sheet), order.Perm (sheetsOf st) →
      (∀ s ∈ order, (∀ h ∈ s.headings, h ≠ []) ∧ s.headings.head? ≠ some s%"#") → ∀ name : Sheet → Str,
      ∃ sheets, All₂ (fun s sh => ∃ g, xlsxGrid s = .ok g ∧ xlsxSheet {} (name s) g = .ok sh) order sheets ∧
        ∃ out w, unflatten ucfg sheets = .ok (out, w) ∧ Rearranged (.arr root) (.arr out) := by
  obtain ⟨st, hst, hmain⟩ := C11_round_trip_of_sheets T fcfg ucfg hp hf hk hs hid hrid hr sheetAtom
    (fun a => (hw a).symm) rfl root hfit (.inl rfl)
  refine ⟨st, hst, ?_⟩
  intro order hperm hhead name
  have hn : ∀ s ∈ sheetsOf st, s.headings.Nodup := fun s hm => C26_no_repeated_headings fcfg hs hh root st hst s hm
  have h1 : ((sheetsOf st).flatMap (·.lines)).Perm ((spots T root).map (spotLine T)) := by
    have hopt : idOpts fcfg = ⟨T.idName, T.rootId⟩ := by simp [idOpts, hid, hrid]
    have := all_lines hp hf hk hs hst
    rw [hopt] at this
    exact this.trans (spots_lines T root).symm
  refine ⟨order.map (fun s => { name := name s, headings := some (s.headings.map some), lines := s.lines.map (fun l => s.headings.map (fun h => (some h, sheetAtom (Dict.get l h)))) }), ?_, ?_⟩
  · refine all₂_map_right _ ?_
    intro s hm
    have hm' := hperm.mem_iff.1 hm
    refine C33_xlsx_reads_back s (name s) (hn s hm') (hhead s hm).1 (hhead s hm).2 ?_
    intro line hl k v hg
    have h2 : line ∈ (sheetsOf st).flatMap (·.lines) := List.mem_flatMap.2 ⟨s, hm', hl⟩
    obtain ⟨p, hp', rfl⟩ := List.mem_map.1 (h1.mem_iff.1 h2)
    obtain ⟨_, b, _, _, rfl⟩ := (spot_line hfit hp').sound k v hg
    exact ⟨b, rfl⟩
  · exact hmain hn order _ hperm (all₂_map_right _ (fun s _ => ⟨rfl, rfl⟩))

/-! ### Values that return -/

/-- Texts in columns without a type, or of type string. -/
theorem C11_texts_return (T : Trip) (ks : List Str) (s : Str) (hs : s ≠ []) (hw : T.write (.str s) = .str s)
    (ht : T.types (pathText ks) = none ∨ T.types (pathText ks) = some .string) : T.Returns ks (.str s) (.leaf (.str s)) := by
  have hb : (Atom.str s).blank = false := by cases s <;> simp_all [Atom.blank]
  refine ⟨by rw [hw, hb], by rcases ht with h | h <;> simp [h], by rcases ht with h | h <;> simp [h], .atom (.str s), [], ?_, ?_, ?_, by simp, rfl⟩
  · rw [hw]
    rcases ht with h | h <;> simp [h, convertType, hb, Py.str]
  · cases s <;> simp_all [Val.blank, Atom.blank]
  · simp [Val.pyEq, Val.canon, Atom.canon]

/-- Whole numbers that are written as texts, in integer columns. -/
theorem C11_integers_return (T : Trip) (ks : List Str) (n : Int) (hw : T.write (.int n) = .str (Py.str (.int n)))
    (ht : T.types (pathText ks) = some .integer) : T.Returns ks (.int n) (.leaf (.int n)) := by
  have h1 := C18_integer_column T.conv n
  have hb : (Atom.str (Py.intStr n)).blank = false := by
    unfold Py.intStr; split
    · rfl
    · cases h : Py.natStr n.natAbs with
      | nil => exact absurd h (Py.natStr_ne_nil _)
      | cons => rfl
  refine ⟨?_, by simp [ht], by simp [ht], .atom (.int n), [], ?_, rfl, ?_, by simp, rfl⟩
  · rw [hw]; exact hb
  · rw [hw, ht]; exact h1
  · simp [Val.pyEq, Val.canon, Atom.canon]

/-- Booleans that are written as texts, in boolean columns. -/
theorem C11_booleans_return (T : Trip) (ks : List Str) (b : Bool) (hw : T.write (.bool b) = .str (Py.str (.bool b)))
    (ht : T.types (pathText ks) = some .boolean) : T.Returns ks (.bool b) (.leaf (.bool b)) := by
  have h1 := C21_bool_round_trip T.conv b
  refine ⟨?_, by simp [ht], by simp [ht], .atom (.bool b), [], ?_, ?_, ?_, by simp, rfl⟩
  · rw [hw]; cases b <;> rfl
  · rw [hw, ht]; exact h1
  · cases b <;> rfl
  · simp [Val.pyEq, Val.canon, Atom.canon]

/-- Decimal numbers that are written as texts, in number columns. -/
theorem C11_decimals_return (T : Trip) (ks : List Str) (neg : Bool) (c : Nat) (e : Int)
    (hw : T.write (.dec (.fin neg c e)) = .str (Py.str (.dec (.fin neg c e))))
    (ht : T.types (pathText ks) = some .number) : T.Returns ks (.dec (.fin neg c e)) (.leaf (.dec (.fin neg c e))) := by
  have h1 := C19_decimal_text_round_trip T.conv neg c e
  refine ⟨?_, by simp [ht], by simp [ht], .atom (.dec (.fin neg c e)), [], ?_, rfl, ?_, by simp, rfl⟩
  · rw [hw]
    cases hb : (Atom.str (Py.str (.dec (.fin neg c e)))).blank with
    | false => rfl
    | true => simp [convertType, hb] at h1
  · rw [hw, ht]; exact h1
  · simp [Val.pyEq, Val.canon, Atom.canon, Dec.canon]

/-- Lists of texts without separators, in string list columns. -/
theorem C11_lists_return (T : Trip) (ks : List Str) (l : List Str) (h0 : l ≠ []) (h1 : l ≠ [[]]) (h2 : ∀ s ∈ l, ';' ∉ s ∧ ',' ∉ s)
    (hw : ∀ t, T.write (.str t) = .str t) (ht : T.types (pathText ks) = some .stringArray) :
    ∃ t, joinArray (l.map (fun s => .leaf (.str s))) = some t ∧ T.Returns ks (.str t) (.arr (l.map (fun s => .leaf (.str s)))) := by
  obtain ⟨t, h3, h4⟩ := (C20_string_list_iff T.conv l).2 ⟨h0, h1, h2⟩
  refine ⟨t, h3, ?_, by simp [ht], by simp [ht], .arr (l.map Atom.str), [], ?_, rfl, ?_, by simp, ?_⟩
  · rw [hw]
    cases hb : (Atom.str t).blank with
    | false => rfl
    | true => simp [convertType, hb] at h4
  · rw [hw, ht]; exact h4
  · obtain ⟨k, hk⟩ : ∃ k : Str → _, ∀ s, (Atom.str s).canon = some (k s) := ⟨_, fun s => rfl⟩
    have h5 := mapM_some_map Atom.canon Atom.str k l (fun s _ => hk s)
    simp only [Val.pyEq, Val.canon, h5]
    simp
  · simp [Val.toJson, List.map_map, Function.comp_def]

/-! ### An example -/

/-- A trip through CSV files: `tags` is a list of texts and `price` a whole number, the rest has no type. -/
def tripT : Trip where
  types := fun p => if p = s%"tags" then some .stringArray else if p = s%"price" then some .integer else none
  conv := {}
  write := fun a => .str (csvText (fun _ => []) (some (.leaf a)))
  idName := s%"id"
  rootId := some s%"ocid"

/-- `[{"ocid": "1", "id": "A", "tags": ["x", "y"], "price": 12, "dishes": [{"id": "d1", "ing": [{"n": "x"}, {"n": "x"}]}, {"name": "z"}],
"geo": {"lat": "north"}}, {"ocid": "2", "id": "A"}]` -/
def tripDoc : List Json :=
  [.obj [(s%"ocid", .leaf (.str s%"1")), (s%"id", .leaf (.str s%"A")), (s%"tags", .arr [.leaf (.str s%"x"), .leaf (.str s%"y")]),
      (s%"price", .leaf (.int 12)),
      (s%"dishes", .arr [.obj [(s%"id", .leaf (.str s%"d1")), (s%"ing", .arr [.obj [(s%"n", .leaf (.str s%"x"))], .obj [(s%"n", .leaf (.str s%"x"))]])],
        .obj [(s%"name", .leaf (.str s%"z"))]]),
      (s%"geo", .obj [(s%"lat", .leaf (.str s%"north"))])],
    .obj [(s%"ocid", .leaf (.str s%"2")), (s%"id", .leaf (.str s%"A"))]]

/-- The document fits. -/
theorem tripDoc_fits : tripT.FitsRoot tripDoc where
  idName := by decide +kernel
  rootName := by
    intro rid h
    cases h
    decide +kernel
  each := by
    have text : ∀ (ks : List Str) (s : Str), s ≠ [] → tripT.types (pathText ks) = none → tripT.Fits ks (.leaf (.str s)) := by
      intro ks s h1 h2
      simp only [Trip.Fits]
      exact ⟨rfl, C11_texts_return tripT ks s h1 rfl (.inl h2)⟩
    intro x hx
    have hid : ∀ fs : List (Str × Json), (∀ rid v, tripT.rootId = some rid → Dict.get fs rid = some v → ∃ s, v = .leaf (.str s)) →
        ∀ rid v, tripT.rootId = some rid → Dict.get fs rid = some v →
        ∃ a, v = .leaf a ∧ (Val.atom (tripT.write a)).pyEq (.atom (tripT.write a)) = true := by
      intro fs h rid v h1 h2
      obtain ⟨s, rfl⟩ := h rid v h1 h2
      exact ⟨_, rfl, by simp [tripT, csvText, Py.str, Val.pyEq, Val.canon, Atom.canon]⟩
    simp only [tripDoc, List.mem_cons, List.not_mem_nil, or_false] at hx
    rcases hx with rfl | rfl
    · refine ⟨_, rfl, ?_, ?_, ?_, hid _ ?_⟩
      · refine ⟨by simp, by decide +kernel, by decide +kernel, ?_⟩
        intro v hv; decide +kernel
      · intro _; decide +kernel
      · simp only [Trip.FitsFields, and_true]
        refine ⟨text _ _ (by simp) rfl, text _ _ (by simp) rfl, ?_, ?_, ?_, ?_⟩
        · simp only [Trip.Fits]
          left
          exact C11_lists_return tripT _ [s%"x", s%"y"] (by simp) (by simp) (by decide) (fun _ => rfl) (by decide +kernel)
        · simp only [Trip.Fits]
          exact ⟨rfl, C11_integers_return tripT _ 12 rfl (by decide +kernel)⟩
        · simp only [Trip.Fits]
          right
          refine ⟨by decide +kernel, .inl (by decide +kernel), ?_, ?_⟩
          · simp only [Trip.FitsItems, and_true]
            refine ⟨⟨⟨by simp, by decide +kernel, by decide +kernel, by intro v _; decide +kernel⟩, by intro rid h; cases h; decide +kernel,
              by intro _; decide +kernel, ?_⟩, ⟨by simp, by decide +kernel, by decide +kernel, by intro v hv; cases hv⟩,
              by intro rid h; cases h; decide +kernel, by intro h; exact absurd rfl h, ?_⟩
            · simp only [Trip.FitsFields, and_true]
              refine ⟨text _ _ (by simp) (by decide +kernel), ?_⟩
              simp only [Trip.Fits]
              right
              refine ⟨by decide +kernel, .inl (by decide +kernel), ?_, ?_⟩
              · have hi : tripT.Object [(s%"n", .leaf (.str s%"x"))] ∧ tripT.NoRoot [(s%"n", .leaf (.str s%"x"))] ∧
                    tripT.Named [(s%"n", .leaf (.str s%"x"))] ∧ tripT.FitsFields ([] ++ [s%"dishes"] ++ [s%"ing"]) [(s%"n", .leaf (.str s%"x"))] := by
                  refine ⟨⟨by simp, by decide +kernel, by decide +kernel, by intro v hv; cases hv⟩, by intro rid h; cases h; decide +kernel,
                    by intro h; exact absurd rfl h, ?_⟩
                  simp only [Trip.FitsFields, and_true]
                  exact text _ _ (by simp) (by decide +kernel)
                simp only [Trip.FitsItems, and_true]
                exact ⟨hi, hi⟩
              · refine List.Pairwise.cons ?_ (List.pairwise_singleton _ _)
                intro y hy
                intro a b ha
                cases ha
            · simp only [Trip.FitsFields, and_true]
              exact text _ _ (by simp) (by decide +kernel)
          · refine List.Pairwise.cons ?_ (List.pairwise_singleton _ _)
            intro y hy
            simp only [List.mem_singleton] at hy
            subst hy
            intro a b _ hb
            cases hb
        · simp only [Trip.Fits]
          refine ⟨.inl (by decide +kernel), ⟨by simp, by decide +kernel, by decide +kernel, by intro v hv; cases hv⟩,
            by intro rid h; cases h; decide +kernel, ?_⟩
          simp only [Trip.FitsFields, and_true]
          exact text _ _ (by simp) (by decide +kernel)
      · intro rid v h1 h2
        cases h1
        cases h2
        exact ⟨_, rfl⟩
    · refine ⟨_, rfl, ?_, ?_, ?_, hid _ ?_⟩
      · refine ⟨by simp, by decide +kernel, by decide +kernel, ?_⟩
        intro v hv; decide +kernel
      · intro _; decide +kernel
      · simp only [Trip.FitsFields, and_true]
        exact ⟨text _ _ (by simp) rfl, text _ _ (by simp) rfl⟩
      · intro rid v h1 h2
        cases h1
        cases h2
        exact ⟨_, rfl⟩
  distinct := by
    refine List.Pairwise.cons ?_ (List.pairwise_singleton _ _)
    intro y hy h
    cases hy with
    | tail _ hy => cases hy
    | head => exact absurd h (by decide +kernel)

/-- The document through CSV files: flattened without schema, read with the types of `tripT`. -/
example : ∃ st, flatten { rootId := some s%"ocid" } tripDoc = .ok st ∧ ∀ (order : List Sheet), order.Perm (sheetsOf st) →
    (∀ s ∈ order, s.headings ≠ [] ∧ s.headings.head? ≠ some s%"#") → ∀ name : Sheet → Str,
    ∃ sheets, All₂ (fun s sh => ∃ g, csvGrid (fun _ => []) s = .ok g ∧ csvSheet {} (name s) g = .ok sh) order sheets ∧
      ∃ out w, unflatten { row := { types := tripT.types }, idName := some s%"id", rootId := some s%"ocid" } sheets = .ok (out, w) ∧
        Rearranged (.arr tripDoc) (.arr out) :=
  C11_csv_round_trip tripT _ _ ⟨rfl, rfl, rfl, rfl⟩ rfl rfl (by intro sp h; cases h) (by intro sp h; cases h) rfl rfl ⟨rfl, rfl, rfl, rfl, rfl⟩ _
    (fun _ => rfl) tripDoc tripDoc_fits (by
      intro rid h fs hm
      cases h
      simp only [tripDoc, objects, List.mem_cons, List.not_mem_nil, or_false] at hm
      rcases hm with rfl | rfl <;> decide +kernel)

/-- Why objects with arrays of objects need an id: `[{"t": "x", "a": [{"b": "y"}]}]` comes back as two objects. -/
example : (flatten {} [.obj [(s%"t", .leaf (.str s%"x")), (s%"a", .arr [.obj [(s%"b", .leaf (.str s%"y"))]])]]).toOption.map
      (fun st => (sheetsOf st).map (·.lines)) =
      some [[[(s%"t", .leaf (.str s%"x"))]], [[(s%"a/0/b", .leaf (.str s%"y"))]]] ∧
    (unflatten { idName := some s%"id" } [⟨s%"m", none, [[(some s%"t", .str s%"x")]]⟩, ⟨s%"a", none, [[(some s%"a/0/b", .str s%"y")]]⟩]).toOption.map (·.1) =
      some [.obj [(s%"t", .leaf (.str s%"x"))], .obj [(s%"a", .arr [.obj [(s%"b", .leaf (.str s%"y"))]])]] := by
  constructor <;> with_unfolding_all rfl

end Verif

import Verif.Proofs.TitledKnows
import Verif.Proofs.DecEq
/-! C71: a document that is flattened with titles as headings, written, read and unflattened with converted titles comes back. -/
namespace Verif
open Spec

variable {scfg rcfg : SchemaCfg} {s : Schema} {sp su : Parsed}

/-- C71: a document that fits and that a schema with good titles describes is flattened with titles; and whenever sheets have the data of the
lines of all the flattened sheets (in any order and arrangement of lines, columns and sheets), unflattening them with the titles of the same
schema succeeds and gives the document, up to the order of fields and items. -/
theorem C71_titles_round_trip (T : Trip) (scfg rcfg : SchemaCfg) (s : Schema) (sp su : Parsed) (fcfg : FCfg) (ucfg : UnCfg)
    (hp : parseRoot scfg s = .ok sp) (hu : scfg.useTitles = true) (hp' : parseRoot rcfg s = .ok su)
    (hdep : rcfg.noDeprecated = scfg.noDeprecated) (hwkt : rcfg.wkt = scfg.wkt) (hret : TitlesReturn scfg s T.idName T.rootId)
    (ht : Titled T fcfg sp) (hr : T.Reads ucfg) (hty : T.types = su.types)
    (root : List Json) (hfit : T.FitsRoot root) (hd : ∀ fs ∈ objects root, DescribedFields scfg s fs) :
    ∃ st, flatten fcfg root = .ok st ∧
      ∀ (lines : List FLine) (sheets : List SheetIn), lines.Perm ((sheetsOf st).flatMap (·.lines)) →
        (∀ sh ∈ sheets, sh.headings = some [] → ∀ l ∈ sh.lines, hasData l = false) →
        All₂ (T.ReadTitled (lookupHeader su.lookup)) lines ((rowsIn sheets).map (·.line)) →
        ∃ out w, unflatten ucfg (titleSheets su.lookup sheets) = .ok (out, w) ∧ Rearranged (.arr root) (.arr out) := by
  obtain ⟨st, hst, h1, h2, _⟩ := titled_lines ht hu hret hp hfit hd
  refine ⟨st, hst, ?_⟩
  intro lines sheets hperm hempty hread
  obtain ⟨ss, hss, rfl⟩ := perm_map_lift (hperm.trans h1) (l := spots T root) rfl
  exact titled_back hr (knows hret hp hp' hdep hwkt) hty hfit h2 hss hempty hread

theorem readTitled_kept {T : Trip} {conv : Str → Str} {fl : FLine} {full line : Line} (h : T.ReadTitled conv fl full) (hk : Kept full line) : T.ReadTitled conv fl line := by
  obtain ⟨rest, rfl, hr⟩ := hk
  refine ⟨fun k a hm hb => h.from_ k a (by simp [hm]) hb, ?_, (List.pairwise_append.1 h.last).1, fun rid h1 h2 hd a hm => h.noRoot rid h1 h2 hd a (by simp [hm])⟩
  intro k b h1 h2
  rcases List.mem_append.1 (h.all k b h1 h2) with h3 | h3
  · exact h3
  · have := hr _ h3
    simp only at this
    rw [this] at h2
    cases h2

/-- A root object that has the root id has it on all its lines. -/
theorem spot_root {T : Trip} {root : List Json} (hfit : T.FitsRoot root) {p : Spot} (hp : p ∈ spots T root) {rid : Str} (hrid : T.rootId = some rid)
    (hne : Dict.get p.2.1 rid ≠ none) : Dict.get (spotLine T p) rid ≠ none := by
  have hline := spot_line hfit hp
  have hp1 := (mem_spots.1 hp).1
  obtain ⟨ho, hnm, hff, hrt⟩ := fitsRoot_mem hfit (List.mem_of_getElem? hp1)
  cases hv : Dict.get p.2.1 rid with
  | none => exact absurd hv hne
  | some v =>
    obtain ⟨b, rfl, _⟩ := hrt _ _ hrid hv
    have h2 : OnLine T p.2.1 p.2.2 [.field rid] b := by
      by_cases hpath : p.2.2.path = []
      · have hpl : p.2.2 = ⟨[], [], p.2.1⟩ := by
          rcases (mem_spots.1 hp).2 with h | h
          · exact h
          · obtain ⟨s, X, hX⟩ := lv_pre T (.obj p.2.1) [] [] _ h
            rw [hX] at hpath
            simp at hpath
        have h3 : HasCell everything [] p.2.2.fields [rid] (.leaf b) := by
          rw [hpl]
          have := HasCell.scalar (keep := everything) (p := []) (Dict.get_eq_some_mem hv) rfl
          simpa using this
        have h4 := OnLine.own (T := T) (fs0 := p.2.1) h3
        rw [hpath] at h4
        exact h4
      · exact .root hrid hpath hv
    have h3 := hline.complete _ _ h2
    have h4 : pathText (strs [PKey.field rid]) = rid := by simp [strs, strP, pathText, Py.join]
    rw [h4] at h3
    rw [h3]
    simp

/-- The cells of a line that is written with all the columns of its sheet. -/
theorem readTitled_of {T : Trip} {fcfg : FCfg} {cell : Option Json → Atom} (hc : ∀ a, cell (some (.leaf a)) = T.write a) (hb : (cell none).blank = true)
    (hs : FromSchemaParser fcfg) {root : List Json} (hfit : T.FitsRoot root) {st : FState} (hst : flatten fcfg root = .ok st)
    (hroot : cell none = .none ∨ ∀ rid, T.rootId = some rid → ∀ fs ∈ objects root, Dict.get fs rid ≠ none)
    (hk : Knows scfg s T.idName T.rootId sp su) {sh : Sheet} (hm : sh ∈ sheetsOf st)
    (hh : sh.headings.Pairwise (fun a b => lookupHeader su.lookup a = lookupHeader su.lookup b → ¬ ByTitle scfg s a)) {p : Spot} (hp : p ∈ spots T root)
    (hkeys : ∀ k ∈ Dict.keys (spotLine T p), HasTitle scfg s k) (hl : mapKeys (tau scfg s) (spotLine T p) ∈ sh.lines) :
    T.ReadTitled (lookupHeader su.lookup) (mapKeys (tau scfg s) (spotLine T p))
      (sh.headings.map (fun h => (some h, cell (Dict.get (mapKeys (tau scfg s) (spotLine T p)) h)))) := by
  have hinj : ∀ a b, HasTitle scfg s a → HasTitle scfg s b → tau scfg s a = tau scfg s b → a = b := fun a b ha hb e => hk.inj ha hb (by rw [e])
  have hleaf : ∀ c j, Dict.get (mapKeys (tau scfg s) (spotLine T p)) c = some j → (∃ x, HasTitle scfg s x ∧ c = tau scfg s x) ∧ ∃ b, j = .leaf b := by
    intro c j hg
    obtain ⟨x, hx, rfl, h1⟩ := mapKeys_get_some hinj hkeys hg
    obtain ⟨_, b, _, _, rfl⟩ := (spot_line hfit hp).sound x j h1
    exact ⟨⟨x, hx, rfl⟩, b, rfl⟩
  refine ⟨?_, ?_, ?_, ?_⟩
  · intro h a hm' hna
    obtain ⟨k, _, he⟩ := List.mem_map.1 hm'
    simp only [Prod.mk.injEq] at he
    cases hg : Dict.get (mapKeys (tau scfg s) (spotLine T p)) k with
    | none =>
      rw [hg] at he
      rw [← he.2, hb] at hna
      cases hna
    | some j =>
      obtain ⟨_, b, rfl⟩ := hleaf k j hg
      rw [hg, hc] at he
      exact ⟨k, b, he.1.symm, hg, he.2.symm⟩
  · intro k b hg _
    have hk := (C25_every_value_has_a_column fcfg hs root st hst sh hm).1 _ hl k (List.mem_map.2 ⟨_, Dict.get_eq_some_mem hg, rfl⟩)
    refine List.mem_map.2 ⟨k, hk, ?_⟩
    rw [hg, hc]
  · refine List.pairwise_map.2 (hh.imp ?_)
    intro a b hab e
    simp only [Option.map_some, Option.some.injEq] at e
    dsimp only
    cases hg : Dict.get (mapKeys (tau scfg s) (spotLine T p)) a with
    | none => exact hb
    | some j =>
      obtain ⟨⟨x, hx, rfl⟩, _⟩ := hleaf a j hg
      exact absurd (hx.byTitle hk.returns) (hab e)
  · intro rid hrid hno h a ha hconv
    obtain ⟨k, _, he⟩ := List.mem_map.1 ha
    simp only [Prod.mk.injEq, Option.some.injEq] at he
    obtain ⟨rfl, rfl⟩ := he
    cases hg : Dict.get (mapKeys (tau scfg s) (spotLine T p)) k with
    | some j => exact absurd hconv (hno k j hg)
    | none =>
      rcases hroot with hroot | hroot
      · exact hroot
      · exfalso
        have h1 := hroot _ hrid p.2.1 (List.mem_of_getElem? (mem_spots.1 hp).1)
        have h2 := spot_root hfit hp hrid h1
        cases hv : Dict.get (spotLine T p) rid with
        | none => exact h2 hv
        | some v =>
          have ht : HasTitle scfg s rid := hkeys rid (Dict.get_isSome_iff.1 (by rw [hv]; rfl))
          refine hno (tau scfg s rid) v (by rw [mapKeys_get hinj hkeys ht]; exact hv) ?_
          obtain ⟨steps, n, q, _, g1, _, g2, g3⟩ := hk.conv ht
          have : steps = [] := by
            cases steps with
            | nil => rfl
            | cons w r =>
              exfalso
              apply (hfit.rootName rid hrid).2
              rw [g2, columnPath_eq, indexed]
              split <;> simp [pnOf]
          subst this
          rw [g3, g2]; rfl

theorem hasData_converted {t : TitleTree} {l : Line} (h : hasData (convertTitles t l) = true) : hasData l = true := by
  obtain ⟨c, hc, hcb⟩ := List.any_eq_true.1 h
  obtain ⟨hd, h1, _⟩ := converted_from (k := c.1) (a := c.2) hc
  exact List.any_eq_true.2 ⟨_, h1, hcb⟩

/-- C71 for sheets that are written to a file and read, where empty cells at the end of lines may be missing. -/
theorem C71_round_trip_of_held (T : Trip) (scfg rcfg : SchemaCfg) (s : Schema) (sp su : Parsed) (fcfg : FCfg) (ucfg : UnCfg)
    (hp : parseRoot scfg s = .ok sp) (hu : scfg.useTitles = true) (hp' : parseRoot rcfg s = .ok su)
    (hdep : rcfg.noDeprecated = scfg.noDeprecated) (hwkt : rcfg.wkt = scfg.wkt) (hret : TitlesReturn scfg s T.idName T.rootId)
    (hids : ∀ steps n p, Reached scfg s steps n p → n = s%"id" → titleOf p ≠ none)
    (hh : sp.main.headings.Nodup ∧ ∀ n sh, (n, sh) ∈ sp.subs → sh.headings.Nodup)
    (ht : Titled T fcfg sp) (hr : T.Reads ucfg) (hty : T.types = su.types)
    (cell : Option Json → Atom) (hc : ∀ a, cell (some (.leaf a)) = T.write a) (hb : (cell none).blank = true)
    (root : List Json) (hfit : T.FitsRoot root) (hd : ∀ fs ∈ objects root, DescribedFields scfg s fs)
    (hroot : cell none = .none ∨ ∀ rid, T.rootId = some rid → ∀ fs ∈ objects root, Dict.get fs rid ≠ none) :
    ∃ st, flatten fcfg root = .ok st ∧ (∀ sh ∈ sheetsOf st, ∀ l ∈ sh.lines, ∀ k v, Dict.get l k = some v → ∃ a, v = .leaf a) ∧
      ∀ (order : List Sheet) (sheets : List SheetIn), order.Perm (sheetsOf st) → All₂ (SheetHolds cell) order sheets →
        ∃ out w, unflatten ucfg (titleSheets su.lookup sheets) = .ok (out, w) ∧ Rearranged (.arr root) (.arr out) := by
  obtain ⟨st, hst, h1, h2, hheads⟩ := titled_lines ht hu hret hp hfit hd
  have hk := knows hret hp hp' hdep hwkt
  have hs : FromSchemaParser fcfg := by
    intro sp' e
    rw [ht.schema] at e
    cases e
    exact ⟨scfg, s, hp⟩
  have hinj : ∀ a b, HasTitle scfg s a → HasTitle scfg s b → tau scfg s a = tau scfg s b → a = b := fun a b ha hb e => hk.inj ha hb (by rw [e])
  have hspot : ∀ sh ∈ sheetsOf st, ∀ l ∈ sh.lines, ∃ p ∈ spots T root, mapKeys (tau scfg s) (spotLine T p) = l := by
    intro sh hm l hl
    have : l ∈ (sheetsOf st).flatMap (·.lines) := List.mem_flatMap.2 ⟨sh, hm, hl⟩
    exact List.mem_map.1 (h1.mem_iff.1 this)
  refine ⟨st, hst, ?_, ?_⟩
  · intro sh hsh l hl k v hg
    obtain ⟨p, hp', rfl⟩ := hspot sh hsh l hl
    obtain ⟨x, hx, rfl, h3⟩ := mapKeys_get_some hinj (h2 p hp') hg
    obtain ⟨_, b, _, _, rfl⟩ := (spot_line hfit hp').sound x v h3
    exact ⟨b, rfl⟩
  intro order sheets hperm hread
  have hapart : ∀ sh ∈ sheetsOf st, sh.headings.Pairwise (fun a b => lookupHeader su.lookup a = lookupHeader su.lookup b → ¬ ByTitle scfg s a) := by
    intro sh hm
    obtain ⟨name, rest, e1, e2⟩ := hheads sh hm
    obtain ⟨hd', tl, e3, e4, e5⟩ := template_titles hk hu hids ht.schema name
    refine headings_apart hk (hd := hd') (tl := tl ++ rest) (C26_no_repeated_headings fcfg hs (by
      intro sp' e
      rw [ht.schema] at e
      cases e
      exact hh) root st hst sh hm) (by rw [e1, e3, List.append_assoc]) e4 ?_
    intro c hc
    rcases List.mem_append.1 hc with hc | hc
    · exact e5 c hc
    · obtain ⟨x, hx, rfl⟩ := e2 c hc
      exact hx.byTitle hret
  have h4 : ∀ sh ∈ sheetsOf st, ∀ l ∈ sh.lines, ∀ line, Kept (sh.headings.map (fun h => (some h, cell (Dict.get l h)))) line →
      T.ReadTitled (lookupHeader su.lookup) l line ∧ hasData line = true := by
    intro sh hsm l hl line hkept
    obtain ⟨p, hpm, rfl⟩ := hspot sh hsm l hl
    have h5 := readTitled_kept (readTitled_of hc hb hs hfit hst hroot hk hsm (hapart sh hsm) hpm (h2 p hpm) hl) hkept
    refine ⟨h5, ?_⟩
    have h6 := hk.read (fun rid hrid => (hfit.rootName rid hrid).2) (h2 p hpm) h5
    have hp1 := (mem_spots.1 hpm).1
    obtain ⟨ho, hnm, hff, hrt⟩ := fitsRoot_mem hfit (List.mem_of_getElem? hp1)
    have h7 := (rowOfPlace hr.xml hr.types hr.conv hr.idName hr.rootId ho hff hfit.rootName
      (fun rid v h3 h4 => by obtain ⟨a, ha, _⟩ := hrt rid v h3 h4; exact ⟨a, ha⟩) (spot_fine hfit hpm) (spot_line hfit hpm) p.1
      ⟨⟨[], none, []⟩, 0, _⟩ h6).1
    exact hasData_converted ((hasData_plain (scfg := scfg) (s := s) su.lookup T.rootId (convertTitles su.lookup line)).symm.trans h7)
  have hsub : ∀ sh ∈ order, sh ∈ sheetsOf st := fun sh hm => hperm.mem_iff.1 hm
  obtain ⟨st', hst', hmain⟩ := C71_titles_round_trip T scfg rcfg s sp su fcfg ucfg hp hu hp' hdep hwkt hret ht hr hty root hfit hd
  rw [hst] at hst'
  cases hst'
  refine hmain (order.flatMap (·.lines)) sheets (hperm.flatMap_right _) ?_ ?_
  · intro sh hsh e l hl
    obtain ⟨o, _, h5, ls, h6, h7⟩ := all₂_right hread sh hsh
    rw [h5] at e
    have he : o.headings = [] := by simpa using e
    cases hdl : hasData l with
    | false => rfl
    | true =>
      exfalso
      have : l ∈ ls.filter hasData := by rw [← h7]; exact List.mem_filter.2 ⟨hl, hdl⟩
      obtain ⟨l', _, rest, hrest, _⟩ := all₂_right h6 l (List.mem_filter.1 this).1
      rw [he] at hrest
      have : l = [] := by
        cases l with
        | nil => rfl
        | cons => simp at hrest
      rw [this] at hdl
      cases hdl
  · rw [rowsIn_lines]
    clear hperm hmain
    induction hread with
    | nil => exact .nil
    | @cons o sh order' sheets' h2 h3 ih =>
      simp only [List.flatMap_cons]
      refine all₂_app ?_ (ih (fun x hx => hsub x (by simp [hx])))
      have hsm := hsub o (by simp)
      have h4 := h4 o hsm
      obtain ⟨h5, ls, h6, h7⟩ := h2
      have h8 : ∀ line ∈ ls, hasData line = true := by
        intro line hl
        obtain ⟨l, hl', h8⟩ := all₂_mem_right h6 hl
        exact (h4 l hl' line h8).2
      rw [h7, List.filter_eq_self.2 h8]
      by_cases hempty : o.lines = []
      · rw [hempty] at h6
        cases h6
        rw [hempty]
        simp only [ite_self]
        exact .nil
      · have hne : o.headings ≠ [] := by
          intro he
          obtain ⟨l, hl⟩ := List.exists_mem_of_ne_nil _ hempty
          have := (h4 l hl [] ⟨[], by simp [he], by simp⟩).2
          cases this
        rw [if_neg (by rw [h5]; simpa using hne)]
        generalize hL : o.lines = L at h6 h4 ⊢
        clear hL hempty h7 h8
        induction h6 with
        | nil => exact .nil
        | cons h10 _ ih => exact .cons (h4 _ (by simp) _ h10).1 (ih (fun l hl => h4 l (by simp [hl])))

/-- C71 for CSV files: the document is flattened with titles, the sheets are written to CSV files, the files are read (in any order), their
titles converted, and unflattened.  Every root object must have the root id, if there is one. -/
theorem C71_csv_round_trip (T : Trip) (scfg rcfg : SchemaCfg) (s : Schema) (sp su : Parsed) (fcfg : FCfg) (ucfg : UnCfg)
    (hp : parseRoot scfg s = .ok sp) (hu : scfg.useTitles = true) (hp' : parseRoot rcfg s = .ok su)
    (hdep : rcfg.noDeprecated = scfg.noDeprecated) (hwkt : rcfg.wkt = scfg.wkt) (hret : TitlesReturn scfg s T.idName T.rootId)
    (hids : ∀ steps n p, Reached scfg s steps n p → n = s%"id" → titleOf p ≠ none)
    (hh : sp.main.headings.Nodup ∧ ∀ n sh, (n, sh) ∈ sp.subs → sh.headings.Nodup)
    (ht : Titled T fcfg sp) (hr : T.Reads ucfg) (hty : T.types = su.types)
    (strOf : Json → Str) (hw : ∀ a, T.write a = .str (csvText strOf (some (.leaf a))))
    (root : List Json) (hfit : T.FitsRoot root) (hd : ∀ fs ∈ objects root, DescribedFields scfg s fs)
    (hroot : ∀ rid, T.rootId = some rid → ∀ fs ∈ objects root, Dict.get fs rid ≠ none) :
    ∃ st, flatten fcfg root = .ok st ∧ ∀ (order : List Sheet), order.Perm (sheetsOf st) →
      (∀ sh ∈ order, sh.headings ≠ [] ∧ sh.headings.head? ≠ some s%"#") → ∀ name : Sheet → Str,
      ∃ sheets, All₂ (fun o sh => ∃ g, csvGrid strOf o = .ok g ∧ csvSheet {} (name o) g = .ok sh) order sheets ∧
        ∃ out w, unflatten ucfg (titleSheets su.lookup sheets) = .ok (out, w) ∧ Rearranged (.arr root) (.arr out) := by
  obtain ⟨st, hst, hleaf, hmain⟩ := C71_round_trip_of_held T scfg rcfg s sp su fcfg ucfg hp hu hp' hdep hwkt hret hids hh ht hr hty
    (fun v => .str (csvText strOf v)) (fun a => (hw a).symm) rfl root hfit hd (.inr hroot)
  have hs : FromSchemaParser fcfg := by
    intro sp' e
    rw [ht.schema] at e
    cases e
    exact ⟨scfg, s, hp⟩
  have hh' : ∀ sp, fcfg.schema = some sp → sp.main.headings.Nodup ∧ ∀ n s, (n, s) ∈ sp.subs → s.headings.Nodup := by
    intro sp' e
    rw [ht.schema] at e
    cases e
    exact hh
  refine ⟨st, hst, ?_⟩
  intro order hperm hhead name
  refine ⟨order.map (fun o => { name := name o, headings := some (o.headings.map some), lines := o.lines.map (fun l => o.headings.map (fun h => (some h, Atom.str (csvText strOf (Dict.get l h))))) }), ?_, ?_⟩
  · refine all₂_map_right _ ?_
    intro o hm
    obtain ⟨g, h1, h2⟩ := flatten_csv_reads_back fcfg hs hh' root st hst o (hperm.mem_iff.1 hm) (hhead o hm).1 (hhead o hm).2 strOf (name o)
    exact ⟨g, h1, h2⟩
  · exact hmain order _ hperm (all₂_map_right _ (fun o _ => SheetReads.holds ⟨rfl, rfl⟩))

/-- C71 for worksheets: the document is flattened with titles, the sheets are written to worksheets, read (in any order), their titles
converted, and unflattened. -/
theorem C71_xlsx_round_trip (T : Trip) (scfg rcfg : SchemaCfg) (s : Schema) (sp su : Parsed) (fcfg : FCfg) (ucfg : UnCfg)
    (hp : parseRoot scfg s = .ok sp) (hu : scfg.useTitles = true) (hp' : parseRoot rcfg s = .ok su)
    (hdep : rcfg.noDeprecated = scfg.noDeprecated) (hwkt : rcfg.wkt = scfg.wkt) (hret : TitlesReturn scfg s T.idName T.rootId)
    (hids : ∀ steps n p, Reached scfg s steps n p → n = s%"id" → titleOf p ≠ none)
    (hh : sp.main.headings.Nodup ∧ ∀ n sh, (n, sh) ∈ sp.subs → sh.headings.Nodup)
    (ht : Titled T fcfg sp) (hr : T.Reads ucfg) (hty : T.types = su.types)
    (hw : ∀ a, T.write a = sheetAtom (some (.leaf a)))
    (root : List Json) (hfit : T.FitsRoot root) (hd : ∀ fs ∈ objects root, DescribedFields scfg s fs) :
    ∃ st, flatten fcfg root = .ok st ∧ ∀ (order : List Sheet), order.Perm (sheetsOf st) →
      (∀ sh ∈ order, (∀ h ∈ sh.headings, h ≠ []) ∧ sh.headings.head? ≠ some s%"#") → ∀ name : Sheet → Str,
      ∃ sheets, All₂ (fun o sh => ∃ g, xlsxGrid o = .ok g ∧ xlsxSheet {} (name o) g = .ok sh) order sheets ∧
        ∃ out w, unflatten ucfg (titleSheets su.lookup sheets) = .ok (out, w) ∧ Rearranged (.arr root) (.arr out) := by
  obtain ⟨st, hst, hleaf, hmain⟩ := C71_round_trip_of_held T scfg rcfg s sp su fcfg ucfg hp hu hp' hdep hwkt hret hids hh ht hr hty
    sheetAtom (fun a => (hw a).symm) rfl root hfit hd (.inl rfl)
  have hs : FromSchemaParser fcfg := by
    intro sp' e
    rw [ht.schema] at e
    cases e
    exact ⟨scfg, s, hp⟩
  refine ⟨st, hst, ?_⟩
  intro order hperm hhead name
  have hn : ∀ sh ∈ sheetsOf st, sh.headings.Nodup := fun sh hm => C26_no_repeated_headings fcfg hs (by
    intro sp' e
    rw [ht.schema] at e
    cases e
    exact hh) root st hst sh hm
  refine ⟨order.map (fun o => { name := name o, headings := some (o.headings.map some), lines := o.lines.map (fun l => o.headings.map (fun h => (some h, sheetAtom (Dict.get l h)))) }), ?_, ?_⟩
  · refine all₂_map_right _ ?_
    intro o hm
    have hm' := hperm.mem_iff.1 hm
    exact C33_xlsx_reads_back o (name o) (hn o hm') (hhead o hm).1 (hhead o hm).2 (fun line hl k v hg => hleaf o hm' line hl k v hg)
  · exact hmain order _ hperm (all₂_map_right _ (fun o _ => SheetReads.holds ⟨rfl, rfl⟩))

/-! ### An example -/

theorem titlesText_colon : ∀ {a b : Schema} {r : List Schema} {c : Str}, titlesText (a :: b :: r) = some c → ':' ∈ c := by
  intro a b r c h
  simp only [titlesText, Option.bind_eq_some_iff, Option.map_eq_some_iff] at h
  obtain ⟨x, _, y, _, rfl⟩ := h
  simp

/-- Conditions on all the schemas inside a schema that are enough for titles to return. -/
theorem titlesReturn_of_inside {cfg : SchemaCfg} {s : Schema} {idName : Str} {rootId : Option Str} (h0 : Starts s s) (h1 : GoodTitles cfg s)
    (h2 : ∀ x ∈ inside s, ∀ a ∈ x.properties.getD [], ∀ t ∈ titleOf a.2, ':' ∉ t ∧ isint t = false ∧ '/' ∉ t)
    (h3 : ∀ x ∈ inside s, ∀ a ∈ x.properties.getD [], GoodKey a.1 ∧ ':' ∉ a.1)
    (h4 : ∀ x ∈ inside s, ∀ a ∈ x.properties.getD [], a.1 = s%"id" → (cfg.noDeprecated = true → ¬ Deprecated a.2) ∧ titleOf a.2 = ownTitle a.2)
    (h5 : ∀ x ∈ inside s, ∀ a ∈ x.properties.getD [], ∀ y ∈ inside s, ∀ b ∈ y.properties.getD [], titleOf a.2 ≠ some b.1) :
    TitlesReturn cfg s idName rootId where
  start := h0
  good := h1
  plain := plainTitles_of_inside (fun x hx a ha t ht => ⟨(h2 x hx a ha t ht).1, (h2 x hx a ha t ht).2.1⟩)
  keys := by
    rintro steps n p ⟨r, q, hr, ht, hf⟩
    exact (h3 q (inside_starts hr (inside_trail ht (inside_self q))) _ hf.1).1
  noSlash := by
    rintro steps n p a ⟨r, q, hr, ht, hf⟩ ha
    exact (h2 q (inside_starts hr (inside_trail ht (inside_self q))) _ hf.1 a ha).2.2
  ids := by
    intro steps q p ht hm
    obtain ⟨h6, h7⟩ := h4 q (inside_trail ht (inside_self q)) _ hm rfl
    exact ⟨⟨hm, h6⟩, h7⟩
  apart := by
    rintro p hp steps' n' p' ⟨r', q', hr', ht', hf'⟩ _ _ steps n'' p'' a ⟨r, q, hr, ht, hf⟩ _ _ e
    cases steps' with
    | nil => exact h5 q' (inside_starts hr' (inside_trail ht' (inside_self q'))) _ hf'.1 q (inside_starts hr (inside_trail ht (inside_self q))) _ hf.1 e
    | cons w rest =>
      have : ':' ∈ n'' := by
        unfold titlePath at e
        cases rest with
        | nil => exact titlesText_colon e
        | cons => exact titlesText_colon e
      exact (h3 q (inside_starts hr (inside_trail ht (inside_self q))) _ hf.1).2 this

/-- A schema with a root id, an object, an array of objects with ids, and a list of texts, all with titles. -/
def shop : Schema :=
  .mk { type := .one s%"object" } (some [
    (s%"ocid", .mk { type := .one s%"string", title := some s%"Contract" } none none none),
    (s%"id", .mk { type := .one s%"string", title := some s%"Identifier" } none none none),
    (s%"tags", .mk { type := .one s%"array", title := some s%"All Tags" } none (some (.mk { type := .one s%"string" } none none none)) none),
    (s%"buyer", .mk { type := .one s%"object", title := some s%"The Buyer" } (some [
      (s%"name", .mk { type := .one s%"string", title := some s%"Full Name" } none none none)]) none none),
    (s%"lines", .mk { type := .one s%"array", title := some s%"Order Lines" } none (some
      (.mk { type := .one s%"object" } (some [
        (s%"id", .mk { type := .one s%"string", title := some s%"Line Id" } none none none),
        (s%"count", .mk { type := .one s%"integer", title := some s%"How Many" } none none none)]) none none)) none)]) none none

/-- What the schema parser makes of it. -/
def shopParsed (cfg : SchemaCfg) : Parsed :=
  match parseRoot cfg shop with
  | .ok p => p
  | .error _ => ⟨{}, [], [], .node [] [], [], [], []⟩

def shopTitles : SchemaCfg := { rootId := s%"ocid", useTitles := true }

def shopT : Trip where
  types := (shopParsed { rootId := s%"ocid" }).types
  conv := {}
  write := fun a => .str (csvText (fun _ => []) (some (.leaf a)))
  idName := s%"id"
  rootId := some s%"ocid"

/-- `[{"ocid": "1", "id": "A", "tags": ["x", "y"], "buyer": {"name": "B"}, "lines": [{"id": "l1", "count": 12}, {"count": 3}]},
{"ocid": "2", "id": "A"}]` -/
def shopDoc : List Json :=
  [.obj [(s%"ocid", .leaf (.str s%"1")), (s%"id", .leaf (.str s%"A")), (s%"tags", .arr [.leaf (.str s%"x"), .leaf (.str s%"y")]),
      (s%"buyer", .obj [(s%"name", .leaf (.str s%"B"))]),
      (s%"lines", .arr [.obj [(s%"id", .leaf (.str s%"l1")), (s%"count", .leaf (.int 12))], .obj [(s%"count", .leaf (.int 3))]])],
    .obj [(s%"ocid", .leaf (.str s%"2")), (s%"id", .leaf (.str s%"A"))]]

theorem shop_return : TitlesReturn shopTitles shop s%"id" (some s%"ocid") :=
  titlesReturn_of_inside rfl (goodTitles_of_inside (by decide +kernel) (by unfold SameTitle; decide +kernel) (by decide +kernel)) (by decide +kernel)
    (by decide +kernel) (by unfold Deprecated; decide +kernel) (by decide +kernel)

theorem shopDoc_described : ∀ fs ∈ objects shopDoc, DescribedFields shopTitles shop fs := by
  intro fs hm
  simp only [shopDoc, objects, List.mem_cons, List.not_mem_nil, or_false] at hm
  have col : ∀ (p : Schema) (b : Atom) (ty : CType), kind false p = .column ty → titleOf p ≠ none → Described shopTitles p (.leaf b) := by
    intro p b ty h1 h2
    simp only [Described]
    exact ⟨⟨ty, h1⟩, h2⟩
  have fld : ∀ (q : Schema) (k : Str) (p : Schema), (k, p) ∈ q.properties.getD [] → Field shopTitles q k p := by
    intro q k p h
    exact ⟨h, by simp [shopTitles]⟩
  rcases hm with rfl | rfl
  · simp only [DescribedFields, and_true]
    refine ⟨⟨_, fld _ _ _ (.head _), col _ _ .string (by decide +kernel) (by decide +kernel)⟩,
      ⟨_, fld _ _ _ (.tail _ (.head _)), col _ _ .string (by decide +kernel) (by decide +kernel)⟩,
      ⟨_, fld _ _ _ (.tail _ (.tail _ (.head _))), ?_⟩, ⟨_, fld _ _ _ (.tail _ (.tail _ (.tail _ (.head _)))), ?_⟩,
      ⟨_, fld _ _ _ (.tail _ (.tail _ (.tail _ (.tail _ (.head _))))), ?_⟩⟩
    · simp only [Described]
      exact .inl ⟨by decide +kernel, ⟨.stringArray, by decide +kernel⟩, by decide +kernel⟩
    · simp only [Described, DescribedFields, and_true]
      exact ⟨by decide +kernel, _, fld _ _ _ (.head _), col _ (.int 0) .string (by decide +kernel) (by decide +kernel)⟩
    · simp only [Described, DescribedItems, DescribedFields, and_true]
      refine .inr ⟨by decide +kernel, by decide +kernel, _, rfl, ⟨⟨_, fld _ _ _ (.head _), col _ (.int 0) .string (by decide +kernel) (by decide +kernel)⟩,
        ⟨_, fld _ _ _ (.tail _ (.head _)), col _ (.int 0) .integer (by decide +kernel) (by decide +kernel)⟩⟩,
        ⟨_, fld _ _ _ (.tail _ (.head _)), col _ (.int 0) .integer (by decide +kernel) (by decide +kernel)⟩⟩
  · simp only [DescribedFields, and_true]
    exact ⟨⟨_, fld _ _ _ (.head _), col _ _ .string (by decide +kernel) (by decide +kernel)⟩,
      ⟨_, fld _ _ _ (.tail _ (.head _)), col _ _ .string (by decide +kernel) (by decide +kernel)⟩⟩

/-- The document fits. -/
theorem shopDoc_fits : shopT.FitsRoot shopDoc where
  idName := by decide +kernel
  rootName := by
    intro rid h
    cases h
    decide +kernel
  each := by
    have text : ∀ (ks : List Str) (s : Str), s ≠ [] → shopT.types (pathText ks) = some .string → shopT.Fits ks (.leaf (.str s)) := by
      intro ks s h1 h2
      simp only [Trip.Fits]
      exact ⟨rfl, C11_texts_return shopT ks s h1 rfl (.inr h2)⟩
    have int : ∀ (ks : List Str) (n : Int), shopT.types (pathText ks) = some .integer → shopT.Fits ks (.leaf (.int n)) := by
      intro ks n h1
      simp only [Trip.Fits]
      exact ⟨rfl, C11_integers_return shopT ks n rfl h1⟩
    intro x hx
    have hid : ∀ fs : List (Str × Json), (∀ rid v, shopT.rootId = some rid → Dict.get fs rid = some v → ∃ s, v = .leaf (.str s)) →
        ∀ rid v, shopT.rootId = some rid → Dict.get fs rid = some v →
        ∃ a, v = .leaf a ∧ (Val.atom (shopT.write a)).pyEq (.atom (shopT.write a)) = true := by
      intro fs h rid v h1 h2
      obtain ⟨s, rfl⟩ := h rid v h1 h2
      exact ⟨_, rfl, by simp [shopT, csvText, Py.str, Val.pyEq, Val.canon, Atom.canon]⟩
    simp only [shopDoc, List.mem_cons, List.not_mem_nil, or_false] at hx
    rcases hx with rfl | rfl
    · refine ⟨_, rfl, ?_, ?_, ?_, hid _ ?_⟩
      · refine ⟨by simp, by decide +kernel, by decide +kernel, ?_⟩
        intro v hv; decide +kernel
      · intro _; decide +kernel
      · simp only [Trip.FitsFields, and_true]
        refine ⟨text _ _ (by simp) (by decide +kernel), text _ _ (by simp) (by decide +kernel), ?_, ?_, ?_⟩
        · simp only [Trip.Fits]
          left
          exact C11_lists_return shopT _ [s%"x", s%"y"] (by simp) (by simp) (by decide) (fun _ => rfl) (by decide +kernel)
        · simp only [Trip.Fits]
          refine ⟨.inr (by decide +kernel), ⟨by simp, by decide +kernel, by decide +kernel, by intro v hv; cases hv⟩,
            by intro rid h; cases h; decide +kernel, ?_⟩
          simp only [Trip.FitsFields, and_true]
          exact text _ _ (by simp) (by decide +kernel)
        · simp only [Trip.Fits]
          right
          refine ⟨by decide +kernel, .inr (by decide +kernel), ?_, ?_⟩
          · simp only [Trip.FitsItems, and_true]
            refine ⟨⟨⟨by simp, by decide +kernel, by decide +kernel, by intro v _; decide +kernel⟩, by intro rid h; cases h; decide +kernel,
              by intro _; decide +kernel, ?_⟩, ⟨by simp, by decide +kernel, by decide +kernel, by intro v hv; cases hv⟩,
              by intro rid h; cases h; decide +kernel, by intro h; exact absurd rfl h, ?_⟩
            · simp only [Trip.FitsFields, and_true]
              exact ⟨text _ _ (by simp) (by decide +kernel), int _ _ (by decide +kernel)⟩
            · simp only [Trip.FitsFields, and_true]
              exact int _ _ (by decide +kernel)
          · refine List.Pairwise.cons ?_ (List.pairwise_singleton _ _)
            intro y hy
            simp only [List.mem_singleton] at hy
            subst hy
            intro a b _ hb
            cases hb
      · intro rid v h1 h2
        cases h1
        cases h2
        exact ⟨_, rfl⟩
    · refine ⟨_, rfl, ?_, ?_, ?_, hid _ ?_⟩
      · refine ⟨by simp, by decide +kernel, by decide +kernel, ?_⟩
        intro v hv; decide +kernel
      · intro _; decide +kernel
      · simp only [Trip.FitsFields, and_true]
        exact ⟨text _ _ (by simp) (by decide +kernel), text _ _ (by simp) (by decide +kernel)⟩
      · intro rid v h1 h2
        cases h1
        cases h2
        exact ⟨_, rfl⟩
  distinct := by
    refine List.Pairwise.cons ?_ (List.pairwise_singleton _ _)
    intro y hy h
    cases hy with
    | tail _ hy => cases hy
    | head => exact absurd h (by decide +kernel)

/-- The document through CSV files whose headings are titles. -/
example : ∃ st, flatten { schema := some (shopParsed shopTitles), useTitles := true, rootId := some s%"ocid" } shopDoc = .ok st ∧
    ∀ (order : List Sheet), order.Perm (sheetsOf st) →
    (∀ s ∈ order, s.headings ≠ [] ∧ s.headings.head? ≠ some s%"#") → ∀ name : Sheet → Str,
    ∃ sheets, All₂ (fun s sh => ∃ g, csvGrid (fun _ => []) s = .ok g ∧ csvSheet {} (name s) g = .ok sh) order sheets ∧
      ∃ out w, unflatten { row := { types := shopT.types }, idName := some s%"id", rootId := some s%"ocid" }
          (titleSheets (shopParsed { rootId := s%"ocid" }).lookup sheets) = .ok (out, w) ∧ Rearranged (.arr shopDoc) (.arr out) :=
  C71_csv_round_trip shopT shopTitles { rootId := s%"ocid" } shop _ (shopParsed { rootId := s%"ocid" }) _ _ (by with_unfolding_all rfl) rfl (by with_unfolding_all rfl) rfl rfl
    shop_return (by
      rintro steps n p ⟨r, q, hr, ht, hf⟩ rfl
      have : ∀ x ∈ inside shop, ∀ a ∈ x.properties.getD [], titleOf a.2 ≠ none := by decide +kernel
      exact this q (inside_starts hr (inside_trail ht (inside_self q))) _ hf.1)
    ⟨by decide +kernel, by
      have : ∀ a ∈ (shopParsed shopTitles).subs, a.2.headings.Nodup := by decide +kernel
      exact fun n sh h => this _ h⟩ ⟨rfl, rfl, rfl, rfl, rfl, rfl, rfl, rfl, rfl⟩ ⟨rfl, rfl, rfl, rfl, rfl⟩ rfl _
    (fun _ => rfl) shopDoc shopDoc_fits shopDoc_described (by
      intro rid h fs hm
      cases h
      simp only [shopDoc, objects, List.mem_cons, List.not_mem_nil, or_false] at hm
      rcases hm with rfl | rfl <;> decide +kernel)

/-- Its sheets. -/
example : (flatten { schema := some (shopParsed shopTitles), useTitles := true, rootId := some s%"ocid" } shopDoc).toOption.map
      (fun st => (sheetsOf st).map (fun sh => (sh.headings, sh.lines.map (fun l => sh.headings.map (fun h => csvText (fun _ => []) (Dict.get l h)))))) =
    some [([s%"Contract", s%"Identifier", s%"All Tags", s%"The Buyer:Full Name"],
        [[s%"1", s%"A", s%"x;y", s%"B"], [s%"2", s%"A", [], []]]),
      ([s%"ocid", s%"Identifier", s%"Order Lines:Line Id", s%"Order Lines:How Many", s%"Contract"],
        [[[], s%"A", s%"l1", s%"12", s%"1"], [[], s%"A", [], s%"3", s%"1"]])] := by decide +kernel

end Verif

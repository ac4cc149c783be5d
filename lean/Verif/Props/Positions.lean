import Verif.Proofs.Built
import Verif.Props.Additive
/-! C04, C09, C10: where the values of a row end up. -/
namespace Verif
open Spec

theorem lineCells_atom (sheet : Str) (hs : Option (List (Option Str))) (j : Nat) (l : Line) : ∀ (k : Nat), ∀ c ∈ lineCells sheet hs j k l, ∃ a, c.2.value = .atom a := by
  induction l with
  | nil => intro k c hc; simp [lineCells] at hc
  | cons e r ih =>
    intro k c hc
    obtain ⟨h, v⟩ := e
    simp only [lineCells] at hc
    rcases List.mem_cons.1 hc with rfl | hc
    · exact ⟨v, rfl⟩
    · exact ih _ c hc

theorem cellColumns_line (sheet : Str) (hs : Option (List (Option Str))) (j : Nat) (l : Line) : ∀ (k : Nat), cellColumns (lineCells sheet hs j k l) = columns l := by
  induction l with
  | nil => intro k; rfl
  | cons e r ih =>
    intro k
    obtain ⟨h, v⟩ := e
    have := ih (k + 1)
    unfold cellColumns columns at this ⊢
    simp only [lineCells]
    cases hb : v.blank with
    | true => simpa [List.filter_cons, Val.blank, hb] using this
    | false => simpa [List.filter_cons, Val.blank, hb, atomOf] using this

theorem nodup_map_inj {α β : Type} {f : α → β} {l : List α} (h : (l.map f).Nodup) {x y : α} (hx : x ∈ l) (hy : y ∈ l) (he : f x = f y) : x = y := by
  induction l with
  | nil => cases hx
  | cons z r ih =>
    simp only [List.map_cons, List.nodup_cons] at h
    rcases List.mem_cons.1 hx with hx1 | hx1 <;> rcases List.mem_cons.1 hy with hy1 | hy1
    · rw [hx1, hy1]
    · exact absurd (List.mem_map.2 ⟨y, hy1, by rw [← he, hx1]⟩) h.1
    · exact absurd (List.mem_map.2 ⟨x, hx1, by rw [he, hy1]⟩) h.1
    · exact ih h.2 hx1 hy1

theorem dupWarns_one {sheet : Str} {headings : Option (List (Option Str))} {lines : List Line} {y : Warn}
    (h : y ∈ dupWarns [{ name := sheet, headings := headings, lines := lines }]) :
    ∃ h cols, y = .dupHeading h cols sheet ∧ headings ≠ none := by
  cases headings with
  | none => simp [dupWarns] at h
  | some hs =>
    simp only [dupWarns, List.flatMap_cons, List.flatMap_nil, List.append_nil, headingWarns, List.mem_filterMap] at h
    obtain ⟨e, -, he⟩ := h
    split at he
    · cases he; exact ⟨_, _, rfl, by simp⟩
    · cases he

theorem foldRows_one {cfg : UnCfg} {x : Row} {gs : Groups} {mw : List Warn} (h : foldRows cfg [x] [] = .ok (gs, mw)) : mw = [] := by
  rw [foldRows] at h
  cases ha : addRow cfg x.sheet x.root x.fields [] with
  | error e => rw [ha] at h; cases h
  | ok r =>
    obtain ⟨g1, w1⟩ := r
    rw [ha] at h
    simp only [foldRows, List.append_nil, Except.ok.injEq, Prod.mk.injEq] at h
    obtain ⟨-, rfl⟩ := h
    unfold addRow at ha
    cases hg : addToGroup cfg x.sheet x.fields {} with
    | error e => simp [keyGet, hg] at ha
    | ok r =>
      obtain ⟨td, w⟩ := r
      simp [keyGet, hg] at ha
      rcases addToGroup_cases hg with ⟨-, -, e, -⟩ | ⟨k, -, -, -, ⟨-, -, e⟩ | ⟨base, hb, -⟩⟩
      · rw [← ha.2, e]
      · rw [← ha.2, e]
      · simp [keyGet] at hb

/-- C04, for rows whose headings name different positions: the object made from a row (outside XML mode) has exactly the content that some of
the row's non-blank columns give, each at the position its heading names; a warning reports each column that is not among these.
Every warning of the run is one of these reports, or comes from the conversion of a kept value, or is about a heading that occurs twice; when
the headings name pairwise compatible positions, every column is kept.
(`columns`: the non-blank cells; `address`: the position a heading names; `contentOf`: the converted values at these positions; `Built`: the
object has this content and nothing else.)  The values are required to be not blank after conversion (a text never converts to a blank), and
items of one array not to share an id. -/
theorem C04_kept_or_reported (cfg : UnCfg) (hx : cfg.row.xml = false) (sheet : Str) (headings : Option (List (Option Str))) (hh : headings ≠ some [])
    (line : Line) (out : List Json) (w : List Warn)
    (hpos : ∀ c ∈ columns line, c.addr cfg.row ≠ none)
    (hdist : ((columns line).map (fun c => c.addr cfg.row)).Nodup)
    (hconv : ∀ c ∈ columns line, ∀ v w, c.value cfg.row = .ok (v, w) → v.blank = false)
    (hids : DistinctIds cfg.idName (contentOf cfg.row (columns line)))
    (hdata : columns line ≠ [])
    (h : unflatten cfg [{ name := sheet, headings := headings, lines := [line] }] = .ok (out, w)) :
    ∃ o kept, out = [.obj o] ∧ kept.Sublist (columns line) ∧ Built cfg.idName (contentOf cfg.row kept) o ∧
      (∀ c ∈ kept, ∃ v cw, c.value cfg.row = .ok (v, cw) ∧ ∀ x ∈ cw, x ∈ w) ∧
      (∀ c ∈ columns line, c ∈ kept ∨ ColumnIgnored cfg.row w c) ∧
      (∀ x ∈ w, (∃ h cols, x = .dupHeading h cols sheet ∧ headings ≠ none) ∨
        (∃ c ∈ kept, ∃ v cw, c.value cfg.row = .ok (v, cw) ∧ x ∈ cw) ∨
        ∃ c ∈ columns line, c ∉ kept ∧ ColumnIgnored cfg.row [x] c) ∧
      (((columns line).map (fun c => (c.addr cfg.row).getD [])).Pairwise Compatible → kept = columns line) := by
  have hd : hasData line = true := by
    cases hhd : hasData line with
    | true => rfl
    | false =>
      exfalso; apply hdata
      unfold columns
      have : line.filter (fun c => !c.2.blank) = [] := by
        rw [List.filter_eq_nil_iff]
        intro x hx
        unfold hasData at hhd
        rw [List.any_eq_false] at hhd
        exact hhd x hx
      rw [this]; rfl
  let s : SheetIn := { name := sheet, headings := headings, lines := [line] }
  have hri : rowsIn [s] = [⟨s, 0, line⟩] := by
    simp [rowsIn, s, hh, hd]
  obtain ⟨xs, gs, mw, e1, e2, e3, e4⟩ := unflatten_ok h
  have e1' : rowsAlone cfg (rowsIn [s]) = .ok xs := e1
  rw [hri] at e1'
  simp only [rowsAlone] at e1'
  cases hrow : rowAlone cfg ⟨s, 0, line⟩ with
  | error e => rw [hrow] at e1'; cases e1'
  | ok x =>
    rw [hrow] at e1'
    simp only [Except.ok.injEq] at e1'
    subst e1'
    have hw := e4.2
    have hrow' := hrow
    unfold rowAlone at hrow
    cases hu : unflattenRow cfg.row cfg.idName (lineCells sheet headings 0 0 line) with
    | error e => simp only [s, hu] at hrow; cases hrow
    | ok r =>
      obtain ⟨fs, wr⟩ := r
      simp only [s, hu, Except.ok.injEq] at hrow
      have hxf : x.fields = fs := by rw [← hrow]
      have hxw : x.warns = wr := by rw [← hrow]
      unfold unflattenRow at hu
      cases hp : placeAll cfg.row (lineCells sheet headings 0 0 line) [] with
      | error e => rw [hp] at hu; cases hu
      | ok r2 =>
        obtain ⟨rf, w2⟩ := r2
        rw [hp] at hu
        simp only at hu
        rw [hx] at hu
        cases ht : toTemp cfg.idName false rf with
        | error e => rw [ht] at hu; cases hu
        | ok fs' =>
          rw [ht] at hu
          simp only [Except.ok.injEq, Prod.mk.injEq] at hu
          obtain ⟨rfl, rfl⟩ := hu
          have hcc := cellColumns_line sheet headings 0 line 0
          obtain ⟨kept, k1, k2, k3, k4, k6, k5⟩ := placeAll_kept hx _ (done := []) (lineCells_atom _ _ _ _ _)
            (by rw [hcc]; simpa using hpos) (by rw [hcc]; exact hconv) (by rw [hcc]; simpa using hdist)
            ⟨by simp [RFullF], fun a => by cases a <;> simp [rget, contentOf]⟩ hp
          rw [hcc] at k1 k4 k5 k6
          simp only [List.nil_append] at k2 k5
          have hcont : content rf = contentOf cfg.row kept := funext k2.content
          have hidk : DistinctIds cfg.idName (content rf) := by
            have hsubc : ∀ a v, contentOf cfg.row kept a = some v → contentOf cfg.row (columns line) a = some v := by
              intro a v hv
              unfold contentOf at hv ⊢
              cases hf : kept.find? (fun c => c.addr cfg.row == some a) with
              | none => rw [hf] at hv; cases hv
              | some d =>
                rw [hf] at hv
                have hdm := k1.subset (List.mem_of_find?_eq_some hf)
                have hda := List.find?_some hf
                simp only [beq_iff_eq] at hda
                have : (columns line).find? (fun c => c.addr cfg.row == some a) = some d := by
                  cases hf2 : (columns line).find? (fun c => c.addr cfg.row == some a) with
                  | none =>
                    have := List.find?_eq_none.1 hf2 d hdm
                    simp [hda] at this
                  | some d' =>
                    have hd'm := List.mem_of_find?_eq_some hf2
                    have hd'a := List.find?_some hf2
                    simp only [beq_iff_eq] at hd'a
                    have := nodup_map_inj hdist hdm hd'm (by rw [hda, hd'a])
                    rw [this]
                rw [this]
                exact hv
            intro above key i j m a b hn hij h1 h2
            rw [hcont] at h1 h2
            exact hids above key i j m a b hn hij (hsubc _ _ h1) (hsubc _ _ h2)
          have hb := toTemp_built k2.full ht hidk
          rw [hcont] at hb
          have hsub : ∀ y ∈ w2, y ∈ w := fun y hy => (hw y).2 (Or.inr (Or.inl ⟨x, by simp, by rw [hxw]; exact hy⟩))
          refine ⟨jf fs', kept, ?_, k1, hb, ?_, ?_, ?_, k5⟩
          · -- the one object
            obtain ⟨w', hw'⟩ := alone_run (cfg := cfg) (r := ⟨s, 0, line⟩) ⟨hd, hh⟩ hrow' (foldRows_each e2 x (by simp))
            have hal : doUnflatten cfg [alone ⟨s, 0, line⟩] = doUnflatten cfg [s] := by
              simp [alone, s]
            rw [hal] at hw'
            have : unflatten cfg [s] = .ok (out, w) := h
            unfold unflatten at this
            rw [hw'] at this
            simp only [Except.ok.injEq, Prod.mk.injEq] at this
            rw [← this.1, hxf, listToValue_eq]
            simp [toValue_toLists]
          · intro c hc
            obtain ⟨v, cw, h1, h2⟩ := k3 c hc
            exact ⟨v, cw, h1, fun y hy => hsub y (h2 y hy)⟩
          · intro c hc
            rcases k4 c hc with h' | h'
            · exact Or.inl h'
            · right
              rcases h' with ⟨t, h⟩ | ⟨t, h⟩ | h
              · exact Or.inl ⟨t, hsub _ h⟩
              · exact Or.inr (Or.inl ⟨t, hsub _ h⟩)
              · exact Or.inr (Or.inr (hsub _ h))
          · intro y hy
            rcases (hw y).1 hy with hd' | ⟨x', hx', hy'⟩ | hm
            · left; exact dupWarns_one hd'
            · right
              rw [List.mem_singleton] at hx'
              subst hx'
              rw [hxw] at hy'
              exact k6 y hy'
            · rw [foldRows_one e2] at hm; cases hm

theorem built_follow {n : Option Str} (ks : List Str) (k : Str) : ∀ {f : Content} {fs : List (Str × Json)}, Built n f fs →
    (∃ ix, Has (fun ix rest => f (keyPath ks ++ (k, ix) :: rest)) ix) →
    ∃ j, follow (.obj fs) (ks ++ [k]) = some j ∧ BuiltVal n (fun ix rest => f (keyPath ks ++ (k, ix) :: rest)) j := by
  have step : ∀ {f : Content} {fs : List (Str × Json)} {k : Str}, Built n f fs → (∃ ix, Has (fun ix rest => f ((k, ix) :: rest)) ix) →
      ∃ j, Dict.get fs k = some j ∧ BuiltVal n (fun ix rest => f ((k, ix) :: rest)) j := by
    intro f fs k hb hh
    obtain ⟨-, ⟨hnd, hk⟩, hf⟩ := hb
    have hmem := (hk k).2 hh
    obtain ⟨j, hj⟩ := Option.isSome_iff_exists.1 (Dict.get_isSome_iff.2 hmem)
    exact ⟨j, hj, (builtFields_iff fs).1 hf _ (Dict.get_eq_some_mem hj)⟩
  induction ks with
  | nil =>
    intro f fs hb hh
    obtain ⟨j, h1, h2⟩ := step hb hh
    exact ⟨j, by simp [follow, h1], h2⟩
  | cons k0 ks ih =>
    intro f fs hb hh
    obtain ⟨ix, rest, hr⟩ := hh
    obtain ⟨j, h1, h2⟩ := step (k := k0) hb ⟨none, keyPath ks ++ (k, ix) :: rest, hr⟩
    have hv : ¬ IsValue (fun ix rest => f ((k0, ix) :: rest)) j := by
      rintro ⟨v0, -, hv⟩
      obtain ⟨v, hv'⟩ := Option.ne_none_iff_exists'.1 hr
      have := ((hv none (keyPath ks ++ (k, ix) :: rest) v).1 hv').2.1
      simp at this
    cases j with
    | leaf a => rw [BuiltVal] at h2; exact absurd h2 hv
    | arr is =>
      rw [BuiltVal] at h2
      rcases h2 with h2 | h2
      · exact absurd h2 hv
      · exact absurd rfl (h2.1 none ⟨_, hr⟩)
    | obj gs =>
      rw [BuiltVal] at h2
      rcases h2 with h2 | ⟨-, h3, h4, h5⟩
      · exact absurd h2 hv
      · obtain ⟨j, hj, hjb⟩ := ih (f := fun rest => f ((k0, none) :: rest)) ⟨h3, h4, h5⟩ ⟨ix, rest, hr⟩
        exact ⟨j, by simp [follow, h1, hj], hjb⟩

theorem compatible_nodup {α : Type} {l : List α} {f : α → Option Addr} 
    (h : (l.map (fun c => (f c).getD [])).Pairwise Compatible) : (l.map f).Nodup := by
  rw [List.Nodup, List.pairwise_map]
  rw [List.pairwise_map] at h
  refine h.imp_of_mem ?_
  intro x y _ _ hc he
  rw [he] at hc
  exact compatible_irrefl _ hc

/-- C10: when the headings of a row name pairwise compatible positions, the object made from the row has exactly the content the columns give:
at each named position the column's converted value, and nothing anywhere else (`Built`); and the run's only warnings are those of the value
conversions and those about headings that occur twice. -/
theorem C10_exact_content (cfg : UnCfg) (hx : cfg.row.xml = false) (sheet : Str) (headings : Option (List (Option Str))) (hh : headings ≠ some [])
    (line : Line) (out : List Json) (w : List Warn)
    (hpos : ∀ c ∈ columns line, c.addr cfg.row ≠ none)
    (hcompat : ((columns line).map (fun c => (c.addr cfg.row).getD [])).Pairwise Compatible)
    (hconv : ∀ c ∈ columns line, ∀ v w, c.value cfg.row = .ok (v, w) → v.blank = false)
    (hids : DistinctIds cfg.idName (contentOf cfg.row (columns line)))
    (hdata : columns line ≠ [])
    (h : unflatten cfg [{ name := sheet, headings := headings, lines := [line] }] = .ok (out, w)) :
    ∃ o, out = [.obj o] ∧ Built cfg.idName (contentOf cfg.row (columns line)) o ∧
      (∀ c ∈ columns line, ∃ v cw, c.value cfg.row = .ok (v, cw) ∧ ∀ x ∈ cw, x ∈ w) ∧
      (∀ x ∈ w, (∃ h cols, x = .dupHeading h cols sheet ∧ headings ≠ none) ∨
        ∃ c ∈ columns line, ∃ v cw, c.value cfg.row = .ok (v, cw) ∧ x ∈ cw) := by
  obtain ⟨o, kept, h1, -, h3, h4, -, h5, h6⟩ := C04_kept_or_reported cfg hx sheet headings hh line out w hpos (compatible_nodup hcompat) hconv hids hdata h
  rw [h6 hcompat] at h3 h4 h5
  refine ⟨o, h1, h3, h4, fun x hx => ?_⟩
  rcases h5 x hx with h | h | ⟨c, hc, hn, -⟩
  · exact Or.inl h
  · exact Or.inr h
  · exact absurd hc hn

/-- C10: a heading made of keys only is a JSON pointer: following the keys in the object gives the column's converted value. -/
theorem C10_pointer (cfg : UnCfg) (hx : cfg.row.xml = false) (sheet : Str) (headings : Option (List (Option Str))) (hh : headings ≠ some [])
    (line : Line) (out : List Json) (w : List Warn)
    (hpos : ∀ c ∈ columns line, c.addr cfg.row ≠ none)
    (hcompat : ((columns line).map (fun c => (c.addr cfg.row).getD [])).Pairwise Compatible)
    (hconv : ∀ c ∈ columns line, ∀ v w, c.value cfg.row = .ok (v, w) → v.blank = false)
    (hids : DistinctIds cfg.idName (contentOf cfg.row (columns line)))
    (h : unflatten cfg [{ name := sheet, headings := headings, lines := [line] }] = .ok (out, w))
    (c : Column) (hc : c ∈ columns line) (ks : List Str) (hks : c.addr cfg.row = some (keyPath ks)) :
    ∃ o v cw, out = [.obj o] ∧ c.value cfg.row = .ok (v, cw) ∧ follow (.obj o) ks = some v.toJson := by
  have hdata : columns line ≠ [] := fun e => by rw [e] at hc; cases hc
  obtain ⟨o, kept, h1, -, h3, h4, -, -, h6⟩ := C04_kept_or_reported cfg hx sheet headings hh line out w hpos (compatible_nodup hcompat) hconv hids hdata h
  rw [h6 hcompat] at h3 h4
  obtain ⟨v, cw, hv, -⟩ := h4 c hc
  refine ⟨o, v, cw, h1, hv, ?_⟩
  have hcont : contentOf cfg.row (columns line) (keyPath ks) = some v := by
    unfold contentOf
    cases hf : (columns line).find? (fun c => c.addr cfg.row == some (keyPath ks)) with
    | none => have := List.find?_eq_none.1 hf c hc; simp [hks] at this
    | some d =>
      have hda := List.find?_some hf
      simp only [beq_iff_eq] at hda
      rw [nodup_map_inj (compatible_nodup hcompat) (List.mem_of_find?_eq_some hf) hc (by rw [hda, hks])]
      simp only [hv]
  have hne : ks ≠ [] := fun e => by
    rw [e] at hcont; rw [show keyPath [] = [] from rfl, h3.1] at hcont; cases hcont
  obtain ⟨ks', k, rfl⟩ : ∃ ks' k, ks = ks' ++ [k] := ⟨ks.dropLast, ks.getLast hne, (List.dropLast_concat_getLast hne).symm⟩
  have hcont' : contentOf cfg.row (columns line) (keyPath ks' ++ (k, none) :: []) = some v := by
    rw [← hcont]; simp [keyPath]
  obtain ⟨j, hj, hb⟩ := built_follow ks' k h3 ⟨none, [], by simp [hcont']⟩
  rw [hj]
  have hval : IsValue (fun ix rest => contentOf cfg.row (columns line) (keyPath ks' ++ (k, ix) :: rest)) j := by
    cases j with
    | leaf a => rw [BuiltVal] at hb; exact hb
    | obj gs =>
      rw [BuiltVal] at hb
      rcases hb with hb | hb
      · exact hb
      · exact absurd hb.2.1 (by simp [hcont'])
    | arr is =>
      rw [BuiltVal] at hb
      rcases hb with hb | hb
      · exact hb
      · exact absurd rfl (hb.1 none ⟨[], by simp [hcont']⟩)
  obtain ⟨v0, hv0, hall⟩ := hval
  rw [← hv0, ← ((hall none [] v).1 hcont').2.2]

/-- C09: an array that a row's headings give (`key/0/…`, `key/7/…`, possibly below other keys) has one item per distinct index with
a value, in ascending order of the indices, whatever the order of the columns and the gaps between the indices; items that have an id
come before those that have none.  Each item has the content given by the columns with its index. -/
theorem C09_items_by_index (cfg : UnCfg) (hx : cfg.row.xml = false) (sheet : Str) (headings : Option (List (Option Str))) (hh : headings ≠ some [])
    (line : Line) (out : List Json) (w : List Warn)
    (hpos : ∀ c ∈ columns line, c.addr cfg.row ≠ none)
    (hcompat : ((columns line).map (fun c => (c.addr cfg.row).getD [])).Pairwise Compatible)
    (hconv : ∀ c ∈ columns line, ∀ v w, c.value cfg.row = .ok (v, w) → v.blank = false)
    (hids : DistinctIds cfg.idName (contentOf cfg.row (columns line)))
    (h : unflatten cfg [{ name := sheet, headings := headings, lines := [line] }] = .ok (out, w))
    (ks : List Str) (k : Str)
    (harr : ∃ c ∈ columns line, ∃ i rest, c.addr cfg.row = some (keyPath ks ++ (k, some i) :: rest)) :
    ∃ o items, ∃ withId without : List Int, out = [.obj o] ∧ follow (.obj o) (ks ++ [k]) = some (.arr items) ∧
      Ascending withId ∧ Ascending without ∧
      (∀ i, i ∈ withId ↔ ∃ c ∈ columns line, ∃ m, cfg.idName = some m ∧ c.addr cfg.row = some (keyPath ks ++ [(k, some i), (m, none)])) ∧
      (∀ i, i ∈ without ↔ (∃ c ∈ columns line, ∃ rest, c.addr cfg.row = some (keyPath ks ++ (k, some i) :: rest)) ∧ i ∉ withId) ∧
      BuiltItems cfg.idName (fun ix rest => contentOf cfg.row (columns line) (keyPath ks ++ (k, ix) :: rest)) (withId ++ without) items := by
  have hdata : columns line ≠ [] := by
    obtain ⟨c, hc, -⟩ := harr
    exact fun e => by rw [e] at hc; cases hc
  obtain ⟨o, kept, h1, -, h3, h4, -, -, h6⟩ := C04_kept_or_reported cfg hx sheet headings hh line out w hpos (compatible_nodup hcompat) hconv hids hdata h
  rw [h6 hcompat] at h3 h4
  have hcont : ∀ a, contentOf cfg.row (columns line) a ≠ none ↔ ∃ c ∈ columns line, c.addr cfg.row = some a := by
    intro a
    unfold contentOf
    cases hf : (columns line).find? (fun c => c.addr cfg.row == some a) with
    | none =>
      have := List.find?_eq_none.1 hf
      simp only [ne_eq, not_true, false_iff]
      rintro ⟨c, hc, ha⟩
      have := this c hc
      simp [ha] at this
    | some d =>
      have hda := List.find?_some hf
      simp only [beq_iff_eq] at hda
      obtain ⟨v, w, hv⟩ := h4 d (List.mem_of_find?_eq_some hf)
      simp only [hv, ne_eq, reduceCtorEq, not_false_iff, true_iff]
      exact ⟨d, List.mem_of_find?_eq_some hf, hda⟩
  obtain ⟨c, hc, i, rest, ha⟩ := harr
  have hi : contentOf cfg.row (columns line) (keyPath ks ++ (k, some i) :: rest) ≠ none := (hcont _).2 ⟨c, hc, ha⟩
  obtain ⟨j, hj, hb⟩ := built_follow ks k h3 ⟨some i, rest, hi⟩
  have hv : ¬ IsValue (fun ix rest => contentOf cfg.row (columns line) (keyPath ks ++ (k, ix) :: rest)) j := by
    rintro ⟨v0, -, hv⟩
    obtain ⟨v, hv'⟩ := Option.ne_none_iff_exists'.1 hi
    have := ((hv (some i) rest v).1 hv').1
    simp at this
  cases j with
  | leaf a => rw [BuiltVal] at hb; exact absurd hb hv
  | obj gs =>
    rw [BuiltVal] at hb
    rcases hb with hb | hb
    · exact absurd hb hv
    · have := hb.1 (some i) ⟨rest, hi⟩; simp at this
  | arr items =>
    rw [BuiltVal] at hb
    rcases hb with hb | ⟨-, withId, without, a1, a2, a3, a4, a5⟩
    · exact absurd hb hv
    · have hw : ∀ i, i ∈ withId ↔ ∃ c ∈ columns line, ∃ m, cfg.idName = some m ∧ c.addr cfg.row = some (keyPath ks ++ [(k, some i), (m, none)]) := by
        intro i
        rw [a3]
        constructor
        · rintro ⟨m, hm, hx⟩
          obtain ⟨c, hc, ha⟩ := (hcont _).1 hx
          exact ⟨c, hc, m, hm, ha⟩
        · rintro ⟨c, hc, m, hm, ha⟩
          exact ⟨m, hm, (hcont _).2 ⟨c, hc, ha⟩⟩
      refine ⟨o, items, withId, without, h1, hj, a1, a2, hw, ?_, a5⟩
      intro i
      rw [a4, a3]
      constructor
      · rintro ⟨⟨rest, hr⟩, hno⟩
        obtain ⟨c, hc, ha⟩ := (hcont _).1 hr
        exact ⟨⟨c, hc, rest, ha⟩, fun ⟨m, hm, hx⟩ => hx (hno m hm)⟩
      · rintro ⟨⟨c, hc, rest, ha⟩, hno⟩
        refine ⟨⟨rest, (hcont _).2 ⟨c, hc, ha⟩⟩, ?_⟩
        intro m hm
        cases hx : contentOf cfg.row (columns line) (keyPath ks ++ [(k, some i), (m, none)]) with
        | none => rfl
        | some v => exact absurd ⟨m, hm, by rw [hx]; simp⟩ hno

/-! ### A row that meets the hypotheses -/

theorem contentOf_mem {cfg : RowCfg} {cs : List Column} {a : Addr} {v : Val} (h : contentOf cfg cs a = some v) :
    ∃ c ∈ cs, c.addr cfg = some a := by
  unfold contentOf at h
  cases hf : cs.find? (fun c => c.addr cfg == some a) with
  | none => rw [hf] at h; cases h
  | some d =>
    have hda := List.find?_some hf
    simp only [beq_iff_eq] at hda
    exact ⟨d, List.mem_of_find?_eq_some hf, hda⟩

/-- A line with columns in no particular order, gaps between the indices, an item with an id, and a blank cell. -/
def exampleLine : Line :=
  [(some s%"id", .int 1), (some s%"a/7/x", .str s%"p"), (some s%"b/c", .str s%"q"), (some s%"a/2/x", .str s%"r"), (some s%"a/9/id", .str s%"i"),
   (some s%"b/d/0/y", .str s%"t"), (some s%"e", .none), (some s%"a/9/x", .str s%"s"), (some s%"a/2/y", .str s%"u")]

theorem exampleLine_addrs : (columns exampleLine).map (fun c => c.addr {}) =
    [some [(s%"id", none)], some [(s%"a", some 7), (s%"x", none)], some [(s%"b", none), (s%"c", none)], some [(s%"a", some 2), (s%"x", none)],
     some [(s%"a", some 9), (s%"id", none)], some [(s%"b", none), (s%"d", some 0), (s%"y", none)], some [(s%"a", some 9), (s%"x", none)],
     some [(s%"a", some 2), (s%"y", none)]] := by decide +kernel

example : (∀ c ∈ columns exampleLine, c.addr {} ≠ none) ∧
    ((columns exampleLine).map (fun c => (c.addr {}).getD [])).Pairwise Compatible ∧
    (∀ c ∈ columns exampleLine, ∀ v w, c.value {} = .ok (v, w) → v.blank = false) ∧
    DistinctIds (some s%"id") (contentOf {} (columns exampleLine)) ∧ columns exampleLine ≠ [] := by
  refine ⟨by decide +kernel, ?_, ?_, ?_, by decide +kernel⟩
  · have := congrArg (List.map (fun a => Option.getD a ([] : Addr))) exampleLine_addrs
    rw [List.map_map] at this
    rw [show (columns exampleLine).map (fun c => (c.addr {}).getD []) = _ from this]
    simp [Compatible]
  · have : (columns exampleLine).all (fun c => match c.value {} with | .ok (v, _) => !v.blank | .error _ => true) = true := by decide +kernel
    intro c hc v w hv
    have := List.all_eq_true.1 this c hc
    rw [hv] at this; simpa using this
  · intro above key i j m a b hm hij h1 h2
    obtain ⟨c1, hc1, ha1⟩ := contentOf_mem h1
    obtain ⟨c2, hc2, ha2⟩ := contentOf_mem h2
    have m1 := List.mem_map_of_mem (f := fun c : Column => c.addr {}) hc1
    have m2 := List.mem_map_of_mem (f := fun c : Column => c.addr {}) hc2
    rw [exampleLine_addrs, ha1] at m1
    rw [exampleLine_addrs, ha2] at m2
    injection hm with hm; subst hm
    rcases above with _ | ⟨s, _ | ⟨s', above⟩⟩
    · simp at m1 m2
      exact absurd (m1.2.trans m2.2.symm) hij
    · simp at m1
    · rcases above with _ | ⟨s2, above⟩ <;> simp at m1

example : unflatten {} [{ name := s%"s", lines := [exampleLine] }] = .ok ([.obj
    [(s%"id", .leaf (.int 1)),
     (s%"a", .arr [.obj [(s%"id", .leaf (.str s%"i")), (s%"x", .leaf (.str s%"s"))], .obj [(s%"x", .leaf (.str s%"r")), (s%"y", .leaf (.str s%"u"))], .obj [(s%"x", .leaf (.str s%"p"))]]),
     (s%"b", .obj [(s%"c", .leaf (.str s%"q")), (s%"d", .arr [.obj [(s%"y", .leaf (.str s%"t"))]])])]], []) := by decide +kernel

/-- Incompatible headings: the later column is reported. -/
example : unflatten {} [{ name := s%"s", lines := [[(some s%"a/b", .str s%"p"), (some s%"a", .str s%"q"), (some s%"a/0/c", .str s%"r"), (some s%"a/b/d", .str s%"t")]] }] =
    .ok ([.obj [(s%"a", .obj [(s%"b", .leaf (.str s%"p"))])]],
      [.isContainer s%"a", .notArray s%"a/0/c" s%"a", .notObject s%"a/b/d" s%"a/b"]) := by decide +kernel

/-- What the hypotheses exclude (the statement without them is false of the code): a heading that ends in a number, and two headings that
name the same position, lose a value without any warning. -/
example : unflatten {} [{ name := s%"s", lines := [[(some s%"id", .int 1), (some s%"tag/0", .str s%"p"), (some s%"b", .str s%"q"), (some s%"b[]", .str s%"r")]] }] =
    .ok ([.obj [(s%"id", .leaf (.int 1)), (s%"tag", .arr []), (s%"b", .leaf (.str s%"r"))]], []) := by decide +kernel

end Verif

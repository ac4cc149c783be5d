import Verif.Spec.TitledFiles
import Verif.Props.Files
import Verif.Props.Titles
import Verif.Proofs.TitledKnows
import Verif.Proofs.Renumber
import Verif.Proofs.Narrow
import Verif.Proofs.DecEq
/-! C86: titles in place of paths. -/
namespace Verif
open Spec Api

theorem converted_zip {cfg : SchemaCfg} {s : Schema} {sp : Parsed} (h : parseRoot cfg s = .ok sp) (hs : Starts s s) (hg : GoodTitles cfg s)
    {titles paths : List Str} (hm : All₂ (MeansPath cfg s) titles paths) (hn : paths.Nodup) (r : List Atom) :
    convertTitles sp.lookup ((titles.map some).zip r) = (paths.map some).zip r := by
  unfold convertTitles
  have e : ((titles.map some).zip r).map (fun p => (p.1.map (lookupHeader sp.lookup), p.2)) = (paths.map some).zip r := by
    clear hn
    induction hm generalizing r with
    | nil => rfl
    | cons h1 _ ih =>
      cases r with
      | nil => rfl
      | cons a r =>
        simp only [List.map_cons, List.zip_cons_cons, ih]
        cases h1 with
        | field g1 g2 g3 g4 => simp only [Option.map_some, C36_heading_to_path cfg s sp h hs hg _ _ _ _ g1 g2 _ _ g3 g4]
        | kept g1 g2 g3 g4 g5 => simp only [Option.map_some, C36_unknown_kept cfg s sp h hs hg _ _ g1 _ _ g2 _ _ g3 g4 g5]
  rw [e]
  exact dictOf_nodup _ (zip_some_nodup hn r)

theorem titleSheets_alike (ucfg : UnCfg) {cfg : SchemaCfg} {s : Schema} {sp : Parsed} (h : parseRoot cfg s = .ok sp) (hs : Starts s s) (hg : GoodTitles cfg s)
    (ht : ∃ n p a, Field cfg s n p ∧ titleOf p = some a) {ts ts' : List DataSheet} (hr : All₂ (Retitled cfg s) ts ts') (hp : ∀ t ∈ ts, t.Proper) (hp' : ∀ t ∈ ts', t.Proper) :
    All₂ (AlikeSheet ucfg) (titleSheets sp.lookup (ts.map (·.lines))) (ts'.map (·.lines)) := by
  unfold titleSheets
  cases hr with
  | nil => split <;> exact .nil
  | @cons t t' l l' h1 h2 =>
    have hne : sp.lookup.children.isEmpty = false := by
      obtain ⟨n, p, a, g1, g2⟩ := ht
      have := root_learned h hs hg g1 g2
      cases hl : sp.lookup.children with
      | nil => exact absurd hl this
      | cons => rfl
    rw [if_neg (by simp [hne])]
    have hall : All₂ (Retitled cfg s) (t :: l) (t' :: l') := .cons h1 h2
    clear h1 h2 hne
    generalize t :: l = ts at hall hp
    generalize t' :: l' = ts' at hall hp'
    induction hall with
    | nil => exact .nil
    | @cons t t' _ _ h1 _ ih =>
      refine .cons ⟨h1.name, ?_, ?_⟩ (ih (fun x hx => hp x (by simp [hx])) (fun x hx => hp' x (by simp [hx])))
      · have c1 := (hp t (by simp)).columns
        have c2 := (hp' t' (by simp)).columns
        simp [DataSheet.lines, c1, c2]
      · have e : (List.map (convertTitles sp.lookup) t.lines.lines) = t'.lines.lines := by
          simp only [DataSheet.lines, List.map_map, h1.rows]
          apply List.map_congr_left
          intro r _
          exact converted_zip h hs hg h1.header (hp' t' (by simp)).distinct r
        simp only [e]
        generalize t'.lines.lines = ll
        induction ll with
        | nil => exact .nil
        | cons a r ih => exact .cons (alike_refl _ a) ih

theorem converted_letters {cfg : SchemaCfg} {s : Schema} (lookup : TitleTree) {ts : List DataSheet} (hp : ∀ t ∈ ts, t.Proper) :
    (titleSheets lookup (ts.map (·.lines))).any (lettersFail false) = false := by
  rw [List.any_eq_false]
  intro x hx
  unfold titleSheets at hx
  split at hx
  · obtain ⟨t, ht, rfl⟩ := List.mem_map.1 hx
    rw [lines_letters (hp t ht)]
    simp
  · obtain ⟨y, hy, rfl⟩ := List.mem_map.1 hx
    obtain ⟨t, ht, rfl⟩ := List.mem_map.1 hy
    rw [lettersFail_false]
    · simp
    · intro hs he
      simp only [DataSheet.lines, Option.some.injEq] at he
      subst he
      simpa using (hp t ht).letters
    · intro _ l hl _
      obtain ⟨l', hl', rfl⟩ := List.mem_map.1 hl
      obtain ⟨r, hr, rfl⟩ := List.mem_map.1 hl'
      have h1 := (hp t ht).letters
      have h2 : (convertTitles lookup ((t.header.map some).zip r)).length ≤ ((t.header.map some).zip r).length := by
        unfold convertTitles
        refine Nat.le_trans (dictOf_length_le _) ?_
        simp
      refine Nat.le_trans h2 ?_
      simp only [List.length_zip, List.length_map]
      omega

/-- What the pass over the sheets gives without source maps, up to the headings named in warnings. -/
theorem fancy_alike {cfg : UnCfg} {ss ss' : List SheetIn} (h : All₂ (AlikeSheet cfg) ss ss') (root : Option Str) :
    (fancyUnflatten cfg root false false ss).map (fun r => (r.1, r.2.1, r.2.2.1, plainWarnings r.2.2.2)) =
      (fancyUnflatten cfg root false false ss').map (fun r => (r.1, r.2.1, r.2.2.1, plainWarnings r.2.2.2)) := by
  have h1 := unflatten_alike h
  unfold unflatten at h1
  unfold fancyUnflatten
  cases ha : doUnflatten cfg ss with
  | error e =>
    rw [ha] at h1
    cases hb : doUnflatten cfg ss' with
    | error e' => rw [hb] at h1; simpa [Except.map] using h1
    | ok y => rw [hb] at h1; simp [Except.map] at h1
  | ok x =>
    rw [ha] at h1
    cases hb : doUnflatten cfg ss' with
    | error e' => rw [hb] at h1; simp [Except.map] at h1
    | ok y =>
      rw [hb] at h1
      simp only [Except.map, Except.ok.injEq, Prod.mk.injEq] at h1
      simp [sourceMaps, Except.map, h1.1, h1.2]

/-- C86: a file with titles of the schema for headings is unflattened, with `convert_titles`, to what the same file with paths for headings gives without: the same
document and warnings (up to the headings named in them), or the same error.  The two files may have different formats. -/
theorem C86_titles (u : UnOpts) (env : Env) (s : Schema) (i j : Input) (ts ts' : List DataSheet) (hm : u.metatabName = none) (hv : u.vertical = false)
    (hc : u.cellSourceMap = false) (hh : u.headingSourceMap = false) (hsch : u.schema = some s) (hs : Starts s s) (hg : GoodTitles (readingOf u) s)
    (ht : ∃ n p a, Field (readingOf u) s n p ∧ titleOf p = some a)
    (hr : All₂ (Retitled (readingOf u) s) ts ts') (hp : ∀ t ∈ ts, t.Proper) (hp' : ∀ t ∈ ts', t.Proper) (hi : InFile (defaults u) ts i) (hj : InFile (defaults u) ts' j) :
    (runUnflatten { u with convertTitles := true, inputFormat := some i.format } { env with input := i }).map resultOf =
      (runUnflatten { u with convertTitles := false, inputFormat := some j.format } { env with input := j }).map resultOf := by
  have hchk : ∀ k : Input, unflattenChecks (some k.format) u.metatabName u.baseJson = .ok () := by
    intro k
    rw [hm]
    cases k <;> rfl
  have hst : ∀ (b : Bool) (k : Input), stage1 { u with convertTitles := b, inputFormat := some k.format } { env with input := k } = .ok { base := baseDocument u env, config := defaults u } := by
    intro b k
    rw [stage1_plain (.inl (by simp only; rw [hm]; rfl))]
    simp only [defaults_eq]
    rfl
  have hmp : ∀ (b : Bool) (k : Input) (l : List DataSheet), InFile (defaults u) l k → (∀ t ∈ l, t.Proper) →
      mainPass { u with convertTitles := b, inputFormat := some k.format } { env with input := k } (defaults u) (rootPathOf u (defaults u)) (idNameOf u (defaults u)) =
      (match parseRoot (readingOf u) s with
      | .error e => .error e
      | .ok sp =>
        match withTitles b (some sp) (l.map (·.lines)) with
        | .error e => .error e
        | .ok sheets =>
          if sheets.any (lettersFail false) then .error .value
          else match fancyUnflatten { row := rowCfg u env (some sp), idName := some (idNameOf u (defaults u)), rootId := given u.rootId } (if u.rootIsList then none else some (rootPathOf u (defaults u)))
              false false sheets with
          | .error e => .error e
          | .ok (result, cm, hm, w) => .ok { result, cells := cm.getD [], headings := hm.getD [], warns := w, schemaWarns := schemaWarnsOf (some sp) }) := by
    intro b k l hk hl
    unfold mainPass
    simp only [hsch, parseOpt, readingOf]
    cases parseRoot { rollup := true, rootId := u.rootId.getD [], trunc := u.trunc, wkt := u.wkt } s with
    | error e => rfl
    | ok sp =>
      simp only
      unfold pass
      simp only [hm, hv, hc, hh]
      rw [read_tables hk hl]
      rfl
  have key : (mainPass { u with convertTitles := true, inputFormat := some i.format } { env with input := i } (defaults u) (rootPathOf u (defaults u)) (idNameOf u (defaults u))).map
        (fun m => (m.result, plainWarnings m.warns, m.schemaWarns)) =
      (mainPass { u with convertTitles := false, inputFormat := some j.format } { env with input := j } (defaults u) (rootPathOf u (defaults u)) (idNameOf u (defaults u))).map
        (fun m => (m.result, plainWarnings m.warns, m.schemaWarns)) := by
    rw [hmp true i ts hi hp, hmp false j ts' hj hp']
    cases hsp : parseRoot (readingOf u) s with
    | error e => rfl
    | ok sp =>
      simp only
      have w1 : withTitles true (some sp) (ts.map (·.lines)) = .ok (titleSheets sp.lookup (ts.map (·.lines))) := by
        unfold withTitles
        cases ts with
        | nil => simp [titleSheets]
        | cons => simp
      have w2 : withTitles false (some sp) (ts'.map (·.lines)) = .ok (ts'.map (·.lines)) := by simp [withTitles]
      rw [w1, w2]
      simp only
      have l1 := converted_letters (cfg := readingOf u) (s := s) sp.lookup hp
      have l2 : (ts'.map (·.lines)).any (lettersFail false) = false := by
        rw [List.any_eq_false]
        intro x hx
        obtain ⟨t, ht, rfl⟩ := List.mem_map.1 hx
        rw [lines_letters (hp' t ht)]
        simp
      rw [l1, l2]
      simp only [Bool.false_eq_true, if_false]
      have hf := fancy_alike (titleSheets_alike { row := rowCfg u env (some sp), idName := some (idNameOf u (defaults u)), rootId := given u.rootId } hsp hs hg ht hr hp hp')
        (if u.rootIsList then none else some (rootPathOf u (defaults u)))
      generalize fancyUnflatten _ _ false false (titleSheets sp.lookup (ts.map (·.lines))) = a at hf ⊢
      generalize fancyUnflatten _ _ false false (ts'.map (·.lines)) = b at hf ⊢
      cases a with
      | error e => cases b with
        | error e' => simpa [Except.map] using hf
        | ok y => simp [Except.map] at hf
      | ok x => cases b with
        | error e' => simp [Except.map] at hf
        | ok y =>
          obtain ⟨x1, x2, x3, x4⟩ := x
          obtain ⟨y1, y2, y3, y4⟩ := y
          simp only [Except.map, Except.ok.injEq, Prod.mk.injEq] at hf ⊢
          exact ⟨hf.1, hf.2.2.2, trivial⟩
  unfold runUnflatten
  simp only [hchk, hst, ne_eq, not_true_eq_false, if_false]
  have e1 : ∀ (b : Bool) (k : Input), rootPathOf { u with convertTitles := b, inputFormat := some k.format } (defaults u) = rootPathOf u (defaults u) := fun _ _ => rfl
  have e2 : ∀ (b : Bool) (k : Input), idNameOf { u with convertTitles := b, inputFormat := some k.format } (defaults u) = idNameOf u (defaults u) := fun _ _ => rfl
  simp only [e1, e2]
  have r1 : ∀ (b : Bool) (k : Input) (d : Json), render { u with convertTitles := b, inputFormat := some k.format } { env with input := k } (defaults u) (rootPathOf u (defaults u)) d =
      render u env (defaults u) (rootPathOf u (defaults u)) d := fun _ _ _ => rfl
  have a1 : ∀ (b : Bool) (k : Input) (d : Json) (l : List Json), addResult { u with convertTitles := b, inputFormat := some k.format } (rootPathOf u (defaults u)) d l =
      addResult u (rootPathOf u (defaults u)) d l := fun _ _ _ _ => rfl
  simp only [r1, a1]
  split
  · rfl
  · generalize mainPass { u with convertTitles := true, inputFormat := some i.format } _ _ _ _ = a at key ⊢
    generalize mainPass { u with convertTitles := false, inputFormat := some j.format } _ _ _ _ = b at key ⊢
    cases a with
    | error e => cases b with
      | error e' => simpa [Except.map] using key
      | ok y => simp [Except.map] at key
    | ok x => cases b with
      | error e' => simp [Except.map] at key
      | ok y =>
        simp only [Except.map, Except.ok.injEq, Prod.mk.injEq] at key
        simp only
        rw [key.1]
        cases addResult u (rootPathOf u (defaults u)) (baseDocument u env) y.result with
        | error e => rfl
        | ok doc =>
          simp only
          cases render u env (defaults u) (rootPathOf u (defaults u)) doc with
          | error e => rfl
          | ok d => simp [Except.map, resultOf, key.2.1, key.2.2]

/-- C86: every column of a template created with titles (other than id columns), on every sheet, means the path of the field it stands for: so a template can be filled in
and read by `C86_titles`. -/
theorem C86_template (tcfg cfg : SchemaCfg) (s : Schema) (sp : Parsed) (h : parseRoot tcfg s = .ok sp) (hs : Starts s s) (hu : tcfg.useTitles = true)
    (hk : cfg.wkt = tcfg.wkt) (hd : cfg.noDeprecated = tcfg.noDeprecated) (hp : PlainTitles tcfg s) (hw : WellNamed tcfg s) (c : Str)
    (hc : c ∈ sp.main.columns ∨ ∃ nm sh, (nm, sh) ∈ sp.subs ∧ c ∈ sh.columns) :
    ∃ steps n p, Reached tcfg s steps n p ∧ titlePath steps p = some c ∧ MeansPath cfg s c (plainPath steps n) := by
  obtain ⟨steps, n, p, h1, h2⟩ := columns_stand_for tcfg s sp h hw c hc
  unfold StandsFor at h2
  rw [if_pos hu] at h2
  refine ⟨steps, n, p, h1, h2, ?_⟩
  obtain ⟨r, q, h0, ht, hf⟩ := h1
  have hrs : r = s := by
    have h1 := not_oneOf_of_starts hs
    unfold Starts at h0
    unfold isOneOfArray at h1
    split at h0
    · next t i p it alts hty hit =>
      rw [hty, hit] at h1
      simp only [decide_eq_false_iff_not] at h1
      rw [if_neg h1] at h0
      exact h0
    · exact h0
  subst hrs
  have e : (steps.map (fun x => (x.name, x.prop)) ++ [(n, p)]).map (·.2) = steps.map (·.prop) ++ [p] := by simp
  have e2 : (steps.map (fun x => (x.name, x.prop)) ++ [(n, p)]).map (·.1) = steps.map (·.name) ++ [n] := by simp
  obtain ⟨parts, h1, h2, h3⟩ := titlesText_heading _ c (by rw [e]; exact h2) (fun x hx a ha => by
    rcases List.mem_append.1 hx with hx | hx
    · obtain ⟨y, hy, rfl⟩ := List.mem_map.1 hx
      obtain ⟨l1, l2, q', _, g1, g2⟩ := ht.fields y hy
      exact hp l1 y.name y.prop a ⟨r, q', hs, g1, g2⟩ ha
    · rw [List.mem_singleton.1 hx] at ha
      exact hp steps n p a ⟨r, q, hs, ht, hf⟩ ha)
  rw [e2] at h3
  rw [h1]
  exact .field (trail_cfg hd hk ht) (field_cfg hd hf) h3 h2

namespace TitledFilesEx

def titled : List DataSheet := [⟨s%"orders", [s%"Identifier", s%"the buyer:SINCE", s%"The Buyer: my:own"], [[.str s%"A", .str s%"2020-01-02", .none], [.str s%"B", .none, .str s%"z"]]⟩,
  ⟨s%"lines", [s%"Identifier", s%"Lines:0:Line Id", s%"Lines:0:Unit Price"], [[.str s%"A", .str s%"1", .str s%"2.5"], [.str s%"A", .str s%"2", .str s%"x"]]⟩]

def pathed : List DataSheet := [⟨s%"orders", [s%"id", s%"buyer/since", s%"buyer/my/own"], [[.str s%"A", .str s%"2020-01-02", .none], [.str s%"B", .none, .str s%"z"]]⟩,
  ⟨s%"lines", [s%"id", s%"lines/0/id", s%"lines/0/price"], [[.str s%"A", .str s%"1", .str s%"2.5"], [.str s%"A", .str s%"2", .str s%"x"]]⟩]

def opts : UnOpts := { schema := some titledOrders }

theorem proper : ∀ t ∈ titled, t.Proper := by
  intro t ht
  simp only [titled, List.mem_cons, List.not_mem_nil, or_false] at ht
  rcases ht with rfl | rfl <;> exact ⟨by decide +kernel, by decide +kernel, by decide +kernel, by decide +kernel, by decide +kernel⟩

theorem proper' : ∀ t ∈ pathed, t.Proper := by
  intro t ht
  simp only [pathed, List.mem_cons, List.not_mem_nil, or_false] at ht
  rcases ht with rfl | rfl <;> exact ⟨by decide +kernel, by decide +kernel, by decide +kernel, by decide +kernel, by decide +kernel⟩

def book (l : List DataSheet) : List (Str × Grid) := l.map (fun t => (t.name, { width := t.header.length, rows := t.header.map .str :: t.rows }))
def tables (l : List DataSheet) : List (Str × List (List Atom)) := l.map (fun t => (t.name, t.header.map .str :: t.rows))

theorem inXlsx : InFile {} titled (.xlsx (book titled)) := by
  refine .xlsx (by decide +kernel) (.cons ⟨rfl, ?_⟩ (.cons ⟨rfl, ?_⟩ .nil))
  · exact ⟨⟨none, [], _, [], _⟩, rfl, rfl, rfl, ⟨rfl, rfl, (by intro _ he; cases he), fun _ => rfl, rfl⟩, rfl⟩
  · exact ⟨⟨none, [], _, [], _⟩, rfl, rfl, rfl, ⟨rfl, rfl, (by intro _ he; cases he), fun _ => rfl, rfl⟩, rfl⟩

theorem inOds : InFile {} pathed (.ods (tables pathed)) := by
  refine .ods (by decide +kernel) (.cons ⟨rfl, ?_⟩ (.cons ⟨rfl, ?_⟩ .nil)) ?_
  · exact ⟨⟨none, [], _, [], _⟩, rfl, rfl, rfl, ⟨rfl, rfl, (by intro _ he; cases he), fun _ => rfl, rfl⟩, rfl⟩
  · exact ⟨⟨none, [], _, [], _⟩, rfl, rfl, rfl, ⟨rfl, rfl, (by intro _ he; cases he), fun _ => rfl, rfl⟩, rfl⟩
  · decide +kernel

theorem good : GoodTitles (readingOf opts) titledOrders :=
  goodTitles_of_inside (by decide +kernel) (by unfold SameTitle; decide +kernel) (by decide +kernel)

theorem idMeans : MeansPath (readingOf opts) titledOrders s%"Identifier" s%"id" :=
  .field (parts := [s%"Identifier"]) (fields := [s%"id"]) (.here _) ⟨.head _, fun h => by cases h⟩ (.last rfl rfl (by decide +kernel)) (by decide +kernel)

abbrev buyer : Schema := .mk { type := .many [s%"object", s%"null"], title := some s%"The Buyer" } (some [
  (s%"since", .mk { type := .one s%"string", isDate := true, title := some s%"Since" } none none none),
  (s%"note", .mk { type := .one s%"string" } none none none)]) none none
abbrev line : Schema := .mk { type := .one s%"object" } (some [
  (s%"id", .mk { type := .one s%"string", title := some s%"Line Id" } none none none),
  (s%"price", .mk { type := .one s%"number", title := some s%"Unit Price" } none none none)]) none none
abbrev lineList : Schema := .mk { type := .one s%"array", title := some s%"Lines" } none (some line) none

theorem toBuyer : Trail (readingOf opts) titledOrders [⟨s%"buyer", buyer, false⟩] buyer := .object ⟨.tail _ (.head _), fun h => by cases h⟩ rfl (.here _)
theorem toLines : Trail (readingOf opts) titledOrders [⟨s%"lines", lineList, true⟩] line := .list ⟨.tail _ (.tail _ (.head _)), fun h => by cases h⟩ rfl rfl (.here _)

theorem retitled : All₂ (Retitled (readingOf opts) titledOrders) titled pathed := by
  refine .cons ⟨rfl, rfl, .cons idMeans (.cons ?_ (.cons ?_ .nil))⟩ (.cons ⟨rfl, rfl, .cons idMeans (.cons ?_ (.cons ?_ .nil))⟩ .nil)
  · exact .field (parts := [s%"the buyer", s%"SINCE"]) (fields := [s%"buyer", s%"since"]) toBuyer ⟨.head _, fun h => by cases h⟩
      (.step (a := s%"The Buyer") rfl (by unfold SameTitle; decide +kernel) (by decide +kernel)
        (.last (a := s%"Since") rfl (by unfold SameTitle; decide +kernel) (by decide +kernel))) (by decide +kernel)
  · refine .kept (parts := [s%"The Buyer"]) (fields := [s%"buyer"]) (w := s%" my") (rest := [s%"own"]) toBuyer
      (.step (a := s%"The Buyer") rfl rfl (by decide +kernel) .nil) (by decide +kernel) ?_ (by decide +kernel)
    intro n p a hf ha
    have := hf.1
    simp only [Schema.properties, Option.getD_some, List.mem_cons, Prod.mk.injEq, List.not_mem_nil, or_false] at this
    rcases this with ⟨rfl, rfl⟩ | ⟨rfl, rfl⟩
    · cases ha; unfold SameTitle; decide +kernel
    · cases ha
  · exact .field (parts := [s%"Lines", s%"0", s%"Line Id"]) (fields := [s%"lines", s%"0", s%"id"]) toLines ⟨.head _, fun h => by cases h⟩
      (.step (a := s%"Lines") rfl rfl (by decide +kernel) (.index (by decide +kernel) (.last (a := s%"Line Id") rfl rfl (by decide +kernel)))) (by decide +kernel)
  · exact .field (parts := [s%"Lines", s%"0", s%"Unit Price"]) (fields := [s%"lines", s%"0", s%"price"]) toLines ⟨.tail _ (.head _), fun h => by cases h⟩
      (.step (a := s%"Lines") rfl rfl (by decide +kernel) (.index (by decide +kernel) (.last (a := s%"Unit Price") rfl rfl (by decide +kernel)))) (by decide +kernel)

/-- A workbook with titles, and an ODS file with paths. -/
example (env : Env) : (runUnflatten { opts with convertTitles := true, inputFormat := some s%"xlsx" } { env with input := .xlsx (book titled) }).map resultOf =
    (runUnflatten { opts with convertTitles := false, inputFormat := some s%"ods" } { env with input := .ods (tables pathed) }).map resultOf :=
  C86_titles opts env titledOrders (.xlsx (book titled)) (.ods (tables pathed)) titled pathed rfl rfl rfl rfl rfl rfl good ⟨s%"id", _, _, ⟨.head _, fun h => by cases h⟩, rfl⟩ retitled proper proper' inXlsx inOds

/-- It is not an error that both give. -/
example : ((runUnflatten { opts with convertTitles := true, inputFormat := some s%"xlsx" } { input := .xlsx (book titled) }).toOption.map (·.document)) =
    some (.json (.obj [(s%"main", .arr [.obj [(s%"id", .leaf (.str s%"A")), (s%"buyer", .obj [(s%"since", .leaf (.str s%"2020-01-02"))]),
      (s%"lines", .arr [.obj [(s%"id", .leaf (.str s%"1")), (s%"price", .leaf (.dec (.fin false 25 (-1))))], .obj [(s%"id", .leaf (.str s%"2")), (s%"price", .leaf (.str s%"x"))]])],
      .obj [(s%"id", .leaf (.str s%"B")), (s%"buyer", .obj [(s%"my", .obj [(s%"own", .leaf (.str s%"z"))])])]])])) := by decide +kernel

end TitledFilesEx

end Verif

import Verif.Proofs.TitledAddress
import Verif.Props.Renumber
import Verif.Props.RoundTrip
/-! Reading lines with titles as headings. -/
namespace Verif
open Spec

/-! ### The conversion of a line -/

theorem mem_dictOf {κ α : Type} [DecidableEq κ] {ps : List (κ × α)} {k : κ} {a : α} : (k, a) ∈ dictOf ps ↔ Dict.get ps.reverse k = some a := by
  rw [← dictOf_get]
  have hn : (Dict.keys (dictOf ps)).Nodup := by
    unfold dictOf
    exact Dict.nodup_keys_update _ (by simp [Dict.keys])
  exact ⟨fun h => Dict.get_of_mem hn h, Dict.get_eq_some_mem⟩

theorem nodup_dictOf {κ α : Type} [DecidableEq κ] (ps : List (κ × α)) : (Dict.keys (dictOf ps)).Nodup := by
  unfold dictOf
  exact Dict.nodup_keys_update _ (by simp [Dict.keys])

theorem converted_from {t : TitleTree} {l : Line} {k : Option Str} {a : Atom} (h : (k, a) ∈ convertTitles t l) :
    ∃ h, (h, a) ∈ l ∧ k = h.map (lookupHeader t) := by
  have := Dict.get_eq_some_mem (mem_dictOf.1 h)
  rw [List.mem_reverse] at this
  obtain ⟨e, he, e'⟩ := List.mem_map.1 this
  simp only [Prod.mk.injEq] at e'
  obtain ⟨e1, e2⟩ := e'
  exact ⟨e.1, by rw [← e2]; exact he, e1.symm⟩

theorem converted_keeps {t : TitleTree} {l : Line} (hl : l.Pairwise (fun c d => c.1.map (lookupHeader t) = d.1.map (lookupHeader t) → c.2.blank = true))
    {h : Option Str} {a : Atom} (hm : (h, a) ∈ l) (hb : a.blank = false) : (h.map (lookupHeader t), a) ∈ convertTitles t l := by
  refine mem_dictOf.2 ?_
  obtain ⟨l1, l2, rfl⟩ := List.append_of_mem hm
  rw [List.map_append, List.map_cons, List.reverse_append, List.reverse_cons, List.append_assoc]
  have hnone : Dict.get (l2.map (fun p => (p.1.map (lookupHeader t), p.2))).reverse (h.map (lookupHeader t)) = none := by
    rw [Dict.get_none_iff]
    intro hk
    obtain ⟨e, he, hk⟩ := List.mem_map.1 hk
    rw [List.mem_reverse] at he
    obtain ⟨d, hd, rfl⟩ := List.mem_map.1 he
    rw [List.pairwise_append, List.pairwise_cons] at hl
    have := hl.2.1.1 d hd hk.symm
    simp only at this
    rw [hb] at this
    cases this
  rw [Dict.get_append, hnone]
  simp [Dict.get]

/-! ### The line without titles -/

variable {scfg : SchemaCfg} {s : Schema}

open Classical in
/-- The path with zeros for a converted heading. -/
noncomputable def backPath (scfg : SchemaCfg) (s : Schema) (t : TitleTree) (k : Option Str) : Str :=
  if h : ∃ x, HasTitle scfg s x ∧ k = some (lookupHeader t (tau scfg s x)) then h.choose else []

/-- The heading in the line without titles: blank cells get a heading that no path has. -/
noncomputable def plainHeading (scfg : SchemaCfg) (s : Schema) (t : TitleTree) (rootId : Option Str) (k : Option Str) (a : Atom) : Option Str :=
  if k ≠ none ∧ k = rootId then k else if a.blank then k.map ('/' :: ·) else some (backPath scfg s t k)

noncomputable def plainLine (scfg : SchemaCfg) (s : Schema) (t : TitleTree) (rootId : Option Str) (l : Line) : Line :=
  l.map (fun c => (plainHeading scfg s t rootId c.1 c.2, c.2))

/-- The reader knows the titles. -/
structure Knows (scfg : SchemaCfg) (s : Schema) (idName : Str) (rootId : Option Str) (sp su : Parsed) : Prop where
  returns : TitlesReturn scfg s idName rootId
  wrote : parseRoot scfg s = .ok sp
  paths : ∀ steps n p c, Reached scfg s steps n p → titlePath steps p = some c → lookupHeader su.lookup c = plainPath steps n
  types : TypesOf scfg s su.types
  some_ : ∀ k, HasTitle scfg s k → su.lookup.children ≠ []

variable {idName : Str} {rootId : Option Str} {sp su : Parsed}

theorem Knows.conv (h : Knows scfg s idName rootId sp su) {k : Str} (hk : HasTitle scfg s k) :
    ∃ steps n p ty, Reached scfg s steps n p ∧ kind scfg.wkt p = .column ty ∧ k = columnPath steps n ∧ lookupHeader su.lookup (tau scfg s k) = plainPath steps n := by
  obtain ⟨steps, n, p, c, ty, h1, h2, h3, h4⟩ := hk
  refine ⟨steps, n, p, ty, h1, h4, h3, ?_⟩
  rw [tau_of h.returns ⟨steps, n, p, h1, h2, h3⟩]
  exact h.paths _ _ _ _ h1 h2

theorem Knows.inj (h : Knows scfg s idName rootId sp su) {a b : Str} (ha : HasTitle scfg s a) (hb : HasTitle scfg s b)
    (e : lookupHeader su.lookup (tau scfg s a) = lookupHeader su.lookup (tau scfg s b)) : a = b := by
  obtain ⟨x, n, p, _, h1, _, rfl, h2⟩ := h.conv ha
  obtain ⟨y, m, q, _, g1, _, rfl, g2⟩ := h.conv hb
  rw [h2, g2, plainPath_eq, plainPath_eq] at e
  obtain ⟨hn, hx⟩ := reached_name h.returns h1
  obtain ⟨hm, hy⟩ := reached_name h.returns g1
  obtain ⟨rfl, rfl, rfl⟩ := reached_unique h.returns h1 g1 (plain_inj hx hy hn hm e)
  rfl

theorem Knows.back (h : Knows scfg s idName rootId sp su) {x : Str} (hx : HasTitle scfg s x) :
    backPath scfg s su.lookup (some (lookupHeader su.lookup (tau scfg s x))) = x := by
  have he : ∃ y, HasTitle scfg s y ∧ some (lookupHeader su.lookup (tau scfg s x)) = some (lookupHeader su.lookup (tau scfg s y)) := ⟨x, hx, rfl⟩
  unfold backPath
  rw [dif_pos he]
  obtain ⟨h1, h2⟩ := he.choose_spec
  exact h.inj h1 hx (Option.some.inj h2).symm

/-- If the heading is converted to the root id, it is the heading of the root id. -/
theorem Knows.root (h : Knows scfg s idName rootId sp su) {x rid : Str} (hx : HasTitle scfg s x) (hr : '/' ∉ rid)
    (e : lookupHeader su.lookup (tau scfg s x) = rid) : x = rid := by
  obtain ⟨a, n, p, _, h1, _, rfl, h2⟩ := h.conv hx
  rw [h2] at e
  have : a = [] := by
    cases a with
    | nil => rfl
    | cons y r =>
      exfalso
      apply hr
      rw [← e, plainPath_eq]
      simp [pnOf]
  subst this
  rw [← e]; rfl

theorem Knows.path_start (h : Knows scfg s idName rootId sp su) {x : Str} (hx : HasTitle scfg s x) (k : Str) : x ≠ '/' :: k := by
  obtain ⟨a, n, p, c, ty, h1, _, rfl, _⟩ := hx
  obtain ⟨hn, ha⟩ := reached_name h.returns h1
  rw [columnPath_eq]
  cases a with
  | nil =>
    intro e
    simp only [indexed, pnOf, List.flatMap_nil, List.nil_append] at e
    apply hn.2.1; rw [e]; simp
  | cons y r =>
    have hy := ha y (by simp)
    cases hnm : y.name with
    | nil => exact absurd hnm hy.1
    | cons d ds =>
      intro e
      have : ∃ t, pnOf (indexed (y :: r)) ++ n = d :: t := by
        rw [indexed]
        split <;> exact ⟨_, by simp only [pnOf, List.flatMap_cons, hnm, List.cons_append]; rfl⟩
      obtain ⟨t, ht⟩ := this
      rw [ht] at e
      apply hy.2.1
      rw [hnm]
      simp only [List.cons.injEq] at e
      simp [e.1]

theorem mapKeys_get_some {α : Type} {τ : Str → Str} {S : Str → Prop} (hi : ∀ a b, S a → S b → τ a = τ b → a = b) {d : List (Str × α)}
    (hd : ∀ x ∈ Dict.keys d, S x) {k : Str} {v : α} (h : Dict.get (mapKeys τ d) k = some v) : ∃ x, S x ∧ k = τ x ∧ Dict.get d x = some v := by
  have hm := Dict.get_eq_some_mem h
  obtain ⟨e, he, e'⟩ := List.mem_map.1 hm
  simp only [Prod.mk.injEq] at e'
  obtain ⟨rfl, rfl⟩ := e'
  have hS : S e.1 := hd _ (List.mem_map.2 ⟨e, he, rfl⟩)
  refine ⟨e.1, hS, rfl, ?_⟩
  rw [← mapKeys_get hi hd hS]
  exact h

/-- A titled line that is read and converted has the data of the line without titles. -/
theorem Knows.read {T : Trip} (h : Knows scfg s T.idName T.rootId sp su) (hr : ∀ rid, T.rootId = some rid → '/' ∉ rid) {fl : FLine}
    (hfl : ∀ k ∈ Dict.keys fl, HasTitle scfg s k) {l : Line} (hl : T.ReadTitled (lookupHeader su.lookup) (mapKeys (tau scfg s) fl) l) :
    T.ReadBack fl (plainLine scfg s su.lookup T.rootId (convertTitles su.lookup l)) := by
  have hinj : ∀ a b, HasTitle scfg s a → HasTitle scfg s b → tau scfg s a = tau scfg s b → a = b := fun a b ha hb e => h.inj ha hb (by rw [e])
  -- the converted cells with data
  have hfill : ∀ k a, (k, a) ∈ convertTitles su.lookup l → a.blank = false →
      ∃ x b, HasTitle scfg s x ∧ k = some (lookupHeader su.lookup (tau scfg s x)) ∧ Dict.get fl x = some (.leaf b) ∧ a = T.write b := by
    intro k a hm hb
    obtain ⟨hd, h1, rfl⟩ := converted_from hm
    obtain ⟨c, b, rfl, h2, h3⟩ := hl.from_ _ _ h1 hb
    obtain ⟨x, hx, rfl, h4⟩ := mapKeys_get_some hinj hfl h2
    exact ⟨x, b, hx, rfl, h4, h3⟩
  have hhead : ∀ k a, (k, a) ∈ convertTitles su.lookup l → a.blank = false → plainHeading scfg s su.lookup T.rootId k a = some (backPath scfg s su.lookup k) := by
    intro k a hm hb
    obtain ⟨x, b, hx, rfl, _, _⟩ := hfill k a hm hb
    unfold plainHeading
    split
    · next hc => 
      rw [h.back hx]
      exact congrArg some (h.root hx (hr _ hc.2.symm) rfl).symm
    · simp [hb]
  constructor
  · -- the columns are different
    have hnd := nodup_dictOf (l.map (fun p => (p.1.map (lookupHeader su.lookup), p.2)))
    rw [show dictOf (l.map (fun p => (p.1.map (lookupHeader su.lookup), p.2))) = convertTitles su.lookup l from rfl] at hnd
    have key : ∀ c ∈ convertTitles su.lookup l, ∀ d ∈ convertTitles su.lookup l,
        plainHeading scfg s su.lookup T.rootId c.1 c.2 = plainHeading scfg s su.lookup T.rootId d.1 d.2 → c.1 = d.1 := by
      intro c hc d hd e
      obtain ⟨k, a⟩ := c
      obtain ⟨k', a'⟩ := d
      dsimp only at e ⊢
      cases hb : a.blank with
      | false =>
        obtain ⟨x, b, hx, rfl, _, _⟩ := hfill _ _ hc hb
        rw [hhead _ _ hc hb, h.back hx] at e
        cases hb' : a'.blank with
        | false =>
          obtain ⟨x', b', hx', rfl, _, _⟩ := hfill _ _ hd hb'
          rw [hhead _ _ hd hb', h.back hx'] at e
          rw [Option.some.inj e]
        | true =>
          unfold plainHeading at e
          split at e
          · next hcond =>
            subst e
            obtain ⟨y, n, p, _, g1, _, rfl, g2⟩ := h.conv hx
            have hns := hr _ hcond.2.symm
            have : y = [] := by
              cases y with
              | nil => rfl
              | cons w r =>
                exfalso
                apply hns
                rw [columnPath_eq, indexed]
                split <;> simp [pnOf]
            subst this
            rw [g2]; rfl
          · cases k' with
            | none => cases e
            | some k' =>
              simp only [Option.map_some, Option.some.injEq] at e
              exact absurd e (h.path_start hx k')
      | true =>
        cases hb' : a'.blank with
        | false =>
          obtain ⟨x', b', hx', rfl, _, _⟩ := hfill _ _ hd hb'
          rw [hhead _ _ hd hb', h.back hx'] at e
          unfold plainHeading at e
          split at e
          · next hcond =>
            subst e
            obtain ⟨y, n, p, _, g1, _, rfl, g2⟩ := h.conv hx'
            have hns := hr _ hcond.2.symm
            have : y = [] := by
              cases y with
              | nil => rfl
              | cons w r =>
                exfalso
                apply hns
                rw [columnPath_eq, indexed]
                split <;> simp [pnOf]
            subst this
            rw [g2]; rfl
          · cases k with
            | none => cases e
            | some k =>
              simp only [Option.map_some, Option.some.injEq] at e
              exact absurd e.symm (h.path_start hx' k)
        | true =>
          unfold plainHeading at e
          rw [if_pos hb, if_pos hb'] at e
          split at e <;> split at e
          · exact e
          · next h1 h2 =>
            subst e
            cases k' with
            | none => exact absurd rfl h1.1
            | some k' =>
              exfalso
              apply hr _ h1.2.symm
              simp
          · next h1 h2 =>
            subst e
            cases k with
            | none => exact absurd rfl h2.1
            | some k =>
              exfalso
              apply hr _ h2.2.symm
              simp
          · cases k with
            | none => cases k' with
              | none => rfl
              | some => cases e
            | some k => cases k' with
              | none => cases e
              | some k' => simpa using e
    generalize convertTitles su.lookup l = L at hnd key
    unfold plainLine
    rw [List.map_map]
    clear hfill hhead
    induction L with
    | nil => exact List.nodup_nil
    | cons c L ih =>
      simp only [Dict.keys, List.map_cons, List.nodup_cons] at hnd
      rw [List.map_cons, List.nodup_cons]
      refine ⟨?_, ih hnd.2 (fun c hc d hd => key c (by simp [hc]) d (by simp [hd]))⟩
      intro hm
      obtain ⟨d, hd, e⟩ := List.mem_map.1 hm
      have := key c (by simp) d (by simp [hd]) e.symm
      exact hnd.1 (by rw [this]; exact List.mem_map.2 ⟨d, hd, rfl⟩)
  · intro hd a hm hb
    obtain ⟨c, hc, e⟩ := List.mem_map.1 hm
    obtain ⟨k, a'⟩ := c
    simp only [Prod.mk.injEq] at e
    obtain ⟨rfl, rfl⟩ := e
    obtain ⟨x, b, hx, rfl, h1, h2⟩ := hfill _ _ hc hb
    exact ⟨x, b, by rw [hhead _ _ hc hb, h.back hx], h1, h2⟩
  · intro x b hg hb
    have hx : HasTitle scfg s x := hfl x (Dict.get_isSome_iff.1 (by rw [hg]; rfl))
    have h1 := hl.all (tau scfg s x) b (by rw [mapKeys_get hinj hfl hx]; exact hg) hb
    have h2 := converted_keeps hl.last h1 hb
    refine List.mem_map.2 ⟨_, h2, ?_⟩
    dsimp only
    rw [hhead _ _ h2 hb]
    simp only [Option.map_some]
    rw [h.back hx]
  · intro rid hrid hg a ha
    obtain ⟨c, hc, e⟩ := List.mem_map.1 ha
    obtain ⟨k, a'⟩ := c
    simp only [Prod.mk.injEq] at e
    obtain ⟨e, rfl⟩ := e
    cases hb : a'.blank with
    | false =>
      obtain ⟨x, b, hx, rfl, h1, h2⟩ := hfill _ _ hc hb
      rw [hhead _ _ hc hb, h.back hx] at e
      cases e
      rw [h1] at hg; cases hg
    | true =>
      have hk : k = some rid := by
        unfold plainHeading at e
        split at e
        · exact e
        · cases k with
          | none => cases e
          | some k =>
            exfalso
            simp only [Option.map_some, Option.some.injEq] at e
            apply hr _ hrid
            rw [← e]; simp
      subst hk
      obtain ⟨hd, h1, h2⟩ := converted_from hc
      cases hd with
      | none => cases h2
      | some hd =>
        refine hl.noRoot rid hrid ?_ hd _ h1 (Option.some.inj h2).symm
        intro c v hcv hconv
        obtain ⟨x, hx, rfl, h4⟩ := mapKeys_get_some hinj hfl hcv
        rw [h.root hx (hr _ hrid) hconv, hg] at h4
        cases h4

theorem noSlash_column {steps : List Hop} {n : Str} (h : '/' ∉ columnPath steps n) : steps = [] := by
  cases steps with
  | nil => rfl
  | cons w r =>
    exfalso
    apply h
    rw [columnPath_eq, indexed]
    split <;> simp [pnOf]

theorem Knows.column {T : Trip} {ucfg : UnCfg} (hrd : T.Reads ucfg) (h : Knows scfg s T.idName T.rootId sp su) (ht : T.types = su.types)
    (hr : ∀ rid, T.rootId = some rid → '/' ∉ rid) {k : Option Str} {a : Atom}
    (hc : a.blank = true ∨ ∃ x, HasTitle scfg s x ∧ k = some (lookupHeader su.lookup (tau scfg s x))) :
    SameColumn ucfg less (plainHeading scfg s su.lookup T.rootId k a, a) (k, a) := by
  cases hb : a.blank with
  | true =>
    refine ⟨rfl, ?_, fun h => by simp [hb] at h⟩
    intro r hrid
    rw [hrd.rootId] at hrid
    dsimp only
    unfold plainHeading
    split
    · exact Iff.rfl
    · next hc =>
      constructor
      · intro e
        cases k with
        | none => cases e
        | some k =>
          simp only [Option.map_some, Option.some.injEq] at e
          exact absurd (by rw [← e]; simp) (hr r hrid)
      · intro e
        exact absurd ⟨by rw [e]; simp, by rw [e, hrid]⟩ hc
  | false =>
    obtain ⟨x, hx, rfl⟩ := hc.resolve_left (by simp [hb])
    have hh : plainHeading scfg s su.lookup T.rootId (some (lookupHeader su.lookup (tau scfg s x))) a = some x := by
      unfold plainHeading
      split
      · next hc => exact congrArg some (h.root hx (hr _ hc.2.symm) rfl).symm
      · rw [if_neg (by simp [hb]), h.back hx]
    rw [hh]
    obtain ⟨steps, n, p, ty, h1, h2, h3, h4⟩ := h.conv hx
    refine ⟨rfl, ?_, ?_⟩
    · intro r hrid
      rw [hrd.rootId] at hrid
      simp only [Option.some.injEq]
      constructor
      · intro e
        subst e
        have hns := hr _ hrid
        rw [h3] at hns
        have := noSlash_column hns
        subst this
        rw [h4, h3]; rfl
      · intro e
        exact h.root hx (hr _ hrid) e
    · intro _
      dsimp only
      obtain ⟨r, q, hs0, ht', hf⟩ := h1
      obtain rfl := starts_only h.returns.start hs0
      rw [h4, h3]
      exact position_paths (by rw [hrd.types, ht]; exact h.types) h.returns.start h.returns.keys ht' hf h2

/-- The conversion of the titles of a line, as the program does it. -/
def titleLine (t : TitleTree) (l : Line) : Line := if t.children.isEmpty then l else convertTitles t l

theorem titleSheets_lines (t : TitleTree) (sheets : List SheetIn) :
    titleSheets t sheets = sheets.map (fun s => { s with lines := s.lines.map (titleLine t) }) := by
  unfold titleSheets titleLine
  split
  · next h =>
    refine Eq.trans (List.map_id _).symm (List.map_congr_left ?_)
    intro s _
    simp
  · rfl

theorem titleLine_blank {t : TitleTree} {l : Line} (h : hasData l = false) : hasData (titleLine t l) = false := by
  unfold titleLine
  split
  · exact h
  · unfold hasData at h ⊢
    rw [List.any_eq_false] at h ⊢
    intro c hc
    obtain ⟨hd, h1, _⟩ := converted_from (k := c.1) (a := c.2) hc
    have := h (hd, c.2) h1
    exact this

theorem hasData_plain (t : TitleTree) (r : Option Str) (l : Line) : hasData (plainLine scfg s t r l) = hasData l := by
  unfold hasData plainLine
  rw [List.any_map]
  rfl

theorem all₂_map_both {α β γ : Type} {R : β → γ → Prop} (f : α → β) (g : α → γ) (l : List α) (h : ∀ x ∈ l, R (f x) (g x)) : All₂ R (l.map f) (l.map g) := by
  induction l with
  | nil => exact .nil
  | cons x r ih => exact .cons (h x (by simp)) (ih (fun y hy => h y (by simp [hy])))

/-- Reading back a document written with titles. -/
theorem titled_back {T : Trip} {ucfg : UnCfg} (hrd : T.Reads ucfg) (h : Knows scfg s T.idName T.rootId sp su) (ht : T.types = su.types)
    {root : List Json} (hfit : T.FitsRoot root) (hkeys : ∀ x ∈ spots T root, ∀ k ∈ Dict.keys (spotLine T x), HasTitle scfg s k)
    {ss : List Spot} (hss : ss.Perm (spots T root)) {sheets : List SheetIn}
    (hempty : ∀ sh ∈ sheets, sh.headings = some [] → ∀ l ∈ sh.lines, hasData l = false)
    (hread : All₂ (T.ReadTitled (lookupHeader su.lookup)) (ss.map (fun x => mapKeys (tau scfg s) (spotLine T x))) ((rowsIn sheets).map (·.line))) :
    ∃ out w, unflatten ucfg (titleSheets su.lookup sheets) = .ok (out, w) ∧ Rearranged (.arr root) (.arr out) := by
  have hr : ∀ rid, T.rootId = some rid → '/' ∉ rid := fun rid hrid => (hfit.rootName rid hrid).2
  have hinj : ∀ a b, HasTitle scfg s a → HasTitle scfg s b → tau scfg s a = tau scfg s b → a = b := fun a b ha hb e => h.inj ha hb (by rw [e])
  -- lines with data
  have hdata : ∀ l, hasData l = true → ∀ x ∈ ss, T.ReadTitled (lookupHeader su.lookup) (mapKeys (tau scfg s) (spotLine T x)) l →
      titleLine su.lookup l = convertTitles su.lookup l ∧ hasData (convertTitles su.lookup l) = true ∧
      ∀ c ∈ convertTitles su.lookup l, c.2.blank = true ∨ ∃ x, HasTitle scfg s x ∧ c.1 = some (lookupHeader su.lookup (tau scfg s x)) := by
    intro l hl x hx hrt
    have hk := hkeys x (hss.mem_iff.1 hx)
    obtain ⟨c, hc, hcb⟩ := List.any_eq_true.1 hl
    obtain ⟨hd, a⟩ := c
    simp only [Bool.not_eq_true'] at hcb
    obtain ⟨y, b, _, h2, _⟩ := hrt.from_ _ _ hc hcb
    obtain ⟨z, hz, _⟩ := mapKeys_get_some hinj hk h2
    refine ⟨?_, ?_, ?_⟩
    · unfold titleLine
      rw [if_neg]
      have := h.some_ z hz
      simpa using this
    · have := converted_keeps hrt.last hc hcb
      exact List.any_eq_true.2 ⟨_, this, by simp [hcb]⟩
    · intro c hc
      cases hb : c.2.blank with
      | true => exact .inl rfl
      | false =>
        obtain ⟨hd, h1, h2⟩ := converted_from (k := c.1) (a := c.2) hc
        obtain ⟨y, b, rfl, h3, _⟩ := hrt.from_ _ _ h1 hb
        obtain ⟨z, hz, rfl, _⟩ := mapKeys_get_some hinj hk h3
        exact .inr ⟨z, hz, h2⟩
  have hrow : ∀ sh ∈ sheets, ∀ l ∈ sh.lines, hasData l = true → ∃ x ∈ ss, T.ReadTitled (lookupHeader su.lookup) (mapKeys (tau scfg s) (spotLine T x)) l := by
    intro sh hsh l hl hd
    have hm : l ∈ (rowsIn sheets).map (·.line) := by
      rw [rowsIn_lines]
      refine List.mem_flatMap.2 ⟨sh, hsh, ?_⟩
      rw [if_neg]
      · exact List.mem_filter.2 ⟨hl, hd⟩
      · intro e
        have := hempty sh hsh e l hl
        rw [hd] at this; cases this
    obtain ⟨f, hf, h1⟩ := all₂_right hread l hm
    obtain ⟨x, hx, rfl⟩ := List.mem_map.1 hf
    exact ⟨x, hx, h1⟩
  have hline : ∀ sh ∈ sheets, ∀ l ∈ sh.lines, Renumbered ucfg (plainLine scfg s su.lookup T.rootId (titleLine su.lookup l)) (titleLine su.lookup l) ∧
      hasData (plainLine scfg s su.lookup T.rootId (titleLine su.lookup l)) = hasData l := by
    intro sh hsh l hl
    have hall : ∀ L : Line, (∀ c ∈ L, c.2.blank = true ∨ ∃ x, HasTitle scfg s x ∧ c.1 = some (lookupHeader su.lookup (tau scfg s x))) →
        Renumbered ucfg (plainLine scfg s su.lookup T.rootId L) L := by
      intro L hL
      refine ⟨less, less_order, ?_⟩
      have := all₂_map_both (R := SameColumn ucfg less) (fun c : Option Str × Atom => (plainHeading scfg s su.lookup T.rootId c.1 c.2, c.2)) id L
        (fun c hc => h.column hrd ht hr (hL c hc))
      simpa [plainLine] using this
    rw [hasData_plain]
    cases hd : hasData l with
    | false =>
      have := titleLine_blank (t := su.lookup) hd
      refine ⟨hall _ ?_, this⟩
      intro c hc
      unfold hasData at this
      rw [List.any_eq_false] at this
      have := this c hc
      exact .inl (by simpa using this)
    | true =>
      obtain ⟨x, hx, h1⟩ := hrow sh hsh l hl hd
      obtain ⟨e1, e2, e3⟩ := hdata l hd x hx h1
      rw [e1]
      exact ⟨hall _ e3, e2⟩
  -- the sheets without titles
  let sheets0 : List SheetIn := sheets.map (fun sh => { sh with lines := sh.lines.map (fun l => plainLine scfg s su.lookup T.rootId (titleLine su.lookup l)) })
  have hsame : All₂ (RenumberedSheet ucfg) sheets0 (titleSheets su.lookup sheets) := by
    rw [titleSheets_lines]
    refine all₂_map_both _ _ _ ?_
    intro sh hsh
    refine ⟨rfl, Iff.rfl, ?_⟩
    exact all₂_map_both _ _ _ (fun l hl => (hline sh hsh l hl).1)
  have hrows : (rowsIn sheets0).map (·.line) = ((rowsIn sheets).map (·.line)).map (fun l => plainLine scfg s su.lookup T.rootId (titleLine su.lookup l)) := by
    rw [rowsIn_lines, rowsIn_lines, List.map_flatMap, List.flatMap_map]
    have : ∀ L : List SheetIn, (∀ sh ∈ L, sh ∈ sheets) →
        L.flatMap (fun a => if a.headings = some [] then [] else (a.lines.map (fun l => plainLine scfg s su.lookup T.rootId (titleLine su.lookup l))).filter hasData) =
        L.flatMap (fun a => (if a.headings = some [] then [] else a.lines.filter hasData).map (fun l => plainLine scfg s su.lookup T.rootId (titleLine su.lookup l))) := by
      intro L hL
      induction L with
      | nil => rfl
      | cons sh L ih =>
        rw [List.flatMap_cons, List.flatMap_cons, ih (fun x hx => hL x (by simp [hx]))]
        congr 1
        split
        · rfl
        · rw [List.filter_map]
          congr 1
          refine List.filter_congr ?_
          intro l hl
          exact (hline sh (hL sh (by simp)) l hl).2
    exact this sheets (fun _ h => h)
  have hread0 : All₂ T.ReadBack (ss.map (spotLine T)) ((rowsIn sheets0).map (·.line)) := by
    rw [hrows]
    have hd : ∀ l ∈ (rowsIn sheets).map (·.line), hasData l = true := by
      intro l hl
      rw [rowsIn_lines] at hl
      obtain ⟨sh, hsh, hl⟩ := List.mem_flatMap.1 hl
      split at hl
      · cases hl
      · exact (List.mem_filter.1 hl).2
    generalize (rowsIn sheets).map (·.line) = rows at hread hd
    have hm : ∀ x ∈ ss, x ∈ ss := fun _ h => h
    have : ∀ (l : List Spot) (rows : List Line), (∀ x ∈ l, x ∈ ss) → (∀ l ∈ rows, hasData l = true) →
        All₂ (T.ReadTitled (lookupHeader su.lookup)) (l.map (fun x => mapKeys (tau scfg s) (spotLine T x))) rows →
        All₂ T.ReadBack (l.map (spotLine T)) (rows.map (fun l => plainLine scfg s su.lookup T.rootId (titleLine su.lookup l))) := by
      intro l
      induction l with
      | nil =>
        intro rows _ _ hrr
        cases hrr
        exact .nil
      | cons x l ih =>
        intro rows hx hd hrr
        cases hrr with
        | cons h1 h2 =>
          refine .cons ?_ (ih _ (fun y hy => hx y (by simp [hy])) (fun y hy => hd y (by simp [hy])) h2)
          have hxs := hx x (by simp)
          dsimp only
          rw [(hdata _ (hd _ (by simp)) x hxs h1).1]
          exact h.read hr (hkeys x (hss.mem_iff.1 hxs)) h1
    exact this ss rows hm hd hread
  obtain ⟨ys, xs, gs, t, h2, h3, h4, h5, h6, h7, h8⟩ := spots_run hrd hfit hss hread0
  obtain ⟨w, h9, _⟩ := doUnflatten_of_rows h2 h3
  have hran : Ran T root ss xs t := ⟨hfit, hss, h4, h6, h7, h8⟩
  have hu : unflatten ucfg sheets0 = .ok (listToValue (groupsToList gs), w) := by simp only [unflatten, h9]
  have h10 := C68_numbers_only_order ucfg hrd.xml _ _ hsame
  rw [hu] at h10
  cases hun : unflatten ucfg (titleSheets su.lookup sheets) with
  | error e => rw [hun] at h10; cases h10
  | ok r =>
    rw [hun] at h10
    obtain ⟨out, w'⟩ := r
    simp only [Except.map, Except.ok.injEq, Prod.mk.injEq] at h10
    refine ⟨out, w', rfl, ?_⟩
    rw [← h10.1]
    exact hran.back h5

end Verif

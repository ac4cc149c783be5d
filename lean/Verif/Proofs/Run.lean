import Verif.Proofs.TreeInv
import Verif.Spec.Rows
/-! The run of `do_unflatten` as a fold over rows. -/
namespace Verif
open Spec

/-- Merge rows, one after the other. -/
def foldRows (cfg : UnCfg) : List Row → Groups → Except Err (Groups × List Warn)
  | [], gs => .ok (gs, [])
  | r :: rs, gs =>
    match addRow cfg r.sheet r.root r.fields gs with
    | .error e => .error e
    | .ok (gs1, w1) =>
      match foldRows cfg rs gs1 with
      | .error e => .error e
      | .ok (gs2, w2) => .ok (gs2, w1 ++ w2)

theorem foldRows_append (cfg : UnCfg) (a b : List Row) (gs : Groups) :
    foldRows cfg (a ++ b) gs =
      match foldRows cfg a gs with
      | .error e => .error e
      | .ok (g1, w1) =>
        match foldRows cfg b g1 with
        | .error e => .error e
        | .ok (g2, w2) => .ok (g2, w1 ++ w2) := by
  induction a generalizing gs with
  | nil =>
    simp only [List.nil_append, foldRows]
    cases foldRows cfg b gs <;> simp
  | cons r rs ih =>
    simp only [List.cons_append, foldRows]
    cases h : addRow cfg r.sheet r.root r.fields gs with
    | error e => rfl
    | ok p =>
      obtain ⟨g1, w1⟩ := p
      simp only [ih]
      cases h2 : foldRows cfg rs g1 with
      | error e => rfl
      | ok p =>
        obtain ⟨g2, w2⟩ := p
        simp only
        cases h3 : foldRows cfg b g2 with
        | error e => rfl
        | ok p => simp

theorem rowsAlone_append (cfg : UnCfg) (a b : List RowIn) :
    rowsAlone cfg (a ++ b) =
      match rowsAlone cfg a with
      | .error e => .error e
      | .ok x =>
        match rowsAlone cfg b with
        | .error e => .error e
        | .ok y => .ok (x ++ y) := by
  induction a with
  | nil => simp only [List.nil_append, rowsAlone]; cases rowsAlone cfg b <;> simp
  | cons r rs ih =>
    simp only [List.cons_append, rowsAlone, ih]
    cases rowAlone cfg r with
    | error e => rfl
    | ok x =>
      simp only
      cases rowsAlone cfg rs with
      | error e => rfl
      | ok xs =>
        simp only
        cases rowsAlone cfg b with
        | error e => rfl
        | ok y => simp

theorem blankLine_eq (l : Line) : blankLine l = !hasData l := by
  induction l with
  | nil => rfl
  | cons x r ih =>
    simp only [blankLine, hasData] at ih
    simp only [blankLine, hasData, List.all_cons, List.any_cons, ih]
    cases x.2.blank <;> simp

/-- The rows of a sheet's lines from number `j` on. -/
def lineRows (s : SheetIn) (j : Nat) (ls : List Line) : List RowIn :=
  ((ls.zipIdx j).filter (fun p => hasData p.1)).map (fun p => ⟨s, p.2, p.1⟩)

theorem lineRows_cons (s : SheetIn) (j : Nat) (l : Line) (ls : List Line) :
    lineRows s j (l :: ls) = (if hasData l then [⟨s, j, l⟩] else []) ++ lineRows s (j + 1) ls := by
  unfold lineRows
  rw [List.zipIdx_cons, List.filter_cons]
  by_cases h : hasData l = true <;> simp [h]

theorem addLines_ok (cfg : UnCfg) (s : SheetIn) (j : Nat) (ls : List Line) (gs gs' : Groups) :
    (∀ w, addLines cfg s.name s.headings j ls gs = .ok (gs', w) →
      ∃ rows mw, rowsAlone cfg (lineRows s j ls) = .ok rows ∧ foldRows cfg rows gs = .ok (gs', mw) ∧
        ∀ x, x ∈ w ↔ (∃ r ∈ rows, x ∈ r.warns) ∨ x ∈ mw) ∧
    (∀ rows mw, rowsAlone cfg (lineRows s j ls) = .ok rows → foldRows cfg rows gs = .ok (gs', mw) →
      ∃ w, addLines cfg s.name s.headings j ls gs = .ok (gs', w) ∧
        ∀ x, x ∈ w ↔ (∃ r ∈ rows, x ∈ r.warns) ∨ x ∈ mw) := by
  induction ls generalizing j gs with
  | nil =>
    constructor
    · intro w h
      simp [addLines] at h
      exact ⟨[], [], rfl, by simp [foldRows, h.1], by simp [← h.2]⟩
    · intro rows mw h1 h2
      simp [lineRows, rowsAlone] at h1; subst h1
      simp [foldRows] at h2
      exact ⟨[], by simp [addLines, h2.1], by simp [h2.2]⟩
  | cons l ls ih =>
    rw [lineRows_cons]
    simp only [addLines, addLine, blankLine_eq]
    cases hd : hasData l with
    | false =>
      simp only [Bool.not_false, if_true, Bool.false_eq_true, if_false, List.nil_append]
      constructor
      · intro w h
        split at h
        · cases h
        · next g2 w2 h2 =>
          cases h
          exact (ih (j + 1) gs).1 _ h2
      · intro rows mw h1 h2
        obtain ⟨w, h3, h4⟩ := (ih (j + 1) gs).2 rows mw h1 h2
        exact ⟨w, by rw [h3], h4⟩
    | true =>
      simp only [Bool.not_true, Bool.false_eq_true, if_false, if_true, List.singleton_append, rowsAlone, rowAlone]
      constructor
      · intro w h
        split at h
        · cases h
        · next g1 w1 h1 =>
          split at h1
          · cases h1
          · next fs wr hr =>
            split at h1
            · cases h1
            · next g1' w1' ha =>
              cases h1
              split at h
              · cases h
              · next g2 w2 h2 =>
                cases h
                obtain ⟨rows, mw, e1, e2, e3⟩ := (ih (j + 1) g1).1 _ h2
                refine ⟨⟨s.name, rootKey cfg l, fs, wr⟩ :: rows, w1' ++ mw, ?_, ?_, ?_⟩
                · simp only [hr, e1]
                · simp only [foldRows, ha, e2]
                · intro x
                  simp only [List.mem_append, e3, List.mem_cons, exists_eq_or_imp]
                  grind
      · intro rows mw h1 h2
        split at h1
        · cases h1
        · next x hx =>
          split at hx
          · cases hx
          · next fs wr hr =>
            cases hx
            split at h1
            · cases h1
            · next xs hxs =>
              cases h1
              simp only [foldRows] at h2
              split at h2
              · cases h2
              · next g1 w1 ha =>
                split at h2
                · cases h2
                · next g2 w2 hf =>
                  cases h2
                  obtain ⟨w, e1, e2⟩ := (ih (j + 1) g1).2 xs w2 hxs hf
                  refine ⟨(wr ++ w1) ++ w, ?_, ?_⟩
                  · simp only [hr, ha, e1]
                  · intro x
                    simp only [List.mem_append, e2, List.mem_cons, exists_eq_or_imp]
                    grind

/-- The warnings about duplicate headings of all sheets. -/
def dupWarns (sheets : List SheetIn) : List Warn :=
  sheets.flatMap (fun s => match s.headings with | some hs => headingWarns s.name hs | none => [])

theorem addSheets_ok (cfg : UnCfg) (sheets : List SheetIn) (gs gs' : Groups) :
    (∀ w, addSheets cfg sheets gs = .ok (gs', w) →
      ∃ rows mw, rowsAlone cfg (rowsIn sheets) = .ok rows ∧ foldRows cfg rows gs = .ok (gs', mw) ∧
        ∀ x, x ∈ w ↔ x ∈ dupWarns sheets ∨ (∃ r ∈ rows, x ∈ r.warns) ∨ x ∈ mw) ∧
    (∀ rows mw, rowsAlone cfg (rowsIn sheets) = .ok rows → foldRows cfg rows gs = .ok (gs', mw) →
      ∃ w, addSheets cfg sheets gs = .ok (gs', w) ∧
        ∀ x, x ∈ w ↔ x ∈ dupWarns sheets ∨ (∃ r ∈ rows, x ∈ r.warns) ∨ x ∈ mw) := by
  induction sheets generalizing gs with
  | nil =>
    constructor
    · intro w h
      simp [addSheets] at h
      exact ⟨[], [], rfl, by simp [foldRows, h.1], by simp [← h.2, dupWarns]⟩
    · intro rows mw h1 h2
      simp [rowsIn, rowsAlone] at h1; subst h1
      simp [foldRows] at h2
      exact ⟨[], by simp [addSheets, h2.1], by simp [h2.2, dupWarns]⟩
  | cons s r ih =>
    have hin : rowsIn (s :: r) = (if s.headings = some [] then [] else lineRows s 0 s.lines) ++ rowsIn r := by
      simp [rowsIn, lineRows]
    have hdup : dupWarns (s :: r) = (match s.headings with | some hs => headingWarns s.name hs | none => []) ++ dupWarns r := by
      simp [dupWarns]
    rw [hin, hdup]
    simp only [addSheets]
    by_cases he : s.headings = some []
    · simp only [he, if_true, List.nil_append]
      have h0 : headingWarns s.name [] = [] := rfl
      simp only [h0, List.nil_append]
      exact ih gs
    · simp only [he, if_false, rowsAlone_append]
      constructor
      · intro w h
        split at h
        · cases h
        · next g1 w1 h1 =>
          split at h
          · cases h
          · next g2 w2 h2 =>
            cases h
            obtain ⟨ra, ma, a1, a2, a3⟩ := (addLines_ok cfg s 0 s.lines gs g1).1 _ h1
            obtain ⟨rb, mb, b1, b2, b3⟩ := (ih g1).1 _ h2
            refine ⟨ra ++ rb, ma ++ mb, by simp only [a1, b1], by simp only [foldRows_append, a2, b2], ?_⟩
            intro x
            have hex : (∃ r ∈ ra ++ rb, x ∈ r.warns) ↔ (∃ r ∈ ra, x ∈ r.warns) ∨ (∃ r ∈ rb, x ∈ r.warns) := by
              simp only [List.mem_append]
              constructor
              · rintro ⟨r, h | h, hx⟩
                · exact Or.inl ⟨r, h, hx⟩
                · exact Or.inr ⟨r, h, hx⟩
              · rintro (⟨r, h, hx⟩ | ⟨r, h, hx⟩)
                · exact ⟨r, Or.inl h, hx⟩
                · exact ⟨r, Or.inr h, hx⟩
            rw [hex]
            simp only [List.mem_append, a3, b3]
            grind
      · intro rows mw h1 h2
        split at h1
        · cases h1
        · next ra hra =>
          split at h1
          · cases h1
          · next rb hrb =>
            cases h1
            rw [foldRows_append] at h2
            split at h2
            · cases h2
            · next g1 ma hma =>
              split at h2
              · cases h2
              · next g2 mb hmb =>
                cases h2
                obtain ⟨wa, a1, a2⟩ := (addLines_ok cfg s 0 s.lines gs g1).2 ra ma hra hma
                obtain ⟨wb, b1, b2⟩ := (ih g1).2 rb mb hrb hmb
                refine ⟨_, by simp only [a1, b1]; rfl, ?_⟩
                intro x
                have hex : (∃ r ∈ ra ++ rb, x ∈ r.warns) ↔ (∃ r ∈ ra, x ∈ r.warns) ∨ (∃ r ∈ rb, x ∈ r.warns) := by
                  simp only [List.mem_append]
                  constructor
                  · rintro ⟨r, h | h, hx⟩
                    · exact Or.inl ⟨r, h, hx⟩
                    · exact Or.inr ⟨r, h, hx⟩
                  · rintro (⟨r, h, hx⟩ | ⟨r, h, hx⟩)
                    · exact ⟨r, Or.inl h, hx⟩
                    · exact ⟨r, Or.inr h, hx⟩
                rw [hex]
                simp only [List.mem_append, a2, b2]
                grind

/-! ### Invariant of the groups -/

structure GWF (cfg : UnCfg) (gs : Groups) : Prop where
  distinct : KeysDistinct gs
  groups : ∀ g ∈ gs, TDWF cfg.idName cfg.row.xml g.2

theorem rowKey_ok {n : Option Str} {xml : Bool} {fs : Fields} {k : Option Val}
    (h : rowKey n xml fs = .ok k) : itemKey n xml fs = .ok k := by
  unfold rowKey at h
  unfold itemKey
  cases n with
  | none => simpa using h
  | some m =>
    simp only at h ⊢
    cases hg : Dict.get fs m with
    | none => simpa [hg] using h
    | some t =>
      simp only [hg] at h ⊢
      cases t with
      | cell c => simpa using h
      | obj g =>
        simp only at h ⊢
        cases xml with
        | false => simp at h
        | true =>
          simp only [if_true] at h ⊢
          cases hg2 : Dict.get g s%"text()" with
          | none => simp [hg2] at h
          | some t2 =>
            simp only [hg2] at h ⊢
            cases t2 <;> simp_all
      | tmp a b => cases xml <;> simp at h

theorem wfFields_sub {n : Option Str} {xml : Bool} {fs : Fields} (h : WFFields n xml fs) :
    ∀ k gs, Dict.get fs k = some (.obj gs) → (Dict.keys gs).Nodup := by
  intro j gs hj
  have := (wfFields_iff.1 h).2 j _ hj
  simp only [WFTree] at this
  exact wfFields_nodup this

theorem addToGroup_inv {cfg : UnCfg} {Q : Str → Prop} {P : List Str → Cell → Prop}
    (hP : ∀ p b c, P p b → P p c → b.value.pyEq c.value = true → P p { b with sub := b.sub ++ [(c.value, c.loc)] })
    {sheet : Str} {fs : Fields} {td td' : TDict} {w : List Warn}
    (h : addToGroup cfg sheet fs td = .ok (td', w)) (hw : TDWF cfg.idName cfg.row.xml td)
    (hf : WFFields cfg.idName cfg.row.xml fs) :
    TDWF cfg.idName cfg.row.xml td' ∧ (TDAll Q P [] td → TAllF Q P [] fs → TDAll Q P [] td') := by
  unfold addToGroup at h
  split at h
  · cases h
  · split at h
    · cases h
    · next td1 h1 => cases h; exact tdict_append_inv h1 hw hf
  · next k hk =>
    split at h
    · cases h
    · split at h
      · next base hg =>
        cases h
        obtain ⟨a, k', b, e1, e2, e3⟩ := keySet_of_some (mergeFields sheet fs base).1 hg
        have hold := wfKeyed_iff.1 hw.keyed (k', base) (by rw [e1]; simp)
        refine ⟨⟨keysDistinct_keySet hw.distinct _ _, ?_, hw.rest⟩, ?_⟩
        · simp only
          rw [e2, wfKeyed_iff]
          intro e he
          rcases List.mem_append.1 he with he | he
          · exact wfKeyed_iff.1 hw.keyed e (by rw [e1]; simp [he])
          · rcases List.mem_cons.1 he with he | he
            · subst he
              obtain ⟨⟨hh, v, hv, hs⟩, hb⟩ := hold
              exact ⟨⟨hh, v, itemKey_merge sheet (wfFields_nodup hf) (wfFields_sub hf) hv, hs⟩,
                wf_mergeFields _ _ sheet fs base hf hb⟩
            · exact wfKeyed_iff.1 hw.keyed e (by rw [e1]; simp [he])
        · intro ha hti
          refine ⟨?_, ha.2⟩
          simp only
          rw [e2, tallK_iff]
          intro e he
          rcases List.mem_append.1 he with he | he
          · exact tallK_iff.1 ha.1 e (by rw [e1]; simp [he])
          · rcases List.mem_cons.1 he with he | he
            · subst he
              exact tall_mergeFields Q P hP sheet [] fs base hti (tallK_iff.1 ha.1 (k', base) (by rw [e1]; simp))
            · exact tallK_iff.1 ha.1 e (by rw [e1]; simp [he])
      · split at h
        · cases h
        · next td1 h1 => cases h; exact tdict_append_inv h1 hw hf

theorem tdwf_empty (n : Option Str) (xml : Bool) : TDWF n xml {} :=
  ⟨by simp [KeysDistinct], by simp [WFKeyed], by simp [WFItems]⟩

theorem mem_keySet' {α : Type} {d : List (Val × α)} {k : Val} {v : α} {e : Val × α} (h : e ∈ keySet d k v) :
    e.2 = v ∨ e ∈ d := by
  rcases mem_keySet h with h | h
  · exact Or.inl h.1
  · exact Or.inr h

theorem addRow_inv {cfg : UnCfg} {Q : Str → Prop} {P : List Str → Cell → Prop}
    (hP : ∀ p b c, P p b → P p c → b.value.pyEq c.value = true → P p { b with sub := b.sub ++ [(c.value, c.loc)] })
    {sheet : Str} {root : Val} {fs : Fields} {gs gs' : Groups} {w : List Warn}
    (h : addRow cfg sheet root fs gs = .ok (gs', w)) (hw : GWF cfg gs)
    (hf : WFFields cfg.idName cfg.row.xml fs) :
    GWF cfg gs' ∧ ((∀ g ∈ gs, TDAll Q P [] g.2) → TAllF Q P [] fs → ∀ g ∈ gs', TDAll Q P [] g.2) := by
  unfold addRow at h
  split at h
  · cases h
  · next td w1 h1 =>
    cases h
    have htd : TDWF cfg.idName cfg.row.xml ((keyGet gs root).getD {}) := by
      cases hg : keyGet gs root with
      | none => exact tdwf_empty _ _
      | some t => obtain ⟨k', hm, _⟩ := keyGet_some_mem hg; exact hw.groups _ hm
    have := addToGroup_inv (Q := Q) hP h1 htd hf
    refine ⟨⟨keysDistinct_keySet hw.distinct _ _, ?_⟩, ?_⟩
    · intro g hg
      rcases mem_keySet' hg with h | h
      · rw [h]; exact this.1
      · exact hw.groups g h
    · intro ha hti g hg
      rcases mem_keySet' hg with h | h
      · rw [h]
        refine this.2 ?_ hti
        cases hg : keyGet gs root with
        | none => exact ⟨by simp [TAllK], by simp [TAllI]⟩
        | some t => obtain ⟨k', hm, _⟩ := keyGet_some_mem hg; exact ha _ hm
      · exact ha g h

theorem foldRows_inv {cfg : UnCfg} {Q : Str → Prop} {P : List Str → Cell → Prop}
    (hP : ∀ p b c, P p b → P p c → b.value.pyEq c.value = true → P p { b with sub := b.sub ++ [(c.value, c.loc)] })
    (rows : List Row) {gs gs' : Groups} {w : List Warn}
    (h : foldRows cfg rows gs = .ok (gs', w)) (hw : GWF cfg gs)
    (hf : ∀ r ∈ rows, WFFields cfg.idName cfg.row.xml r.fields) :
    GWF cfg gs' ∧ ((∀ g ∈ gs, TDAll Q P [] g.2) → (∀ r ∈ rows, TAllF Q P [] r.fields) →
      ∀ g ∈ gs', TDAll Q P [] g.2) := by
  induction rows generalizing gs w with
  | nil => simp [foldRows] at h; obtain ⟨rfl, _⟩ := h; exact ⟨hw, fun h _ => h⟩
  | cons r rs ih =>
    simp only [foldRows] at h
    split at h
    · cases h
    · next g1 w1 h1 =>
      split at h
      · cases h
      · next g2 w2 h2 =>
        cases h
        obtain ⟨a1, a2⟩ := addRow_inv (Q := Q) hP h1 hw (hf r (by simp))
        obtain ⟨b1, b2⟩ := ih h2 a1 (fun r hr => hf r (by simp [hr]))
        exact ⟨b1, fun h3 h4 => b2 (a2 h3 (h4 r (by simp))) (fun r hr => h4 r (by simp [hr]))⟩

theorem gwf_nil (cfg : UnCfg) : GWF cfg [] := ⟨by simp [KeysDistinct], by simp⟩

theorem rowsAlone_mem {cfg : UnCfg} {rs : List RowIn} {rows : List Row} (h : rowsAlone cfg rs = .ok rows) :
    ∀ x ∈ rows, ∃ r ∈ rs, rowAlone cfg r = .ok x := by
  induction rs generalizing rows with
  | nil => simp [rowsAlone] at h; subst h; simp
  | cons r rs ih =>
    simp only [rowsAlone] at h
    split at h
    · cases h
    · next y hy =>
      split at h
      · cases h
      · next ys hys =>
        cases h
        intro x hx
        rcases List.mem_cons.1 hx with rfl | hx
        · exact ⟨r, by simp, hy⟩
        · obtain ⟨r', h1, h2⟩ := ih hys x hx; exact ⟨r', by simp [h1], h2⟩

theorem rowAlone_wf {cfg : UnCfg} {r : RowIn} {x : Row} (h : rowAlone cfg r = .ok x) :
    WFFields cfg.idName cfg.row.xml x.fields := by
  unfold rowAlone at h
  split at h
  · cases h
  · next fs w hu => cases h; exact unflattenRow_wf _ (lineCells_sub _ _ _ _ _) hu

theorem rowsAlone_wf {cfg : UnCfg} {rs : List RowIn} {rows : List Row} (h : rowsAlone cfg rs = .ok rows) :
    ∀ x ∈ rows, WFFields cfg.idName cfg.row.xml x.fields := by
  intro x hx
  obtain ⟨r, _, hr⟩ := rowsAlone_mem h x hx
  exact rowAlone_wf hr

/-- A successful run: its rows, the final groups. -/
theorem doUnflatten_ok {cfg : UnCfg} {sheets : List SheetIn} {out : List (List (Str × CTree))} {w : List Warn}
    (h : doUnflatten cfg sheets = .ok (out, w)) :
    ∃ rows gs mw, rowsAlone cfg (rowsIn sheets) = .ok rows ∧ foldRows cfg rows [] = .ok (gs, mw) ∧
      out = groupsToList gs ∧ GWF cfg gs ∧
      ∀ x, x ∈ w ↔ x ∈ dupWarns sheets ∨ (∃ r ∈ rows, x ∈ r.warns) ∨ x ∈ mw := by
  unfold doUnflatten at h
  split at h
  · cases h
  · next gs w1 h1 =>
    cases h
    obtain ⟨rows, mw, e1, e2, e3⟩ := (addSheets_ok cfg sheets [] gs).1 _ h1
    exact ⟨rows, gs, mw, e1, e2, rfl,
      (foldRows_inv (Q := fun _ => True) (P := fun _ _ => True) (by simp) rows e2 (gwf_nil cfg) (rowsAlone_wf e1)).1, e3⟩

theorem doUnflatten_of_rows {cfg : UnCfg} {sheets : List SheetIn} {rows : List Row} {gs : Groups} {mw : List Warn}
    (h1 : rowsAlone cfg (rowsIn sheets) = .ok rows) (h2 : foldRows cfg rows [] = .ok (gs, mw)) :
    ∃ w, doUnflatten cfg sheets = .ok (groupsToList gs, w) ∧
      ∀ x, x ∈ w ↔ x ∈ dupWarns sheets ∨ (∃ r ∈ rows, x ∈ r.warns) ∨ x ∈ mw := by
  obtain ⟨w, e1, e2⟩ := (addSheets_ok cfg sheets [] gs).2 rows mw h1 h2
  exact ⟨w, by simp [doUnflatten, e1], e2⟩

end Verif

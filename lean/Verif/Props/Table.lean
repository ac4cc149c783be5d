import Verif.Proofs.Table
import Verif.Props.Merge
import Verif.Props.FlattenLines
import Verif.Props.Forgiving
import Verif.Props.Flatten
import Verif.Proofs.ApiTrip
import Verif.Proofs.TitledAddress
import Verif.Proofs.DecEq
/-! C77: a table survives being unflattened and flattened again. -/
namespace Verif
open Spec

theorem objects_of_all₂ {α : Type} {R : α → List (Str × Json) → Prop} {l : List α} {out : List Json}
    (h : All₂ (fun a o => ∃ fs, o = .obj fs ∧ R a fs) l out) : All₂ R l (objects out) := by
  induction h with
  | nil => exact .nil
  | cons h _ ih => obtain ⟨fs, rfl, hr⟩ := h; exact .cons hr ih

theorem all₂_trans {α β γ : Type} {R : α → β → Prop} {S : β → γ → Prop} {l : List α} {m : List β} {k : List γ}
    (h : All₂ R l m) (h' : All₂ S m k) : All₂ (fun a c => ∃ b, R a b ∧ S b c) l k := by
  induction h generalizing k with
  | nil => cases h'; exact .nil
  | cons h _ ih => cases h' with | cons h1 h2 => exact .cons ⟨_, h, h1⟩ (ih h2)

theorem all₂_left_mem {α β : Type} {R : α → β → Prop} {l : List α} {m : List β} (h : All₂ R l m) : ∀ b ∈ m, ∃ a ∈ l, R a b := by
  induction h with
  | nil => simp
  | cons h _ ih =>
    intro b hb
    rcases List.mem_cons.1 hb with rfl | hb
    · exact ⟨_, by simp, h⟩
    · obtain ⟨a, ha, hr⟩ := ih b hb; exact ⟨a, by simp [ha], hr⟩

theorem all₂_right_mem {α β : Type} {R : α → β → Prop} {l : List α} {m : List β} (h : All₂ R l m) : ∀ a ∈ l, ∃ b ∈ m, R a b := by
  induction h with
  | nil => simp
  | cons h _ ih =>
    intro b hb
    rcases List.mem_cons.1 hb with rfl | hb
    · exact ⟨_, by simp, h⟩
    · obtain ⟨a, ha, hr⟩ := ih b hb; exact ⟨a, by simp [ha], hr⟩

/-- The objects of a table. -/
theorem table_objects {cfg : UnCfg} (hx : cfg.row.xml = false) {sheets : List SheetIn} {out : List Json} {w : List Warn}
    (ht : ∀ r ∈ rowsIn sheets, TableRow cfg.row r.line) (ha : RowsApart cfg (rowsIn sheets)) (h : unflatten cfg sheets = .ok (out, w)) :
    All₂ (fun r o => ∃ fs, o = .obj fs ∧ Built cfg.idName (contentOf cfg.row (columns r.line)) fs ∧
      ∀ c ∈ columns r.line, ∃ v cw, c.value cfg.row = .ok (v, cw)) (inObjectOrder cfg (rowsIn sheets)) out := by
  have h1 := C07_one_object_per_id cfg sheets out w h
  rw [objectRows_apart ha] at h1
  have hmem : ∀ r ∈ inObjectOrder cfg (rowsIn sheets), r ∈ rowsIn sheets := fun r hr => (inObjectOrder_perm _ _).mem_iff.1 hr
  generalize inObjectOrder cfg (rowsIn sheets) = rows at h1 hmem
  clear h
  induction rows generalizing out with
  | nil => cases h1; exact .nil
  | cons r rs ih =>
    cases h1 with
    | cons h2 h3 =>
      obtain ⟨w', h2, -⟩ := h2
      exact .cons (table_row hx (counts_rowsIn (hmem r (by simp))) (ht r (hmem r (by simp))) h2) (ih h3 (fun r hr => hmem r (by simp [hr])))

theorem objects_obj {out : List Json} {fs : List (Str × Json)} (h : fs ∈ objects out) : .obj fs ∈ out := by
  induction out with
  | nil => cases h
  | cons o r ih =>
    cases o with
    | obj gs =>
      rcases List.mem_cons.1 h with rfl | h
      · simp
      · simp [ih h]
    | _ => simp only [objects] at h; simp [ih h]

theorem obj_objects {out : List Json} {fs : List (Str × Json)} (h : .obj fs ∈ out) : fs ∈ objects out := by
  induction out with
  | nil => cases h
  | cons o r ih =>
    rcases List.mem_cons.1 h with rfl | h
    · simp [objects]
    · have := ih h
      cases o <;> simp [objects, this]

theorem items_none : ∀ (v : Json) (keep : List Str → Str → Bool) (p : List Str) (around : List (List Str × List (Str × Json))),
    (∀ a fs, v = .obj fs → ¬ HasArray p fs a) → (∀ l, v = .arr l → (joinArray l).isSome) → valueItems keep p around v = []
  | .leaf _, _, _, _, _, _ => rfl
  | .arr l, _, _, _, _, h => by
    rw [valueItems]
    obtain ⟨t, ht⟩ := Option.isSome_iff_exists.1 (h l rfl)
    rw [ht]
  | .obj fs, keep, p, around, h, _ => by
    rw [valueItems]
    have key : ∀ (gs : List (Str × Json)) (ar : List (List Str × List (Str × Json))), (∀ e ∈ gs, e ∈ fs) → (sizeOf gs ≤ sizeOf fs) → items keep p ar gs = [] := by
      intro gs
      induction gs with
      | nil => intro _ _ _; rfl
      | cons e r ih =>
        obtain ⟨k, v⟩ := e
        intro ar hm hsz
        rw [items]
        have : valueItems keep (p ++ [k]) ar v = [] := by
          refine items_none v keep (p ++ [k]) ar ?_ ?_
          · intro a gs e hA
            subst e
            exact h a fs rfl (.deep (hm (k, .obj gs) (by simp)) hA)
          · intro l e
            subst e
            cases hj : joinArray l with
            | some => rfl
            | none => exact absurd (.here (hm (k, .arr l) (by simp)) hj) (h _ fs rfl)
        rw [this, ih ar (fun e he => hm e (by simp [he])) (by simp at hsz ⊢; omega)]
        simp
    exact key fs _ (fun _ h => h) (Nat.le_refl _)
termination_by v => sizeOf v
decreasing_by
  simp at hsz ⊢
  omega

/-- C77: a table whose headings are paths of fields, and whose rows are objects of their own, is written back by flatten: the main sheet has one line per row,
with exactly the row's values under their headings; there are no sheets but this and those that the schema gives. -/
theorem C77_table_survives (cfg : UnCfg) (hx : cfg.row.xml = false) (sheets : List SheetIn) (out : List Json) (w : List Warn)
    (ht : ∀ r ∈ rowsIn sheets, TableRow cfg.row r.line) (ha : RowsApart cfg (rowsIn sheets)) (h : unflatten cfg sheets = .ok (out, w))
    (fcfg : FCfg) (hp : Plain fcfg) (hf : fcfg.filter = none) (hk : fcfg.preserve = []) (hs : FromSchemaParser fcfg) :
    ∃ st rows, flatten fcfg out = .ok st ∧ rows.Perm (rowsIn sheets) ∧ All₂ (fun r line => WrittenBack cfg.row r.line line) rows st.main.lines ∧
      (∀ name ∈ Dict.keys st.subs, name ∈ templateSheets fcfg ∧ subLines st name = []) ∧
      ((∀ r ∈ rowsIn sheets, ∀ r' ∈ rowsIn sheets, sameRoot cfg r r' = true) →
        ((∀ r ∈ rowsIn sheets, (rowId cfg r).isSome = true) ∨ ∀ r ∈ rowsIn sheets, (rowId cfg r).isSome = false) → rows = rowsIn sheets) := by
  have h1 := table_objects hx ht ha h
  have hmem : ∀ r ∈ inObjectOrder cfg (rowsIn sheets), TableRow cfg.row r.line := fun r hr => ht r ((inObjectOrder_perm _ _).mem_iff.1 hr)
  have h2 := objects_of_all₂ h1
  have hobj : ∀ fs ∈ objects out, ∃ f, Built cfg.idName f fs ∧ TableContent f := by
    intro fs hfs
    obtain ⟨r, hr, hb, -⟩ := all₂_left_mem h2 fs hfs
    exact ⟨_, hb, tableContent_of (hmem r hr)⟩
  obtain ⟨st, hst⟩ := C23_flatten_succeeds fcfg hp out (fun fs hfs => by
    obtain ⟨f, h3, h4⟩ := hobj fs hfs
    exact (table_object _ (Nat.le_refl _) h3 h4).2)
  have h3 := (C24_lines_hold_the_values fcfg hp hf hk hs out (fun fs hfs => by
    obtain ⟨f, h3, h4⟩ := hobj fs hfs
    exact (table_object _ (Nat.le_refl _) h3 h4).1) st hst).1
  have noarr : ∀ {fs p a}, .obj fs ∈ out → HasArray p fs a → False := by
    intro fs p a hm hA
    obtain ⟨f, h3, h4⟩ := hobj fs (obj_objects hm)
    exact table_no_array hA h3 h4
  refine ⟨st, inObjectOrder cfg (rowsIn sheets), hst, inObjectOrder_perm _ _, ?_, ?_, inObjectOrder_same⟩
  · have h4 := all₂_trans h2 h3
    clear h1 h2 h3
    generalize st.main.lines = ls at h4
    generalize inObjectOrder cfg (rowsIn sheets) = rows at h4 hmem
    induction h4 with
    | nil => exact .nil
    | cons h _ ih =>
      obtain ⟨fs, ⟨h5, h6⟩, h7⟩ := h
      exact .cons (table_line (hmem _ (by simp)) h5 h6 h7) (ih (fun r hr => hmem r (by simp [hr])))
  · intro name hn
    refine ⟨?_, ?_⟩
    · rcases (C57_sub_sheets fcfg hp.wkt hp.xml hf hk out st hst name).1 hn with h | ⟨fs, a, hm, hA, -⟩
      · exact h
      · exact absurd (noarr hm hA) id
    · have h5 := (C23_one_line_per_object fcfg hp hf hk hs out st hst).2 name
      rw [h5]
      have : docItems everything out = [] := by
        unfold docItems
        rw [List.flatMap_eq_nil_iff]
        intro fs hfs
        have := items_none (.obj fs) everything [] [] (fun a gs e hA => by cases e; exact noarr (objects_obj hfs) hA) (fun l e => by cases e)
        rwa [valueItems] at this
      rw [this]; rfl

/-- Ids are in place below some keys. -/
structure IdContent (o : IdOpts) (top : Bool) (f : Content) : Prop where
  last : ∀ ks v, f (keyPath ks) = some v → o.idName ∉ ks.dropLast
  root : ∀ ks v, f (keyPath ks) = some v → ∀ rid, o.rootId = some rid → rid ∈ ks → top = true ∧ ks = [rid]
  leaf : ∀ ks v, f (keyPath ks) = some v → ks.getLast? = some o.idName ∨ ks.getLast? = o.rootId → ∃ a, v.toJson = .leaf a

theorem IdContent.below {o : IdOpts} {top : Bool} {f : Content} (h : IdContent o top f) (hn : f [] = none) (k : Str)
    (hk : f [(k, none)] = none) : IdContent o false (fun rest => f ((k, none) :: rest)) := by
  have hne : ∀ ks v, f ((k, none) :: keyPath ks) = some v → ks ≠ [] := by
    rintro ks v hv rfl
    rw [show keyPath [] = [] from rfl, hk] at hv; cases hv
  constructor
  · intro ks v hv hm
    refine h.last (k :: ks) v hv ?_
    rw [List.dropLast_cons_of_ne_nil (hne ks v hv)]
    simp [hm]
  · intro ks v hv rid hr hm
    have := (h.root (k :: ks) v hv rid hr (by simp [hm])).2
    simp only [List.cons.injEq] at this
    exact absurd this.2 (hne ks v hv)
  · intro ks v hv hg
    refine h.leaf (k :: ks) v hv ?_
    rw [List.getLast?_cons_of_ne_nil (hne ks v hv)]
    exact hg

theorem plainIds_cell {o : IdOpts} {v c : Json} (h : InOneCell v c) : PlainIds o false v := by
  cases h with
  | scalar => trivial
  | list h => exact plainIds_of_clean_leaf (plain_joined ((C24_array_in_one_cell _ _).2 h))

theorem table_ids (m : Nat) : ∀ {o : IdOpts} {top : Bool} {n : Option Str} {f : Content} {fs : List (Str × Json)}, sizeOf fs ≤ m → Built n f fs → TableContent f →
    IdContent o top f → PlainIds o top (.obj fs) := by
  induction m with
  | zero => intro o top n f fs hs; cases fs <;> simp at hs
  | succ m ih =>
    intro o top n f fs hs hb ht hi
    rw [PlainIds]
    have child : ∀ {k j}, (k, j) ∈ fs → ∃ ks v, f (keyPath (k :: ks)) = some v ∧ (ks = [] → v.toJson = j) := by
      intro k j hm
      obtain ⟨ix, hix⟩ := (hb.2.1.2 k).1 (List.mem_map.2 ⟨_, hm, rfl⟩)
      obtain ⟨rfl, -⟩ := ht.has hix
      obtain ⟨-, ⟨v, c, e1, e2, e3⟩ | ⟨gs, rfl, hb'⟩⟩ := table_field hb ht hm
      · exact ⟨[], v, e1, fun _ => e2⟩
      · obtain ⟨rest, hr⟩ := hix
        obtain ⟨v, hv⟩ := Option.ne_none_iff_exists'.1 hr
        obtain ⟨ks, e, -⟩ := ht _ _ hv
        obtain ⟨-, ks', rfl, rfl⟩ := keyPath_cons e
        refine ⟨ks', v, hv, ?_⟩
        rintro rfl
        exact absurd hb'.1 hr
    refine ⟨⟨?_, ?_⟩, plainIdsFields_of ?_⟩
    · intro v hv
      obtain ⟨ks, x, h1, h2⟩ := child (Dict.get_eq_some_mem hv)
      have : ks = [] := by
        cases ks with
        | nil => rfl
        | cons k r => exact absurd (by simp) (hi.last _ _ h1)
      subst this
      obtain ⟨a, ha⟩ := hi.leaf _ _ h1 (by simp)
      exact ⟨a, by rw [← h2 rfl, ha]⟩
    · intro rid hr
      split
      · intro v hv
        obtain ⟨ks, x, h1, h2⟩ := child (Dict.get_eq_some_mem hv)
        have := (hi.root _ _ h1 rid hr (by simp)).2
        simp only [List.cons.injEq, true_and] at this
        subst this
        obtain ⟨a, ha⟩ := hi.leaf _ _ h1 (by simp [hr])
        exact ⟨a, by rw [← h2 rfl, ha]⟩
      · next htop =>
        cases hg : Dict.get fs rid with
        | none => rfl
        | some v =>
          obtain ⟨ks, x, h1, h2⟩ := child (Dict.get_eq_some_mem hg)
          exact absurd (hi.root _ _ h1 rid hr (by simp)).1 htop
    · rintro ⟨k, j⟩ hm
      obtain ⟨-, ⟨v, c, e1, e2, e3⟩ | ⟨gs, rfl, hb'⟩⟩ := table_field hb ht hm
      · exact plainIds_cell e3
      · refine ih ?_ hb' (ht.below k) (hi.below hb.1 k hb'.1)
        have h1 := List.sizeOf_lt_of_mem hm
        simp at h1
        omega

theorem idContent_of {o : IdOpts} {cfg : RowCfg} {line : Line} (ht : TableRow cfg line) (h : IdsInPlace o cfg line) :
    IdContent o true (contentOf cfg (columns line)) := by
  have key : ∀ ks v, contentOf cfg (columns line) (keyPath ks) = some v →
      ∃ c ∈ columns line, (∀ k ∈ ks, GoodKey k) ∧ c.heading = pathText ks ∧ ∃ w, c.value cfg = .ok (v, w) := by
    intro ks v hv
    unfold contentOf at hv
    split at hv
    · next c hc =>
      have hm := List.mem_of_find?_eq_some hc
      have ha := List.find?_some hc
      simp only [beq_iff_eq] at ha
      obtain ⟨ks', h1, h2, h3⟩ := ht.paths c hm
      rw [h3] at ha
      injection ha with ha
      have : ks' = ks := by
        have := congrArg (List.map Prod.fst) ha
        simpa [keyPath, Function.comp_def] using this
      subst this
      split at hv
      · next w hw => injection hv with hv; subst hv; exact ⟨c, hm, h1, h2, w, hw⟩
      · cases hv
    · cases hv
  constructor
  · intro ks v hv
    obtain ⟨c, hc, g, e, -⟩ := key ks v hv
    exact (h c hc ks g e).1
  · intro ks v hv rid hr hm
    obtain ⟨c, hc, g, e, -⟩ := key ks v hv
    exact ⟨rfl, (h c hc ks g e).2.1 rid hr hm⟩
  · intro ks v hv hg
    obtain ⟨c, hc, g, e, w, hw⟩ := key ks v hv
    exact (h c hc ks g e).2.2 hg v w hw

/-- C77: and, if ids are where flatten expects them, the main sheet has the columns that had values (and those that the schema gives), and no others. -/
theorem C77_columns (cfg : UnCfg) (hx : cfg.row.xml = false) (sheets : List SheetIn) (out : List Json) (w : List Warn)
    (ht : ∀ r ∈ rowsIn sheets, TableRow cfg.row r.line) (ha : RowsApart cfg (rowsIn sheets)) (h : unflatten cfg sheets = .ok (out, w))
    (fcfg : FCfg) (hp : Plain fcfg) (hf : fcfg.filter = none) (hk : fcfg.preserve = []) (hs : FromSchemaParser fcfg)
    (hi : ∀ r ∈ rowsIn sheets, IdsInPlace (idOpts fcfg) cfg.row r.line) (st : FState) (hst : flatten fcfg out = .ok st) (heading : Str) :
    heading ∈ st.main.headings ↔
      heading ∈ templateColumns fcfg none ∨ ∃ r ∈ rowsIn sheets, ∃ c ∈ columns r.line, c.heading = heading := by
  obtain ⟨st', rows, e1, e2, e3, -⟩ := C77_table_survives cfg hx sheets out w ht ha h fcfg hp hf hk hs
  rw [hst] at e1
  injection e1 with e1
  subst e1
  have hn : sheetNamed st none = some st.main := rfl
  constructor
  · intro hh
    have hids : ∀ j ∈ out, PlainIds (idOpts fcfg) true j := by
      intro j hj
      have h1 := table_objects hx ht ha h
      obtain ⟨r, hr, fs, rfl, hb, -⟩ := all₂_left_mem h1 j hj
      have hm := (inObjectOrder_perm _ _).mem_iff.1 hr
      exact table_ids _ (Nat.le_refl _) hb (tableContent_of (ht r hm)) (idContent_of (ht r hm) (hi r hm))
    rcases C57_no_empty_columns_added fcfg hp hk hs out hids st hst none _ hn heading hh with h | ⟨line, hl, hkey⟩
    · exact Or.inl h
    · refine Or.inr ?_
      obtain ⟨r, hr, hw⟩ := all₂_left_mem e3 line hl
      obtain ⟨j, hj⟩ := Option.isSome_iff_exists.1 (Dict.get_isSome_iff.2 hkey)
      exact ⟨r, e2.mem_iff.1 hr, hw.sound _ _ hj⟩
  · rintro (hh | ⟨r, hr, c, hc, rfl⟩)
    · exact (C57_schema_columns_first fcfg hs out st hst none _ hn).subset hh
    · obtain ⟨line, hl, hw⟩ := all₂_right_mem e3 _ (e2.mem_iff.2 hr)
      obtain ⟨v, cw, j, -, -, hj⟩ := hw.complete c hc
      exact (C25_every_value_has_a_column fcfg hs out st hst st.main (by simp [sheetsOf])).1 line hl _ (Dict.get_isSome_iff.1 (by rw [hj]; rfl))

/-! ### Tables of texts and whole numbers, without a schema -/

theorem pathList_keys {ks : List Str} (hne : ks ≠ []) (h : ∀ k ∈ ks, GoodKey k) : pathList (pathText ks) = ks :=
  pathList_join hne (fun x hx => Or.inr (h x hx))

theorem address_keys {ks : List Str} (hne : ks ≠ []) (h : ∀ k ∈ ks, GoodKey k) : ∀ above, address (fun _ => none) above ks = some (keyPath ks) := by
  induction ks with
  | nil => exact absurd rfl hne
  | cons k r ih =>
    intro above
    have hk := h k (by simp)
    have : ¬ (k = [] ∨ (Py.int? k).isSome = true) := by rintro (e | e); exact hk.1 e; rw [hk.2.2.1] at e; cases e
    rw [address, if_neg this]
    cases r with
    | nil => simp [keyPath]
    | cons k' r' =>
      have hk' := (h k' (by simp)).2.2.1
      simp only [hk']
      rw [ih (by simp) (fun x hx => h x (by simp [hx]))]
      simp [keyPath]

theorem compatible_keys : ∀ {a b : List Str}, ¬ a <+: b → ¬ b <+: a → Compatible (keyPath a) (keyPath b)
  | [], b, h, _ => absurd (List.nil_prefix) h
  | _ :: _, [], _, h => absurd (List.nil_prefix) h
  | k :: a, k' :: b, h, h' => by
    simp only [keyPath, List.map_cons, Compatible]
    by_cases e : k = k'
    · subst e
      exact Or.inr (compatible_keys (fun hp => h (List.cons_prefix_cons.2 ⟨rfl, hp⟩)) (fun hp => h' (List.cons_prefix_cons.2 ⟨rfl, hp⟩)))
    · exact Or.inl e

theorem rowsIn_sheet_lines (s : SheetIn) (hh : s.headings ≠ some []) : (rowsIn [s]).map (·.line) = s.lines.filter hasData := by
  have : rowsIn [s] = lineRows s 0 s.lines := by simp [rowsIn, hh, lineRows]
  rw [this]
  generalize 0 = j
  generalize s.lines = ls
  induction ls generalizing j with
  | nil => rfl
  | cons l r ih =>
    rw [lineRows_cons, List.map_append, ih, List.filter_cons]
    split <;> simp_all

theorem convert_text (env : ConvEnv) {a : Atom} (hb : a.blank = false) (ha : a = .none ∨ (∃ t, a = .str t) ∨ ∃ i, a = .int i) :
    convertType env .untyped a = .ok (.atom a, []) := by
  rcases ha with rfl | ⟨t, rfl⟩ | ⟨i, rfl⟩
  · cases hb
  · simp [convertType, hb, Py.str]
  · simp [convertType, hb]

section
variable {idName : Str} {rootId : Option Str} {paths : List (List Str)} {lines : List Line}

theorem Spec.TextTable.column (h : TextTable idName rootId paths lines) {l : Line} (hl : l ∈ lines) {c : Column} (hc : c ∈ columns l) :
    (some c.heading, c.cell) ∈ l ∧ c.cell.blank = false ∧ ∃ ks ∈ paths, c.heading = pathText ks := by
  unfold columns at hc
  obtain ⟨e, he, rfl⟩ := List.mem_map.1 hc
  obtain ⟨h1, h2⟩ := List.mem_filter.1 he
  have : e.1 ∈ l.map (·.1) := List.mem_map.2 ⟨e, h1, rfl⟩
  rw [h.headed l hl] at this
  obtain ⟨ks, hk, e1⟩ := List.mem_map.1 this
  refine ⟨?_, by simpa using h2, ks, hk, by simp [← e1]⟩
  simp only
  rw [← e1]
  simp only [Option.getD_some]
  rw [e1]; exact h1

theorem Spec.TextTable.column_of (h : TextTable idName rootId paths lines) {l : Line} {hd : Str} {a : Atom} (hm : (some hd, a) ∈ l)
    (hb : a.blank = false) : ⟨hd, a⟩ ∈ columns l := by
  unfold columns
  exact List.mem_map.2 ⟨(some hd, a), List.mem_filter.2 ⟨hm, by simp [hb]⟩, rfl⟩

theorem Spec.TextTable.addr (h : TextTable idName rootId paths lines) {cfg : RowCfg} (ht : ∀ p, cfg.types p = none) {c : Column} {ks : List Str} (hk : ks ∈ paths)
    (e : c.heading = pathText ks) : c.addr cfg = some (keyPath ks) := by
  unfold Column.addr
  rw [e, pathList_keys (h.keys ks hk).1 (h.keys ks hk).2, show cfg.types = fun _ => none from funext ht]
  exact address_keys (h.keys ks hk).1 (h.keys ks hk).2 _

theorem Spec.TextTable.value (h : TextTable idName rootId paths lines) {cfg : RowCfg} (ht : ∀ p, cfg.types p = none) {l : Line} (hl : l ∈ lines) {c : Column}
    (hc : c ∈ columns l) : c.value cfg = .ok (.atom c.cell, []) := by
  unfold Column.value
  rw [ht]
  obtain ⟨h1, h2, -⟩ := h.column hl hc
  exact convert_text _ h2 (h.cells l hl _ h1)

theorem Spec.TextTable.row (h : TextTable idName rootId paths lines) {cfg : RowCfg} (ht : ∀ p, cfg.types p = none) {l : Line} (hl : l ∈ lines) : TableRow cfg l := by
  constructor
  · intro c hc
    obtain ⟨-, -, ks, hk, e⟩ := h.column hl hc
    exact ⟨ks, (h.keys ks hk).2, e, h.addr ht hk e⟩
  · have h1 : ((columns l).map (fun c => (c.addr cfg).getD [])).Sublist (paths.map keyPath) := by
      have h2 : ((columns l).map (fun c => some c.heading)).Sublist (paths.map (fun ks => some (pathText ks))) := by
        rw [← h.headed l hl]
        unfold columns
        rw [List.map_map]
        have : (l.filter (fun c => !c.2.blank)).map (fun c => c.1) =
            (l.filter (fun c => !c.2.blank)).map ((fun c : Column => some c.heading) ∘ fun c => { heading := c.1.getD s%"None", cell := c.2 }) := by
          apply List.map_congr_left
          intro e he
          have hm : e.1 ∈ l.map (·.1) := List.mem_map.2 ⟨e, (List.mem_filter.1 he).1, rfl⟩
          rw [h.headed l hl] at hm
          obtain ⟨ks, -, e1⟩ := List.mem_map.1 hm
          simp only [Function.comp]
          rw [← e1]; rfl
        rw [← this]
        exact List.filter_sublist.map _
      have h3 : (columns l).map (fun c => (c.addr cfg).getD []) = ((columns l).map (fun c => some c.heading)).map
          (fun x => (address (fun _ => none) [] (pathList (x.getD []))).getD []) := by
        rw [List.map_map]
        apply List.map_congr_left
        intro c hc
        simp only [Function.comp, Option.getD_some, Column.addr]
        rw [show cfg.types = fun _ => none from funext ht]
      have h4 : paths.map keyPath = (paths.map (fun ks => some (pathText ks))).map (fun x => (address (fun _ => none) [] (pathList (x.getD []))).getD []) := by
        rw [List.map_map]
        apply List.map_congr_left
        intro ks hk
        simp only [Function.comp, Option.getD_some]
        rw [pathList_keys (h.keys ks hk).1 (h.keys ks hk).2, address_keys (h.keys ks hk).1 (h.keys ks hk).2]
        rfl
      rw [h3, h4]
      exact h2.map _
    refine List.Pairwise.sublist h1 ?_
    rw [List.pairwise_map]
    exact h.apart.imp (fun h => compatible_keys h.1 h.2)
  · intro c hc v w hv
    rw [h.value ht hl hc] at hv
    simp only [Except.ok.injEq, Prod.mk.injEq] at hv
    obtain ⟨rfl, -⟩ := hv
    obtain ⟨h1, h2, -⟩ := h.column hl hc
    refine ⟨h2, _, .scalar ?_⟩
    rcases h.cells l hl _ h1 with e | ⟨t, e⟩ | ⟨i, e⟩ <;> (simp only at e; rw [e]; rfl)

theorem Spec.TextTable.inPlace (h : TextTable idName rootId paths lines) {cfg : RowCfg} (ht : ∀ p, cfg.types p = none) {l : Line} (hl : l ∈ lines) :
    IdsInPlace ⟨idName, rootId⟩ cfg l := by
  intro c hc ks hg e
  obtain ⟨-, -, ks', hk, e'⟩ := h.column hl hc
  have : ks = ks' := by
    cases hks : ks with
    | nil =>
      subst hks
      have h1 := (h.keys ks' hk)
      rw [e'] at e
      have h2 := pathList_keys h1.1 h1.2
      rw [e] at h2
      have : ks' = [[]] := by rw [← h2]; decide
      exact absurd rfl ((h1.2 [] (by rw [this]; simp)).1)
    | cons k r =>
      rw [← hks]
      rw [← pathList_keys (by rw [hks]; simp) hg, ← pathList_keys (h.keys ks' hk).1 (h.keys ks' hk).2, ← e, e']
  subst this
  refine ⟨h.ids ks hk, h.root ks hk, ?_⟩
  intro _ v w hv
  rw [h.value ht hl hc] at hv
  simp only [Except.ok.injEq, Prod.mk.injEq] at hv
  obtain ⟨rfl, -⟩ := hv
  exact ⟨c.cell, rfl⟩

/-- The id of a row is in its id column. -/
theorem Spec.TextTable.rowId (h : TextTable idName rootId paths lines) {cfg : UnCfg} (hx : cfg.row.xml = false) (ht : ∀ p, cfg.row.types p = none)
    (hid : cfg.idName = some idName) {r : RowIn} (hr : Counts r) (hl : r.line ∈ lines) {a : Atom} (ha : rowId cfg r = some a) :
    (some idName, a) ∈ r.line ∧ a.blank = false := by
  unfold Spec.rowId at ha
  split at ha
  · next o w hu =>
    obtain ⟨fs, rfl, hb, hv⟩ := table_row hx hr (h.row ht hl) hu
    rw [hid] at ha
    simp only [idOf] at ha
    have hc := tableContent_of (h.row ht hl)
    have hg : Dict.get fs idName = some (.leaf a) := by
      split at ha
      · next x hx => rw [hx]; simpa using ha
      · rw [hx] at ha; simp at ha
      · cases ha
    obtain ⟨-, ⟨v, c, e1, e2, e3⟩ | ⟨gs, e, -⟩⟩ := table_field hb hc (Dict.get_eq_some_mem hg)
    · unfold contentOf at e1
      split at e1
      · next c hcf =>
        have hm := List.mem_of_find?_eq_some hcf
        have hadr := List.find?_some hcf
        simp only [beq_iff_eq] at hadr
        rw [h.value ht hl hm] at e1
        simp only [Option.some.injEq] at e1
        subst e1
        obtain ⟨h1, h2, ks, hk, e'⟩ := h.column hl hm
        rw [h.addr ht hk e'] at hadr
        simp only [Option.some.injEq] at hadr
        have : ks = [idName] := by
          have := congrArg (List.map Prod.fst) hadr
          simpa [keyPath, Function.comp_def] using this
        subst this
        simp only [Val.toJson, Json.leaf.injEq] at e2
        rw [e2] at h1 h2
        rw [show c.heading = idName from e'] at h1
        exact ⟨h1, h2⟩
      · cases e1
    · cases e
  · cases ha

theorem Spec.TextTable.rowId_some (h : TextTable idName rootId paths lines) {cfg : UnCfg} (hx : cfg.row.xml = false) (ht : ∀ p, cfg.row.types p = none)
    (hid : cfg.idName = some idName) {r : RowIn} (hr : Counts r) (hl : r.line ∈ lines) {o : Json} {w : List Warn} (hu : unflatten cfg [alone r] = .ok ([o], w))
    {a : Atom} (ha : (some idName, a) ∈ r.line) (hb : a.blank = false) : Spec.rowId cfg r = some a := by
  obtain ⟨fs, rfl, hbu, hv⟩ := table_row hx hr (h.row ht hl) hu
  have hc := h.column_of ha hb
  obtain ⟨-, -, ks, hk, e⟩ := h.column hl hc
  have hadr := h.addr (cfg := cfg.row) ht hk e
  have h1 := contentOf_column (h.row ht hl) hc hadr (h.value ht hl hc)
  have hks : ks = [idName] := by
    rw [← pathList_keys (h.keys ks hk).1 (h.keys ks hk).2, ← e]
    exact pathList_keys (ks := [idName]) (by simp) (by simpa using h.id)
  subst hks
  have h2 : contentOf cfg.row (columns r.line) [(idName, none)] = some (.atom a) := h1
  obtain ⟨⟨k, j⟩, hm, hkk⟩ := List.mem_map.1 ((hbu.2.1.2 idName).2 ⟨none, [], by simp [h2]⟩)
  simp only at hkk
  subst hkk
  have hj : j = .leaf a := by
    obtain ⟨-, ⟨v, c, e1, e2, e3⟩ | ⟨gs, e', hb'⟩⟩ := table_field hbu (tableContent_of (h.row ht hl)) hm
    · rw [h2] at e1
      simp only [Option.some.injEq] at e1
      subst e1
      exact e2.symm
    · have := hb'.1
      simp only [h2] at this
      cases this
  subst hj
  have hget := Dict.get_of_mem hbu.2.1.1 hm
  unfold Spec.rowId
  rw [hu]
  simp only [idOf, hid, hget]

end

/-- C77: without a schema, a sheet of texts and whole numbers can be unflattened, and flattening the result gives it back: one line for each line with data, with the
same cells under the same headings; no other sheets; and the columns that had values.  The lines are in the same order, if there is no root id and all or no lines have
an id (else those without an id come after those with one). -/
theorem C77_text_table (cfg : UnCfg) (hx : cfg.row.xml = false) (ht : ∀ p, cfg.row.types p = none) (fcfg : FCfg) (hp : Plain fcfg)
    (hf : fcfg.filter = none) (hk : fcfg.preserve = []) (hs : fcfg.schema = none) (hid : cfg.idName = some fcfg.idName) (hr : cfg.rootId = fcfg.rootId)
    (sheet : SheetIn) (hh : sheet.headings ≠ some []) (paths : List (List Str)) (h : TextTable fcfg.idName fcfg.rootId paths sheet.lines) :
    ∃ out w st rows, unflatten cfg [sheet] = .ok (out, w) ∧ flatten fcfg out = .ok st ∧ rows.Perm (sheet.lines.filter hasData) ∧
      All₂ (fun row line => ∀ heading j, Dict.get line heading = some j ↔ ∃ a, (some heading, a) ∈ row ∧ a.blank = false ∧ j = .leaf a) rows st.main.lines ∧
      st.subs = [] ∧
      (∀ heading, heading ∈ st.main.headings ↔ ∃ l ∈ sheet.lines, ∃ a, (some heading, a) ∈ l ∧ a.blank = false) ∧
      (fcfg.rootId = none → ((∀ l ∈ sheet.lines, hasData l = true → ∃ a, (some fcfg.idName, a) ∈ l ∧ a.blank = false) ∨
        ∀ l ∈ sheet.lines, ∀ a, (some fcfg.idName, a) ∈ l → a.blank = true) → rows = sheet.lines.filter hasData) := by
  have hlines := rowsIn_sheet_lines sheet hh
  have hmem : ∀ r ∈ rowsIn [sheet], r.line ∈ sheet.lines := by
    intro r hr
    have : r.line ∈ (rowsIn [sheet]).map (·.line) := List.mem_map.2 ⟨r, hr, rfl⟩
    rw [hlines] at this
    exact (List.mem_filter.1 this).1
  have hcounts : ∀ r ∈ rowsIn [sheet], Counts r := fun r hr => counts_rowsIn hr
  have htab : ∀ r ∈ rowsIn [sheet], TableRow cfg.row r.line := fun r hr => h.row ht (hmem r hr)
  have hapart : RowsApart cfg (rowsIn [sheet]) := by
    have h1 : ((rowsIn [sheet]).map (·.line)).Pairwise (fun l l' => atomEq (rootCell fcfg.rootId l) (rootCell fcfg.rootId l') = true →
        ∀ a a', (some fcfg.idName, a) ∈ l → (some fcfg.idName, a') ∈ l' → a.blank = false → a'.blank = false → atomEq a a' = false) := by
      rw [hlines]; exact h.distinct.sublist List.filter_sublist
    rw [List.pairwise_map] at h1
    refine List.Pairwise.imp_of_mem ?_ h1
    intro r r' m m' hd hroot
    unfold sameRoot at hroot
    rw [hr] at hroot
    unfold sameId
    split
    · next a a' e e' =>
      obtain ⟨x1, x2⟩ := h.rowId hx ht hid (hcounts r m) (hmem r m) e
      obtain ⟨y1, y2⟩ := h.rowId hx ht hid (hcounts r' m') (hmem r' m') e'
      exact hd hroot a a' x1 y1 x2 y2
    · rfl
  obtain ⟨out, w, hu⟩ := C12_no_exception cfg hx ht [sheet] (by
    intro s hs l hl e he hb n before after hn hpl
    rw [List.mem_singleton] at hs
    subst hs
    rw [hid] at hn
    injection hn with hn
    subst hn
    have : (e.1) ∈ l.map (·.1) := List.mem_map.2 ⟨e, he, rfl⟩
    rw [h.headed l hl] at this
    obtain ⟨ks, hk, e1⟩ := List.mem_map.1 this
    rw [← e1] at hpl
    simp only [Option.getD_some] at hpl
    rw [pathList_keys (h.keys ks hk).1 (h.keys ks hk).2] at hpl
    cases after with
    | nil => rfl
    | cons x r =>
      refine absurd ?_ (h.ids ks hk)
      rw [hpl, List.dropLast_append_of_ne_nil (by simp), List.dropLast_cons_of_ne_nil (by simp)]
      simp) (by
    intro s hs l hl e he f hfl
    rw [List.mem_singleton] at hs
    subst hs
    rcases h.cells l hl e he with e1 | ⟨t, e1⟩ | ⟨i, e1⟩ <;> rw [e1] at hfl <;> cases hfl)
  have hsp : FromSchemaParser fcfg := fun sp hsp => by rw [hs] at hsp; cases hsp
  obtain ⟨st, rows, f1, f2, f3, f4, f5⟩ := C77_table_survives cfg hx [sheet] out w htab hapart hu fcfg hp hf hk hsp
  refine ⟨out, w, st, rows.map (·.line), hu, f1, ?_, ?_, ?_, ?_, ?_⟩
  · rw [← hlines]; exact f2.map _
  · have hrm : ∀ r ∈ rows, r.line ∈ sheet.lines := fun r hr => hmem r (f2.mem_iff.1 hr)
    clear f1 f2 f5
    generalize st.main.lines = ls at f3
    induction f3 with
    | nil => exact .nil
    | @cons r line rs ls hw _ ih =>
      refine .cons ?_ (ih (fun r hr => hrm r (by simp [hr])))
      have hl := hrm r (by simp)
      have key : ∀ c ∈ columns r.line, Dict.get line c.heading = some (.leaf c.cell) := by
        intro c hc
        obtain ⟨v, cw, j, e1, e2, e3⟩ := hw.complete c hc
        rw [h.value ht hl hc] at e1
        simp only [Except.ok.injEq, Prod.mk.injEq] at e1
        obtain ⟨rfl, -⟩ := e1
        rw [e3]
        cases e2; rfl
      intro heading j
      constructor
      · intro hg
        obtain ⟨c, hc, rfl⟩ := hw.sound _ _ hg
        obtain ⟨h1, h2, -⟩ := h.column hl hc
        rw [key c hc] at hg
        injection hg with hg
        exact ⟨c.cell, h1, h2, hg.symm⟩
      · rintro ⟨a, h1, h2, rfl⟩
        exact key _ (h.column_of h1 h2)
  · cases hsub : st.subs with
    | nil => rfl
    | cons x r =>
      have := (f4 x.1 (by rw [hsub]; simp [Dict.keys])).1
      unfold templateSheets at this
      rw [hs] at this
      cases this
  · intro heading
    rw [C77_columns cfg hx [sheet] out w htab hapart hu fcfg hp hf hk hsp (fun r hr => h.inPlace ht (hmem r hr)) st f1 heading]
    have : templateColumns fcfg none = [] := by unfold templateColumns; rw [hs]
    rw [this]
    simp only [List.not_mem_nil, false_or]
    constructor
    · rintro ⟨r, hr, c, hc, rfl⟩
      obtain ⟨h1, h2, -⟩ := h.column (hmem r hr) hc
      exact ⟨r.line, hmem r hr, c.cell, h1, h2⟩
    · rintro ⟨l, hl, a, h1, h2⟩
      have : l ∈ (rowsIn [sheet]).map (·.line) := by
        rw [hlines, List.mem_filter]
        exact ⟨hl, List.any_eq_true.2 ⟨_, h1, by simp [h2]⟩⟩
      obtain ⟨r, hr, rfl⟩ := List.mem_map.1 this
      exact ⟨r, hr, _, h.column_of h1 h2, rfl⟩
  · intro hroot hall
    rw [← hlines]
    congr 1
    refine f5 ?_ ?_
    · intro r _ r' _
      unfold sameRoot
      rw [hr, hroot]
      rfl
    · have hone := C07_one_object_per_id cfg [sheet] out w hu
      rw [objectRows_apart hapart] at hone
      rcases hall with hall | hall
      · left
        intro r hrm
        obtain ⟨a, h1, h2⟩ := hall r.line (hmem r hrm) (hcounts r hrm).1
        obtain ⟨o, -, w', hu', -⟩ := all₂_right_mem hone [r] (List.mem_map.2 ⟨r, (inObjectOrder_perm _ _).mem_iff.2 hrm, rfl⟩)
        rw [h.rowId_some hx ht hid (hcounts r hrm) (hmem r hrm) hu' h1 h2]
        rfl
      · right
        intro r hrm
        cases he : Spec.rowId cfg r with
        | none => rfl
        | some a =>
          obtain ⟨h1, h2⟩ := h.rowId hx ht hid (hcounts r hrm) (hmem r hrm) he
          rw [hall r.line (hmem r hrm) a h1] at h2
          cases h2

/-! ### A concrete table -/

namespace TableEx

def paths : List (List Str) := [[s%"id"], [s%"buyer", s%"name"], [s%"title"], [s%"buyer", s%"address", s%"city"]]

def cellsOf (cells : List Atom) : Line := (paths.map (fun ks => some (pathText ks))).zip cells

def table : SheetIn :=
  { name := s%"main", headings := some (paths.map (fun ks => some (pathText ks)))
    lines := [cellsOf [.str s%"1", .str s%"x", .str [], .str s%"c"], cellsOf [.none, .none, .none, .none],
      cellsOf [.str s%"2", .none, .int 7, .none], cellsOf [.str s%"3", .str s%"x", .none, .str s%"1;2"]] }

instance (a b : List Str) : Decidable (a <+: b) := decidable_of_iff _ List.isPrefixOf_iff_prefix

theorem fits : TextTable s%"id" none paths table.lines where
  id := by decide
  keys := by decide
  apart := by decide
  ids := by decide
  root := by simp
  headed := by decide
  cells := by
    intro l hl e he
    have : ∀ l ∈ table.lines, ∀ e ∈ l, (match e.2 with | .none | .str _ | .int _ => true | _ => false) = true := by decide
    have h := this l hl e he
    split at h
    · next h' => exact Or.inl h'
    · next t h' => exact Or.inr (Or.inl ⟨t, h'⟩)
    · next i h' => exact Or.inr (Or.inr ⟨i, h'⟩)
    · cases h
  distinct := by
    refine List.Pairwise.imp (R := fun l l' => l.all (fun e => l'.all (fun e' => e.1 != some s%"id" || e.2.blank || e'.1 != some s%"id" || e'.2.blank ||
      !atomEq e.2 e'.2)) = true) ?_ ?_
    · intro l l' h _ a a' h1 h2 h3 h4
      have := List.all_eq_true.1 (List.all_eq_true.1 h _ h1) _ h2
      simpa [h3, h4] using this
    · decide +kernel

/-- The hypotheses of `C77_text_table` are met by the table. -/
example : ∃ out w st, unflatten { rootId := none } [table] = .ok (out, w) ∧ flatten { rootId := none } out = .ok st ∧ st.main.lines.length = 3 := by
  obtain ⟨out, w, st, rows, h1, h2, -, h4, -, -, h7⟩ := C77_text_table { rootId := none } rfl (fun _ => rfl) { rootId := none } ⟨rfl, rfl, rfl, rfl⟩ rfl rfl rfl
    rfl rfl table (by decide) paths fits
  refine ⟨out, w, st, h1, h2, ?_⟩
  have := h7 rfl (Or.inl (by
    have : ∀ l ∈ table.lines, hasData l = true → l.any (fun e => e.1 == some s%"id" && !e.2.blank) = true := by decide +kernel
    intro l hl hd
    obtain ⟨⟨h, a⟩, hm, hb⟩ := List.any_eq_true.1 (this l hl hd)
    simp only [Bool.and_eq_true, beq_iff_eq, Bool.not_eq_true'] at hb
    obtain ⟨rfl, hb⟩ := hb
    exact ⟨a, hm, hb⟩))
  rw [this] at h4
  have hlen : ∀ {α β : Type} {R : α → β → Prop} {l : List α} {m : List β}, All₂ R l m → m.length = l.length := by
    intro α β R l m h
    induction h with
    | nil => rfl
    | cons _ _ ih => simp [ih]
  rw [hlen h4]
  decide +kernel

/-- What becomes of it: the object in between, and the lines with their columns. -/
example : ((unflatten { rootId := none } [table]).bind (fun r => flatten { rootId := none } r.1)).map (fun st => (st.main.headings, st.main.lines)) = .ok
    ([s%"id", s%"buyer/name", s%"buyer/address/city", s%"title"],
     [[(s%"id", .leaf (.str s%"1")), (s%"buyer/name", .leaf (.str s%"x")), (s%"buyer/address/city", .leaf (.str s%"c"))],
      [(s%"id", .leaf (.str s%"2")), (s%"title", .leaf (.int 7))],
      [(s%"id", .leaf (.str s%"3")), (s%"buyer/name", .leaf (.str s%"x")), (s%"buyer/address/city", .leaf (.str s%"1;2"))]]) := by
  decide +kernel

/-- With a schema that says a column is a list, the values of `C77_table_survives` are lists in between, and the same text in the end. -/
def types : Str → Option CType := fun p => if p = s%"tags" then some .stringArray else none

def listRow : Line := [(some s%"id", .str s%"1"), (some s%"tags", .str s%"a;b")]

theorem list_columns : columns listRow = [⟨s%"id", .str s%"1"⟩, ⟨s%"tags", .str s%"a;b"⟩] := rfl

example : TableRow { types := types } listRow where
  paths := by
    rw [list_columns]
    intro c hc
    simp only [List.mem_cons, List.not_mem_nil, or_false] at hc
    rcases hc with rfl | rfl
    · exact ⟨[s%"id"], by decide, by decide, by decide +kernel⟩
    · exact ⟨[s%"tags"], by decide, by decide, by decide +kernel⟩
  apart := by
    rw [list_columns]
    simp only [List.map_cons, List.map_nil, List.pairwise_cons, List.mem_singleton, forall_eq, List.not_mem_nil, false_implies, implies_true, and_true, List.Pairwise.nil]
    have h1 : (Column.addr { types := types } ⟨s%"id", .str s%"1"⟩).getD [] = [(s%"id", none)] := by decide +kernel
    have h2 : (Column.addr { types := types } ⟨s%"tags", .str s%"a;b"⟩).getD [] = [(s%"tags", none)] := by decide +kernel
    rw [h1, h2]
    exact Or.inl (by decide)
  values := by
    rw [list_columns]
    intro c hc v w hv
    simp only [List.mem_cons, List.not_mem_nil, or_false] at hc
    rcases hc with rfl | rfl
    · have : Column.value { types := types } ⟨s%"id", .str s%"1"⟩ = .ok (.atom (.str s%"1"), []) := by decide +kernel
      rw [this] at hv; cases hv
      exact ⟨rfl, _, .scalar rfl⟩
    · have : Column.value { types := types } ⟨s%"tags", .str s%"a;b"⟩ = .ok (stringArray s%"a;b", []) := by decide +kernel
      rw [this] at hv; cases hv
      have e : (stringArray s%"a;b").toJson = .arr [.leaf (.str s%"a"), .leaf (.str s%"b")] := by decide +kernel
      rw [e]
      exact ⟨by decide +kernel, _, .list (.scalars (.cons .text (.cons .text .nil)))⟩

end TableEx

end Verif

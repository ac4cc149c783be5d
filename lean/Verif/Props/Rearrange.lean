import Verif.Proofs.Rearrange
import Verif.Props.Columns
import Verif.Props.FlattenLines
import Verif.Props.RoundTrip
import Verif.Proofs.ApiTrip
/-! C76: flattening does not depend on the order of fields and of objects. -/
namespace Verif
open Spec

/-! ### Transport of hypotheses -/

theorem flattenableFields_iff {fs : List (Str × Json)} : FlattenableFields fs ↔ ∀ e ∈ fs, Flattenable e.2 := by
  induction fs with
  | nil => simp [FlattenableFields]
  | cons e r ih => obtain ⟨k, v⟩ := e; simp [FlattenableFields, ih]

theorem flattenableItems_iff {l : List Json} : FlattenableItems l ↔ ∀ x ∈ l, FlattenableItems [x] := by
  induction l with
  | nil => simp [FlattenableItems]
  | cons x r ih => cases x <;> simp [FlattenableItems, ih]

mutual
theorem flattenable_rearranged : {x y : Json} → Rearranged x y → Flattenable x → Flattenable y
  | _, _, .leaf, h => h
  | .obj fs, .obj gs, .obj hf hp, h => by
    rw [Flattenable] at h ⊢
    have := flattenableF_rearranged hf h
    rw [flattenableFields_iff] at this ⊢
    exact fun e he => this e (hp.mem_iff.2 he)
  | .arr l, .arr m, .arr hi hp ho, h => by
    have hj := joinArray_rearranged (.arr hi hp ho)
    rw [Flattenable] at h ⊢
    rw [← hj]
    rcases h with h | h
    · exact .inl h
    · right
      have := flattenableI_rearranged hi h
      rw [flattenableItems_iff] at this ⊢
      exact fun e he => this e (hp.mem_iff.2 he)
theorem flattenableF_rearranged : {x y : List (Str × Json)} → RearrangedFields x y → FlattenableFields x → FlattenableFields y
  | _, _, .nil, h => h
  | _, _, .cons hv hr, h => by rw [FlattenableFields] at h ⊢; exact ⟨flattenable_rearranged hv h.1, flattenableF_rearranged hr h.2⟩
theorem flattenableI_rearranged : {x y : List Json} → RearrangedItems x y → FlattenableItems x → FlattenableItems y
  | _, _, .nil, h => h
  | .leaf a :: r, _ :: s, .cons (.leaf) hr, h => by
    rw [FlattenableItems] at h ⊢
    exact ⟨h.1, flattenableI_rearranged hr h.2⟩
  | .arr a :: r, .arr b :: s, .cons _ hr, h => by
    rw [FlattenableItems] at h; exact h.elim
  | .obj fs :: r, .obj gs :: s, .cons (.obj hf hp) hr, h => by
    rw [FlattenableItems] at h ⊢
    refine ⟨?_, flattenableI_rearranged hr h.2⟩
    have := flattenableF_rearranged hf h.1
    rw [flattenableFields_iff] at this ⊢
    exact fun e he => this e (hp.mem_iff.2 he)
end

theorem plainIdsFields_iff {o : IdOpts} {fs : List (Str × Json)} : PlainIdsFields o fs ↔ ∀ e ∈ fs, PlainIds o false e.2 := by
  induction fs with
  | nil => simp [PlainIdsFields]
  | cons e r ih => obtain ⟨k, v⟩ := e; simp [PlainIdsFields, ih]

theorem plainIdsItems_iff {o : IdOpts} {l : List Json} : PlainIdsItems o l ↔ ∀ x ∈ l, PlainIds o false x := by
  induction l with
  | nil => simp [PlainIdsItems]
  | cons x r ih => simp [PlainIdsItems, ih]

mutual
theorem plainIds_rearranged {o : IdOpts} {top : Bool} : {x y : Json} → Rearranged x y → CleanKeys x → PlainIds o top x → PlainIds o top y
  | _, _, .leaf, _, h => h
  | .obj fs, .obj gs, .obj hf hp, hc, h => by
    rw [PlainIds] at h ⊢
    rw [CleanKeys] at hc
    have hs : SameFields fs gs := .obj hf hp
    refine ⟨⟨?_, ?_⟩, ?_⟩
    · intro v hv
      rcases hs.get hc.1 o.idName with ⟨-, h2⟩ | ⟨x, w, h1, h2, h3⟩
      · rw [h2] at hv; cases hv
      · rw [h2] at hv
        obtain ⟨a, rfl⟩ := h.1.1 x h1
        cases h3; cases hv
        exact ⟨_, rfl⟩
    · intro rid hr
      have h4 := h.1.2 rid hr
      rcases hs.get hc.1 rid with ⟨h1, h2⟩ | ⟨x, w, h1, h2, h3⟩
      · cases top <;> simp [h2]
      · cases top with
        | false => simp [h1] at h4
        | true =>
          simp only [if_true] at h4 ⊢
          obtain ⟨a, rfl⟩ := h4 x h1
          intro v hv
          rw [h2] at hv
          cases h3; cases hv
          exact ⟨_, rfl⟩
    · have := plainIdsF_rearranged hf hc.2.2 h.2
      rw [plainIdsFields_iff] at this ⊢
      exact fun e he => this e (hp.mem_iff.2 he)
  | .arr l, .arr m, .arr hi hp _, hc, h => by
    rw [PlainIds] at h ⊢
    rw [CleanKeys] at hc
    have := plainIdsI_rearranged hi hc h
    rw [plainIdsItems_iff] at this ⊢
    exact fun e he => this e (hp.mem_iff.2 he)
theorem plainIdsF_rearranged {o : IdOpts} : {x y : List (Str × Json)} → RearrangedFields x y → CleanFields x → PlainIdsFields o x → PlainIdsFields o y
  | _, _, .nil, _, h => h
  | _, _, .cons hv hr, hc, h => by
    rw [PlainIdsFields] at h ⊢; rw [CleanFields] at hc
    exact ⟨plainIds_rearranged hv hc.1 h.1, plainIdsF_rearranged hr hc.2 h.2⟩
theorem plainIdsI_rearranged {o : IdOpts} : {x y : List Json} → RearrangedItems x y → CleanList x → PlainIdsItems o x → PlainIdsItems o y
  | _, _, .nil, _, h => h
  | _, _, .cons hv hr, hc, h => by
    rw [PlainIdsItems] at h ⊢; rw [CleanList] at hc
    exact ⟨plainIds_rearranged hv hc.1 h.1, plainIdsI_rearranged hr hc.2 h.2⟩
end

theorem hasArray_rearranged {p a : List Str} {fs gs : List (Str × Json)} (ha : HasArray p fs a) (h : SameFields fs gs) : HasArray p gs a := by
  induction ha generalizing gs with
  | here hm hj =>
    obtain ⟨w, h1, h2⟩ := h.mem hm
    cases w with
    | arr m => exact .here h1 (by rw [← joinArray_rearranged h2]; exact hj)
    | leaf a => cases h2
    | obj f => cases h2
  | deep hm _ ih =>
    obtain ⟨w, h1, h2⟩ := h.mem hm
    cases w with
    | obj m => exact .deep h1 (ih h2)
    | leaf a => cases h2
    | arr f => cases h2
  | item hm hj hi _ ih =>
    obtain ⟨w, h1, h2⟩ := h.mem hm
    cases w with
    | leaf a => cases h2
    | obj f => cases h2
    | arr m =>
      have hj' := joinArray_rearranged h2
      cases h2 with
      | arr hl hp ho =>
        obtain ⟨y, h3, h4⟩ := all₂_mem_right (all₂_flip (items_all hl)) hi
        cases y with
        | obj g => exact .item h1 (by rw [← hj']; exact hj) (hp.mem_iff.1 h3) (ih h4)
        | leaf a => cases h4
        | arr f => cases h4

/-! ### The root list -/

theorem mem_objects_iff {l : List Json} {fs : List (Str × Json)} : fs ∈ objects l ↔ .obj fs ∈ l := by
  induction l with
  | nil => simp [objects]
  | cons x r ih => cases x <;> simp [objects, ih]

theorem objects_filterMap (l : List Json) : objects l = l.filterMap (fun x => match x with | .obj fs => some fs | _ => none) := by
  induction l with
  | nil => rfl
  | cons x r ih => cases x <;> simp [objects, ih]

theorem objects_rearranged {l m : List Json} (h : Rearranged (.arr l) (.arr m)) : PermRel SameFields (objects l) (objects m) := by
  cases h with
  | @arr _ _ hs hi hp ho =>
    refine ⟨objects hs, ?_, ?_⟩
    · clear hp ho
      have := items_all hi
      clear hi
      induction this with
      | nil => exact .nil
      | cons h _ ih =>
        cases h with
        | leaf => exact ih
        | arr _ _ _ => exact ih
        | obj h1 h2 => exact .cons (.obj h1 h2) ih
    · rw [objects_filterMap, objects_filterMap]
      exact hp.filterMap _

theorem PermRel.flatMap {α β γ δ : Type} {R : α → β → Prop} {S : γ → δ → Prop} {f : α → List γ} {g : β → List δ} {l : List α} {m : List β} (h : PermRel R l m)
    (hf : ∀ a ∈ l, ∀ b, R a b → PermRel S (f a) (g b)) : PermRel S (l.flatMap f) (m.flatMap g) := by
  obtain ⟨c, h1, h2⟩ := h
  refine PermRel.trans_perm ?_ (h2.flatMap_right g)
  clear h2
  induction h1 with
  | nil => exact .of_all .nil
  | cons h _ ih =>
    simp only [List.flatMap_cons]
    exact .append (hf _ (by simp) _ h) (ih (fun a ha => hf a (by simp [ha])))

theorem PermRel.map {α β γ δ : Type} {R : α → β → Prop} {S : γ → δ → Prop} {f : α → γ} {g : β → δ} {l : List α} {m : List β} (h : PermRel R l m)
    (hf : ∀ a ∈ l, ∀ b, R a b → S (f a) (g b)) : PermRel S (l.map f) (m.map g) := by
  obtain ⟨c, h1, h2⟩ := h
  refine ⟨c.map g, ?_, h2.map g⟩
  clear h2
  induction h1 with
  | nil => exact .nil
  | cons h _ ih => exact .cons (hf _ (by simp) _ h) (ih (fun a ha => hf a (by simp [ha])))

theorem PermRel.filter {α : Type} {R : α → α → Prop} {f : α → Bool} {l m : List α} (h : PermRel R l m)
    (hf : ∀ a b, R a b → f a = f b) : PermRel R (l.filter f) (m.filter f) := by
  obtain ⟨c, h1, h2⟩ := h
  refine ⟨c.filter f, ?_, h2.filter f⟩
  clear h2
  induction h1 with
  | nil => exact .nil
  | @cons a b _ _ h _ ih =>
    rw [List.filter_cons, List.filter_cons, ← hf a b h]
    split
    · exact .cons h ih
    · exact ih

theorem docItems_rearranged {keep : List Str → Str → Bool} {l m : List Json} (h : Rearranged (.arr l) (.arr m)) (hc : ∀ fs ∈ objects l, CleanKeys (.obj fs)) :
    PermRel SameItem (docItems keep l) (docItems keep m) :=
  (objects_rearranged h).flatMap (fun _ ha _ hr => items_rearranged keep hr (hc _ ha))

/-- C76: documents that are the same up to the order of fields and of objects have the same lines, on each sheet, up to order. -/
theorem C76_same_lines (cfg : FCfg) (hp : Plain cfg) (hf : cfg.filter = none) (hk : cfg.preserve = []) (hs : FromSchemaParser cfg)
    (root root' : List Json) (hr : Rearranged (.arr root) (.arr root')) (hc : ∀ fs ∈ objects root, CleanKeys (.obj fs)) (st st' : FState)
    (h : flatten cfg root = .ok st) (h' : flatten cfg root' = .ok st') :
    SameLines st.main.lines st'.main.lines ∧ ∀ name, SameLines (subLines st name) (subLines st' name) := by
  obtain ⟨h1, h2⟩ := C23_one_line_per_object cfg hp hf hk hs root st h
  obtain ⟨h3, h4⟩ := C23_one_line_per_object cfg hp hf hk hs root' st' h'
  constructor
  · rw [h1, h3]
    exact (objects_rearranged hr).map (fun fs hm gs hg => sameCells_root hg (hc fs hm))
  · intro name
    rw [h2, h4]
    refine ((docItems_rearranged hr hc).filter ?_).map ?_
    · intro a b hab; rw [hab.1]
    · intro i hi j hij
      exact sameCells_item hij (docItems_ok everything root hc i (List.mem_filter.1 hi).1)

/-- C76: and if one can be flattened, so can the other. -/
theorem C76_same_success (cfg : FCfg) (hp : Plain cfg) (root root' : List Json) (hr : Rearranged (.arr root) (.arr root'))
    (hfl : ∀ fs ∈ objects root, FlattenableFields fs) : ∃ st st', flatten cfg root = .ok st ∧ flatten cfg root' = .ok st' := by
  obtain ⟨st, h⟩ := C23_flatten_succeeds cfg hp root hfl
  obtain ⟨st', h'⟩ := C23_flatten_succeeds cfg hp root' (by
    intro gs hg
    obtain ⟨c, h1, h2⟩ := objects_rearranged hr
    obtain ⟨fs, h3, h4⟩ := all₂_mem_right h1 (h2.mem_iff.2 hg)
    exact flattenable_rearranged h4 (hfl fs h3))
  exact ⟨st, st', h, h'⟩

theorem sameLines_mem {ls ms : List FLine} (h : SameLines ls ms) {m : FLine} (hm : m ∈ ms) : ∃ l ∈ ls, SameCells l m := by
  obtain ⟨c, h1, h2⟩ := h
  exact all₂_mem_right h1 (h2.mem_iff.2 hm)

theorem sameCells_symm {l m : FLine} (h : SameCells l m) : SameCells m l := by
  intro k
  rcases h k with ⟨h1, h2⟩ | ⟨v, w, h1, h2, h3⟩
  · exact .inl ⟨h2, h1⟩
  · exact .inr ⟨w, v, h2, h1, rearranged_symm h3⟩

theorem sameLines_symm {ls ms : List FLine} (h : SameLines ls ms) : SameLines ms ls := by
  obtain ⟨c, h1, h2⟩ := h
  obtain ⟨d, h3, h4⟩ := all₂_perm h2 (all₂_flip h1)
  exact ⟨d, All₂.imp h4 (fun _ _ h => sameCells_symm h), h3.symm⟩

theorem sameLines_nil {ls ms : List FLine} (h : SameLines ls ms) : ls = [] ↔ ms = [] := by
  obtain ⟨c, h1, h2⟩ := h
  constructor
  · rintro rfl; cases h1; exact List.nil_perm.1 h2
  · rintro rfl
    have := List.perm_nil.1 h2
    subst this
    cases h1; rfl

/-- C76: and the same sub-sheets. -/
theorem C76_same_sheets (cfg : FCfg) (hp : Plain cfg) (hf : cfg.filter = none) (hk : cfg.preserve = []) (hs : FromSchemaParser cfg)
    (root root' : List Json) (hr : Rearranged (.arr root) (.arr root')) (hc : ∀ fs ∈ objects root, CleanKeys (.obj fs)) (st st' : FState)
    (h : flatten cfg root = .ok st) (h' : flatten cfg root' = .ok st') (name : Str) : name ∈ Dict.keys st.subs ↔ name ∈ Dict.keys st'.subs := by
  have hl := (C76_same_lines cfg hp hf hk hs root root' hr hc st st' h h').2 name
  have harr : ∀ {l m : List Json}, Rearranged (.arr l) (.arr m) → (∃ fs a, .obj fs ∈ l ∧ HasArray [] fs a ∧ sheetOf cfg a = name) →
      ∃ fs a, .obj fs ∈ m ∧ HasArray [] fs a ∧ sheetOf cfg a = name := by
    rintro l m hlm ⟨fs, a, h1, h2, h3⟩
    obtain ⟨c, h4, h5⟩ := objects_rearranged hlm
    obtain ⟨gs, h6, h7⟩ := all₂_mem_right (all₂_flip h4) (mem_objects_iff.2 h1)
    exact ⟨gs, a, mem_objects_iff.1 (h5.mem_iff.1 h6), hasArray_rearranged h2 h7, h3⟩
  have harr' : (∃ fs a, .obj fs ∈ root ∧ HasArray [] fs a ∧ sheetOf cfg a = name) ↔ ∃ fs a, .obj fs ∈ root' ∧ HasArray [] fs a ∧ sheetOf cfg a = name :=
    ⟨harr hr, harr (rearranged_symm hr)⟩
  cases he : cfg.removeEmpty with
  | false =>
    obtain ⟨h1, h2⟩ := C57_sub_sheets cfg hp.wkt hp.xml hf hk root st h name
    obtain ⟨h3, h4⟩ := C57_sub_sheets cfg hp.wkt hp.xml hf hk root' st' h' name
    rw [harr'] at h1 h2
    exact ⟨fun hm => h4 he (h1 hm), fun hm => h2 he (h3 hm)⟩
  | true =>
    rw [C57_sub_sheets_without_empty cfg hp.wkt hp.xml hf hk hs he root st h name, C57_sub_sheets_without_empty cfg hp.wkt hp.xml hf hk hs he root' st' h' name,
      harr', ne_eq, ne_eq, sameLines_nil hl]

/-- C76: and the same columns on each sheet. -/
theorem C76_same_columns (cfg : FCfg) (hp : Plain cfg) (hf : cfg.filter = none) (hk : cfg.preserve = []) (hs : FromSchemaParser cfg)
    (root root' : List Json) (hr : Rearranged (.arr root) (.arr root')) (hc : ∀ x ∈ root, CleanKeys x)
    (hi : ∀ j ∈ root, PlainIds (idOpts cfg) true j) (st st' : FState)
    (h : flatten cfg root = .ok st) (h' : flatten cfg root' = .ok st') (name : Option Str) (s s' : Sheet) (hn : sheetNamed st name = some s)
    (hn' : sheetNamed st' name = some s') (heading : Str) : heading ∈ s.headings ↔ heading ∈ s'.headings := by
  have hi' : ∀ j ∈ root', PlainIds (idOpts cfg) true j := by
    intro j hj
    cases hr with
    | arr hl hp ho =>
      obtain ⟨x, h1, h2⟩ := all₂_mem_right (items_all hl) (hp.mem_iff.2 hj)
      exact plainIds_rearranged h2 (hc x h1) (hi x h1)
  have hl := C76_same_lines cfg hp hf hk hs root root' hr (fun fs hm => hc _ (mem_objects_iff.1 hm)) st st' h h'
  have hlines : SameLines s.lines s'.lines := by
    cases name with
    | none => cases hn; cases hn'; exact hl.1
    | some n =>
      have := hl.2 n
      simp only [sheetNamed] at hn hn'
      simp only [subLines, hn, hn', Option.getD_some] at this
      exact this
  have key : ∀ {root st s ls'}, (∀ j ∈ root, PlainIds (idOpts cfg) true j) → flatten cfg root = .ok st → sheetNamed st name = some s → SameLines ls' s.lines →
      heading ∈ s.headings → heading ∈ templateColumns cfg name ∨ ∃ line ∈ ls', heading ∈ Dict.keys line := by
    intro root st s ls' hi h hn hsl hm
    rcases C57_no_empty_columns_added cfg hp hk hs root hi st h name s hn heading hm with h1 | ⟨m, h1, h2⟩
    · exact .inl h1
    · obtain ⟨l, h3, h4⟩ := sameLines_mem hsl h1
      refine .inr ⟨l, h3, ?_⟩
      rcases h4 heading with ⟨-, h5⟩ | ⟨v, w, h5, -, -⟩
      · exact absurd h2 ((Dict.get_none_iff ..).1 h5)
      · exact Dict.mem_keys_of_mem (Dict.get_eq_some_mem h5)
  have back : ∀ {root st s}, flatten cfg root = .ok st → sheetNamed st name = some s →
      (heading ∈ templateColumns cfg name ∨ ∃ line ∈ s.lines, heading ∈ Dict.keys line) → heading ∈ s.headings := by
    intro root st s h hn hm
    rcases hm with h1 | ⟨l, h1, h2⟩
    · exact (C57_schema_columns_first cfg hs root st h name s hn).subset h1
    · refine (C25_every_value_has_a_column cfg hs root st h s ?_).1 l h1 heading h2
      cases name with
      | none => cases hn; exact List.mem_cons_self
      | some n => exact List.mem_cons_of_mem _ (List.mem_map.2 ⟨(n, s), Dict.get_eq_some_mem hn, rfl⟩)
  exact ⟨fun hm => back h' hn' (key hi h hn (sameLines_symm hlines) hm), fun hm => back h hn (key hi' h' hn' hlines hm)⟩

/-- C76: all at once: documents that are the same up to the order of fields and of objects have the same sheets, columns and lines. -/
theorem C76_order_does_not_matter (cfg : FCfg) (hp : Plain cfg) (hf : cfg.filter = none) (hk : cfg.preserve = []) (hs : FromSchemaParser cfg)
    (root root' : List Json) (hr : Rearranged (.arr root) (.arr root')) (hc : ∀ x ∈ root, CleanKeys x)
    (hi : ∀ j ∈ root, PlainIds (idOpts cfg) true j) (hfl : ∀ fs ∈ objects root, FlattenableFields fs) :
    ∃ st st', flatten cfg root = .ok st ∧ flatten cfg root' = .ok st' ∧ SameUpToOrder st st' := by
  obtain ⟨st, st', h, h'⟩ := C76_same_success cfg hp root root' hr hfl
  have hc' : ∀ fs ∈ objects root, CleanKeys (.obj fs) := fun fs hm => hc _ (mem_objects_iff.1 hm)
  have hl := C76_same_lines cfg hp hf hk hs root root' hr hc' st st' h h'
  refine ⟨st, st', h, h', C76_same_sheets cfg hp hf hk hs root root' hr hc' st st' h h',
    C76_same_columns cfg hp hf hk hs root root' hr hc hi st st' h h', ?_⟩
  intro name s s' hn hn'
  cases name with
  | none => cases hn; cases hn'; exact hl.1
  | some n =>
    have := hl.2 n
    simp only [sheetNamed] at hn hn'
    simpa only [subLines, hn, hn', Option.getD_some] using this

/-! ### Flattening what a flattened document was read back as -/

theorem clean_root {T : Trip} {root : List Json} (h : T.FitsRoot root) : ∀ j ∈ root, CleanKeys j := by
  intro j hj
  obtain ⟨fs, rfl, ho, -, hf, hr⟩ := h.each j hj
  exact (clean_fits (.obj fs) []).2 fs rfl ho hf

/-- The documents that survive can be flattened again, with the same sheets. -/
theorem flatten_rearranged_again {T : Trip} {fcfg : FCfg} (hp : Plain fcfg) (hf : fcfg.filter = none) (hk : fcfg.preserve = [])
    (hs : FromSchemaParser fcfg) (hid : fcfg.idName = T.idName) (hrid : fcfg.rootId = T.rootId) {root out : List Json} (hfit : T.FitsRoot root)
    (hr : Rearranged (.arr root) (.arr out)) {st : FState} (h : flatten fcfg root = .ok st) : ∃ st', flatten fcfg out = .ok st' ∧ SameUpToOrder st st' := by
  have hopt : idOpts fcfg = ⟨T.idName, T.rootId⟩ := by simp [idOpts, hid, hrid]
  obtain ⟨st0, st', h0, h1, h2⟩ := C76_order_does_not_matter fcfg hp hf hk hs root out hr (clean_root hfit) (by rw [hopt]; exact plain_root hfit) (by
    intro fs hm
    exact (flattenable_fits (T := T) (.obj fs) []).2 fs rfl (fitsRoot_mem hfit hm).2.2.1)
  rw [h] at h0
  cases h0
  exact ⟨st', h1, h2⟩

/-- C76: flattening, reading the lines back and flattening again gives the same sheets as flattening once. -/
theorem C76_flatten_again (T : Trip) (fcfg : FCfg) (ucfg : UnCfg) (hp : Plain fcfg) (hf : fcfg.filter = none) (hk : fcfg.preserve = [])
    (hs : FromSchemaParser fcfg) (hid : fcfg.idName = T.idName) (hrid : fcfg.rootId = T.rootId) (hr : T.Reads ucfg)
    (root : List Json) (hfit : T.FitsRoot root) :
    ∃ st, flatten fcfg root = .ok st ∧
      ∀ (lines : List FLine) (sheets : List SheetIn), lines.Perm ((sheetsOf st).flatMap (·.lines)) →
        All₂ T.ReadBack lines ((rowsIn sheets).map (·.line)) →
        ∃ out w st', unflatten ucfg sheets = .ok (out, w) ∧ flatten fcfg out = .ok st' ∧ SameUpToOrder st st' := by
  obtain ⟨st, h1, h2⟩ := C11_round_trip T fcfg ucfg hp hf hk hs hid hrid hr root hfit
  refine ⟨st, h1, fun lines sheets hl hb => ?_⟩
  obtain ⟨out, w, h3, h4⟩ := h2 lines sheets hl hb
  obtain ⟨st', h5, h6⟩ := flatten_rearranged_again hp hf hk hs hid hrid hfit h4 h1
  exact ⟨out, w, st', h3, h5, h6⟩

/-- C76: the same through CSV files. -/
theorem C76_flatten_again_csv (T : Trip) (fcfg : FCfg) (ucfg : UnCfg) (hp : Plain fcfg) (hf : fcfg.filter = none) (hk : fcfg.preserve = [])
    (hs : FromSchemaParser fcfg)
    (hh : ∀ sp, fcfg.schema = some sp → sp.main.headings.Nodup ∧ ∀ n s, (n, s) ∈ sp.subs → s.headings.Nodup)
    (hid : fcfg.idName = T.idName) (hrid : fcfg.rootId = T.rootId) (hr : T.Reads ucfg)
    (strOf : Json → Str) (hw : ∀ a, T.write a = .str (csvText strOf (some (.leaf a))))
    (root : List Json) (hfit : T.FitsRoot root) (hroot : ∀ rid, T.rootId = some rid → ∀ fs ∈ objects root, Dict.get fs rid ≠ none) :
    ∃ st, flatten fcfg root = .ok st ∧ ∀ (order : List Sheet), order.Perm (sheetsOf st) →
      (∀ s ∈ order, s.headings ≠ [] ∧ s.headings.head? ≠ some s%"#") → ∀ name : Sheet → Str,
      ∃ sheets, All₂ (fun s sh => ∃ g, csvGrid strOf s = .ok g ∧ csvSheet {} (name s) g = .ok sh) order sheets ∧
        ∃ out w st', unflatten ucfg sheets = .ok (out, w) ∧ flatten fcfg out = .ok st' ∧ SameUpToOrder st st' := by
  obtain ⟨st, h1, h2⟩ := C11_csv_round_trip T fcfg ucfg hp hf hk hs hh hid hrid hr strOf hw root hfit hroot
  refine ⟨st, h1, fun order ho hne name => ?_⟩
  obtain ⟨sheets, h3, out, w, h4, h5⟩ := h2 order ho hne name
  obtain ⟨st', h6, h7⟩ := flatten_rearranged_again hp hf hk hs hid hrid hfit h5 h1
  exact ⟨sheets, h3, out, w, st', h4, h6, h7⟩

/-- The document of C11: flattened, read from CSV files and flattened again. -/
example : ∃ st, flatten { rootId := some s%"ocid" } tripDoc = .ok st ∧ ∀ (order : List Sheet), order.Perm (sheetsOf st) →
    (∀ s ∈ order, s.headings ≠ [] ∧ s.headings.head? ≠ some s%"#") → ∀ name : Sheet → Str,
    ∃ sheets, All₂ (fun s sh => ∃ g, csvGrid (fun _ => []) s = .ok g ∧ csvSheet {} (name s) g = .ok sh) order sheets ∧
      ∃ out w st', unflatten { row := { types := tripT.types }, idName := some s%"id", rootId := some s%"ocid" } sheets = .ok (out, w) ∧
        flatten { rootId := some s%"ocid" } out = .ok st' ∧ SameUpToOrder st st' :=
  C76_flatten_again_csv tripT _ _ ⟨rfl, rfl, rfl, rfl⟩ rfl rfl (by intro sp h; cases h) (by intro sp h; cases h) rfl rfl ⟨rfl, rfl, rfl, rfl, rfl⟩ _
    (fun _ => rfl) tripDoc tripDoc_fits (by
      intro rid h fs hm
      cases h
      simp only [tripDoc, objects, List.mem_cons, List.not_mem_nil, or_false] at hm
      rcases hm with rfl | rfl <;> decide +kernel)

namespace RearrangeEx

/-- `[{"id": 1, "a": "x", "l": [{"id": 2}, {"b": true, "id": 3}]}]` -/
def one : List Json := [.obj [(s%"id", .leaf (.int 1)), (s%"a", .leaf (.str s%"x")),
  (s%"l", .arr [.obj [(s%"id", .leaf (.int 2))], .obj [(s%"b", .leaf (.bool true)), (s%"id", .leaf (.int 3))]])]]
/-- `[{"l": [{"id": 3, "b": true}, {"id": 2}], "id": 1, "a": "x"}]` -/
def two : List Json := [.obj [(s%"l", .arr [.obj [(s%"id", .leaf (.int 3)), (s%"b", .leaf (.bool true))], .obj [(s%"id", .leaf (.int 2))]]),
  (s%"id", .leaf (.int 1)), (s%"a", .leaf (.str s%"x"))]]

/-- They are the same up to order, and meet the hypotheses. -/
example : Rearranged (.arr one) (.arr two) ∧ (∀ x ∈ one, CleanKeys x) ∧ (∀ j ∈ one, PlainIds (idOpts {}) true j) ∧ (∀ fs ∈ objects one, FlattenableFields fs) := by
  refine ⟨?_, ?_, ?_, ?_⟩
  · refine .arr (.cons (.obj (hs := [(s%"id", .leaf (.int 1)), (s%"a", .leaf (.str s%"x")),
      (s%"l", .arr [.obj [(s%"id", .leaf (.int 3)), (s%"b", .leaf (.bool true))], .obj [(s%"id", .leaf (.int 2))]])])
      (.cons .leaf (.cons .leaf (.cons (.arr (hs := [.obj [(s%"id", .leaf (.int 2))], .obj [(s%"id", .leaf (.int 3)), (s%"b", .leaf (.bool true))]])
        (.cons (rearranged_refl _) (.cons (.obj (.cons .leaf (.cons .leaf .nil)) (List.Perm.swap _ _ _)) .nil)) (List.Perm.swap _ _ _)
        (.inl (by intro x hx; simp only [List.mem_cons, List.not_mem_nil, or_false] at hx; rcases hx with rfl | rfl <;> exact ⟨_, rfl⟩))) .nil)))
      ?_) .nil) (.refl _) (.inr rfl)
    exact (List.perm_append_comm (l₁ := [_, _]) (l₂ := [_]))
  · intro x hx
    simp only [one, List.mem_singleton] at hx
    subst hx
    simp only [CleanKeys, CleanFields, CleanList]
    decide
  · intro x hx
    simp only [one, List.mem_singleton] at hx
    subst hx
    simp [PlainIds, PlainIdsFields, PlainIdsItems, HasPlainIds, Dict.get, idOpts]
  · intro fs hx
    simp only [one, objects, List.mem_singleton] at hx
    subst hx
    simp only [FlattenableFields, Flattenable, FlattenableItems]
    exact ⟨rfl, rfl, .inr ⟨⟨rfl, trivial⟩, ⟨rfl, rfl, trivial⟩, trivial⟩, trivial⟩

/-- Sheets: name, headings, lines. -/
def show' (root : List Json) : Option (List Str × List FLine × List (Str × List Str × List FLine)) :=
  (flatten {} root).toOption.map (fun st => (st.main.headings, st.main.lines, st.subs.map (fun p => (p.1, p.2.headings, p.2.lines))))

set_option synthInstance.maxSize 2000 in
example : show' one = some ([s%"id", s%"a"], [[(s%"id", .leaf (.int 1)), (s%"a", .leaf (.str s%"x"))]],
    [(s%"l", [s%"id", s%"l/0/id", s%"l/0/b"], [[(s%"id", .leaf (.int 1)), (s%"l/0/id", .leaf (.int 2))],
      [(s%"id", .leaf (.int 1)), (s%"l/0/b", .leaf (.bool true)), (s%"l/0/id", .leaf (.int 3))]])]) := by decide +kernel
set_option synthInstance.maxSize 2000 in
example : show' two = some ([s%"id", s%"a"], [[(s%"id", .leaf (.int 1)), (s%"a", .leaf (.str s%"x"))]],
    [(s%"l", [s%"id", s%"l/0/id", s%"l/0/b"], [[(s%"id", .leaf (.int 1)), (s%"l/0/id", .leaf (.int 3)), (s%"l/0/b", .leaf (.bool true))],
      [(s%"id", .leaf (.int 1)), (s%"l/0/id", .leaf (.int 2))]])]) := by decide +kernel

end RearrangeEx

end Verif

import Verif.Spec.Rearrange
import Verif.Proofs.FlatItems
import Verif.Proofs.TripBack
import Verif.Proofs.XmlDoc
/-! Flattening documents that are the same up to the order of fields and objects. -/
namespace Verif
open Spec

/-! ### Relations up to order -/

/-- Related one by one, after a permutation. -/
def PermRel {α β : Type} (R : α → β → Prop) (a : List α) (b : List β) : Prop := ∃ c, All₂ R a c ∧ c.Perm b

theorem PermRel.append {α β : Type} {R : α → β → Prop} {a c : List α} {b d : List β} (h : PermRel R a b) (h' : PermRel R c d) : PermRel R (a ++ c) (b ++ d) := by
  obtain ⟨x, h1, h2⟩ := h
  obtain ⟨y, h3, h4⟩ := h'
  exact ⟨x ++ y, All₂.append h1 h3, h2.append h4⟩

theorem PermRel.trans_perm {α β : Type} {R : α → β → Prop} {a : List α} {b c : List β} (h : PermRel R a b) (h' : b.Perm c) : PermRel R a c := by
  obtain ⟨x, h1, h2⟩ := h
  exact ⟨x, h1, h2.trans h'⟩

theorem PermRel.of_all {α β : Type} {R : α → β → Prop} {a : List α} {b : List β} (h : All₂ R a b) : PermRel R a b := ⟨b, h, .refl _⟩

theorem all₂_flip {α β : Type} {R : α → β → Prop} {a : List α} {b : List β} (h : All₂ R a b) : All₂ (fun y x => R x y) b a := by
  induction h with
  | nil => exact .nil
  | cons h _ ih => exact .cons h ih

/-! ### Rearranged data -/

theorem fields_all {fs gs : List (Str × Json)} (h : RearrangedFields fs gs) : All₂ (fun e e' => e.1 = e'.1 ∧ Rearranged e.2 e'.2) fs gs := by
  match fs, gs, h with
  | _, _, .nil => exact .nil
  | _, _, .cons h hr => exact .cons ⟨rfl, h⟩ (fields_all hr)

theorem all_fields {fs gs : List (Str × Json)} (h : All₂ (fun e e' => e.1 = e'.1 ∧ Rearranged e.2 e'.2) fs gs) : RearrangedFields fs gs := by
  induction h with
  | nil => exact .nil
  | @cons a b _ _ h _ ih =>
    obtain ⟨k, v⟩ := a
    obtain ⟨k', v'⟩ := b
    obtain ⟨h1, h2⟩ := h
    simp only at h1
    subst h1
    exact .cons h2 ih

theorem items_all {l m : List Json} (h : RearrangedItems l m) : All₂ Rearranged l m := by
  match l, m, h with
  | _, _, .nil => exact .nil
  | _, _, .cons h hr => exact .cons h (items_all hr)

theorem all_items {l m : List Json} (h : All₂ Rearranged l m) : RearrangedItems l m := by
  induction h with
  | nil => exact .nil
  | cons h _ ih => exact .cons h ih

theorem objects_all {l m : List Json} (h : RearrangedItems l m) (ho : ∀ x ∈ l, ∃ gs, x = .obj gs) : ∀ x ∈ m, ∃ gs, x = .obj gs := by
  intro x hx
  obtain ⟨y, hy, hr⟩ := all₂_mem_right (items_all h) hx
  obtain ⟨gs, rfl⟩ := ho y hy
  cases hr
  exact ⟨_, rfl⟩

mutual
theorem rearranged_symm : {x y : Json} → Rearranged x y → Rearranged y x
  | _, _, .leaf => .leaf
  | _, _, .obj h hp => by
    obtain ⟨m, h1, h2⟩ := all₂_perm hp (fields_all (rearrangedF_symm h))
    exact .obj (all_fields h2) h1.symm
  | _, _, .arr h hp ho => by
    rcases ho with ho | rfl
    · obtain ⟨m, h1, h2⟩ := all₂_perm hp (items_all (rearrangedI_symm h))
      exact .arr (all_items h2) h1.symm (.inl (fun x hx => objects_all h ho x (hp.mem_iff.2 hx)))
    · exact .arr (rearrangedI_symm h) (.refl _) (.inr rfl)
theorem rearrangedF_symm : {x y : List (Str × Json)} → RearrangedFields x y → RearrangedFields y x
  | _, _, .nil => .nil
  | _, _, .cons h hr => .cons (rearranged_symm h) (rearrangedF_symm hr)
theorem rearrangedI_symm : {x y : List Json} → RearrangedItems x y → RearrangedItems y x
  | _, _, .nil => .nil
  | _, _, .cons h hr => .cons (rearranged_symm h) (rearrangedI_symm hr)
end

theorem mapM_all_none {α β : Type} {f : α → Option β} {l : List α} (hne : l ≠ []) (h : ∀ x ∈ l, f x = none) : l.mapM f = none := by
  cases l with
  | nil => exact absurd rfl hne
  | cons a r => rw [List.mapM_cons, h a (by simp)]; rfl

theorem mapM_congr₂ {α β : Type} {f : α → Option β} {l m : List α} (h : All₂ (fun x y => f x = f y) l m) : l.mapM f = m.mapM f := by
  induction h with
  | nil => rfl
  | cons h _ ih => rw [List.mapM_cons, List.mapM_cons, h, ih]

/-- Joining is not affected by the order of objects. -/
theorem mapM_rearranged {β : Type} {f : Json → Option β} (hobj : ∀ fs, f (.obj fs) = none) (heq : ∀ x y, Rearranged x y → f x = f y) {l m : List Json}
    (h : Rearranged (.arr l) (.arr m)) : l.mapM f = m.mapM f := by
  cases h with
  | @arr _ _ hs h hp ho =>
    rcases ho with ho | rfl
    · cases l with
      | nil =>
        cases h
        rw [List.nil_perm.1 hp]
      | cons x r =>
        have hm := objects_all h ho
        rw [mapM_all_none (by simp) (fun x hx => by obtain ⟨gs, rfl⟩ := ho x hx; exact hobj gs)]
        rw [mapM_all_none]
        · intro e
          subst e
          have := List.perm_nil.1 hp
          subst this
          cases h
        · intro y hy
          obtain ⟨gs, rfl⟩ := hm y (hp.mem_iff.2 hy)
          exact hobj gs
    · exact mapM_congr₂ (All₂.imp (items_all h) heq)

theorem basicStr_rearranged {x y : Json} (h : Rearranged x y) : basicStr x = basicStr y := by
  cases h <;> rfl

theorem innerJoin_rearranged {x y : Json} (h : Rearranged x y) : innerJoin x = innerJoin y := by
  cases x with
  | leaf a => cases h; rfl
  | obj fs => cases h; rfl
  | arr l =>
    cases y with
    | arr m =>
      simp only [innerJoin]
      rw [mapM_rearranged (fun _ => rfl) (fun _ _ => basicStr_rearranged) h]
    | leaf a => cases h
    | obj fs => cases h

theorem joinArray_rearranged {l m : List Json} (h : Rearranged (.arr l) (.arr m)) : joinArray l = joinArray m := by
  unfold joinArray
  rw [mapM_rearranged (fun _ => rfl) (fun _ _ => basicStr_rearranged) h, mapM_rearranged (fun _ => rfl) (fun _ _ => innerJoin_rearranged) h]

/-- Fields that are the same, up to order. -/
def SameFields (fs gs : List (Str × Json)) : Prop := Rearranged (.obj fs) (.obj gs)

theorem SameFields.symm {fs gs : List (Str × Json)} (h : SameFields fs gs) : SameFields gs fs := rearranged_symm h

theorem SameFields.mem {fs gs : List (Str × Json)} (h : SameFields fs gs) {k : Str} {v : Json} (hm : (k, v) ∈ fs) : ∃ w, (k, w) ∈ gs ∧ Rearranged v w := by
  cases h with
  | obj h hp =>
    obtain ⟨⟨k', w⟩, h1, h2, h3⟩ := all₂_mem_right (R := fun (e' e : Str × Json) => e.1 = e'.1 ∧ Rearranged e.2 e'.2) (all₂_flip (fields_all h)) hm
    simp only at h2 h3
    subst h2
    exact ⟨w, hp.mem_iff.1 h1, h3⟩

theorem SameFields.keys {fs gs : List (Str × Json)} (h : SameFields fs gs) : (Dict.keys fs).Perm (Dict.keys gs) := by
  cases h with
  | obj h hp =>
    have := all₂_keys (fields_all h)
    exact (List.Perm.of_eq this.symm).trans (hp.map _)

theorem SameFields.get {fs gs : List (Str × Json)} (h : SameFields fs gs) (hn : (Dict.keys fs).Nodup) (k : Str) :
    (Dict.get fs k = none ∧ Dict.get gs k = none) ∨ ∃ v w, Dict.get fs k = some v ∧ Dict.get gs k = some w ∧ Rearranged v w := by
  cases hg : Dict.get fs k with
  | none =>
    left
    refine ⟨rfl, ?_⟩
    rw [Dict.get_none_iff] at hg ⊢
    intro hm
    exact hg (h.keys.mem_iff.2 hm)
  | some v =>
    right
    obtain ⟨w, h1, h2⟩ := h.mem (Dict.get_eq_some_mem hg)
    exact ⟨v, w, rfl, Dict.get_of_mem (h.keys.nodup_iff.1 hn) h1, h2⟩

/-- The cells of an object do not depend on the order of fields. -/
theorem hasCell_rearranged {keep : List Str → Str → Bool} {p q : List Str} {fs gs : List (Str × Json)} {v : Json} (hc : HasCell keep p fs q v) (h : SameFields fs gs) :
    HasCell keep p gs q v := by
  induction hc generalizing gs with
  | scalar hm hk =>
    obtain ⟨w, h1, h2⟩ := h.mem hm
    cases h2
    exact .scalar h1 hk
  | list hm hk hj =>
    obtain ⟨w, h1, h2⟩ := h.mem hm
    cases w with
    | arr m => exact .list h1 hk (by rw [← joinArray_rearranged h2]; exact hj)
    | leaf a => cases h2
    | obj f => cases h2
  | deep hm hk _ ih =>
    obtain ⟨w, h1, h2⟩ := h.mem hm
    cases w with
    | obj f => exact .deep h1 hk (ih h2)
    | leaf a => cases h2
    | arr f => cases h2

/-! ### Clean keys -/

mutual
theorem clean_rearranged : {x y : Json} → Rearranged x y → CleanKeys x → CleanKeys y
  | _, _, .leaf, h => h
  | .obj fs, .obj gs, .obj hf hp, h => by
    rw [CleanKeys] at h ⊢
    have hk := SameFields.keys (.obj hf hp)
    refine ⟨hk.nodup_iff.1 h.1, fun k hm => h.2.1 k (hk.mem_iff.2 hm), ?_⟩
    have := cleanF_rearranged hf h.2.2
    clear h hk hf
    induction hp with
    | nil => exact this
    | cons x _ ih => obtain ⟨k, v⟩ := x; rw [CleanFields] at this ⊢; exact ⟨this.1, ih this.2⟩
    | swap x y l =>
      obtain ⟨k, v⟩ := x; obtain ⟨k', v'⟩ := y
      simp only [CleanFields] at this ⊢
      exact ⟨this.2.1, this.1, this.2.2⟩
    | trans _ _ ih1 ih2 => exact ih2 (ih1 this)
  | .arr l, .arr m, .arr hi hp _, h => by
    rw [CleanKeys] at h ⊢
    have := cleanI_rearranged hi h
    clear h hi
    rename_i ho
    clear ho
    induction hp with
    | nil => exact this
    | cons x _ ih => rw [CleanList] at this ⊢; exact ⟨this.1, ih this.2⟩
    | swap x y l =>
      simp only [CleanList] at this ⊢
      exact ⟨this.2.1, this.1, this.2.2⟩
    | trans _ _ ih1 ih2 => exact ih2 (ih1 this)
theorem cleanF_rearranged : {x y : List (Str × Json)} → RearrangedFields x y → CleanFields x → CleanFields y
  | _, _, .nil, h => h
  | _, _, .cons hv hr, h => by rw [CleanFields] at h ⊢; exact ⟨clean_rearranged hv h.1, cleanF_rearranged hr h.2⟩
theorem cleanI_rearranged : {x y : List Json} → RearrangedItems x y → CleanList x → CleanList y
  | _, _, .nil, h => h
  | _, _, .cons hv hr, h => by rw [CleanList] at h ⊢; exact ⟨clean_rearranged hv h.1, cleanI_rearranged hr h.2⟩
end

/-! ### Ids -/

/-- The same object at the same place. -/
def SameAround (a b : List Str × List (Str × Json)) : Prop := a.1 = b.1 ∧ SameFields a.2 b.2 ∧ (Dict.keys a.2).Nodup

theorem sameCells_addId {path name : Str} {fs gs : List (Str × Json)} {ids ids' : List (Str × Json)} (h : SameFields fs gs) (hn : (Dict.keys fs).Nodup)
    (hi : SameCells ids ids') : SameCells (Spec.addId path name fs ids) (Spec.addId path name gs ids') := by
  intro k
  rw [get_addId, get_addId]
  split
  · rcases h.get hn name with ⟨h1, h2⟩ | ⟨v, w, h1, h2, h3⟩
    · rw [h1, h2]; exact hi k
    · rw [h1, h2]; exact .inr ⟨v, w, rfl, rfl, h3⟩
  · exact hi k

theorem sameCells_idsOf {o : IdOpts} {ar ar' : List (List Str × List (Str × Json))} (h : All₂ SameAround ar ar') : SameCells (idsOf o ar) (idsOf o ar') := by
  have : ∀ ids ids', SameCells ids ids' →
      SameCells (ar.foldl (fun ids a => idsBelow o a.1 a.2 ids) ids) (ar'.foldl (fun ids a => idsBelow o a.1 a.2 ids) ids') := by
    induction h with
    | nil => exact fun _ _ h => h
    | @cons a b _ _ h _ ih =>
      intro ids ids' hi
      rw [List.foldl_cons, List.foldl_cons]
      apply ih
      obtain ⟨h1, h2, h3⟩ := h
      unfold idsBelow
      rw [h1]
      apply sameCells_addId h2 h3
      cases o.rootId with
      | none => exact hi
      | some rid => exact sameCells_addId h2 h3 hi
  exact this [] [] (fun _ => .inl ⟨rfl, rfl⟩)

/-! ### The objects in arrays -/

/-- The same object in an array. -/
def SameItem (i j : Item) : Prop := i.array = j.array ∧ All₂ SameAround i.around j.around ∧ SameFields i.fields j.fields

theorem items_flatMap (keep : List Str → Str → Bool) (p : List Str) (ar : List (List Str × List (Str × Json))) (fs : List (Str × Json)) :
    items keep p ar fs = fs.flatMap (fun e => if keep p e.1 then valueItems keep (p ++ [e.1]) ar e.2 else []) := by
  induction fs with
  | nil => rfl
  | cons e r ih => obtain ⟨k, v⟩ := e; rw [items, ih]; rfl

theorem arrayItems_flatMap (keep : List Str → Str → Bool) (p : List Str) (ar : List (List Str × List (Str × Json))) (l : List Json) :
    arrayItems keep p ar l = l.flatMap (fun x => arrayItems keep p ar [x]) := by
  induction l with
  | nil => rfl
  | cons x r ih => cases x <;> simp [arrayItems, ih]

mutual
theorem valueItems_rearranged (keep : List Str → Str → Bool) (p : List Str) {ar ar' : List (List Str × List (Str × Json))} (ha : All₂ SameAround ar ar') :
    {x y : Json} → Rearranged x y → CleanKeys x → PermRel SameItem (valueItems keep p ar x) (valueItems keep p ar' y)
  | _, _, .leaf, _ => .of_all .nil
  | .obj fs, .obj gs, .obj (hs := hs) hf hp, h => by
    rw [CleanKeys] at h
    have hs : SameFields fs gs := .obj hf hp
    have := fieldItems_rearranged keep p (All₂.append ha (.cons (⟨rfl, hs, h.1⟩ : SameAround (p, fs) (p, gs)) .nil)) hf h.2.2
    rw [valueItems, valueItems]
    refine this.trans_perm ?_
    rw [items_flatMap, items_flatMap]
    exact hp.flatMap_right _
  | .arr l, .arr m, .arr (hs := hs) hi hp ho, h => by
    rw [CleanKeys] at h
    have hj := joinArray_rearranged (.arr hi hp ho)
    rw [valueItems, valueItems, ← hj]
    cases joinArray l with
    | some t => exact .of_all .nil
    | none =>
      refine (arrayItems_rearranged keep p ha hi h).trans_perm ?_
      show (arrayItems keep p ar' hs).Perm (arrayItems keep p ar' m)
      rw [arrayItems_flatMap keep p ar' hs, arrayItems_flatMap keep p ar' m]
      exact hp.flatMap_right _
theorem fieldItems_rearranged (keep : List Str → Str → Bool) (p : List Str) {ar ar' : List (List Str × List (Str × Json))} (ha : All₂ SameAround ar ar') :
    {x y : List (Str × Json)} → RearrangedFields x y → CleanFields x → PermRel SameItem (items keep p ar x) (items keep p ar' y)
  | _, _, .nil, _ => .of_all .nil
  | (k, v) :: r, (_, w) :: s, .cons hv hr, h => by
    rw [CleanFields] at h
    rw [items, items]
    refine .append ?_ (fieldItems_rearranged keep p ha hr h.2)
    split
    · exact valueItems_rearranged keep _ ha hv h.1
    · exact .of_all .nil
theorem arrayItems_rearranged (keep : List Str → Str → Bool) (p : List Str) {ar ar' : List (List Str × List (Str × Json))} (ha : All₂ SameAround ar ar') :
    {x y : List Json} → RearrangedItems x y → CleanList x → PermRel SameItem (arrayItems keep p ar x) (arrayItems keep p ar' y)
  | _, _, .nil, _ => .of_all .nil
  | .leaf a :: r, _ :: s, .cons (.leaf) hr, h => by
    rw [CleanList] at h
    rw [arrayItems, arrayItems]
    exact arrayItems_rearranged keep p ha hr h.2
  | .arr a :: r, .arr b :: s, .cons (.arr _ _ _) hr, h => by
    rw [CleanList] at h
    rw [arrayItems, arrayItems]
    exact arrayItems_rearranged keep p ha hr h.2
  | .obj fs :: r, .obj gs :: s, .cons (.obj hf hp) hr, h => by
    rw [CleanList, CleanKeys] at h
    have hs : SameFields fs gs := .obj hf hp
    have := fieldItems_rearranged keep (p ++ [s%"0"]) (All₂.append ha (.cons (⟨rfl, hs, h.1.1⟩ : SameAround (p ++ [s%"0"], fs) (p ++ [s%"0"], gs)) .nil)) hf h.1.2.2
    rw [arrayItems, arrayItems]
    refine .append (this.trans_perm ?_) ?_
    · rw [items_flatMap, items_flatMap]
      exact hp.flatMap_right _
    · obtain ⟨c, h1, h2⟩ := arrayItems_rearranged keep p ha hr h.2
      exact ⟨⟨p, ar', gs⟩ :: c, .cons ⟨rfl, ha, hs⟩ h1, h2.cons _⟩
end

theorem items_rearranged (keep : List Str → Str → Bool) {fs gs : List (Str × Json)} (h : SameFields fs gs) (hc : CleanKeys (.obj fs)) :
    PermRel SameItem (items keep [] [([], fs)] fs) (items keep [] [([], gs)] gs) := by
  have := valueItems_rearranged keep [] .nil h hc
  rwa [valueItems, valueItems] at this

/-! ### Lines -/

theorem sameCells_update {keep : List Str → Str → Bool} {p : List Str} {fs gs : List (Str × Json)} {d e : FLine} (h : SameFields fs gs)
    (hc : CleanKeys (.obj fs)) (hp : ∀ x ∈ p, '/' ∉ x) (hd : SameCells d e) :
    SameCells (Dict.update d (cellEntries (cells keep p fs))) (Dict.update e (cellEntries (cells keep p gs))) := by
  intro k
  by_cases hk : ∃ q v, HasCell keep p fs q v ∧ k = pathText q
  · obtain ⟨q, v, h1, rfl⟩ := hk
    right
    exact ⟨v, v, entries_complete _ hc hp h1, entries_complete _ (clean_rearranged h hc) hp (hasCell_rearranged h1 h), rearranged_refl v⟩
  · have hno : ∀ {gs}, SameFields gs fs → k ∉ Dict.keys (cellEntries (cells keep p gs)) := by
      intro gs h hm
      simp only [Dict.keys, List.mem_map] at hm
      obtain ⟨⟨k', v⟩, hm, he⟩ := hm
      simp only at he
      subst he
      obtain ⟨q, h1, h2⟩ := mem_cellEntries.1 hm
      exact hk ⟨q, v, hasCell_rearranged ((mem_cells _ _ _ _ _).1 h1) h, h2.symm⟩
    rw [get_update_of_not (hno (rearranged_refl _)), get_update_of_not (hno h.symm)]
    exact hd k

theorem sameCells_item {o : IdOpts} {keep : List Str → Str → Bool} {i j : Item} (h : SameItem i j) (hi : ItemOK i) : SameCells (i.line o keep) (j.line o keep) := by
  obtain ⟨h1, h2, h3⟩ := h
  rw [item_line_eq, item_line_eq, ← h1]
  apply sameCells_update h3 hi.fields (clean_snoc hi.array (by decide))
  intro k
  rw [get_update_nil (nodup_idsOf _ _), get_update_nil (nodup_idsOf _ _)]
  exact sameCells_idsOf h2 k

theorem sameCells_root {keep : List Str → Str → Bool} {fs gs : List (Str × Json)} (h : SameFields fs gs) (hc : CleanKeys (.obj fs)) :
    SameCells (toLine (cells keep [] fs)) (toLine (cells keep [] gs)) :=
  sameCells_update (d := []) (e := []) h hc (by simp) (fun _ => .inl ⟨rfl, rfl⟩)

end Verif

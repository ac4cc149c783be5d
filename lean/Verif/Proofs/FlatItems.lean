import Verif.Proofs.FlatCells
/-! What the specification says of items: the objects around them. -/
namespace Verif
open Spec

/-- The objects around an object at path `p`: their paths are shorter and shorter, without slashes. -/
structure AroundOK (n : Nat) (around : List (List Str × List (Str × Json))) : Prop where
  short : ∀ a ∈ around, a.1.length < n
  incr : around.Pairwise (fun a b => a.1.length < b.1.length)
  clean : ∀ a ∈ around, ∀ x ∈ a.1, '/' ∉ x

theorem AroundOK.snoc {n m : Nat} {around : List (List Str × List (Str × Json))} (h : AroundOK n around) (p : List Str)
    (fs : List (Str × Json)) (hp : n ≤ p.length) (hm : p.length < m) (hc : ∀ x ∈ p, '/' ∉ x) : AroundOK m (around ++ [(p, fs)]) := by
  constructor
  · intro a ha
    rcases List.mem_append.1 ha with ha | ha
    · have := h.short a ha; omega
    · simp only [List.mem_singleton] at ha; subst ha; exact hm
  · rw [List.pairwise_append]
    refine ⟨h.incr, by simp, ?_⟩
    intro a ha b hb
    simp only [List.mem_singleton] at hb; subst hb
    have := h.short a ha
    show a.1.length < p.length
    omega
  · intro a ha
    rcases List.mem_append.1 ha with ha | ha
    · exact h.clean a ha
    · simp only [List.mem_singleton] at ha; subst ha; exact hc

theorem AroundOK.mono {n m : Nat} {around : List (List Str × List (Str × Json))} (h : AroundOK n around) (hm : n ≤ m) :
    AroundOK m around := ⟨fun a ha => Nat.lt_of_lt_of_le (h.short a ha) hm, h.incr, h.clean⟩

/-- What holds for the items of clean documents. -/
structure ItemOK (i : Item) : Prop where
  around : AroundOK i.array.length i.around
  array : ∀ x ∈ i.array, '/' ∉ x
  fields : CleanKeys (.obj i.fields)

theorem clean_snoc {p : List Str} {k : Str} (hp : ∀ x ∈ p, '/' ∉ x) (hk : '/' ∉ k) : ∀ x ∈ p ++ [k], '/' ∉ x := by
  intro x hx
  rcases List.mem_append.1 hx with hx | hx
  · exact hp x hx
  · simp only [List.mem_singleton] at hx; subst hx; exact hk

mutual
theorem items_ok (keep : List Str → Str → Bool) (p : List Str) (ar : List (List Str × List (Str × Json)))
    (fs : List (Str × Json)) (ha : AroundOK (p.length + 1) ar) (hp : ∀ x ∈ p, '/' ∉ x)
    (hk : ∀ k ∈ Dict.keys fs, '/' ∉ k) (hc : CleanFields fs) : ∀ i ∈ items keep p ar fs, ItemOK i := by
  match fs with
  | [] => rw [items]; simp
  | (k, v) :: r =>
    rw [CleanFields] at hc
    have rec_ := items_ok keep p ar r ha hp (fun k h => hk k (by simp [Dict.keys] at h ⊢; exact Or.inr h)) hc.2
    have hk' := hk k (by simp [Dict.keys])
    have recv := valueItems_ok keep (p ++ [k]) ar v (by simpa using ha) (clean_snoc hp hk') hc.1
    rw [items]
    intro i hi
    rcases List.mem_append.1 hi with hi | hi
    · split at hi
      · exact recv i hi
      · simp at hi
    · exact rec_ i hi
termination_by structural fs
theorem valueItems_ok (keep : List Str → Str → Bool) (p : List Str) (ar : List (List Str × List (Str × Json)))
    (v : Json) (ha : AroundOK p.length ar) (hp : ∀ x ∈ p, '/' ∉ x) (hc : CleanKeys v) :
    ∀ i ∈ valueItems keep p ar v, ItemOK i := by
  match v with
  | .leaf _ => rw [valueItems]; simp
  | .obj fs =>
    rw [CleanKeys] at hc
    rw [valueItems]
    exact items_ok keep p _ fs (ha.snoc p fs (by omega) (by omega) hp) hp hc.2.1 hc.2.2
  | .arr l =>
    rw [CleanKeys] at hc
    rw [valueItems]
    have := arrayItems_ok keep p ar l ha hp hc
    cases joinArray l with
    | some t => simp
    | none => exact this
termination_by structural v
theorem arrayItems_ok (keep : List Str → Str → Bool) (p : List Str) (ar : List (List Str × List (Str × Json)))
    (l : List Json) (ha : AroundOK p.length ar) (hp : ∀ x ∈ p, '/' ∉ x) (hc : CleanList l) :
    ∀ i ∈ arrayItems keep p ar l, ItemOK i := by
  match l with
  | [] => rw [arrayItems]; simp
  | .leaf _ :: r =>
    rw [CleanList] at hc
    rw [arrayItems]; exact arrayItems_ok keep p ar r ha hp hc.2
  | .arr _ :: r =>
    rw [CleanList] at hc
    rw [arrayItems]; exact arrayItems_ok keep p ar r ha hp hc.2
  | .obj fs :: r =>
    rw [CleanList] at hc
    have rec_ := arrayItems_ok keep p ar r ha hp hc.2
    have hc1 := hc.1
    rw [CleanKeys] at hc1
    have h0 : ∀ x ∈ p ++ [s%"0"], '/' ∉ x := clean_snoc hp (by decide)
    have reci := items_ok keep (p ++ [s%"0"]) (ar ++ [(p ++ [s%"0"], fs)]) fs
      (ha.snoc _ fs (by simp) (by simp) h0) h0 hc1.2.1 hc1.2.2
    rw [arrayItems]
    intro i hi
    rcases List.mem_append.1 hi with hi | hi
    · exact reci i hi
    · rcases List.mem_cons.1 hi with hi | hi
      · subst hi; exact ⟨ha, hp, hc.1⟩
      · exact rec_ i hi
termination_by structural l
end

theorem docItems_ok (keep : List Str → Str → Bool) (root : List Json) (hc : ∀ fs ∈ objects root, CleanKeys (.obj fs)) :
    ∀ i ∈ docItems keep root, ItemOK i := by
  intro i hi
  simp only [docItems, List.mem_flatMap] at hi
  obtain ⟨fs, hfs, hi⟩ := hi
  have h := hc fs hfs
  rw [CleanKeys] at h
  refine items_ok keep [] [([], fs)] fs ⟨by simp, by simp, by simp⟩ (by simp) h.2.1 h.2.2 i hi

/-! ### Ids -/

theorem get_addId (path name : Str) (fs ids : List (Str × Json)) (h : Str) :
    Dict.get (Spec.addId path name fs ids) h =
      if h = path then (Dict.get fs name).or (Dict.get ids h) else Dict.get ids h := by
  unfold Spec.addId
  cases Dict.get fs name with
  | none => simp
  | some v =>
    simp only [Dict.get_set]
    by_cases hh : h = path
    · simp [hh]
    · simp [hh, Ne.symm hh]

theorem get_idsBelow_of_ne (o : IdOpts) (p : List Str) (fs ids : List (Str × Json)) (h : Str)
    (h1 : h ≠ pathText (p ++ [o.idName])) (h2 : o.rootId = some h → Dict.get fs h = none) :
    Dict.get (idsBelow o p fs ids) h = Dict.get ids h := by
  unfold idsBelow
  rw [get_addId, if_neg h1]
  cases hr : o.rootId with
  | none => rfl
  | some rid =>
    simp only [get_addId]
    split
    · next he => subst he; rw [h2 hr]; rfl
    · rfl

theorem get_foldl_ids (o : IdOpts) (around : List (List Str × List (Str × Json))) (h : Str) (ids : List (Str × Json))
    (h1 : ∀ a ∈ around, h ≠ pathText (a.1 ++ [o.idName])) (h2 : o.rootId = some h → ∀ a ∈ around, Dict.get a.2 h = none) :
    Dict.get (around.foldl (fun ids a => idsBelow o a.1 a.2 ids) ids) h = Dict.get ids h := by
  induction around generalizing ids with
  | nil => rfl
  | cons a r ih =>
    rw [List.foldl_cons, ih _ (fun b hb => h1 b (by simp [hb])) (fun hr b hb => h2 hr b (by simp [hb])),
      get_idsBelow_of_ne o a.1 a.2 ids h (h1 a (by simp)) (fun hr => h2 hr a (by simp))]

/-- The ids say what they should. -/
theorem get_idsOf_sound {o : IdOpts} {around : List (List Str × List (Str × Json))} {h : Str} {v : Json}
    (hg : Dict.get (idsOf o around) h = some v) : IsIdOf o around h v := by
  have key : ∀ (around : List (List Str × List (Str × Json))) (ids : List (Str × Json)),
      Dict.get (around.foldl (fun ids a => idsBelow o a.1 a.2 ids) ids) h = some v →
      IsIdOf o around h v ∨ Dict.get ids h = some v := by
    intro around
    induction around with
    | nil => intro ids h; exact Or.inr h
    | cons a r ih =>
      intro ids hg
      rw [List.foldl_cons] at hg
      rcases ih _ hg with ⟨p, fs, hm, h1⟩ | hg
      · exact Or.inl ⟨p, fs, by simp [hm], h1⟩
      · unfold idsBelow at hg
        rw [get_addId] at hg
        split at hg
        · next he =>
          cases hv : Dict.get a.2 o.idName with
          | some w =>
            rw [hv] at hg
            simp only [Option.some_or, Option.some.injEq] at hg
            subst hg
            exact Or.inl ⟨a.1, a.2, by simp, Or.inl ⟨he, hv⟩⟩
          | none =>
            rw [hv] at hg
            simp only [Option.none_or] at hg
            cases hr : o.rootId with
            | none => rw [hr] at hg; exact Or.inr hg
            | some rid =>
              rw [hr] at hg
              simp only [get_addId] at hg
              split at hg
              · next he' =>
                cases hv : Dict.get a.2 rid with
                | some w =>
                  rw [hv] at hg
                  simp only [Option.some_or, Option.some.injEq] at hg
                  subst hg
                  exact Or.inl ⟨a.1, a.2, by simp, Or.inr ⟨by rw [hr, he'], by rw [he', hv]⟩⟩
                | none => rw [hv] at hg; exact Or.inr hg
              · exact Or.inr hg
        · next he =>
          cases hr : o.rootId with
          | none => rw [hr] at hg; exact Or.inr hg
          | some rid =>
            rw [hr] at hg
            simp only [get_addId] at hg
            split at hg
            · next he' =>
              cases hv : Dict.get a.2 rid with
              | some w =>
                rw [hv] at hg
                simp only [Option.some_or, Option.some.injEq] at hg
                subst hg
                exact Or.inl ⟨a.1, a.2, by simp, Or.inr ⟨by rw [hr, he'], by rw [he', hv]⟩⟩
              | none => rw [hv] at hg; exact Or.inr hg
            · exact Or.inr hg
  rcases key around [] hg with h | h
  · exact h
  · simp [Dict.get] at h

theorem pairwise_mid {α : Type} {R : α → α → Prop} {a b : List α} {x : α} (h : (a ++ x :: b).Pairwise R) : ∀ y ∈ b, R x y := by
  rw [List.pairwise_append] at h
  exact (List.pairwise_cons.1 h.2.1).1

theorem idPath_inj {idName : Str} (hid : '/' ∉ idName) {p q : List Str} (hp : ∀ x ∈ p, '/' ∉ x) (hq : ∀ x ∈ q, '/' ∉ x)
    (h : pathText (p ++ [idName]) = pathText (q ++ [idName])) : p = q := by
  have := pathText_inj (by simp) (by simp) (clean_snoc hp hid) (clean_snoc hq hid) h
  simpa using this

/-- The ids of all the objects around are there. -/
theorem carries_idsOf {o : IdOpts} {n : Nat} {around : List (List Str × List (Str × Json))} (ha : AroundOK n around)
    (hid : '/' ∉ o.idName) (hrid : ∀ rid, o.rootId = some rid → '/' ∉ rid ∧ rid ≠ o.idName) :
    CarriesIds o around (idsOf o around) := by
  have hne : ∀ rid, o.rootId = some rid → ∀ a ∈ around, rid ≠ pathText (a.1 ++ [o.idName]) := by
    intro rid hr a hm he
    have h := pathText_inj (a := [rid]) (by simp) (by simp) (by simpa using (hrid rid hr).1) (clean_snoc (ha.clean a hm) hid)
      (by rw [← he]; simp [pathText, Py.join])
    have hl := congrArg List.length h
    simp only [List.length_cons, List.length_nil, List.length_append] at hl
    have : a.1 = [] := List.eq_nil_of_length_eq_zero (by omega)
    rw [this] at h
    simp only [List.nil_append, List.cons.injEq, and_true] at h
    exact (hrid rid hr).2 h
  constructor
  · intro p fs v hm hv
    obtain ⟨pre, post, hsplit⟩ := List.append_of_mem hm
    unfold idsOf
    rw [hsplit, List.foldl_append, List.foldl_cons, get_foldl_ids]
    · unfold idsBelow
      rw [get_addId, if_pos rfl, hv]; rfl
    · intro a hma he
      have h1 : a ∈ around := by rw [hsplit]; simp [hma]
      have := idPath_inj hid (ha.clean _ hm) (ha.clean a h1) he
      have hl := pairwise_mid (hsplit ▸ ha.incr) a hma
      rw [← this] at hl; simp at hl
    · intro hr
      exact absurd rfl (hne _ hr (p, fs) hm)
  · intro rid outer p fs inner v hr hsplit hv hin
    have hm : (p, fs) ∈ around := by rw [hsplit]; simp
    unfold idsOf
    rw [hsplit, List.foldl_append, List.foldl_cons, get_foldl_ids]
    · unfold idsBelow
      rw [get_addId, if_neg (hne rid hr (p, fs) hm), hr]
      simp only [get_addId, if_true, hv]; rfl
    · intro a hma; exact hne rid hr a (by rw [hsplit]; simp [hma])
    · intro _ a hma; exact hin a hma

/-! ### Lines of items -/

theorem item_line_eq (o : IdOpts) (keep : List Str → Str → Bool) (i : Item) :
    i.line o keep = Dict.update (Dict.update [] (idsOf o i.around)) (cellEntries (cells keep (i.array ++ [s%"0"]) i.fields)) := rfl

theorem nodup_set {κ α : Type} [DecidableEq κ] {d : List (κ × α)} (h : (Dict.keys d).Nodup) (k : κ) (v : α) :
    (Dict.keys (Dict.set d k v)).Nodup := by
  rw [Dict.keys_set]
  split
  · exact h
  · next hk =>
    rw [List.nodup_append]
    exact ⟨h, by simp, by
      intro a ha b hb
      simp only [List.mem_singleton] at hb; subst hb
      intro he; subst he; exact hk ha⟩

theorem nodup_idsOf (o : IdOpts) (around : List (List Str × List (Str × Json))) : (Dict.keys (idsOf o around)).Nodup := by
  have hadd : ∀ path name fs ids, (Dict.keys ids).Nodup → (Dict.keys (Spec.addId path name fs ids)).Nodup := by
    intro path name fs ids h
    unfold Spec.addId
    split
    · exact nodup_set h _ _
    · exact h
  have : ∀ (around : List (List Str × List (Str × Json))) ids, (Dict.keys ids).Nodup →
      (Dict.keys (around.foldl (fun ids a => idsBelow o a.1 a.2 ids) ids)).Nodup := by
    intro around
    induction around with
    | nil => intro ids h; exact h
    | cons a r ih =>
      intro ids h
      rw [List.foldl_cons]
      apply ih
      unfold idsBelow
      apply hadd
      cases o.rootId with
      | none => exact h
      | some rid => exact hadd _ _ _ _ h
  exact this around [] (by simp [Dict.keys])

theorem get_update_nil {κ α : Type} [DecidableEq κ] {e : List (κ × α)} (h : (Dict.keys e).Nodup) (k : κ) :
    Dict.get (Dict.update [] e) k = Dict.get e k := by
  cases hg : Dict.get e k with
  | none =>
    rw [get_update_of_not ((Dict.get_none_iff ..).1 hg)]; rfl
  | some v =>
    apply get_update_of_unique _ (Dict.get_eq_some_mem hg)
    intro w hw
    have := Dict.get_of_mem h hw
    rw [hg] at this; simpa using this.symm

theorem item_line_holds {o : IdOpts} {keep : List Str → Str → Bool} {i : Item} (hi : ItemOK i) :
    Holds keep (i.array ++ [s%"0"]) i.fields (IsIdOf o i.around) (i.line o keep) := by
  constructor
  · intro q v hq
    rw [item_line_eq]
    exact entries_complete _ hi.fields (clean_snoc hi.array (by decide)) hq
  · intro h v hg
    rw [item_line_eq] at hg
    rcases entries_sound hg with h | h
    · exact Or.inl h
    · rw [get_update_nil (nodup_idsOf o i.around)] at h
      exact Or.inr (get_idsOf_sound h)

theorem item_line_carries {o : IdOpts} {keep : List Str → Str → Bool} {i : Item} (hi : ItemOK i)
    (hid : '/' ∉ o.idName) (hrid : ∀ rid, o.rootId = some rid → '/' ∉ rid ∧ rid ≠ o.idName) :
    CarriesIds o i.around (i.line o keep) := by
  have hc := carries_idsOf hi.around hid hrid
  -- cells never have a heading as short as those of the ids
  have hlong : ∀ (p : List Str), p ≠ [] → p.length ≤ i.array.length → (∀ x ∈ p, '/' ∉ x) →
      Dict.get (i.line o keep) (pathText p) = Dict.get (idsOf o i.around) (pathText p) := by
    intro p hp hl hcl
    rw [item_line_eq, get_update_of_not, get_update_nil (nodup_idsOf o i.around)]
    intro hk
    simp only [Dict.keys, List.mem_map] at hk
    obtain ⟨⟨h, v⟩, hm, he⟩ := hk
    dsimp only at he; subst he
    obtain ⟨q, hq, he⟩ := mem_cellEntries.1 hm
    have hq' := (mem_cells _ _ _ _ _).1 hq
    have hcq := hq'.clean hi.fields (clean_snoc hi.array (by decide))
    obtain ⟨k, r, hq2, -⟩ := hq'.starts
    have := pathText_inj (by rw [hq2]; simp) hp hcq hcl he
    rw [hq2] at this
    rw [← this] at hl
    simp only [List.length_append, List.length_cons, List.length_nil] at hl
    omega
  constructor
  · intro p fs v hm hv
    rw [hlong _ (by simp) (by have := hi.around.short _ hm; simp at this ⊢; omega) (clean_snoc (hi.around.clean _ hm) hid)]
    exact hc.id p fs v hm hv
  · intro rid outer p fs inner v hr hs hv hin
    have hm : (p, fs) ∈ i.around := by rw [hs]; simp
    have := hc.rootId rid outer p fs inner v hr hs hv hin
    rw [← this]
    have he : rid = pathText [rid] := by simp [pathText, Py.join]
    rw [he]
    exact hlong [rid] (by simp) (by have := hi.around.short _ hm; simp at this ⊢; omega) (by simpa using (hrid rid hr).1)

end Verif

import Verif.Proofs.Between
import Verif.Props.Order
/-! From the tree of the rows back to the document. -/
namespace Verif
open Spec

/-- Every node of the first tree is in the second. -/
def In (a b : Tree) : Prop := ∀ p u, a.sub p = some u → ∃ w, b.sub p = some w ∧ NodeSame u w

theorem In.field {fs gs : Fields} (h : In (.obj fs) (.obj gs)) {k : Str} {t : Tree} (hk : Dict.get fs k = some t) :
    ∃ u, Dict.get gs k = some u ∧ In t u := by
  have h0 := h [.field k] t (by simp [Tree.sub, hk])
  obtain ⟨w, hw, -⟩ := h0
  simp only [Tree.sub] at hw
  cases hg : Dict.get gs k with
  | none => rw [hg] at hw; cases hw
  | some u =>
    refine ⟨u, rfl, ?_⟩
    intro p x hx
    have := h (.field k :: p) x (by simp [Tree.sub, hk, hx])
    simpa [Tree.sub, hg] using this

theorem In.item {ks bk : List (Val × Fields)} {rs br : List Fields} (h : In (.tmp ks rs) (.tmp bk br)) {v : Val} {fs : Fields}
    (hk : keyGet ks v = some fs) : ∃ gs, keyGet bk v = some gs ∧ In (.obj fs) (.obj gs) := by
  have h0 := h [.item v] (.obj fs) (by simp [Tree.sub, hk])
  obtain ⟨w, hw, -⟩ := h0
  simp only [Tree.sub] at hw
  cases hg : keyGet bk v with
  | none => rw [hg] at hw; cases hw
  | some u =>
    refine ⟨u, rfl, ?_⟩
    intro p x hx
    have := h (.item v :: p) x (by simp [Tree.sub, hk, hx])
    simpa [Tree.sub, hg] using this

theorem toLists_map (fs : Fields) : toLists fs = fs.map (fun e => (e.1, treeToLists e.2)) := by
  induction fs with
  | nil => rfl
  | cons e r ih => obtain ⟨k, t⟩ := e; simp [toLists, ih]

/-- The JSON of the fields of a labelled tree. -/
def jsonF (fs : Fields) : Json := .obj (toValue (toLists (forgetF fs)))

theorem forget_items (ks : List (Val × Fields)) :
    (listToValue (keyedToLists (forgetK ks) ++ itemsToLists (forgetU ks))).Perm (ks.map (fun e => jsonF e.2)) := by
  have hk : ∀ ks : List (Val × Fields), keyedToLists ks = ks.map (fun e => toLists e.2) := by
    intro ks
    induction ks with
    | nil => rfl
    | cons e r ih => obtain ⟨k, t⟩ := e; simp [keyedToLists, ih]
  have hi : ∀ us : List Fields, itemsToLists us = us.map toLists := by
    intro us
    induction us with
    | nil => rfl
    | cons e r ih => simp [itemsToLists, ih]
  rw [listToValue_map, hk, hi]
  induction ks with
  | nil => simp [forgetK, forgetU]
  | cons e r ih =>
    obtain ⟨k, fs⟩ := e
    simp only [forgetK, forgetU]
    split
    · simp only [List.map_cons, List.cons_append]
      exact ih.cons _
    · simp only [List.map_cons, List.map_append] at ih ⊢
      refine List.perm_middle.trans ?_
      exact ih.cons _

theorem rearrangedFields_of {l : List (Str × Json)} {m : Fields}
    (h : All₂ (fun a b => a.1 = b.1 ∧ Rearranged a.2 (treeToValue (treeToLists (forget b.2)))) l m) :
    RearrangedFields l (toValue (toLists (forgetF m))) := by
  induction h with
  | nil => exact .nil
  | @cons a b l m h _ ih =>
    obtain ⟨k, v⟩ := a; obtain ⟨k', t⟩ := b
    obtain ⟨e, h⟩ := h
    simp only at e
    subst e
    exact .cons h ih

mutual
theorem rearranged_refl : (v : Json) → Rearranged v v
  | .leaf a => .leaf
  | .obj fs => .obj (rearrangedF_refl fs) (List.Perm.refl _)
  | .arr l => .arr (rearrangedI_refl l) (List.Perm.refl _) (.inr rfl)
theorem rearrangedF_refl : (fs : List (Str × Json)) → RearrangedFields fs fs
  | [] => .nil
  | (_, v) :: r => .cons (rearranged_refl v) (rearrangedF_refl r)
theorem rearrangedI_refl : (l : List Json) → RearrangedItems l l
  | [] => .nil
  | v :: r => .cons (rearranged_refl v) (rearrangedI_refl r)
end

theorem toValue_perm {a b : Fields} (h : a.Perm b) : (toValue (toLists (forgetF a))).Perm (toValue (toLists (forgetF b))) := by
  rw [toValue_map, toValue_map, toLists_map, toLists_map, forgetF_map, forgetF_map]
  exact ((h.map _).map _).map _

/-- A tree that has what a value has, and nothing else, is the value (up to order). -/
theorem rearranged_of {T : Trip} (v : Json) :
    (∀ ks t, T.Fits ks v → Clean t → In (docT T ks v) t → In t (docT T ks v) → Rearranged v (treeToValue (treeToLists (forget t)))) ∧
    ∀ ks fs gs, v = .obj fs → T.Object fs → T.FitsFields ks fs → Clean (.obj gs) → In (.obj (docF T ks fs)) (.obj gs) →
      In (.obj gs) (.obj (docF T ks fs)) → Rearranged (.obj fs) (jsonF gs) := by
  have node : ∀ {a b : Tree}, In a b → NodeSame a b := by
    intro a b h
    obtain ⟨w, hw, hn⟩ := h [] a rfl
    simp only [Tree.sub, Option.some.injEq] at hw
    rw [hw]; exact hn
  induction v using Json.ind with
  | leaf a =>
    refine ⟨?_, (by intro ks fs gs e; cases e)⟩
    intro ks t hf _ h1 h2
    simp only [docT] at h1 h2
    have hn := node h1
    cases t with
    | cell c =>
      simp only [Trip.Fits] at hf
      simp only [NodeSame, docCell] at hn
      simp only [forget, treeToLists, treeToValue]
      rw [← hn, hf.2.leaf]
      exact .leaf
    | obj g => exact hn.elim
    | tmp ks rs => exact hn.elim
  | obj fs ih =>
    have B : ∀ ks gs, T.Object fs → T.FitsFields ks fs → Clean (.obj gs) → In (.obj (docF T ks fs)) (.obj gs) →
      In (.obj gs) (.obj (docF T ks fs)) → Rearranged (.obj fs) (jsonF gs) := by
      intro ks gs ho hf hc h1 h2
      have hnd : (Dict.keys gs).Nodup := hc.node
      refine Exists.elim (match_up (R := fun (a : Str × Json) (b : Str × Tree) =>
          a.1 = b.1 ∧ Rearranged a.2 (treeToValue (treeToLists (forget b.2)))) fs gs ?_ ?_ ?_ ?_) ?_
      rotate_left 4
      · rintro m' ⟨hm1, hm2⟩
        exact .obj (rearrangedFields_of hm1) (toValue_perm hm2)
      · intro x hx
        have hgx := Dict.get_of_mem ho.2.1 hx
        have hd : Dict.get (docF T ks fs) x.1 = some (docT T (ks ++ [x.1]) x.2) := by rw [get_docF, hgx]; rfl
        obtain ⟨u, hu, hin⟩ := h1.field hd
        obtain ⟨u', hu', hin'⟩ := h2.field hu
        rw [hd] at hu'
        cases hu'
        exact ⟨(x.1, u), Dict.get_eq_some_mem hu, rfl, (ih x hx).1 _ _ (fitsFields_iff.1 hf x hx) (hc.field hu) hin hin'⟩
      · intro y hy
        have hgy := Dict.get_of_mem hnd hy
        obtain ⟨u, hu, hin⟩ := h2.field hgy
        obtain ⟨u', hu', hin'⟩ := h1.field hu
        rw [hgy] at hu'
        cases hu'
        rw [get_docF, Option.map_eq_some_iff] at hu
        obtain ⟨w, hw, rfl⟩ := hu
        have hm := Dict.get_eq_some_mem hw
        exact ⟨(y.1, w), hm, rfl, (ih _ hm).1 _ _ (fitsFields_iff.1 hf _ hm) (hc.field hgy) hin' hin⟩
      · have := ho.2.1
        rw [Dict.keys, List.Nodup, List.pairwise_map] at this
        exact this.imp (fun hne y h h' => hne (h.1.trans h'.1.symm))
      · rw [Dict.keys, List.Nodup, List.pairwise_map] at hnd
        exact hnd.imp (fun hne y h h' => hne (h.1.symm.trans h'.1))
    refine ⟨?_, (by intro ks fs' gs e; cases e; exact B ks gs)⟩
    intro ks t hf hc h1 h2
    simp only [docT] at h1 h2
    simp only [Trip.Fits] at hf
    have hn := node h1
    cases t with
    | cell c => exact hn.elim
    | tmp ks rs => exact hn.elim
    | obj g =>
      have := B ks g hf.2.1 hf.2.2.2 hc h1 h2
      simpa only [forget, treeToLists, treeToValue, jsonF] using this
  | arr l ih =>
    refine ⟨?_, (by intro ks fs gs e; cases e)⟩
    intro ks t hf hc h1 h2
    simp only [Trip.Fits] at hf
    rcases hf with ⟨s, hj, hr⟩ | ⟨hj, -, hi, hd⟩
    · simp only [docT, hj] at h1 h2
      have hn := node h1
      cases t with
      | cell c =>
        simp only [NodeSame, docCell] at hn
        simp only [forget, treeToLists, treeToValue]
        rw [← hn, hr.back.2.2.2.2]
        exact rearranged_refl _
      | obj g => exact hn.elim
      | tmp ks rs => exact hn.elim
    · simp only [docT, hj] at h1 h2
      have hn := node h1
      cases t with
      | cell c => exact hn.elim
      | obj g => exact hn.elim
      | tmp bk rs =>
        have hlocal := hc.node
        obtain ⟨rfl, hkd, hself⟩ := hlocal
        have hdist := docI_distinct (T := T) (ks := ks) (i := 0) hd
        simp only [forget, treeToLists, treeToValue]
        have entry : ∀ j fs, l[j]? = some (.obj fs) → T.Object fs ∧ T.FitsFields ks fs ∧ (labelOf T j fs, docF T ks fs) ∈ docI T ks 0 l := by
          intro j fs hm
          obtain ⟨fs', e, ho, -, -, hff⟩ := fitsItems_iff.1 hi _ (List.mem_of_getElem? hm)
          cases e
          exact ⟨ho, hff, mem_docI.2 ⟨j, fs, hm, by simp⟩⟩
        refine Exists.elim (match_up (R := fun (a : Json × Nat) (b : Val × Fields) =>
          ∃ fs, a.1 = .obj fs ∧ l[a.2]? = some (.obj fs) ∧ (labelOf T a.2 fs).pyEq b.1 = true ∧ Rearranged a.1 (jsonF b.2)) l.zipIdx bk ?_ ?_ ?_ ?_) ?_
        rotate_left 4
        · rintro m' ⟨hm1, hm2⟩
          refine .arr (hs := m'.map (fun e => jsonF e.2)) ?_ ((hm2.map _).trans (forget_items bk).symm) (.inl (fun x hx => by
            obtain ⟨fs, e, -⟩ := fitsItems_iff.1 hi x hx
            exact ⟨fs, e⟩))
          have : ∀ {a : List (Json × Nat)} {b : List (Val × Fields)}, All₂ (fun (a : Json × Nat) (b : Val × Fields) =>
              ∃ fs, a.1 = .obj fs ∧ l[a.2]? = some (.obj fs) ∧ (labelOf T a.2 fs).pyEq b.1 = true ∧ Rearranged a.1 (jsonF b.2)) a b →
              RearrangedItems (a.map (·.1)) (b.map (fun e => jsonF e.2)) := by
            intro a b h
            induction h with
            | nil => exact .nil
            | cons h _ ih => exact .cons h.choose_spec.2.2.2 ih
          have := this hm1
          rwa [List.zipIdx_map_fst] at this
        · intro x hx
          obtain ⟨x, j⟩ := x
          have hxj := List.mem_zipIdx_iff_getElem?.1 hx
          simp only at hxj
          obtain ⟨fs, rfl, -⟩ := fitsItems_iff.1 hi _ (List.mem_of_getElem? hxj)
          obtain ⟨ho, hff, hmem⟩ := entry j fs hxj
          have hkg := keyGet_of_mem hdist hmem (labelOf_self hff)
          obtain ⟨gs, hg, hin⟩ := h1.item hkg
          obtain ⟨gs', hg', hin'⟩ := h2.item hg
          rw [hkg] at hg'
          cases hg'
          obtain ⟨k', hk', hkk⟩ := keyGet_some_mem hg
          exact ⟨(k', gs), hk', fs, rfl, hxj, Val.pyEq_symm hkk,
            (ih _ (List.mem_of_getElem? hxj)).2 ks fs gs rfl ho hff (hc.item hg) hin hin'⟩
        · intro y hy
          have hg := keyGet_of_mem hkd hy (hself y hy)
          obtain ⟨gs, hkg, hin⟩ := h2.item hg
          obtain ⟨k', hk', hkk⟩ := keyGet_some_mem hkg
          obtain ⟨j, fs, hm, e⟩ := mem_docI.1 hk'
          cases e
          obtain ⟨gs', hg', hin'⟩ := h1.item hkg
          rw [hg] at hg'
          cases hg'
          obtain ⟨ho, hff, -⟩ := entry j fs hm
          refine ⟨(.obj fs, j), List.mem_zipIdx_iff_getElem?.2 (by simpa using hm), fs, rfl, hm, by simpa using hkk, ?_⟩
          exact (ih _ (List.mem_of_getElem? hm)).2 ks fs y.2 rfl ho hff (hc.item hg) hin' hin
        · have hz : l.zipIdx.Pairwise (fun a b => a.2 ≠ b.2) := by
            have := List.nodup_range' (s := 0) (n := l.length) (step := 1)
            rw [← List.zipIdx_map_snd 0 l, List.nodup_iff_pairwise_ne, List.pairwise_map] at this
            exact this
          refine hz.imp ?_
          rintro ⟨a, i⟩ ⟨b, j⟩ hne y ⟨fs, e1, e2, e3, -⟩ ⟨gs, g1, g2, g3, -⟩
          have hq := Val.pyEq_trans e3 (Val.pyEq_symm g3)
          have : DifferentIds (T.idOf fs) (T.idOf gs) ∨ DifferentIds (T.idOf gs) (T.idOf fs) := by
            simp only at e2 g2 hne
            obtain ⟨hi', e2⟩ := List.getElem?_eq_some_iff.1 e2
            obtain ⟨hj', g2⟩ := List.getElem?_eq_some_iff.1 g2
            rcases Nat.lt_or_gt_of_ne hne with h | h
            · have := List.pairwise_iff_getElem.1 hd i j hi' hj' h
              rw [e2, g2] at this
              exact .inl this
            · have := List.pairwise_iff_getElem.1 hd j i hj' hi' h
              rw [e2, g2] at this
              exact .inr this
          rcases this with h | h
          · rw [labels_differ hne h] at hq; cases hq
          · have hq' := Val.pyEq_symm hq
            rw [labels_differ (fun e => hne e.symm) h] at hq'; cases hq'
        · refine hkd.imp ?_
          rintro a b hne ⟨x, j⟩ ⟨fs, e1, e2, e3, -⟩ ⟨gs, g1, g2, g3, -⟩
          rw [e1] at g1
          cases g1
          exact hne (Val.pyEq_trans (Val.pyEq_symm e3) g3)

end Verif

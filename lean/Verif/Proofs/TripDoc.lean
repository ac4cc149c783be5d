import Verif.Proofs.TripRun
/-! The run over the rows of a document gives the document. -/
namespace Verif
open Spec

/-- Where a root object is in the tree of a run. -/
def rootPos (T : Trip) (i : Nat) (fs : List (Str × Json)) : List PKey := [PKey.item (T.rootCell fs), PKey.field [], PKey.item (labelOf T i fs)]

theorem encRow_sub (r l : Val) (F : Fields) (v w : Val) (p : List PKey) :
    (encRow r l F).sub (PKey.item v :: PKey.field [] :: PKey.item w :: p) =
      if r.pyEq v = true ∧ l.pyEq w = true then Tree.sub p (.obj F) else none := by
  simp only [encRow, Tree.sub, keyGet_cons, keyGet_nil]
  by_cases h1 : r.pyEq v = true
  · simp only [h1, if_true, Option.bind_some, Tree.sub, Dict.get_cons, true_and, keyGet_cons, keyGet_nil]
    by_cases h2 : l.pyEq w = true
    · simp [h2]
    · simp [h2]
  · simp [h1]

/-- What is known after the run. -/
structure Ran (T : Trip) (root : List Json) (ss : List Spot) (xs : List LRow) (t : Tree) : Prop where
  fits : T.FitsRoot root
  perm : ss.Perm (spots T root)
  rows : All₂ (RowAt T) ss xs
  clean : Clean t
  bel : ∀ x ∈ xs, Bel x.enc.2 t
  from_ : ∀ p u, t.sub p = some u → p = [] ∧ NodeSame (.tmp [] []) u ∨ ∃ x ∈ xs, ∃ a, x.enc.2.sub p = some a ∧ NodeSame a u

theorem spotLabel_self {T : Trip} {root : List Json} (h : T.FitsRoot root) {s : Spot} (hs : s ∈ spots T root) {x : LRow} (hx : RowAt T s x) :
    (labelOf T s.1 s.2.1).pyEq (labelOf T s.1 s.2.1) = true := by
  have h1 := rowAt_clean h hs hx
  have h2 := h1 [PKey.item (T.rootCell s.2.1), PKey.field []] (.tmp [(x.label, x.fields)] []) (by
    have := rootCell_self h (List.mem_of_getElem? (mem_spots.1 hs).1)
    simp only [LRow.enc, encRow, Tree.sub, keyGet_cons, hx.root, this, if_true, Option.bind_some, Dict.get_cons])
  have h3 := h2.2.2 (x.label, x.fields) (by simp)
  rw [← hx.label]
  exact h3

/-- A spot of the root object. -/
theorem Ran.row {T : Trip} {root : List Json} {ss : List Spot} {xs : List LRow} {t : Tree} (h : Ran T root ss xs t) {s : Spot}
    (hs : s ∈ spots T root) : ∃ x ∈ xs, RowAt T s x := all₂_left h.rows s (h.perm.mem_iff.2 hs)

theorem Ran.spot {T : Trip} {root : List Json} {ss : List Spot} {xs : List LRow} {t : Tree} (h : Ran T root ss xs t) {x : LRow}
    (hx : x ∈ xs) : ∃ s ∈ spots T root, RowAt T s x := by
  obtain ⟨s, hs, h1⟩ := all₂_right h.rows x hx
  exact ⟨s, h.perm.mem_iff.1 hs, h1⟩

theorem Ran.enc_sub {T : Trip} {root : List Json} {ss : List Spot} {xs : List LRow} {t : Tree} (h : Ran T root ss xs t) {s : Spot}
    (hs : s ∈ spots T root) {x : LRow} (hx : RowAt T s x) (p : List PKey) :
    x.enc.2.sub (rootPos T s.1 s.2.1 ++ p) = Tree.sub p (.obj x.fields) := by
  have h1 := rootCell_self h.fits (List.mem_of_getElem? (mem_spots.1 hs).1)
  have h2 := spotLabel_self h.fits hs hx
  simp only [rootPos, LRow.enc, List.cons_append, List.nil_append]
  rw [encRow_sub, hx.root, hx.label, if_pos ⟨h1, h2⟩]

/-- Whatever is below the position of a root object comes from one of its rows. -/
theorem Ran.origin {T : Trip} {root : List Json} {ss : List Spot} {xs : List LRow} {t : Tree} (h : Ran T root ss xs t) {i : Nat}
    {fs : List (Str × Json)} (hi : (objects root)[i]? = some fs) {p : List PKey} {u : Tree}
    (hu : t.sub (rootPos T i fs ++ p) = some u) :
    ∃ pl x a, (i, fs, pl) ∈ spots T root ∧ RowAt T (i, fs, pl) x ∧ Tree.sub p (.obj x.fields) = some a ∧ NodeSame a u := by
  rcases h.from_ _ _ hu with ⟨h1, _⟩ | ⟨x, hx, a, h1, h2⟩
  · simp [rootPos] at h1
  · obtain ⟨s, hs, h3⟩ := h.spot hx
    simp only [rootPos, LRow.enc, List.cons_append, List.nil_append] at h1
    rw [encRow_sub] at h1
    split at h1
    · rename_i h4
      obtain ⟨h5, h6⟩ := h4
      have hs1 := (mem_spots.1 hs).1
      rw [h3.root] at h5
      rw [h3.label] at h6
      have h7 := same_root h.fits hs1 hi h5 h6
      obtain ⟨j, gs, pl⟩ := s
      simp only at h7 hs1
      subst h7
      rw [hi] at hs1
      cases hs1
      exact ⟨pl, x, a, hs, h3, h1, h2⟩
    · cases h1

/-- The root object in the tree of the run. -/
theorem Ran.object {T : Trip} {root : List Json} {ss : List Spot} {xs : List LRow} {t : Tree} (h : Ran T root ss xs t) {i : Nat}
    {fs : List (Str × Json)} (hi : (objects root)[i]? = some fs) :
    ∃ F, t.sub (rootPos T i fs) = some (.obj F) ∧ In (.obj (docF T [] fs)) (.obj F) ∧ In (.obj F) (.obj (docF T [] fs)) := by
  obtain ⟨ho, hn, hf, hr⟩ := fitsRoot_mem h.fits (List.mem_of_getElem? hi)
  have hs0 : (i, fs, (⟨[], [], fs⟩ : Place)) ∈ spots T root := mem_spots.2 ⟨hi, .inl rfl⟩
  obtain ⟨x0, hx0, hr0⟩ := h.row hs0
  have he0 := h.enc_sub hs0 hr0 []
  simp only [List.append_nil, Tree.sub] at he0
  obtain ⟨b, hb, hb'⟩ := h.bel x0 hx0 _ _ he0
  cases b with
  | cell c => cases hb'
  | tmp ks rs => cases hb'
  | obj F =>
    have hsub : ∀ p, t.sub (rootPos T i fs ++ p) = Tree.sub p (.obj F) := by
      intro p
      rw [sub_append, hb]
      rfl
    refine ⟨F, hb, ?_, ?_⟩
    · refine same_of_cells (leafy_docF [] fs ho hf) ?_
      intro p c hc
      have key : ∃ pl kk b, (i, fs, pl) ∈ spots T root ∧ HasCell everything [] pl.fields kk (.leaf b) ∧ SamePos p (pl.path ++ flds kk) := by
        rcases cover (T := T) (.obj fs) [] p [] c (by exact ⟨ho, hf⟩) .nil (by simpa [docT, keysP] using hc) with
          ⟨kk, b, h1, h2⟩ | ⟨pl, hpl, kk, b, h1, h2⟩
        · refine ⟨⟨[], [], fs⟩, kk, b, hs0, ?_, ?_⟩
          · simp only [valueCells] at h1; exact (mem_cells _ _ _ _ _).1 h1
          · subst h2
            simp only [List.nil_append]
            unfold flds
            induction kk with
            | nil => exact .nil
            | cons k r _ => 
              refine all₂_same _ ?_
              intro y hy
              obtain ⟨z, _, rfl⟩ := List.mem_map.1 hy
              rfl
        · exact ⟨pl, kk, b, mem_spots.2 ⟨hi, .inr hpl⟩, h1, by simpa using h2⟩
      obtain ⟨pl, kk, b, hs, h1, h2⟩ := key
      have hfine := spot_fine h.fits hs
      obtain ⟨x, hx, hrx⟩ := h.row hs
      obtain ⟨c', h3, h4⟩ := hrx.has _ b (.own h1)
      have h5 := (own_get hfine h1).1
      rw [sub_same h2] at hc
      rw [h5] at hc
      cases hc
      have he := h.enc_sub hs hrx (pl.path ++ flds kk)
      rw [h3] at he
      obtain ⟨d, hd, hd'⟩ := h.bel x hx _ _ he
      cases d with
      | obj _ => cases hd'
      | tmp _ _ => cases hd'
      | cell d =>
        obtain ⟨pl', x', a, hs', hrx', h6, h7⟩ := h.origin hi hd
        cases a with
        | obj _ => cases h7
        | tmp _ _ => cases h7
        | cell a =>
          obtain ⟨d'', h8, h9⟩ := RowOfPlace.inDoc ho hf (spot_fine h.fits hs') hrx' _ _ h6
          rw [h5] at h8
          cases h8
          refine ⟨d, ?_, ?_⟩
          · rw [sub_same h2, ← hsub]
            exact hd
          · have h10 : a.value = d.value := h7
            rw [← h10, h9]
    · intro p u hu
      rw [← hsub] at hu
      obtain ⟨pl', x', a, hs', hrx', h6, h7⟩ := h.origin hi hu
      obtain ⟨b, h8, h9⟩ := same_of_cells hrx'.leafy (RowOfPlace.inDoc ho hf (spot_fine h.fits hs') hrx') _ _ h6
      exact ⟨b, h8, h7.symm.trans h9⟩

/-- The objects of a group tree. -/
def inner : Fields → List (Val × Fields)
  | [(_, .tmp ks _)] => ks
  | _ => []

/-- The objects of the tree of a run. -/
def entriesOf (ks : List (Val × Fields)) : List (Val × Val × Fields) := ks.flatMap (fun e => (inner e.2).map (fun g => (e.1, g.1, g.2)))

theorem forgetU_nil {ks : List (Val × Fields)} (h : forgetU ks = []) : forgetK ks = ks.map (fun e => (e.1, forgetF e.2)) := by
  induction ks with
  | nil => rfl
  | cons e r ih =>
    obtain ⟨k, fs⟩ := e
    simp only [forgetU] at h
    by_cases hk : k.hashable = true
    · rw [if_pos hk] at h
      simp only [forgetK, if_pos hk, List.map_cons, ih h]
    · rw [if_neg hk] at h
      cases h

theorem forgetF_encTD {fs : Fields} {td : TDict} (h : forgetF fs = encTD td) :
    ∃ ks rs, fs = [(([] : Str), Tree.tmp ks rs)] ∧ td.keyed = forgetK ks ∧ td.rest = forgetU ks := by
  cases fs with
  | nil => cases h
  | cons e r =>
    obtain ⟨k, t⟩ := e
    cases r with
    | cons e r => simp [forgetF, encTD] at h
    | nil =>
      simp only [forgetF, encTD, List.cons.injEq, Prod.mk.injEq, and_true] at h
      cases t with
      | cell c => simp [forget] at h
      | obj g => simp [forget] at h
      | tmp ks rs =>
        simp only [forget, Tree.tmp.injEq] at h
        exact ⟨ks, rs, by rw [h.1], h.2.1.symm, h.2.2.symm⟩

theorem listToValue_append (a b : List (List (Str × CTree))) : listToValue (a ++ b) = listToValue a ++ listToValue b := by
  induction a with
  | nil => rfl
  | cons x r ih => simp [listToValue, ih]

/-- The output of a run whose tree is known. -/
theorem groups_entries {gs : Groups} {ks : List (Val × Fields)} (h : gs.map (fun e => (e.1, encTD e.2)) = ks.map (fun e => (e.1, forgetF e.2))) :
    (listToValue (groupsToList gs)).Perm ((entriesOf ks).map (fun e => jsonF e.2.2)) ∧
    ∀ e ∈ ks, ∃ k' rs, e.2 = [(([] : Str), Tree.tmp k' rs)] := by
  induction ks generalizing gs with
  | nil =>
    have : gs = [] := by simpa using h
    subst this
    exact ⟨List.Perm.refl _, by intro e he; cases he⟩
  | cons e r ih =>
    cases gs with
    | nil => cases h
    | cons g gs =>
      simp only [List.map_cons, List.cons.injEq, Prod.mk.injEq] at h
      obtain ⟨⟨_, h1⟩, h2⟩ := h
      obtain ⟨k', rs, h3, h4, h5⟩ := forgetF_encTD h1.symm
      obtain ⟨h6, h7⟩ := ih h2
      constructor
      · simp only [groupsToList, entriesOf, List.flatMap_cons, List.map_append] at h6 ⊢
        rw [listToValue_append]
        refine List.Perm.append ?_ h6
        rw [h4, h5, h3]
        refine (forget_items k').trans ?_
        simp only [inner, List.map_map]
        exact List.Perm.refl _
      · intro x hx
        rcases List.mem_cons.1 hx with rfl | hx
        · exact ⟨k', rs, h3⟩
        · exact h7 x hx

theorem rearrangedItems_of {α : Type} {R : List (Str × Json) × Nat → α → Prop} {l : List (List (Str × Json) × Nat)} {m : List α} {f : α → Json}
    (h : All₂ R l m) (hR : ∀ a b, R a b → Rearranged (.obj a.1) (f b)) : RearrangedItems (l.map (fun e => .obj e.1)) (m.map f) := by
  induction h with
  | nil => exact .nil
  | cons h1 _ ih => exact .cons (hR _ _ h1) ih

theorem root_objects {root : List Json} (h : ∀ x ∈ root, ∃ fs, x = .obj fs) : root = (objects root).map Json.obj := by
  induction root with
  | nil => rfl
  | cons x r ih =>
    obtain ⟨fs, rfl⟩ := h x (by simp)
    simp only [objects, List.map_cons]
    rw [← ih (fun y hy => h y (by simp [hy]))]

/-- The tree of a run has the objects of the document and no others. -/
structure DocTree (T : Trip) (root : List Json) (t : Tree) : Prop where
  fits : T.FitsRoot root
  clean : Clean t
  object : ∀ {i fs}, (objects root)[i]? = some fs →
    ∃ F, t.sub (rootPos T i fs) = some (.obj F) ∧ In (.obj (docF T [] fs)) (.obj F) ∧ In (.obj F) (.obj (docF T [] fs))
  only : ∀ v w F, t.sub [PKey.item v, PKey.field [], PKey.item w] = some (.obj F) →
    ∃ i fs, (objects root)[i]? = some fs ∧ (T.rootCell fs).pyEq v = true ∧ (labelOf T i fs).pyEq w = true

/-- The output is the document. -/
theorem DocTree.back {T : Trip} {root : List Json} {t : Tree} (h : DocTree T root t) {gs : Groups}
    (hg : enc gs = forget t) : Rearranged (.arr root) (.arr (listToValue (groupsToList gs))) := by
  cases t with
  | cell c => simp [enc, forget] at hg
  | obj g => simp [enc, forget] at hg
  | tmp ks rs =>
    simp only [enc, forget, Tree.tmp.injEq] at hg
    obtain ⟨hg1, hg2⟩ := hg
    rw [forgetU_nil hg2.symm] at hg1
    obtain ⟨h1, h2⟩ := groups_entries hg1
    have hloc := h.clean.node
    -- the objects and their positions
    have hin : ∀ e ∈ entriesOf ks, Tree.sub [PKey.item e.1, PKey.field [], PKey.item e.2.1] (.tmp ks rs) = some (.obj e.2.2) := by
      intro e he
      obtain ⟨g, hgm, he⟩ := List.mem_flatMap.1 he
      obtain ⟨k', rs', h3⟩ := h2 g hgm
      rw [h3] at he
      simp only [inner] at he
      obtain ⟨y, hy, rfl⟩ := List.mem_map.1 he
      have h4 := keyGet_of_mem hloc.2.1 (k := g.1) (k' := g.1) (v := g.2) hgm (hloc.2.2 g hgm)
      have h5 : Tree.sub [PKey.item g.1, PKey.field []] (.tmp ks rs) = some (.tmp k' rs') := by
        simp [Tree.sub, h4, h3, Dict.get_cons]
      have h6 := h.clean _ _ h5
      have h7 := keyGet_of_mem h6.2.1 (k := y.1) (k' := y.1) (v := y.2) hy (h6.2.2 y hy)
      have h8 : [PKey.item g.1, PKey.field [], PKey.item y.1] = [PKey.item g.1, PKey.field []] ++ [PKey.item y.1] := rfl
      simp only
      rw [h8, sub_append, h5]
      simp [Tree.sub, h7]
    have hent : ∀ v w F, Tree.sub [PKey.item v, PKey.field [], PKey.item w] (.tmp ks rs) = some (.obj F) →
        ∃ e ∈ entriesOf ks, e.1.pyEq v = true ∧ e.2.1.pyEq w = true ∧ e.2.2 = F := by
      intro v w F hF
      simp only [Tree.sub] at hF
      cases hk : keyGet ks v with
      | none => rw [hk] at hF; simp at hF
      | some g =>
        obtain ⟨v', hm, hv⟩ := keyGet_some_mem hk
        obtain ⟨k', rs', h3⟩ := h2 _ hm
        simp only at h3
        rw [hk] at hF
        subst h3
        simp only [Option.bind_some, Tree.sub, Dict.get_cons, if_true] at hF
        cases hk' : keyGet k' w with
        | none => rw [hk'] at hF; simp at hF
        | some g' =>
          rw [hk'] at hF
          simp only [Option.bind_some, Option.some.injEq, Tree.obj.injEq] at hF
          subst hF
          obtain ⟨w', hm', hw⟩ := keyGet_some_mem hk'
          refine ⟨(v', w', g'), ?_, hv, hw, rfl⟩
          refine List.mem_flatMap.2 ⟨_, hm, ?_⟩
          simp only [inner]
          exact List.mem_map.2 ⟨_, hm', rfl⟩
    have hdist : (entriesOf ks).Pairwise (fun a b => ¬ (a.1.pyEq b.1 = true ∧ a.2.1.pyEq b.2.1 = true)) := by
      unfold entriesOf
      rw [List.pairwise_flatMap]
      constructor
      · intro g hgm
        obtain ⟨k', rs', h3⟩ := h2 g hgm
        have h4 := keyGet_of_mem hloc.2.1 (k := g.1) (k' := g.1) (v := g.2) hgm (hloc.2.2 g hgm)
        have h5 : Tree.sub [PKey.item g.1, PKey.field []] (.tmp ks rs) = some (.tmp k' rs') := by
          simp [Tree.sub, h4, h3, Dict.get_cons]
        have h6 := h.clean _ _ h5
        rw [h3]
        simp only [inner]
        rw [List.pairwise_map]
        refine h6.2.1.imp ?_
        intro a b hab hh
        exact hab hh.2
      · refine hloc.2.1.imp ?_
        intro a b hab x hx y hy hh
        obtain ⟨_, _, rfl⟩ := List.mem_map.1 hx
        obtain ⟨_, _, rfl⟩ := List.mem_map.1 hy
        exact hab hh.1
    -- objects of the document and of the tree
    let R : List (Str × Json) × Nat → Val × Val × Fields → Prop := fun a e =>
      (objects root)[a.2]? = some a.1 ∧ (T.rootCell a.1).pyEq e.1 = true ∧ (labelOf T a.2 a.1).pyEq e.2.1 = true ∧ Rearranged (.obj a.1) (jsonF e.2.2)
    have hobj : ∀ i fs, (objects root)[i]? = some fs → ∀ v w F, (T.rootCell fs).pyEq v = true → (labelOf T i fs).pyEq w = true →
        Tree.sub [PKey.item v, PKey.field [], PKey.item w] (.tmp ks rs) = some (.obj F) → Rearranged (.obj fs) (jsonF F) := by
      intro i fs hi v w F hv hw hF
      obtain ⟨F', h3, h4, h5⟩ := h.object hi
      have hsame : SamePos (rootPos T i fs) [PKey.item v, PKey.field [], PKey.item w] := .cons hv (.cons rfl (.cons hw .nil))
      rw [sub_same hsame, hF] at h3
      cases h3
      obtain ⟨ho, hn, hf, hr⟩ := fitsRoot_mem h.fits (List.mem_of_getElem? hi)
      have hcl : Clean (.obj F) := by
        intro p u hu
        refine h.clean ([PKey.item v, PKey.field [], PKey.item w] ++ p) u ?_
        rw [sub_append, hF]
        exact hu
      exact (rearranged_of (T := T) (.obj fs)).2 [] fs F rfl ho hf hcl h4 h5
    obtain ⟨m', hm1, hm2⟩ := match_up (R := R) (objects root).zipIdx (entriesOf ks)
      (by
        intro a ha
        have hi : (objects root)[a.2]? = some a.1 := List.mk_mem_zipIdx_iff_getElem?.1 ha
        obtain ⟨F, h3, h4, h5⟩ := h.object hi
        obtain ⟨e, he, h6, h7, h8⟩ := hent _ _ _ h3
        have h6' := Val.pyEq_symm h6
        have h7' := Val.pyEq_symm h7
        exact ⟨e, he, hi, h6', h7', hobj _ _ hi _ _ _ h6' h7' (hin e he)⟩)
      (by
        intro e he
        have hF := hin e he
        obtain ⟨i, fs, hi, h6, h7⟩ := h.only _ _ _ hF
        exact ⟨(fs, i), List.mk_mem_zipIdx_iff_getElem?.2 hi, hi, h6, h7, hobj _ _ hi _ _ _ h6 h7 hF⟩)
      (by
        have hz : (objects root).zipIdx.Pairwise (fun a b => a.2 ≠ b.2) := by
          have : ((objects root).zipIdx.map (·.2)).Nodup := by
            rw [List.zipIdx_map_snd]
            exact List.nodup_range'
          exact List.pairwise_map.1 this
        refine hz.imp ?_
        intro a b hab e h3 h4
        obtain ⟨h5, h6, h7, _⟩ := h3
        obtain ⟨h5', h6', h7', _⟩ := h4
        exact hab (same_root h.fits h5 h5' (Val.pyEq_trans h6 (Val.pyEq_symm h6')) (Val.pyEq_trans h7 (Val.pyEq_symm h7'))))
      (by
        refine hdist.imp ?_
        intro a b hab e h3 h4
        exact hab ⟨Val.pyEq_trans (Val.pyEq_symm h3.2.1) h4.2.1, Val.pyEq_trans (Val.pyEq_symm h3.2.2.1) h4.2.2.1⟩)
    have hroot := root_objects (root := root) (fun x hx => by obtain ⟨fs, h3, _⟩ := h.fits.each x hx; exact ⟨fs, h3⟩)
    have hz : (objects root).zipIdx.map (fun e => Json.obj e.1) = (objects root).map Json.obj := by
      have := congrArg (List.map Json.obj) (List.zipIdx_map_fst 0 (objects root))
      rw [List.map_map] at this
      exact this
    refine Rearranged.arr (hs := m'.map (fun e => jsonF e.2.2)) ?_ ((hm2.map _).trans h1.symm) (.inl (fun x hx => by obtain ⟨fs, h3, _⟩ := h.fits.each x hx; exact ⟨fs, h3⟩))
    rw [hroot, ← hz]
    exact rearrangedItems_of hm1 (fun a b hab => hab.2.2.2)

theorem Ran.back {T : Trip} {root : List Json} {ss : List Spot} {xs : List LRow} {t : Tree} (h : Ran T root ss xs t) {gs : Groups}
    (hg : enc gs = forget t) : Rearranged (.arr root) (.arr (listToValue (groupsToList gs))) := by
  refine DocTree.back ⟨h.fits, h.clean, h.object, ?_⟩ hg
  intro v w F hF
  rcases h.from_ _ _ hF with ⟨h3, _⟩ | ⟨x, hx, a, h3, h4⟩
  · cases h3
  · obtain ⟨s, hs, h5⟩ := h.spot hx
    simp only [LRow.enc] at h3
    rw [encRow_sub] at h3
    split at h3
    · rename_i h6
      obtain ⟨h6, h7⟩ := h6
      rw [h5.root] at h6
      rw [h5.label] at h7
      exact ⟨_, _, (mem_spots.1 hs).1, h6, h7⟩
    · cases h3

end Verif

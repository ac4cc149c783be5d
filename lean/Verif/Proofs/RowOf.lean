import Verif.Proofs.LineRow
/-! The lines of a flattened document, read back, as rows with labels. -/
namespace Verif
open Spec

/-- The values on the line of a place, with their positions: its own, the ids of the objects around it, and the root id. -/
inductive OnLine (T : Trip) (fs0 : List (Str × Json)) (pl : Place) : List PKey → Atom → Prop
  | own {kk : List Str} {b : Atom} : HasCell everything [] pl.fields kk (.leaf b) → OnLine T fs0 pl (pl.path ++ flds kk) b
  | anc {R : List PKey} {gs : List (Str × Json)} {b : Atom} : (R, gs) ∈ pl.around → T.idOf gs = some b → OnLine T fs0 pl (R ++ [.field T.idName]) b
  | root {rid : Str} {b : Atom} : T.rootId = some rid → pl.path ≠ [] → Dict.get fs0 rid = some (.leaf b) → OnLine T fs0 pl [.field rid] b

/-- What holds of the root object and of the objects in arrays below it. -/
structure Fine (T : Trip) (fs0 : List (Str × Json)) (pl : Place) : Prop where
  sub : Tree.sub pl.path (.obj (docF T [] fs0)) = some (.obj (docF T (keysP pl.path) pl.fields))
  object : T.Object pl.fields
  named : T.Named pl.fields
  fits : T.FitsFields (keysP pl.path) pl.fields
  ends : pl = ⟨[], [], fs0⟩ ∨ (([], fs0) ∈ pl.around ∧ ∃ Q i, pl.path = Q ++ [.item (labelOf T i pl.fields)])
  around : ∀ e ∈ pl.around, e.1 <+: pl.path ∧ e.1 ≠ pl.path ∧ Tree.sub e.1 (.obj (docF T [] fs0)) = some (.obj (docF T (keysP e.1) e.2)) ∧
    T.Object e.2 ∧ T.FitsFields (keysP e.1) e.2 ∧ (e.1 = [] ∨ T.NoRoot e.2)
  inner : ∀ Q l, Q ++ [.item l] <+: pl.path → Q ++ [.item l] ≠ pl.path →
    ∃ gs a, (Q ++ [.item l], gs) ∈ pl.around ∧ T.idOf gs = some a ∧ l = .atom a

theorem fine_root {T : Trip} {fs0 : List (Str × Json)} (ho : T.Object fs0) (hn : T.Named fs0) (hf : T.FitsFields [] fs0) :
    Fine T fs0 ⟨[], [], fs0⟩ where
  sub := rfl
  object := ho
  named := hn
  fits := hf
  ends := .inl rfl
  around := by intro e he; cases he
  inner := by
    intro Q l h _
    have := h.length_le
    simp at this

theorem fine_sub {T : Trip} {fs0 : List (Str × Json)} (ho : T.Object fs0) (hf : T.FitsFields [] fs0) {pl : Place}
    (h : pl ∈ lv T [] [] (.obj fs0)) : Fine T fs0 pl := by
  obtain ⟨h1, h2, h3⟩ := lv_ok (T := T) (D := .obj (docF T [] fs0)) (.obj fs0) [] [] ⟨ho, hf⟩ rfl pl h
  refine ⟨h1.sub, h1.object, h1.named, h1.fits, .inr ⟨h3 fs0 rfl, h1.ends⟩, ?_, ?_⟩
  · obtain ⟨ar', e, ha⟩ := h1.around
    intro x hx
    rw [e, List.nil_append] at hx
    exact (ha x hx).2
  · intro Q l hq hne
    exact h1.inner Q l hq hne (Nat.zero_le _)

theorem item_in_path {l : Val} {kk : List Str} : ∀ {X P Y : List PKey}, X ++ .item l :: Y = P ++ flds kk → X ++ [.item l] <+: P := by
  intro X
  induction X with
  | nil =>
    intro P Y h
    cases P with
    | nil => cases kk <;> simp [flds] at h
    | cons s P =>
      simp only [List.nil_append, List.cons_append, List.cons.injEq] at h
      rw [← h.1]; simp
  | cons x X ih =>
    intro P Y h
    cases P with
    | nil =>
      exfalso
      simp only [List.nil_append, flds] at h
      have : PKey.item l ∈ kk.map PKey.field := by rw [← h]; simp
      simp at this
    | cons s P =>
      simp only [List.cons_append, List.cons.injEq] at h
      rw [h.1]
      exact List.cons_prefix_cons.2 ⟨rfl, ih h.2⟩

theorem labelsP_prefix {P Q : List PKey} (h : P <+: Q) : labelsP P <+: labelsP Q := by
  obtain ⟨t, rfl⟩ := h
  rw [labelsP_append]
  exact List.prefix_append _ _

theorem idOf_cell {T : Trip} {fs : List (Str × Json)} {a : Atom} (h : T.idOf fs = some a) : HasCell everything [] fs [T.idName] (.leaf a) :=
  HasCell.scalar (p := []) (Dict.get_eq_some_mem (idOf_get h)) rfl

theorem leafy_doc {T : Trip} (v : Json) : ∀ ks, (T.Fits ks v → Leafy (docT T ks v)) ∧
    ∀ fs, v = .obj fs → T.Object fs → T.FitsFields ks fs → Leafy (.obj (docF T ks fs)) := by
  induction v using Json.ind with
  | leaf a => exact fun ks => ⟨fun _ => by simp only [docT]; exact leafy_cell _, fun fs e => by cases e⟩
  | obj fs ih =>
    intro ks
    have B : T.Object fs → T.FitsFields ks fs → Leafy (.obj (docF T ks fs)) := by
      intro ho h
      refine leafy_obj ?_ ?_
      · intro e
        have := congrArg Dict.keys e
        rw [keys_docF] at this
        have h0 := ho.1
        cases fs with
        | nil => exact h0 rfl
        | cons x r => simp [Dict.keys] at this
      · intro e he
        rw [docF_map, List.mem_map] at he
        obtain ⟨x, hx, rfl⟩ := he
        exact (ih x hx _).1 (fitsFields_iff.1 h x hx)
    refine ⟨fun h => ?_, fun gs e => by cases e; exact B⟩
    simp only [Trip.Fits] at h
    simp only [docT]
    exact B h.2.1 h.2.2.2
  | arr l ih =>
    refine fun ks => ⟨fun h => ?_, fun fs e => by cases e⟩
    simp only [Trip.Fits] at h
    rcases h with ⟨t, ht, -⟩ | ⟨hj, -, hi, hd⟩
    · simp only [docT, ht]; exact leafy_cell _
    · simp only [docT, hj]
      have hx : ∀ e ∈ docI T ks 0 l, e.1.pyEq e.1 = true ∧ Leafy (.obj e.2) := by
        intro e he
        obtain ⟨j, gs, hm, rfl⟩ := mem_docI.1 he
        obtain ⟨gs', e', ho, -, -, hf⟩ := fitsItems_iff.1 hi _ (List.mem_of_getElem? hm)
        cases e'
        exact ⟨labelOf_self hf, (ih _ (List.mem_of_getElem? hm) ks).2 _ rfl ho hf⟩
      refine leafy_tmp ?_ (fun e he => (hx e he).1) (fun e he => (hx e he).2)
      cases l with
      | nil => simp [joinArray] at hj
      | cons x r =>
        obtain ⟨fs, rfl, -⟩ := fitsItems_iff.1 hi x (by simp)
        simp [docI]

theorem leafy_docF {T : Trip} (ks : List Str) (fs : List (Str × Json)) (ho : T.Object fs) (h : T.FitsFields ks fs) : Leafy (.obj (docF T ks fs)) :=
  (leafy_doc (.obj fs) ks).2 fs rfl ho h

theorem all₂_same {α : Type} {R : α → α → Prop} (l : List α) (h : ∀ x ∈ l, R x x) : All₂ R l l := by
  induction l with
  | nil => exact .nil
  | cons x r ih => exact .cons (h x (by simp)) (ih (fun y hy => h y (by simp [hy])))

theorem own_get {T : Trip} {fs0 : List (Str × Json)} {pl : Place} (hp : Fine T fs0 pl) {kk : List Str} {b : Atom}
    (h : HasCell everything [] pl.fields kk (.leaf b)) :
    Tree.sub (pl.path ++ flds kk) (.obj (docF T [] fs0)) = some (.cell (docCell (back T (keysP (pl.path ++ flds kk)) b))) ∧
    (∃ j, T.Returns (keysP (pl.path ++ flds kk)) b j) ∧ kk ≠ [] := by
  obtain ⟨b', j', e, h1, h2⟩ := own_cells (T := T) (.obj pl.fields) (keysP pl.path) kk (.leaf b) ⟨hp.object, hp.fits⟩ (by
    simp only [valueCells]
    exact (mem_cells _ _ _ _ _).2 h)
  cases e
  rw [keysP_append, keysP_flds, sub_append, hp.sub]
  refine ⟨h2, ⟨j', h1⟩, ?_⟩
  obtain ⟨k, r, e, -⟩ := h.starts
  rw [e]; simp

theorem lineOf {T : Trip} {fs0 : List (Str × Json)} (ho0 : T.Object fs0) (hf0 : T.FitsFields [] fs0) {pl : Place} (hp : Fine T fs0 pl) :
    LineOf T (.obj (docF T [] fs0)) (labelsP pl.path) (OnLine T fs0 pl) where
  cell := by
    intro P b h
    cases h with
    | own h =>
      obtain ⟨h1, h2, -⟩ := own_get hp h
      refine ⟨h1, h2, ?_⟩
      rw [labelsP_append, labelsP_flds, List.append_nil]
      exact List.prefix_refl _
    | @anc R gs b hm hi =>
      obtain ⟨h1, h2, h3, h4, h5, h6⟩ := hp.around _ hm
      refine ⟨?_, ?_, ?_⟩
      · have := sub_docF (T := T) h4.2.1 h3 (Dict.get_eq_some_mem (idOf_get hi))
        simpa only [docT] using this
      · rw [keysP_append]
        exact ⟨_, fits_id h5 hi⟩
      · rw [labelsP_append]
        simp only [labelsP, List.append_nil]
        exact labelsP_prefix h1
    | @root rid b hr hne hg =>
      refine ⟨?_, ?_, by simp [labelsP]⟩
      · have := sub_docF (T := T) (D := .obj (docF T [] fs0)) (P := []) ho0.2.1 rfl (Dict.get_eq_some_mem hg)
        simpa only [docT, List.nil_append] using this
      · have := fitsFields_iff.1 hf0 _ (Dict.get_eq_some_mem hg)
        simp only [Trip.Fits, List.nil_append] at this
        exact ⟨_, this.2⟩
  label := by
    intro PA k l PB b h
    have hq : (PA ++ [.field k]) ++ [.item l] <+: pl.path := by
      have aux : ∀ {P0 : List PKey} {kk : List Str}, PA ++ .field k :: .item l :: PB = P0 ++ flds kk → P0 <+: pl.path →
          (PA ++ [.field k]) ++ [.item l] <+: pl.path := by
        intro P0 kk e hpre
        refine (item_in_path (Y := PB) (kk := kk) (P := P0) ?_).trans hpre
        simpa using e
      generalize he : PA ++ .field k :: .item l :: PB = P at h
      cases h with
      | own h => exact aux he (List.prefix_refl _)
      | anc hm hi => exact aux (kk := [T.idName]) he (hp.around _ hm).1
      | @root rid b _ _ _ => exact aux (P0 := []) (kk := [rid]) he (List.nil_prefix)
    have hcat : (PA ++ [PKey.field k]) ++ [PKey.item l] = PA ++ [.field k, .item l] := by simp
    have hcat2 : PA ++ [PKey.field k, PKey.item l, PKey.field T.idName] = ((PA ++ [.field k]) ++ [.item l]) ++ [.field T.idName] := by simp
    have hcat3 : ∀ X, PA ++ PKey.field k :: PKey.item l :: PKey.field T.idName :: X = ((PA ++ [.field k]) ++ [.item l]) ++ .field T.idName :: X := by simp
    by_cases hlast : (PA ++ [.field k]) ++ [.item l] = pl.path
    · rcases hp.ends with e | ⟨-, Q, i, hQ⟩
      · rw [e] at hlast; simp at hlast
      rw [hQ] at hlast
      have hll : l = labelOf T i pl.fields := by
        have := (List.append_inj' hlast rfl).2
        simpa using this
      rw [← hlast] at hQ
      refine ⟨by rw [hll]; exact labelOf_self hp.fits, ?_⟩
      cases hid : T.idOf pl.fields with
      | some a =>
        left
        refine ⟨by rw [hll, labelOf_hashable, hid]; rfl, a, ?_, ?_⟩
        · rw [hcat2, ← hQ]
          exact OnLine.own (kk := [T.idName]) (idOf_cell hid)
        · rw [hcat2, ← hQ, keysP_append]
          rw [hll]
          simp only [labelOf, hid]
          exact (fits_id hp.fits hid).leaf
      | none =>
        right
        refine ⟨by rw [hll, labelOf_hashable, hid]; rfl, ?_⟩
        intro X b' hS
        rw [hcat3, ← hQ] at hS
        generalize he : pl.path ++ PKey.field T.idName :: X = P at hS
        cases hS with
        | @own kk b hc =>
          have := List.append_cancel_left he
          obtain ⟨k', r, e, hk⟩ := hc.starts
          rw [e] at this
          simp only [flds, List.nil_append, List.map_cons, List.cons.injEq, PKey.field.injEq] at this
          rw [← this.1] at hk
          exact Dict.get_none_iff.1 (id_none hp.object hid) hk
        | anc hm hi =>
          obtain ⟨h1, h2, -⟩ := hp.around _ hm
          have hl1 := h1.length_le
          have hl2 := congrArg List.length he
          simp only [List.length_append, List.length_cons, List.length_nil] at hl2
          exact h2 (h1.eq_of_length (by simp at hl1 ⊢; omega))
        | root _ hne _ =>
          have hl2 := congrArg List.length he
          simp only [List.length_append, List.length_cons, List.length_nil] at hl2
          exact hne (List.eq_nil_of_length_eq_zero (by omega))
    · obtain ⟨gs, a, hm, hi, rfl⟩ := hp.inner _ _ hq hlast
      obtain ⟨h1, h2, h3, h4, h5, h6⟩ := hp.around _ hm
      have hself := labelOf_self (i := 0) h5
      simp only [labelOf, hi] at hself
      refine ⟨hself, .inl ⟨rfl, a, ?_, ?_⟩⟩
      · rw [hcat2]; exact OnLine.anc hm hi
      · rw [hcat2, keysP_append]
        exact (fits_id h5 hi).leaf
  some := by
    have hl := leafy_docF (keysP pl.path) pl.fields hp.object hp.fits
    obtain ⟨q, c, hq⟩ := hl [] _ rfl
    rcases cover (T := T) (.obj pl.fields) (flds (keysP pl.path)) q [] c (by rw [keysP_flds]; exact ⟨hp.object, hp.fits⟩)
        (by
          unfold SamePos flds
          exact all₂_same _ (by intro x hx; simp only [List.mem_map] at hx; obtain ⟨k, -, rfl⟩ := hx; rfl))
        (by rw [keysP_flds]; exact hq) with ⟨kk, b, hm, -⟩ | ⟨pl', hm, -⟩
    · exact ⟨_, b, OnLine.own (kk := kk) ((mem_cells _ _ _ _ _).1 (by simpa only [valueCells] using hm))⟩
    · obtain ⟨a, ha⟩ := named_of_mem hp.named hm
      exact ⟨_, a, OnLine.own (idOf_cell ha)⟩

end Verif

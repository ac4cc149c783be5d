import Verif.Proofs.RowRead
/-! The rows of one document do not contradict each other. -/
namespace Verif
open Spec

theorem RowOfPlace.inDoc {T : Trip} {i : Nat} {fs0 : List (Str × Json)} (ho : T.Object fs0) (hf : T.FitsFields [] fs0) {pl : Place}
    (hp : Fine T fs0 pl) {x : LRow} (h : RowOfPlace T i fs0 pl x) :
    ∀ p c, Tree.sub p (.obj x.fields) = some (.cell c) → ∃ d, Tree.sub p (.obj (docF T [] fs0)) = some (.cell d) ∧ c.value = d.value := by
  intro p c hc
  obtain ⟨P, b, hS, hsp, hv⟩ := h.cells p c hc
  have := ((lineOf ho hf hp).cell P b hS).1
  rw [← sub_same hsp] at this
  exact ⟨_, this, hv⟩

theorem RowOfPlace.bel {T : Trip} {i : Nat} {fs0 : List (Str × Json)} (ho : T.Object fs0) (hf : T.FitsFields [] fs0) {pl : Place}
    (hp : Fine T fs0 pl) {x : LRow} (h : RowOfPlace T i fs0 pl x) : Bel (.obj x.fields) (.obj (docF T [] fs0)) :=
  bel_of_cells h.leafy h.clean (h.inDoc ho hf hp)

/-- The items on the way to a value of the line. -/
theorem onLine_item {T : Trip} {fs0 : List (Str × Json)} {pl : Place} (hp : Fine T fs0 pl) {Q Y : List PKey} {l : Val} {b : Atom}
    (h : OnLine T fs0 pl (Q ++ .item l :: Y) b) : Q ++ [.item l] <+: pl.path := by
  have aux : ∀ {P0 : List PKey} {kk : List Str}, Q ++ .item l :: Y = P0 ++ flds kk → P0 <+: pl.path → Q ++ [.item l] <+: pl.path :=
    fun e hpre => (item_in_path e).trans hpre
  generalize he : Q ++ .item l :: Y = P at h
  cases h with
  | own h => exact aux he (List.prefix_refl _)
  | anc hm hi => exact aux (kk := [T.idName]) he (hp.around _ hm).1
  | @root rid b _ _ _ => exact aux (P0 := []) (kk := [rid]) he (List.nil_prefix)

theorem samePos_split_left {a b P : List PKey} (h : SamePos (a ++ b) P) : ∃ c d, P = c ++ d ∧ SamePos a c ∧ SamePos b d := by
  have hl := h.length
  simp only [List.length_append] at hl
  have e : P = P.take a.length ++ P.drop a.length := (List.take_append_drop _ _).symm
  rw [e] at h
  have h2 := h.split (by simp; omega)
  exact ⟨_, _, e, h2.1, h2.2⟩

/-- An item without id in a row is the object of the row. -/
theorem RowOfPlace.unlabelled {T : Trip} {i : Nat} {fs0 : List (Str × Json)} {pl : Place}
    (hp : Fine T fs0 pl) {x : LRow} (h : RowOfPlace T i fs0 pl x) {p : List PKey} {k : Val} {a : Tree} (hk : k.hashable = false)
    (hs : Tree.sub (p ++ [.item k]) (.obj x.fields) = some a) : SamePos (p ++ [.item k]) pl.path := by
  obtain ⟨q, c, hc⟩ := h.leafy _ _ hs
  have hfull : Tree.sub ((p ++ [.item k]) ++ q) (.obj x.fields) = some (.cell c) := by rw [sub_append, hs]; exact hc
  obtain ⟨P, b, hS, hsp, -⟩ := h.cells _ _ hfull
  obtain ⟨P1, P2, rfl, h1, h2⟩ := samePos_split_left hsp
  obtain ⟨Q, R, rfl, h3, h4⟩ := samePos_split_left h1
  cases h4 with
  | @cons _ s _ R' hs hr =>
    cases hr
    cases s with
    | field k' => exact hs.elim
    | item k' =>
      have hk' : k'.hashable = false := by rw [← Val.hashable_congr hs]; exact hk
      have hpre := onLine_item hp (Q := Q) (l := k') (Y := P2) (by simpa using hS)
      by_cases he : Q ++ [.item k'] = pl.path
      · rw [← he]; exact h1
      · obtain ⟨gs, a', -, -, rfl⟩ := hp.inner _ _ hpre he
        cases hk'

/-- A place of a document: the number of the root object, the root object, and the place in it. -/
abbrev Spot := Nat × List (Str × Json) × Place

/-- The spots of a document. -/
def spots (T : Trip) (root : List Json) : List Spot :=
  (objects root).zipIdx.flatMap (fun e => (e.2, e.1, ⟨[], [], e.1⟩) :: (lv T [] [] (.obj e.1)).map (fun pl => (e.2, e.1, pl)))

/-- Different spots. -/
def Other (s t : Spot) : Prop := s.1 ≠ t.1 ∨ Elsewhere s.2.2 t.2.2

theorem Other.symm {s t : Spot} (h : Other s t) : Other t s := by
  rcases h with h | h
  · exact .inl (fun e => h e.symm)
  · exact .inr (fun e => h e.symm)

theorem mem_spots {T : Trip} {root : List Json} {s : Spot} : s ∈ spots T root ↔ (objects root)[s.1]? = some s.2.1 ∧
    (s.2.2 = ⟨[], [], s.2.1⟩ ∨ s.2.2 ∈ lv T [] [] (.obj s.2.1)) := by
  obtain ⟨i, fs, pl⟩ := s
  simp only [spots, List.mem_flatMap, List.mem_cons, List.mem_map, Prod.mk.injEq, Prod.exists]
  constructor
  · rintro ⟨gs, j, hm, h⟩
    have hm := List.mem_zipIdx_iff_getElem?.1 hm
    rcases h with ⟨rfl, rfl, rfl⟩ | ⟨pl', hpl, rfl, rfl, rfl⟩
    · exact ⟨by simpa using hm, .inl rfl⟩
    · exact ⟨by simpa using hm, .inr hpl⟩
  · rintro ⟨hm, h⟩
    refine ⟨fs, i, List.mem_zipIdx_iff_getElem?.2 (by simpa using hm), ?_⟩
    rcases h with rfl | h
    · exact .inl ⟨rfl, rfl, rfl⟩
    · exact .inr ⟨pl, h, rfl, rfl, rfl⟩

theorem spots_other {T : Trip} {root : List Json} (h : ∀ fs ∈ objects root, T.Object fs ∧ T.FitsFields [] fs) :
    (spots T root).Pairwise Other := by
  unfold spots
  rw [List.pairwise_flatMap]
  refine ⟨?_, ?_⟩
  · intro e he
    obtain ⟨fs, i⟩ := e
    have hm := List.mem_of_getElem? (List.mem_zipIdx_iff_getElem?.1 he)
    obtain ⟨ho, hf⟩ := h fs hm
    rw [List.pairwise_cons]
    refine ⟨?_, ?_⟩
    · intro s hs
      obtain ⟨pl, hpl, rfl⟩ := List.mem_map.1 hs
      right
      intro hsp
      have := hsp.length
      obtain ⟨t, X, e⟩ := lv_pre T _ [] [] pl hpl
      simp only at this
      rw [e] at this
      simp at this
    · rw [List.pairwise_map]
      exact (lv_elsewhere (.obj fs) [] [] ⟨ho, hf⟩).imp (fun h => .inr h)
  · have hz : (objects root).zipIdx.Pairwise (fun a b => a.2 ≠ b.2) := by
      have := List.nodup_range' (s := 0) (n := (objects root).length) (step := 1)
      rw [← List.zipIdx_map_snd 0 (objects root), List.nodup_iff_pairwise_ne, List.pairwise_map] at this
      exact this
    refine hz.imp ?_
    intro a b hne s hs t ht
    left
    have h1 : s.1 = a.2 := by
      rcases List.mem_cons.1 hs with rfl | hs
      · rfl
      · obtain ⟨pl, -, rfl⟩ := List.mem_map.1 hs; rfl
    have h2 : t.1 = b.2 := by
      rcases List.mem_cons.1 ht with rfl | ht
      · rfl
      · obtain ⟨pl, -, rfl⟩ := List.mem_map.1 ht; rfl
    rw [h1, h2]
    exact hne

/-- The root object of a fitting document. -/
theorem fitsRoot_mem {T : Trip} {root : List Json} (h : T.FitsRoot root) {fs : List (Str × Json)} (hm : fs ∈ objects root) :
    T.Object fs ∧ T.Named fs ∧ T.FitsFields [] fs ∧
    ∀ rid v, T.rootId = some rid → Dict.get fs rid = some v → ∃ a, v = .leaf a ∧ (Val.atom (T.write a)).pyEq (.atom (T.write a)) = true := by
  have : ∀ l : List Json, fs ∈ objects l → .obj fs ∈ l := by
    intro l
    induction l with
    | nil => intro h; cases h
    | cons x r ih =>
      intro h
      cases x with
      | obj gs =>
        simp only [objects, List.mem_cons] at h
        rcases h with rfl | h
        · simp
        · simp [ih h]
      | leaf a => simp [ih h]
      | arr a => simp [ih h]
  obtain ⟨fs', e, h1⟩ := h.each _ (this _ hm)
  cases e
  exact h1

theorem rootCell_self {T : Trip} {root : List Json} (h : T.FitsRoot root) {fs : List (Str × Json)} (hm : fs ∈ objects root) :
    (T.rootCell fs).pyEq (T.rootCell fs) = true := by
  unfold Trip.rootCell
  split
  · rfl
  · rename_i rid hr
    split
    · rename_i a ha
      obtain ⟨a', e, h1⟩ := (fitsRoot_mem h hm).2.2.2 rid _ hr ha
      cases e
      exact h1
    · rfl

theorem rootCell_hashable (T : Trip) (fs : List (Str × Json)) : (T.rootCell fs).hashable = true := by
  unfold Trip.rootCell
  split
  · rfl
  · split <;> rfl

/-- Root id and id tell the root object. -/
theorem same_root {T : Trip} {root : List Json} (h : T.FitsRoot root) {i j : Nat} {fs gs : List (Str × Json)}
    (hi : (objects root)[i]? = some fs) (hj : (objects root)[j]? = some gs) (hr : (T.rootCell fs).pyEq (T.rootCell gs) = true)
    (hl : (labelOf T i fs).pyEq (labelOf T j gs) = true) : i = j := by
  have key : ∀ {i j : Nat} {fs gs : List (Str × Json)}, i < j → (objects root)[i]? = some fs → (objects root)[j]? = some gs →
      (T.rootCell fs).pyEq (T.rootCell gs) = true → (labelOf T i fs).pyEq (labelOf T j gs) = false := by
    intro i j fs gs hij hi hj hr
    obtain ⟨hi', rfl⟩ := List.getElem?_eq_some_iff.1 hi
    obtain ⟨hj', rfl⟩ := List.getElem?_eq_some_iff.1 hj
    have := List.pairwise_iff_getElem.1 h.distinct i j hi' hj' hij hr
    exact labels_differ (by omega) this
  rcases Nat.lt_trichotomy i j with hij | hij | hij
  · rw [key hij hi hj hr] at hl; cases hl
  · exact hij
  · have := key hij hj hi (Val.pyEq_symm hr)
    rw [Val.pyEq_symm hl] at this; cases this

/-- The row of a spot. -/
def RowAt (T : Trip) (s : Spot) (x : LRow) : Prop := RowOfPlace T s.1 s.2.1 s.2.2 x

theorem spot_fine {T : Trip} {root : List Json} (h : T.FitsRoot root) {s : Spot} (hs : s ∈ spots T root) : Fine T s.2.1 s.2.2 := by
  obtain ⟨h1, h2⟩ := mem_spots.1 hs
  obtain ⟨ho, hn, hf, -⟩ := fitsRoot_mem h (List.mem_of_getElem? h1)
  rcases h2 with e | h2
  · rw [e]; exact fine_root ho hn hf
  · exact fine_sub ho hf h2

theorem rowAt_clean {T : Trip} {root : List Json} (h : T.FitsRoot root) {s : Spot} (hs : s ∈ spots T root) {x : LRow} (hx : RowAt T s x) :
    Clean x.enc.2 := by
  obtain ⟨h1, h2⟩ := mem_spots.1 hs
  have hm := List.mem_of_getElem? h1
  obtain ⟨ho, hn, hf, -⟩ := fitsRoot_mem h hm
  refine clean_encRow ?_ ?_ hx.clean
  · rw [hx.root]; exact rootCell_self h hm
  · rw [hx.label]; exact labelOf_self hf

theorem rowAt_same {T : Trip} {root : List Json} (h : T.FitsRoot root) {s t : Spot} (hs : s ∈ spots T root) (ht : t ∈ spots T root)
    {x y : LRow} (hx : RowAt T s x) (hy : RowAt T t y) (hr : x.root.pyEq y.root = true) (hl : x.label.pyEq y.label = true) :
    s.1 = t.1 ∧ s.2.1 = t.2.1 := by
  have h1 := (mem_spots.1 hs).1
  have h2 := (mem_spots.1 ht).1
  rw [hx.root, hy.root] at hr
  rw [hx.label, hy.label] at hl
  have e := same_root h h1 h2 hr hl
  refine ⟨e, ?_⟩
  rw [e, h2] at h1
  exact (Option.some.inj h1).symm

theorem rowAt_agr {T : Trip} {root : List Json} (h : T.FitsRoot root) {s t : Spot} (hs : s ∈ spots T root) (ht : t ∈ spots T root)
    {x y : LRow} (hx : RowAt T s x) (hy : RowAt T t y) : Agr x.enc.2 y.enc.2 := by
  refine agr_encRow (fun hr hl => ?_)
  obtain ⟨e1, e2⟩ := rowAt_same h hs ht hx hy hr hl
  obtain ⟨ho, hn, hf, -⟩ := fitsRoot_mem h (List.mem_of_getElem? (mem_spots.1 hs).1)
  have b1 := RowOfPlace.bel ho hf (spot_fine h hs) hx
  have hft := spot_fine h ht
  unfold RowAt at hy
  rw [← e2] at hft hy
  exact agr_of_bel b1 (RowOfPlace.bel ho hf hft hy)

/-- The positions of a row's tree that end with an item. -/
theorem encRow_item {r l : Val} {F : Fields} {p : List PKey} {k : Val} {a : Tree}
    (h : (encRow r l F).sub (p ++ [.item k]) = some a) :
    (p = [] ∧ r.pyEq k = true) ∨ (∃ v, p = [.item v, .field []] ∧ r.pyEq v = true ∧ l.pyEq k = true) ∨
    ∃ v w p', p = .item v :: .field [] :: .item w :: p' ∧ r.pyEq v = true ∧ l.pyEq w = true ∧ Tree.sub (p' ++ [.item k]) (.obj F) = some a := by
  cases p with
  | nil =>
    simp only [List.nil_append, encRow, Tree.sub, keyGet_cons, keyGet_nil] at h
    left
    by_cases hk : r.pyEq k = true
    · exact ⟨rfl, hk⟩
    · rw [if_neg hk] at h; simp at h
  | cons s p =>
    right
    cases s with
    | field f => simp [encRow, Tree.sub] at h
    | item v =>
      simp only [List.cons_append, encRow, Tree.sub, keyGet_cons, keyGet_nil] at h
      by_cases hv : r.pyEq v = true
      · rw [if_pos hv] at h
        simp only [Option.bind_some] at h
        cases p with
        | nil => simp [Tree.sub] at h
        | cons s p =>
          cases s with
          | item w => simp [Tree.sub] at h
          | field f =>
            simp only [List.cons_append, Tree.sub, Dict.get_cons, Dict.get_nil] at h
            by_cases hf : ([] : Str) = f
            · subst hf
              simp only [if_true, Option.bind_some] at h
              cases p with
              | nil =>
                simp only [List.nil_append, Tree.sub, keyGet_cons, keyGet_nil] at h
                by_cases hk : l.pyEq k = true
                · exact .inl ⟨v, rfl, hv, hk⟩
                · rw [if_neg hk] at h; simp at h
              | cons s p =>
                cases s with
                | field f => simp [Tree.sub] at h
                | item w =>
                  simp only [List.cons_append, Tree.sub, keyGet_cons, keyGet_nil] at h
                  by_cases hw : l.pyEq w = true
                  · rw [if_pos hw] at h
                    exact .inr ⟨v, w, p, rfl, hv, hw, h⟩
                  · rw [if_neg hw] at h; simp at h
            · rw [if_neg hf] at h; simp at h
      · rw [if_neg hv] at h; simp at h

theorem rowAt_apart {T : Trip} {root : List Json} (h : T.FitsRoot root) {s t : Spot} (hs : s ∈ spots T root) (ht : t ∈ spots T root)
    {x y : LRow} (hx : RowAt T s x) (hy : RowAt T t y) (hne : Other s t) : Apart x.enc.2 y.enc.2 := by
  intro p k a b hk ha hb
  rcases encRow_item ha with ⟨rfl, h1⟩ | ⟨v, rfl, h1, h2⟩ | ⟨v, w, p', rfl, h1, h2, h3⟩
  · rw [hx.root] at h1
    have := Val.hashable_congr h1
    rw [rootCell_hashable, hk] at this
    cases this
  · rcases encRow_item hb with ⟨e, -⟩ | ⟨v', e, g1, g2⟩ | ⟨v', w, p', e, -⟩
    · cases e
    · cases e
      obtain ⟨e1, e2⟩ := rowAt_same h hs ht hx hy (Val.pyEq_trans h1 (Val.pyEq_symm g1)) (Val.pyEq_trans h2 (Val.pyEq_symm g2))
      have hun := Val.hashable_congr h2
      rw [hk, hx.label, labelOf_hashable] at hun
      have hid : T.idOf s.2.1 = none := by
        cases hi : T.idOf s.2.1 with
        | none => rfl
        | some a => rw [hi] at hun; cases hun
      obtain ⟨-, hn, -⟩ := fitsRoot_mem h (List.mem_of_getElem? (mem_spots.1 hs).1)
      have hs2 : s.2.2.path = [] := by
        rcases (mem_spots.1 hs).2 with e | hm
        · rw [e]
        · obtain ⟨a, ha⟩ := named_of_mem hn hm
          rw [hid] at ha; cases ha
      have ht2 : t.2.2.path = [] := by
        rcases (mem_spots.1 ht).2 with e | hm
        · rw [e]
        · rw [← e2] at hm
          obtain ⟨a, ha⟩ := named_of_mem hn hm
          rw [hid] at ha; cases ha
      rcases hne with hne | hne
      · exact hne e1
      · apply hne
        rw [hs2, ht2]
        exact .nil
    · cases e
  · rcases encRow_item hb with ⟨e, -⟩ | ⟨v', e, g1, g2⟩ | ⟨v', w', p'', e, g1, g2, g3⟩
    · cases e
    · cases e
    · cases e
      obtain ⟨e1, e2⟩ := rowAt_same h hs ht hx hy (Val.pyEq_trans h1 (Val.pyEq_symm g1)) (Val.pyEq_trans h2 (Val.pyEq_symm g2))
      have s1 := RowOfPlace.unlabelled (spot_fine h hs) hx hk h3
      have s2 := RowOfPlace.unlabelled (spot_fine h ht) hy hk g3
      rcases hne with hne | hne
      · exact hne e1
      · exact hne (s1.symm.trans s2)

end Verif

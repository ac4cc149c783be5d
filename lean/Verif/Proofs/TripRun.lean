import Verif.Proofs.TripBack
import Verif.Props.FlattenLines
import Verif.Props.Output
/-! The lines of a flattened document, in any order, and the run over them. -/
namespace Verif
open Spec

/-! ### Lists -/

theorem perm_map_lift {α β : Type} {f : α → β} {m n : List β} (h : m.Perm n) : ∀ {l : List α}, n = l.map f → ∃ l' : List α, l'.Perm l ∧ l'.map f = m := by
  induction h with
  | nil =>
    intro l e
    have : l = [] := by simpa using e.symm
    subst this
    exact ⟨[], List.Perm.refl _, rfl⟩
  | @cons x a b _ ih =>
    intro l e
    cases l with
    | nil => cases e
    | cons y r =>
      simp only [List.map_cons, List.cons.injEq] at e
      obtain ⟨l', h1, h2⟩ := ih e.2
      exact ⟨y :: l', h1.cons y, by simp [h2, e.1]⟩
  | swap x y r =>
    intro l e
    cases l with
    | nil => cases e
    | cons a l =>
      cases l with
      | nil => simp at e
      | cons b l =>
        simp only [List.map_cons, List.cons.injEq] at e
        exact ⟨b :: a :: l, List.Perm.swap _ _ _, by simp [e.1, e.2.1, e.2.2]⟩
  | trans _ _ ih1 ih2 =>
    intro l e
    obtain ⟨l2, h1, h2⟩ := ih2 e
    obtain ⟨l3, h3, h4⟩ := ih1 h2.symm
    exact ⟨l3, h3.trans h1, h4⟩

theorem flatMap_cons_perm {α β : Type} (f : α → β) (g : α → List β) (l : List α) :
    (l.flatMap (fun x => f x :: g x)).Perm (l.map f ++ l.flatMap g) := by
  induction l with
  | nil => simp
  | cons x r ih =>
    simp only [List.flatMap_cons, List.map_cons, List.cons_append]
    refine List.Perm.cons _ ?_
    refine (ih.append_left (g x)).trans ?_
    rw [← List.append_assoc, ← List.append_assoc]
    exact (List.perm_append_comm).append_right _

/-- Sorting into classes and putting together again. -/
theorem classes_perm {α : Type} (f : α → Str) (l : List α) : ∀ (names : List Str), names.Nodup → (∀ x ∈ l, f x ∈ names) →
    (names.flatMap (fun n => l.filter (fun x => f x = n))).Perm l := by
  intro names hn hm
  induction names generalizing l with
  | nil =>
    cases l with
    | nil => simp
    | cons x r => exact absurd (hm x (by simp)) (by simp)
  | cons n r ih =>
    rw [List.nodup_cons] at hn
    simp only [List.flatMap_cons]
    have h1 := ih (l.filter (fun x => !(decide (f x = n)))) hn.2 (by
      intro x hx
      rw [List.mem_filter] at hx
      have := hm x hx.1
      simp only [Bool.not_eq_true', decide_eq_false_iff_not] at hx
      rcases List.mem_cons.1 this with h | h
      · exact absurd h hx.2
      · exact h)
    have h2 : ∀ q : List Str, n ∉ q → q.flatMap (fun m => (l.filter (fun x => !(decide (f x = n)))).filter (fun x => f x = m)) =
        q.flatMap (fun m => l.filter (fun x => f x = m)) := by
      intro q hq
      induction q with
      | nil => rfl
      | cons m q ihq =>
        simp only [List.mem_cons, not_or] at hq
        simp only [List.flatMap_cons]
        rw [ihq hq.2, List.filter_filter]
        congr 2
        funext x
        by_cases hx : f x = m
        · have : ¬ m = n := fun e => hq.1 e.symm
          simp [hx, this]
        · simp [hx]
    rw [h2 r hn.1] at h1
    exact (h1.append_left _).trans (List.filter_append_perm _ _)

/-! ### Lines -/

theorem subs_lines (st : FState) (h : (Dict.keys st.subs).Nodup) :
    (st.subs.map (·.2)).flatMap (·.lines) = (Dict.keys st.subs).flatMap (subLines st) := by
  have : ∀ l : List (Str × Sheet), (∀ e ∈ l, e ∈ st.subs) → (l.map (·.2)).flatMap (·.lines) = (Dict.keys l).flatMap (subLines st) := by
    intro l hl
    induction l with
    | nil => rfl
    | cons e r ih =>
      have he : subLines st e.1 = e.2.lines := by
        unfold subLines
        rw [Dict.get_of_mem h (hl e (by simp))]
        rfl
      have := ih (fun x hx => hl x (by simp [hx]))
      simp only [Dict.keys, List.map_cons, List.flatMap_cons, he] at this ⊢
      rw [this]
  exact this _ (fun e he => he)

/-- The lines of all sheets. -/
theorem all_lines {cfg : FCfg} (hp : Plain cfg) (hf : cfg.filter = none) (hk : cfg.preserve = [])
    (hs : FromSchemaParser cfg) {root : List Json} {st : FState} (h : flatten cfg root = .ok st) :
    ((sheetsOf st).flatMap (·.lines)).Perm
      ((objects root).map (fun fs => toLine (cells everything [] fs)) ++ (docItems everything root).map (Item.line (idOpts cfg) everything)) := by
  obtain ⟨h1, h2⟩ := C23_one_line_per_object cfg hp hf hk hs root st h
  have hn := subs_nodup hs h
  simp only [sheetsOf, List.flatMap_cons, h1]
  refine List.Perm.append_left _ ?_
  rw [subs_lines st hn]
  have h3 : (Dict.keys st.subs).flatMap (subLines st) =
      ((Dict.keys st.subs).flatMap (fun n => (docItems everything root).filter (fun i => sheetName cfg.trunc i.array = n))).map
        (Item.line (idOpts cfg) everything) := by
    rw [List.map_flatMap]
    congr 1
    funext n
    exact h2 n
  rw [h3]
  refine (classes_perm _ _ _ hn ?_).map _
  intro i hi
  by_cases hm : sheetName cfg.trunc i.array ∈ Dict.keys st.subs
  · exact hm
  · have h4 := h2 (sheetName cfg.trunc i.array)
    have h5 : subLines st (sheetName cfg.trunc i.array) = [] := by
      unfold subLines
      rw [Dict.get_none_iff.2 hm]
      rfl
    rw [h5] at h4
    have h6 : i ∈ (docItems everything root).filter (fun j => sheetName cfg.trunc j.array = sheetName cfg.trunc i.array) := by
      simp [hi]
    have := List.map_eq_nil_iff.1 h4.symm
    rw [this] at h6
    cases h6

/-- The line of a spot. -/
def spotLine (T : Trip) (s : Spot) : FLine :=
  if s.2.2.path = [] then toLine (cells everything [] s.2.1) else s.2.2.item.line ⟨T.idName, T.rootId⟩ everything

theorem spots_lines (T : Trip) (root : List Json) :
    ((spots T root).map (spotLine T)).Perm
      ((objects root).map (fun fs => toLine (cells everything [] fs)) ++ (docItems everything root).map (Item.line ⟨T.idName, T.rootId⟩ everything)) := by
  have h1 : (spots T root).map (spotLine T) = (objects root).zipIdx.flatMap (fun e =>
      toLine (cells everything [] e.1) :: (items everything [] [([], e.1)] e.1).map (Item.line ⟨T.idName, T.rootId⟩ everything)) := by
    unfold spots
    rw [List.map_flatMap]
    congr 1
    funext e
    have h2 := items_lf T [] [([], e.1)] e.1
    simp only [strs, List.map_nil, List.map_cons] at h2
    rw [h2]
    simp only [List.map_cons, List.map_map, lv, List.nil_append]
    congr 1
    apply List.map_congr_left
    intro pl hpl
    obtain ⟨s, X, hX⟩ := lv_pre T (.obj e.1) [] [] pl (by simpa [lv] using hpl)
    simp only [Function.comp, spotLine]
    rw [if_neg (by rw [hX]; simp)]
  rw [h1]
  refine (flatMap_cons_perm (fun e : List (Str × Json) × Nat => toLine (cells everything [] e.1)) _ _).trans ?_
  have h3 : (objects root).zipIdx.map (fun e => toLine (cells everything [] e.1)) = (objects root).map (fun fs => toLine (cells everything [] fs)) := by
    have := congrArg (List.map (fun fs => toLine (cells everything [] fs))) (List.zipIdx_map_fst 0 (objects root))
    rw [List.map_map] at this
    exact this
  have h4 : (objects root).zipIdx.flatMap (fun e => (items everything [] [([], e.1)] e.1).map (Item.line ⟨T.idName, T.rootId⟩ everything)) =
      (docItems everything root).map (Item.line ⟨T.idName, T.rootId⟩ everything) := by
    unfold docItems
    rw [List.map_flatMap]
    have := congrArg (List.flatMap (fun fs => (items everything [] [([], fs)] fs).map (Item.line ⟨T.idName, T.rootId⟩ everything))) (List.zipIdx_map_fst 0 (objects root))
    rw [List.flatMap_map] at this
    exact this
  rw [h3, h4]

/-! ### Rows -/

theorem spot_line {T : Trip} {root : List Json} (h : T.FitsRoot root) {s : Spot} (hs : s ∈ spots T root) :
    IsLine T s.2.1 s.2.2 (spotLine T s) := by
  obtain ⟨h1, h2⟩ := mem_spots.1 hs
  obtain ⟨ho, hn, hf, hr⟩ := fitsRoot_mem h (List.mem_of_getElem? h1)
  unfold spotLine
  rcases h2 with h2 | h2
  · rw [h2, if_pos rfl]
    exact isLine_root ho hf
  · obtain ⟨k, X, hX⟩ := lv_pre T (.obj s.2.1) [] [] _ h2
    rw [if_neg (by rw [hX]; simp)]
    refine (isLine_sub ho hf h.idName h.rootName ?_ h2).1
    intro rid v h3 h4
    obtain ⟨a, ha, _⟩ := hr rid v h3 h4
    exact ⟨a, ha⟩

theorem spot_row {T : Trip} {cfg : UnCfg} (hc : T.Reads cfg) {root : List Json} (h : T.FitsRoot root) {s : Spot} (hs : s ∈ spots T root)
    (r : RowIn) (hr : T.ReadBack (spotLine T s) r.line) : ∃ y x, rowAlone cfg r = .ok y ∧ Labels cfg y x ∧ RowAt T s x := by
  obtain ⟨h1, h2⟩ := mem_spots.1 hs
  obtain ⟨ho, hn, hf, hrt⟩ := fitsRoot_mem h (List.mem_of_getElem? h1)
  exact (rowOfPlace hc.xml hc.types hc.conv hc.idName hc.rootId ho hf h.rootName
    (fun rid v h3 h4 => by obtain ⟨a, ha, _⟩ := hrt rid v h3 h4; exact ⟨a, ha⟩) (spot_fine h hs) (spot_line h hs) s.1 r hr).2

theorem spot_rows {T : Trip} {cfg : UnCfg} (hc : T.Reads cfg) {root : List Json} (h : T.FitsRoot root) :
    ∀ (ss : List Spot) (rs : List RowIn), (∀ s ∈ ss, s ∈ spots T root) → All₂ T.ReadBack (ss.map (spotLine T)) (rs.map (·.line)) →
    ∃ ys xs, rowsAlone cfg rs = .ok ys ∧ All₂ (Labels cfg) ys xs ∧ All₂ (RowAt T) ss xs := by
  intro ss
  induction ss with
  | nil =>
    intro rs _ hr
    cases rs with
    | nil => exact ⟨[], [], rfl, .nil, .nil⟩
    | cons r rs => cases hr
  | cons s ss ih =>
    intro rs hs hr
    cases rs with
    | nil => cases hr
    | cons r rs =>
      cases hr with
      | cons h1 h2 =>
        obtain ⟨y, x, h3, h4, h5⟩ := spot_row hc h (hs s (by simp)) r h1
        obtain ⟨ys, xs, h6, h7, h8⟩ := ih rs (fun s hm => hs s (by simp [hm])) h2
        exact ⟨y :: ys, x :: xs, by simp only [rowsAlone, h3, h6], .cons h4 h7, .cons h5 h8⟩

theorem all₂_left {α β : Type} {R : α → β → Prop} {l : List α} {m : List β} (h : All₂ R l m) : ∀ x ∈ l, ∃ y ∈ m, R x y := by
  induction h with
  | nil => intro x hx; cases hx
  | cons h1 _ ih =>
    intro x hx
    rcases List.mem_cons.1 hx with rfl | hx
    · exact ⟨_, by simp, h1⟩
    · obtain ⟨y, hy, h2⟩ := ih x hx
      exact ⟨y, by simp [hy], h2⟩

theorem all₂_right {α β : Type} {R : α → β → Prop} {l : List α} {m : List β} (h : All₂ R l m) : ∀ y ∈ m, ∃ x ∈ l, R x y := by
  induction h with
  | nil => intro x hx; cases hx
  | cons h1 _ ih =>
    intro x hx
    rcases List.mem_cons.1 hx with rfl | hx
    · exact ⟨_, by simp, h1⟩
    · obtain ⟨y, hy, h2⟩ := ih x hx
      exact ⟨y, by simp [hy], h2⟩

theorem all₂_pairwise {α β : Type} {R : α → β → Prop} {P : α → α → Prop} {Q : β → β → Prop} {l : List α} {m : List β} (h : All₂ R l m)
    (hp : l.Pairwise P) (hq : ∀ a ∈ l, ∀ b ∈ l, ∀ x y, R a x → R b y → P a b → Q x y) : m.Pairwise Q := by
  induction h with
  | nil => exact List.Pairwise.nil
  | cons h1 h2 ih =>
    rw [List.pairwise_cons] at hp ⊢
    refine ⟨?_, ih hp.2 (fun a ha b hb => hq a (by simp [ha]) b (by simp [hb]))⟩
    intro y hy
    obtain ⟨b, hb, h3⟩ := all₂_right h2 y hy
    exact hq _ (by simp) b (by simp [hb]) _ _ h1 h3 (hp.1 b hb)

/-- The run over the rows of all spots, in any order. -/
theorem spots_run {T : Trip} {cfg : UnCfg} (hc : T.Reads cfg) {root : List Json} (h : T.FitsRoot root) {ss : List Spot}
    (hss : ss.Perm (spots T root)) {rs : List RowIn} (hr : All₂ T.ReadBack (ss.map (spotLine T)) (rs.map (·.line))) :
    ∃ ys xs gs t, rowsAlone cfg rs = .ok ys ∧ foldRows cfg ys [] = .ok (gs, []) ∧ All₂ (RowAt T) ss xs ∧
      enc gs = forget t ∧ Clean t ∧ (∀ x ∈ xs, Bel x.enc.2 t) ∧
      ∀ p u, t.sub p = some u → p = [] ∧ NodeSame (.tmp [] []) u ∨ ∃ x ∈ xs, ∃ a, x.enc.2.sub p = some a ∧ NodeSame a u := by
  have hm : ∀ s ∈ ss, s ∈ spots T root := fun s hs => hss.mem_iff.1 hs
  obtain ⟨ys, xs, h1, h2, h3⟩ := spot_rows hc h ss rs hm hr
  have hfit : ∀ fs ∈ objects root, T.Object fs ∧ T.FitsFields [] fs := fun fs hf => ⟨(fitsRoot_mem h hf).1, (fitsRoot_mem h hf).2.2.1⟩
  have hpw : ss.Pairwise Other := hss.symm.pairwise (spots_other hfit) (fun h => h.symm)
  obtain ⟨gs, t, h4, h5, h6, h7, h8⟩ := run_labels h2
    (by
      intro x hx
      obtain ⟨s, hs, h4⟩ := all₂_right h3 x hx
      exact rowAt_clean h (hm s hs) h4)
    (by
      intro x hx y hy
      obtain ⟨s, hs, h4⟩ := all₂_right h3 x hx
      obtain ⟨s', hs', h4'⟩ := all₂_right h3 y hy
      exact rowAt_agr h (hm s hs) (hm s' hs') h4 h4')
    (all₂_pairwise h3 hpw (fun a ha b hb x y hx hy hab => rowAt_apart h (hm a ha) (hm b hb) hx hy hab))
  exact ⟨ys, xs, gs, t, h1, h4, h3, h5, h6, h7, h8⟩

end Verif

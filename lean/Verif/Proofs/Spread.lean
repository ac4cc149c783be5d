import Verif.Spec.Spread
import Verif.Proofs.RowFlat
import Verif.Props.Forgiving
import Verif.Props.Order
/-! The object of a row that names everything: its cells are what the row says. -/
namespace Verif
open Spec

/-- A named position as a path in a tree. -/
def pk : NamedPos → List PKey
  | [] => []
  | (k, none) :: p => .field k :: pk p
  | (k, some v) :: p => .field k :: .item v :: pk p

/-- Contents that name everything. -/
structure NC (m : Str) (f : Content) : Prop where
  good : ∀ a v, f a = some v → v.pyEq v = true ∧ ∀ g, v ≠ .geo g
  items : ∀ A k i B v, f (A ++ (k, some i) :: B) = some v → ∃ w, f (A ++ [(k, some i), (m, none)]) = some w ∧ w.hashable = true
  distinct : DistinctIds (some m) f

theorem NC.below {m : Str} {f : Content} (h : NC m f) (s : Step) : NC m (fun rest => f (s :: rest)) := by
  refine ⟨fun a v ha => h.good _ v ha, fun A k i B v ha => ?_, ?_⟩
  · exact h.items (s :: A) k i B v ha
  · intro above key i j m' a b hn hij h1 h2
    exact h.distinct (s :: above) key i j m' a b hn hij h1 h2

theorem content_obj {fs : RFields} {k : Str} {g : RFields} (h : Dict.get fs k = some (.obj g)) :
    (fun rest => content fs ((k, none) :: rest)) = content g := by
  funext rest; rw [content_cons h]; simp [ct, content]

theorem content_lad {fs : RFields} {k : Str} {is : List (Int × RFields)} {i : Int} {g : RFields} (h : Dict.get fs k = some (.lad is))
    (hi : Dict.get is i = some g) : (fun rest => content fs ((k, some i) :: rest)) = content g := by
  funext rest; rw [content_cons h]; simp [ct, content, hi]

/-- Every position with a value has a name. -/
theorem namedPos_some {m : Str} (a : Addr) : ∀ {f : Content}, NC m f → ∀ {v}, f a = some v → ∃ P, namedPos m f a = some P := by
  induction a with
  | nil => intro f _ v _; exact ⟨[], rfl⟩
  | cons s a ih =>
    intro f hf v hv
    obtain ⟨k, ix⟩ := s
    obtain ⟨P, hP⟩ := ih (hf.below (k, ix)) (v := v) hv
    cases ix with
    | none => exact ⟨(k, none) :: P, by simp [namedPos, hP]⟩
    | some i =>
      obtain ⟨w, hw, _⟩ := hf.items [] k i a v hv
      simp only [List.nil_append] at hw
      exact ⟨(k, some w) :: P, by simp [namedPos, hw, hP]⟩

/-- The cells of the tree are those of the row. -/
structure RowTree (m : Str) (g : RFields) (g' : Fields) : Prop where
  clean : Clean (.obj g')
  leafy : g ≠ [] → Leafy (.obj g')
  sound : ∀ p c, Tree.sub p (.obj g') = some (.cell c) → ∃ a P, rget g a = some c ∧ namedPos m (content g) a = some P ∧ SamePos p (pk P)
  complete : ∀ a c P, rget g a = some c → namedPos m (content g) a = some P → Tree.sub (pk P) (.obj g') = some (.cell c)

def FGood (m : Str) (g : RFields) : Prop := RFullF g → NC m (content g) → ∃ g', toTemp (some m) false g = .ok g' ∧ RowTree m g g'

def TGood (m : Str) : RTree → Prop
  | .cell _ => True
  | .obj g => FGood m g
  | .lad is => ∀ x ∈ is, FGood m x.2

theorem get_id {m : Str} {g : RFields} {w : Val} (h : content g [(m, none)] = some w) : ∃ c, Dict.get g m = some (.cell c) ∧ c.value = w := by
  unfold content at h
  rw [rget] at h
  cases hg : Dict.get g m with
  | none => rw [hg] at h; simp at h
  | some t =>
    rw [hg] at h
    cases t with
    | cell c => simp at h; exact ⟨c, rfl, h⟩
    | obj g => simp [rget] at h
    | lad is => simp at h

theorem itemKey_of {m : Str} {g : RFields} {g' : Fields} (hf : RFullF g) (h : toTemp (some m) false g = .ok g') {w : Val}
    (hw : content g [(m, none)] = some w) : itemKey (some m) false g' = .ok (some w) := by
  obtain ⟨c, hc, rfl⟩ := get_id hw
  rcases all₂_get (toTemp_all₂ hf h) m with ⟨h1, _⟩ | ⟨t, t', h1, h2, h3⟩
  · rw [h1] at hc; cases hc
  · rw [hc] at h1; cases h1
    simp only [TempOf] at h3
    subst h3
    simp [itemKey, h2]

/-- The items of an array whose items have ids. -/
theorem items_spec {m : Str} {is : List (Int × RFields)} (hne : is ≠ []) (hf : RFullI is) (hg : ∀ x ∈ is, FGood m x.2)
    (hnc : ∀ i g, Dict.get is i = some g → NC m (content g) ∧ ∃ w, content g [(m, none)] = some w ∧ w.hashable = true ∧ w.pyEq w = true)
    (hd : ∀ i j g h a b, i ≠ j → Dict.get is i = some g → Dict.get is j = some h → content g [(m, none)] = some a → content h [(m, none)] = some b →
      a.pyEq b = false) :
    ∃ is' td, toTempItems (some m) false is = .ok is' ∧ appendAll (some m) false ((sortIdx is').map (·.2)) {} = .ok td ∧
      td.rest = [] ∧ td.keyed ≠ [] ∧ KeysDistinct td.keyed ∧
      (∀ e ∈ td.keyed, ∃ i g, Dict.get is i = some g ∧ toTemp (some m) false g = .ok e.2 ∧ RowTree m g e.2 ∧ content g [(m, none)] = some e.1) ∧
      (∀ i g, Dict.get is i = some g → ∃ w g', content g [(m, none)] = some w ∧ toTemp (some m) false g = .ok g' ∧ RowTree m g g' ∧
        (w, g') ∈ td.keyed) := by
  have hnd := (rfullI_iff.1 hf).1
  have hget : ∀ x ∈ is, Dict.get is x.1 = some x.2 := fun x hx => Dict.get_of_mem hnd hx
  -- every item
  have hone : ∀ x ∈ is, ∃ g', toTemp (some m) false x.2 = .ok g' ∧ RowTree m x.2 g' := by
    intro x hx
    exact hg x hx ((rfullI_iff.1 hf).2 _ _ (hget x hx)).2 (hnc _ _ (hget x hx)).1
  have htot : ∀ l : List (Int × RFields), (∀ x ∈ l, x ∈ is) → ∃ is', toTempItems (some m) false l = .ok is' := by
    intro l
    induction l with
    | nil => intro _; exact ⟨[], by simp [toTempItems]⟩
    | cons x r ih =>
      intro hl
      obtain ⟨i, g⟩ := x
      obtain ⟨r', hr⟩ := ih (fun y hy => hl y (by simp [hy]))
      obtain ⟨g', hg', _⟩ := hone (i, g) (hl _ (by simp))
      have hgne : g.isEmpty = false := by
        have := ((rfullI_iff.1 hf).2 _ _ (hget (i, g) (hl _ (by simp)))).1
        simpa using this
      exact ⟨(i, g') :: r', by simp only [toTempItems, hgne, Bool.false_eq_true, if_false, hg', hr]⟩
  obtain ⟨is', h1⟩ := htot is (fun x hx => hx)
  have hall := toTempItems_all₂ hf h1
  have hkeys : is'.map (·.1) = is.map (·.1) := all₂_keys (R := fun a b => toTemp (some m) false a = .ok b) hall
  have hback : ∀ x ∈ sortIdx is', ∃ g, Dict.get is x.1 = some g ∧ toTemp (some m) false g = .ok x.2 := by
    intro x hx
    obtain ⟨y, hy, he, ht⟩ := all₂_mem_right hall (mem_sortIdx.1 hx)
    exact ⟨y.2, by rw [← he]; exact hget y hy, ht⟩
  have hid : ∀ x ∈ sortIdx is', ∃ g w, Dict.get is x.1 = some g ∧ toTemp (some m) false g = .ok x.2 ∧ RowTree m g x.2 ∧
      content g [(m, none)] = some w ∧ w.hashable = true ∧ itemKey (some m) false x.2 = .ok (some w) := by
    intro x hx
    obtain ⟨g, h2, h3⟩ := hback x hx
    obtain ⟨_, w, hw, hh, _⟩ := hnc _ _ h2
    obtain ⟨g', h4, h5⟩ := hone (x.1, g) (Dict.get_eq_some_mem h2)
    simp only at h4
    rw [h3] at h4; cases h4
    exact ⟨g, w, h2, h3, h5, hw, hh, itemKey_of ((rfullI_iff.1 hf).2 _ _ h2).2 h3 hw⟩
  obtain ⟨td, h2⟩ := appendAll_total (n := some m) ((sortIdx is').map (·.2)) {} (by
    intro y hy
    obtain ⟨x, hx, rfl⟩ := List.mem_map.1 hy
    obtain ⟨g, w, _, _, _, _, hh, hk⟩ := hid x hx
    exact ⟨some w, hk, fun v hv => by cases hv; exact hh⟩)
  have hik : ∀ x ∈ sortIdx is', ∃ g w, Dict.get is x.1 = some g ∧ content g [(m, none)] = some w ∧ ik (some m) x.2 = some w := by
    intro x hx
    obtain ⟨g, w, h2, _, _, hw, _, hk⟩ := hid x hx
    exact ⟨g, w, h2, hw, by simp [ik, hk]⟩
  have hasc : (sortIdx is').Pairwise (fun a b => a.1 < b.1) := sortIdx_ascending (by rw [hkeys]; exact hnd)
  have hpair : (sortIdx is').Pairwise (fun x y => ∀ a b, ik (some m) x.2 = some a → ik (some m) y.2 = some b → a.pyEq b = false) := by
    refine hasc.imp_of_mem ?_
    intro x y hx hy hlt a b ha hb
    obtain ⟨g, w, e1, e2, e3⟩ := hik x hx
    obtain ⟨g', w', f1, f2, f3⟩ := hik y hy
    rw [e3] at ha; cases ha
    rw [f3] at hb; cases hb
    exact hd x.1 y.1 g g' _ _ (by omega) e1 f1 e2 f2
  obtain ⟨k1, k2, _⟩ := appendAll_distinct _ h2 (by rw [List.pairwise_map]; exact hpair) (by simp [keyGet])
  simp only [List.nil_append] at k1 k2
  have hmem : ∀ e, e ∈ td.keyed ↔ ∃ x ∈ sortIdx is', ik (some m) x.2 = some e.1 ∧ x.2 = e.2 := by
    intro e
    rw [k1, List.mem_filterMap]
    constructor
    · rintro ⟨y, hy, he⟩
      obtain ⟨x, hx, rfl⟩ := List.mem_map.1 hy
      obtain ⟨k, hk, rfl⟩ := Option.map_eq_some_iff.1 he
      exact ⟨x, hx, hk, rfl⟩
    · rintro ⟨x, hx, hk, he⟩
      exact ⟨x.2, List.mem_map_of_mem hx, by rw [hk, he]; rfl⟩
  have hfrom : ∀ e ∈ td.keyed, ∃ i g, Dict.get is i = some g ∧ toTemp (some m) false g = .ok e.2 ∧ RowTree m g e.2 ∧ content g [(m, none)] = some e.1 := by
    intro e he
    obtain ⟨x, hx, hk, hxe⟩ := (hmem e).1 he
    obtain ⟨g, w, e1, e2, e3, e4, _, e5⟩ := hid x hx
    rw [show ik (some m) x.2 = some w by simp [ik, e5]] at hk
    cases hk
    exact ⟨x.1, g, e1, hxe ▸ e2, hxe ▸ e3, e4⟩
  have hto : ∀ i g, Dict.get is i = some g → ∃ w g', content g [(m, none)] = some w ∧ toTemp (some m) false g = .ok g' ∧ RowTree m g g' ∧
      (w, g') ∈ td.keyed := by
    intro i g hi
    have : i ∈ is'.map (·.1) := by rw [hkeys]; exact Dict.get_isSome_iff.1 (by rw [hi]; rfl)
    obtain ⟨x, hx, rfl⟩ := List.mem_map.1 this
    have hx := mem_sortIdx.2 hx
    obtain ⟨g2, w, e1, e2, e3, e4, _, e5⟩ := hid x hx
    rw [hi] at e1; cases e1
    exact ⟨w, x.2, e4, e2, e3, (hmem _).2 ⟨x, hx, by simp [ik, e5], rfl⟩⟩
  refine ⟨is', td, h1, h2, ?_, ?_, ?_, hfrom, hto⟩
  · rw [k2, List.filter_eq_nil_iff]
    intro y hy
    obtain ⟨x, hx, rfl⟩ := List.mem_map.1 hy
    obtain ⟨g, w, _, _, h⟩ := hik x hx
    simp [h]
  · obtain ⟨⟨i, g⟩, r, rfl⟩ : ∃ e r, is = e :: r := by cases is with | nil => exact absurd rfl hne | cons e r => exact ⟨e, r, rfl⟩
    obtain ⟨w, g', _, _, _, h⟩ := hto i g (by simp [Dict.get_cons])
    exact List.ne_nil_of_mem h
  · unfold KeysDistinct
    rw [k1]
    have : ((sortIdx is').map (·.2)).Pairwise (fun x y => ∀ a b, ik (some m) x = some a → ik (some m) y = some b → a.pyEq b = false) := by
      rw [List.pairwise_map]; exact hpair
    rw [List.pairwise_filterMap]
    refine this.imp ?_
    intro x y hxy a ha b hb
    obtain ⟨k, hk, rfl⟩ := Option.map_eq_some_iff.1 ha
    obtain ⟨k', hk', rfl⟩ := Option.map_eq_some_iff.1 hb
    simp [hxy k k' hk hk']

/-- What the value of a field becomes. -/
theorem nc_items {m : Str} {fs : RFields} (h : NC m (content fs)) (hf : RFullF fs) {k : Str} {is : List (Int × RFields)} (hk : Dict.get fs k = some (.lad is)) :
    (∀ i g, Dict.get is i = some g → NC m (content g) ∧ ∃ w, content g [(m, none)] = some w ∧ w.hashable = true ∧ w.pyEq w = true) ∧
    (∀ i j g h a b, i ≠ j → Dict.get is i = some g → Dict.get is j = some h → content g [(m, none)] = some a → content h [(m, none)] = some b →
      a.pyEq b = false) := by
  have hfi := (rfullF_iff.1 hf).2 _ _ hk
  constructor
  · intro i g hi
    have hb := h.below (k, some i)
    rw [content_lad hk hi] at hb
    refine ⟨hb, ?_⟩
    obtain ⟨hne, hfg⟩ := (rfullI_iff.1 hfi.2).2 _ _ hi
    obtain ⟨a, c, hc⟩ := exists_rget hfg hne
    have hv : content fs ((k, some i) :: a) = some c.value := by
      have := congrFun (content_lad hk hi) a
      rw [this]; simp [content, hc]
    obtain ⟨w, hw, hh⟩ := h.items [] k i a c.value hv
    simp only [List.nil_append] at hw
    have hw' : content g [(m, none)] = some w := by rw [← hw]; exact (congrFun (content_lad hk hi) [(m, none)]).symm
    exact ⟨w, hw', hh, (hb.good _ _ hw').1⟩
  · intro i j g g' a b hij hi hj ha hb
    refine h.distinct [] k i j m a b rfl hij ?_ ?_
    · rw [← ha]; exact congrFun (content_lad hk hi) [(m, none)]
    · rw [← hb]; exact congrFun (content_lad hk hj) [(m, none)]

theorem toTemp_good {m : Str} {fs : RFields} (hM : ∀ e ∈ fs, TGood m e.2) (hf : RFullF fs) (h : NC m (content fs)) :
    ∃ fs', toTemp (some m) false fs = .ok fs' := by
  have hget : ∀ e ∈ fs, Dict.get fs e.1 = some e.2 := fun e he => Dict.get_of_mem (rfullF_iff.1 hf).1 he
  have key : ∀ l : RFields, (∀ e ∈ l, e ∈ fs) → ∃ l', toTemp (some m) false l = .ok l' := by
    intro l
    induction l with
    | nil => intro _; exact ⟨[], by simp [toTemp]⟩
    | cons e r ih =>
      intro hl
      obtain ⟨k, t⟩ := e
      obtain ⟨r', hr⟩ := ih (fun y hy => hl y (by simp [hy]))
      have hk := hget (k, t) (hl _ (by simp))
      have hM := hM (k, t) (hl _ (by simp))
      have hft := (rfullF_iff.1 hf).2 _ _ hk
      cases t with
      | cell c => exact ⟨(k, .cell c) :: r', by simp [toTemp, hr]⟩
      | obj g =>
        obtain ⟨hgne, hfg⟩ := hft
        have he : g.isEmpty = false := by simpa using hgne
        have hb := h.below (k, none)
        rw [content_obj hk] at hb
        obtain ⟨g', hg', _⟩ := hM hfg hb
        exact ⟨(k, .obj g') :: r', by simp only [toTemp, he, Bool.false_eq_true, if_false, hg', hr]⟩
      | lad is =>
        obtain ⟨h1, h2⟩ := nc_items h hf hk
        obtain ⟨is', td, e1, e2, _⟩ := items_spec hft.1 hft.2 hM h1 h2
        exact ⟨(k, .tmp td.keyed td.rest) :: r', by simp only [toTemp, e1, e2, hr]⟩
  exact key fs (fun e he => he)

theorem samePos_refl_field (k : Str) : PKey.same (.field k) (.field k) := rfl

theorem fgood_of {m : Str} {fs : RFields} (hM : ∀ e ∈ fs, TGood m e.2) : FGood m fs := by
  intro hf h
  obtain ⟨fs', hfs'⟩ := toTemp_good hM hf h
  refine ⟨fs', hfs', ?_⟩
  have hall := toTemp_all₂ hf hfs'
  have hkeys : Dict.keys fs' = Dict.keys fs := all₂_keys (R := TempOf (some m)) hall
  -- what is under each key
  have hcase : ∀ k t', Dict.get fs' k = some t' →
      (∃ c, Dict.get fs k = some (.cell c) ∧ t' = .cell c) ∨
      (∃ g g', Dict.get fs k = some (.obj g) ∧ t' = .obj g' ∧ RowTree m g g' ∧ g ≠ []) ∨
      (∃ is ks, Dict.get fs k = some (.lad is) ∧ t' = .tmp ks [] ∧ ks ≠ [] ∧ KeysDistinct ks ∧
        (∀ e ∈ ks, ∃ i g, Dict.get is i = some g ∧ RowTree m g e.2 ∧ g ≠ [] ∧ content g [(m, none)] = some e.1 ∧ e.1.pyEq e.1 = true) ∧
        (∀ i g, Dict.get is i = some g → ∃ w g', content g [(m, none)] = some w ∧ w.pyEq w = true ∧ RowTree m g g' ∧ (w, g') ∈ ks)) := by
    intro k t' ht'
    rcases all₂_get hall k with ⟨_, h2⟩ | ⟨t, t2, h1, h2, h3⟩
    · rw [h2] at ht'; cases ht'
    · rw [h2] at ht'; cases ht'
      have hft := (rfullF_iff.1 hf).2 _ _ h1
      have hMt := hM (k, t) (Dict.get_eq_some_mem h1)
      cases t with
      | cell c => exact Or.inl ⟨c, h1, h3⟩
      | obj g =>
        obtain ⟨g', rfl, hg'⟩ := h3
        have hb := h.below (k, none)
        rw [content_obj h1] at hb
        obtain ⟨g2, e1, e2⟩ := hMt hft.2 hb
        rw [hg'] at e1; cases e1
        exact Or.inr (Or.inl ⟨g, g', h1, rfl, e2, hft.1⟩)
      | lad is =>
        obtain ⟨is', td, rfl, a1, a2⟩ := h3
        obtain ⟨n1, n2⟩ := nc_items h hf h1
        obtain ⟨is2, td2, e1, e2, e3, e4, e5, e6, e7⟩ := items_spec hft.1 hft.2 hMt n1 n2
        rw [a1] at e1; cases e1
        rw [a2] at e2; cases e2
        refine Or.inr (Or.inr ⟨is, td.keyed, h1, by rw [e3], e4, e5, ?_, ?_⟩)
        · intro e he
          obtain ⟨i, g, b1, _, b3, b4⟩ := e6 e he
          obtain ⟨_, w, b5, _, b6⟩ := n1 i g b1
          rw [b4] at b5; cases b5
          exact ⟨i, g, b1, b3, ((rfullI_iff.1 hft.2).2 _ _ b1).1, b4, b6⟩
        · intro i g hi
          obtain ⟨w, g', b1, _, b3, b4⟩ := e7 i g hi
          obtain ⟨_, w', b5, _, b6⟩ := n1 i g hi
          rw [b1] at b5; cases b5
          exact ⟨w, g', b1, b6, b3, b4⟩
  have hgood : ∀ k c, Dict.get fs k = some (.cell c) → c.value.pyEq c.value = true ∧ ∀ g, c.value ≠ .geo g := by
    intro k c hc
    exact h.good [(k, none)] c.value (by simp [content, rget, hc])
  have hclean : ∀ k t', Dict.get fs' k = some t' → Clean t' := by
    intro k t' ht'
    rcases hcase k t' ht' with ⟨c, h1, rfl⟩ | ⟨g, g', h1, rfl, h2, _⟩ | ⟨is, ks, h1, rfl, _, h3, h4, _⟩
    · exact clean_cell (hgood k c h1).1 (hgood k c h1).2
    · exact h2.clean
    · refine clean_tmp_of h3 (fun e he => ?_) (fun e he => ?_)
      · obtain ⟨_, _, _, _, _, _, h⟩ := h4 e he; exact h
      · obtain ⟨_, _, _, h, _⟩ := h4 e he; exact h.clean
  have hleafy : ∀ k t', Dict.get fs' k = some t' → Leafy t' := by
    intro k t' ht'
    rcases hcase k t' ht' with ⟨c, h1, rfl⟩ | ⟨g, g', h1, rfl, h2, h3⟩ | ⟨is, ks, h1, rfl, h2, h3, h4, _⟩
    · exact leafy_cell c
    · exact h2.leafy h3
    · refine leafy_tmp h2 (fun e he => ?_) (fun e he => ?_)
      · obtain ⟨_, _, _, _, _, _, h⟩ := h4 e he; exact h
      · obtain ⟨_, _, _, h, hne, _⟩ := h4 e he; exact h.leafy hne
  have hnd : (Dict.keys fs').Nodup := by rw [hkeys]; exact (rfullF_iff.1 hf).1
  refine ⟨clean_obj_of hnd hclean, ?_, ?_, ?_⟩
  · intro hne
    refine leafy_obj ?_ (fun e he => hleafy e.1 e.2 (Dict.get_of_mem hnd he))
    intro e
    apply hne
    rw [e] at hkeys
    simpa [Dict.keys] using hkeys.symm
  · intro p c hp
    cases p with
    | nil => simp [Tree.sub] at hp
    | cons s p =>
      cases s with
      | item v => simp [Tree.sub] at hp
      | field k =>
        simp only [Tree.sub] at hp
        cases hk : Dict.get fs' k with
        | none => rw [hk] at hp; simp at hp
        | some t' =>
          rw [hk] at hp
          simp only [Option.bind_some] at hp
          rcases hcase k t' hk with ⟨d, h1, rfl⟩ | ⟨g, g', h1, rfl, h2, h3⟩ | ⟨is, ks, h1, rfl, h2, h3, h4, _⟩
          · obtain ⟨rfl, he⟩ := sub_cell d hp
            cases he
            exact ⟨[(k, none)], [(k, none)], by simp [rget, h1], by simp [namedPos], .cons rfl .nil⟩
          · obtain ⟨a, P, a1, a2, a3⟩ := h2.sound p c hp
            refine ⟨(k, none) :: a, (k, none) :: P, by simp [rget, h1, a1], ?_, .cons rfl a3⟩
            rw [namedPos, content_obj h1, a2]; rfl
          · cases p with
            | nil => simp [Tree.sub] at hp
            | cons s p =>
              cases s with
              | field k => simp [Tree.sub] at hp
              | item v =>
                simp only [Tree.sub] at hp
                cases hv : keyGet ks v with
                | none => rw [hv] at hp; simp at hp
                | some x =>
                  rw [hv] at hp
                  simp only [Option.bind_some] at hp
                  obtain ⟨w, hw, hwv⟩ := keyGet_some_mem hv
                  obtain ⟨i, g, b1, b2, b3, b4, b5⟩ := h4 _ hw
                  obtain ⟨a, P, a1, a2, a3⟩ := b2.sound p c hp
                  refine ⟨(k, some i) :: a, (k, some w) :: P, by simp [rget, h1, b1, a1], ?_, .cons rfl (.cons (Val.pyEq_symm hwv) a3)⟩
                  have := congrFun (content_lad h1 b1) [(m, none)]
                  rw [namedPos, this, b4, content_lad h1 b1]
                  simp [a2]
  · intro a c P ha hP
    cases a with
    | nil => simp [rget] at ha
    | cons s a =>
      obtain ⟨k, ix⟩ := s
      rw [rget] at ha
      have hk' : ∀ t, Dict.get fs k = some t → ∃ t', Dict.get fs' k = some t' := by
        intro t ht
        rcases all₂_get hall k with ⟨h1, _⟩ | ⟨_, t2, _, h2, _⟩
        · rw [h1] at ht; cases ht
        · exact ⟨t2, h2⟩
      cases ht : Dict.get fs k with
      | none => rw [ht] at ha; simp at ha
      | some t =>
        obtain ⟨t', ht'⟩ := hk' t ht
        rw [ht] at ha
        rcases hcase k t' ht' with ⟨d, h1, rfl⟩ | ⟨g, g', h1, rfl, h2, h3⟩ | ⟨is, ks, h1, rfl, h2, h3, h4, h5⟩
        · rw [ht] at h1; cases h1
          simp only at ha
          split at ha
          · next hh =>
            obtain ⟨rfl, rfl⟩ := hh
            cases ha
            simp only [namedPos, Option.map_some, Option.some.injEq] at hP
            subst hP
            simp [pk, Tree.sub, ht']
          · cases ha
        · rw [ht] at h1; cases h1
          simp only at ha
          split at ha
          · next hh =>
            subst hh
            rw [namedPos, content_obj ht] at hP
            obtain ⟨Q, hQ, rfl⟩ := Option.map_eq_some_iff.1 hP
            have := h2.complete a c Q ha hQ
            simp [pk, Tree.sub, ht', this]
          · cases ha
        · rw [ht] at h1; cases h1
          cases ix with
          | none => simp at ha
          | some i =>
            simp only at ha
            cases hi : Dict.get is i with
            | none => rw [hi] at ha; simp at ha
            | some g =>
              rw [hi] at ha
              simp only at ha
              obtain ⟨w, g', b1, b2, b3, b4⟩ := h5 i g hi
              have hw := congrFun (content_lad ht hi) [(m, none)]
              rw [namedPos, hw, b1, content_lad ht hi] at hP
              obtain ⟨Q, hQ, rfl⟩ := Option.map_eq_some_iff.1 hP
              have := b3.complete a c Q ha hQ
              simp [pk, Tree.sub, ht', keyGet_of_mem h3 b4 b2, this]

theorem tgood (m : Str) (t : RTree) : TGood m t := by
  induction t using RTree.ind with
  | cell c => trivial
  | obj g ih => exact fgood_of ih
  | lad is ih => exact fun x hx => fgood_of (ih x hx)

theorem fgood (m : Str) (g : RFields) : FGood m g := fgood_of (fun e _ => tgood m e.2)

end Verif

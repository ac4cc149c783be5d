import Verif.Proofs.Unnamed
import Verif.Proofs.TripRun
import Verif.Props.Order
/-! C06 for rows and array items without ids. -/
namespace Verif
open Spec

/-! ### Rows whose values equal themselves -/

theorem selfEqual_iff {fs : List (Str × CTree)} : SelfEqualFields fs ↔ ∀ e ∈ fs, SelfEqual e.2 := by
  induction fs with
  | nil => simp [SelfEqualFields]
  | cons e r ih => obtain ⟨k, t⟩ := e; simp [SelfEqualFields, ih]

theorem selfEqualItems_iff {is : List (List (Str × CTree))} : SelfEqualItems is ↔ ∀ x ∈ is, SelfEqualFields x := by
  induction is with
  | nil => simp [SelfEqualItems]
  | cons e r ih => simp [SelfEqualItems, ih]

theorem cellId_self {n : Option Str} {xml : Bool} {fs : List (Str × CTree)} {k : Val} (h : cellId n xml fs = some k)
    (hi : SelfEqualFields fs) : k.pyEq k = true := by
  unfold cellId at h
  split at h
  · cases h
  · next m =>
    split at h
    · next c hc => cases h; have := selfEqual_iff.1 hi _ (Dict.get_eq_some_mem hc); simp only [SelfEqual] at this; exact this.1
    · next gs hg =>
      split at h
      · split at h
        · next c hc =>
          cases h
          have := selfEqual_iff.1 hi _ (Dict.get_eq_some_mem hg)
          simp only [SelfEqual] at this
          have := selfEqual_iff.1 this _ (Dict.get_eq_some_mem hc)
          simp only [SelfEqual] at this; exact this.1
        · cases h
      · cases h
    · cases h

theorem selfT_of {n : Option Str} {xml : Bool} (t : Tree) : WFTree n xml t → SelfEqual (treeToLists t) → SelfT t := by
  have fields : ∀ fs : Fields, (∀ e ∈ fs, WFTree n xml e.2 → SelfEqual (treeToLists e.2) → SelfT e.2) →
      WFFields n xml fs → SelfEqualFields (toLists fs) → SelfF fs := by
    intro fs ih hw hi
    rw [selfF_iff]
    intro e he
    obtain ⟨h1, h2⟩ := wfFields_iff.1 hw
    refine ih e he (h2 _ _ (Dict.get_of_mem h1 he)) ?_
    exact selfEqual_iff.1 hi (e.1, treeToLists e.2) (by rw [toLists_eq]; exact List.mem_map.2 ⟨e, he, rfl⟩)
  induction t using Tree.ind with
  | cell c => intro _ h; simpa [treeToLists, SelfEqual, SelfT] using h
  | obj fs ih =>
    intro hw h
    simp only [treeToLists, SelfEqual, SelfT, WFTree] at hw h ⊢
    exact fields fs ih hw h
  | tmp ks rs ih ih' =>
    intro hw h
    simp only [treeToLists, SelfEqual, SelfT, WFTree] at hw h ⊢
    rw [selfEqualItems_iff] at h
    refine ⟨selfK_iff.2 ?_, selfI_iff.2 ?_⟩
    · intro x hx
      have hh := h (toLists x.2) (by rw [keyedToLists_eq]; exact List.mem_append_left _ (List.mem_map.2 ⟨x, hx, rfl⟩))
      obtain ⟨⟨_, v, hv, hs⟩, hwf⟩ := wfKeyed_iff.1 hw.2.1 x hx
      have hvv := cellId_self (cellId_toLists hv) hh
      refine ⟨?_, fields x.2 (ih x hx) hwf hh⟩
      rcases hs with hs | hs
      · rw [hs]; exact hvv
      · exact Val.pyEq_left hs
    · intro y hy
      have hh := h (toLists y) (by rw [itemsToLists_eq]; exact List.mem_append_right _ (List.mem_map.2 ⟨y, hy, rfl⟩))
      exact fields y (ih' y hy) (wfItems_iff.1 hw.2.2 y hy).2 hh

/-! ### Labelled rows -/

/-- The row with labels; `i` is its number. -/
def lrow (cfg : UnCfg) (i : Nat) (x : Row) : LRow := ⟨x.sheet, x.root, (keyOf cfg x).getD (mark i 0), markF i x.fields⟩

/-- A row that can be labelled. -/
structure Markable (cfg : UnCfg) (x : Row) : Prop where
  wf : WFFields cfg.idName cfg.row.xml x.fields
  self : SelfF x.fields
  root : x.root.pyEq x.root = true
  hash : x.root.hashable = true
  key : rowKey cfg.idName cfg.row.xml x.fields = .ok (keyOf cfg x)
  id : ∀ k, keyOf cfg x = some k → k.hashable = true ∧ k.pyEq k = true

theorem good_of_row {cfg : UnCfg} {r : RowIn} {x : Row} (hc : Counts r) (hx : rowAlone cfg r = .ok x)
    (hk : ∃ td td' w, addToGroup cfg x.sheet x.fields td = .ok (td', w)) (hi : Comparable cfg r) : Markable cfg x := by
  obtain ⟨w, hw⟩ := alone_run hc hx hk
  have h2 := hi.2 _ w hw
  have hwf := rowAlone_wf hx
  have hs : SelfF x.fields := by
    have := selfT_of (n := cfg.idName) (xml := cfg.row.xml) (.obj x.fields) (by simpa [WFTree] using hwf) (by simpa [treeToLists, SelfEqual] using h2)
    simpa [SelfT] using this
  obtain ⟨td, td', w, h⟩ := hk
  refine ⟨hwf, hs, by rw [rowAlone_root hx]; exact hi.1, by rw [rowAlone_root hx]; rfl, ?_, ?_⟩
  · rcases addToGroup_cases h with ⟨hk, -, -, hrk⟩ | ⟨k, hk, hh, hrk, -⟩
    · rw [hk, hrk]
    · rw [hk, hrk]
  · intro k hk'
    rcases addToGroup_cases h with ⟨hk, -, -, hrk⟩ | ⟨k, hk, hh, hrk, -⟩
    · rw [hk] at hk'; cases hk'
    · rw [hk] at hk'; cases hk'
      exact ⟨hh, cellId_self (cellId_toLists (rowKey_ok hrk)) h2⟩

theorem Markable.labels {cfg : UnCfg} {x : Row} (h : Markable cfg x) (i : Nat) : Labels cfg x (lrow cfg i x) := by
  refine ⟨rfl, rfl, h.hash, ?_, ?_⟩
  · have := forget_mark (n := cfg.idName) (xml := cfg.row.xml) i (.obj x.fields) (by simpa [WFTree] using h.wf)
    simp only [markT, forget, Tree.obj.injEq] at this
    exact this.symm
  · rw [h.key]
    cases hk : keyOf cfg x with
    | none => simp [lrow, hk, mark_hashable]
    | some k => simp [lrow, hk, (h.id k hk).1]

theorem Markable.label_self {cfg : UnCfg} {x : Row} (h : Markable cfg x) (i : Nat) : (lrow cfg i x).label.pyEq (lrow cfg i x).label = true := by
  cases hk : keyOf cfg x with
  | none => simp only [lrow, hk, Option.getD_none]; exact mark_pyEq.2 ⟨rfl, rfl⟩
  | some k => simp only [lrow, hk, Option.getD_some]; exact (h.id k hk).2

theorem Markable.clean {cfg : UnCfg} {x : Row} (h : Markable cfg x) (i : Nat) : Clean (lrow cfg i x).enc.2 := by
  refine clean_encRow h.root (h.label_self i) ?_
  intro p u hu
  exact clean_mark (n := cfg.idName) (xml := cfg.row.xml) i p (.obj x.fields) u (by simpa [WFTree] using h.wf) (by simpa [SelfT] using h.self)
    (by simpa [markT, lrow] using hu)

theorem Markable.label_eq {cfg : UnCfg} {x y : Row} (h : Markable cfg x) (h' : Markable cfg y) {i j : Nat} (hij : i ≠ j)
    (he : (lrow cfg i x).label.pyEq (lrow cfg j y).label = true) :
    ∃ a b, keyOf cfg x = some a ∧ keyOf cfg y = some b ∧ a.pyEq b = true := by
  simp only [lrow] at he
  cases hk : keyOf cfg x with
  | none =>
    cases hk' : keyOf cfg y with
    | none => rw [hk, hk'] at he; exact absurd (mark_pyEq.1 he).1 hij
    | some b =>
      rw [hk, hk'] at he
      have := Val.hashable_congr he
      simp only [Option.getD_none, Option.getD_some, mark_hashable, (h'.id b hk').1] at this
      cases this
  | some a =>
    cases hk' : keyOf cfg y with
    | none =>
      rw [hk, hk'] at he
      have := Val.hashable_congr he
      simp only [Option.getD_none, Option.getD_some, mark_hashable, (h.id a hk).1] at this
      cases this
    | some b => rw [hk, hk'] at he; exact ⟨a, b, rfl, rfl, he⟩

theorem Markable.agr {cfg : UnCfg} {x y : Row} (h : Markable cfg x) (h' : Markable cfg y) {i j : Nat} (hij : i ≠ j)
    (ha : x.root.pyEq y.root = true → ∀ a b, keyOf cfg x = some a → keyOf cfg y = some b → a.pyEq b = true → Agr (.obj x.fields) (.obj y.fields)) :
    Agr (lrow cfg i x).enc.2 (lrow cfg j y).enc.2 := by
  refine agr_encRow (fun h1 h2 => ?_)
  obtain ⟨a, b, h3, h4, h5⟩ := h.label_eq h' hij h2
  intro p u v hu hv
  exact agr_mark (n := cfg.idName) (xml := cfg.row.xml) hij p (.obj x.fields) (.obj y.fields) u v (by simpa [WFTree] using h.wf) (by simpa [WFTree] using h'.wf)
    (ha h1 a b h3 h4 h5) (by simpa [markT, lrow] using hu) (by simpa [markT, lrow] using hv)

theorem Markable.apart {cfg : UnCfg} {x y : Row} (h : Markable cfg x) (h' : Markable cfg y) {i j : Nat} (hij : i ≠ j) :
    Apart (lrow cfg i x).enc.2 (lrow cfg j y).enc.2 := by
  intro p k a b hk ha hb
  rcases encRow_item ha with ⟨rfl, h1⟩ | ⟨v, rfl, h1, h2⟩ | ⟨v, w, p', rfl, h1, h2, h3⟩
  · have := Val.hashable_congr h1
    rw [hk] at this
    simp only [lrow, h.hash] at this
    cases this
  · rcases encRow_item hb with ⟨e, -⟩ | ⟨v', e, g1, g2⟩ | ⟨v', w, p', e, -⟩
    · cases e
    · cases e
      obtain ⟨c, d, h3, h4, h5⟩ := h.label_eq h' hij (Val.pyEq_trans h2 (Val.pyEq_symm g2))
      have := Val.hashable_congr h2
      simp only [lrow, h3, Option.getD_some, (h.id c h3).1, hk] at this
      cases this
    · cases e
  · rcases encRow_item hb with ⟨e, -⟩ | ⟨v', e, g1, g2⟩ | ⟨v', w', p'', e, g1, g2, g3⟩
    · cases e
    · cases e
    · cases e
      exact apart_mark (n := cfg.idName) (xml := cfg.row.xml) hij p' (.obj x.fields) (.obj y.fields) (by simpa [WFTree] using h.wf) (by simpa [WFTree] using h'.wf)
        k a b hk (by simpa [markT, lrow] using h3) (by simpa [markT, lrow] using g3)

/-! ### The same row elsewhere -/

/-- The rows have the same content. -/
structure Twin (cfg : UnCfg) (x x' : Row) : Prop where
  root : x'.root = x.root
  fields : tlF noLoc x'.fields = tlF noLoc x.fields
  key : rowKey cfg.idName cfg.row.xml x'.fields = rowKey cfg.idName cfg.row.xml x.fields

theorem Twin.keyOf {cfg : UnCfg} {x x' : Row} (h : Twin cfg x x') : keyOf cfg x' = keyOf cfg x := by
  unfold Verif.keyOf; rw [h.key]

theorem Twin.tl {cfg : UnCfg} {x x' : Row} (h : Twin cfg x x') (i : Nat) : Verif.tl noLoc (lrow cfg i x').enc.2 = Verif.tl noLoc (lrow cfg i x).enc.2 := by
  have e := tl_mark noLoc i (.obj x.fields)
  have e' := tl_mark noLoc i (.obj x'.fields)
  simp only [markT, Verif.tl, h.fields, Tree.obj.injEq] at e e'
  simp only [LRow.enc, lrow, encRow, Verif.tl, tlK, tlF, tlI, h.keyOf, h.root, e, e']

theorem agr_below {a b a' b' : Tree} (h : Agr a b) (h1 : Bel a' a) (h2 : Bel b' b) : Agr a' b' := by
  intro p u v hu hv
  obtain ⟨u', hu', e1⟩ := h1 p u hu
  obtain ⟨v', hv', e2⟩ := h2 p v hv
  exact e1.trans ((h p u' v' hu' hv').trans e2.symm)

theorem apart_below {a b a' b' : Tree} (h : Apart a b) (h1 : Bel a' a) (h2 : Bel b' b) : Apart a' b' := by
  intro p k u v hk hu hv
  obtain ⟨u', hu', _⟩ := h1 _ u hu
  obtain ⟨v', hv', _⟩ := h2 _ v hv
  exact h p k u' v' hk hu' hv'

theorem NodeSame.nodeEq {a u b : Tree} (h : NodeSame a u) (h' : NodeEq a b) : NodeEq u b := by
  cases a <;> cases u <;> cases b <;> simp_all [NodeSame, NodeEq]

theorem all₂_map {α β γ : Type} {R : β → γ → Prop} {f : α → β} {g : α → γ} {l : List α} (h : ∀ a ∈ l, R (f a) (g a)) : All₂ R (l.map f) (l.map g) := by
  induction l with
  | nil => exact .nil
  | cons a r ih => exact .cons (h a (by simp)) (ih (fun x hx => h x (by simp [hx])))

/-- C06, with the warnings about headings as the model collects them. -/
theorem any_order_without_ids_core (cfg : UnCfg) (sheets sheets' : List SheetIn) (out : List (List (Str × CTree))) (w : List Warn)
    (h : doUnflatten cfg sheets = .ok (out, w))
    (hv : ∀ r ∈ rowsIn sheets, Comparable cfg r) (hcon : Consistent cfg (rowsIn sheets))
    (hl : ((rowsIn sheets').map (·.line)).Perm ((rowsIn sheets).map (·.line))) :
    ∃ out' w' objs, doUnflatten cfg sheets' = .ok (out', w') ∧ SameObjects out objs ∧ objs.Perm out' ∧
      ∀ x ∈ w', x ∈ dupWarns sheets' ∨ ∃ r ∈ rowsIn sheets', ∃ o wr, doUnflatten cfg [alone r] = .ok (o, wr) ∧ x ∈ wr := by
  obtain ⟨rows, gs, mw, e1, e2, rfl, wf, hwarn⟩ := doUnflatten_ok h
  obtain ⟨ps, p1, p2, p3⟩ := rowsAlone_pairs e1
  -- number the rows
  let P : List ((RowIn × Row) × Nat) := ps.zipIdx
  have hPfst : P.map (·.1) = ps := by simp only [P]; exact List.zipIdx_map_fst 0 ps
  have hPn : (P.map (·.2)).Nodup := by
    simp only [P, List.zipIdx_map_snd]
    exact List.nodup_range'
  have hPmem : ∀ q ∈ P, q.1 ∈ ps := fun q hq => hPfst ▸ List.mem_map_of_mem hq
  have hrow : ∀ q ∈ P, q.1.1 ∈ rowsIn sheets ∧ rowAlone cfg q.1.1 = .ok q.1.2 ∧ q.1.2 ∈ rows := by
    intro q hq
    have hm := hPmem q hq
    exact ⟨by rw [← p1]; exact List.mem_map_of_mem hm, p3 _ hm, by rw [← p2]; exact List.mem_map_of_mem hm⟩
  have hgood : ∀ q ∈ P, Markable cfg q.1.2 := by
    intro q hq
    obtain ⟨h1, h2, h3⟩ := hrow q hq
    exact good_of_row (counts_rowsIn h1) h2 (foldRows_each e2 _ h3) (hv _ h1)
  have huniq : ∀ q ∈ P, ∀ q' ∈ P, q.2 = q'.2 → q = q' := by
    intro q hq q' hq' e
    rcases q with ⟨a, i⟩
    rcases q' with ⟨b, j⟩
    simp only at e
    subst e
    have h1 := List.mem_zipIdx hq
    have h2 := List.mem_zipIdx hq'
    rw [h1.2.2, h2.2.2]
  have hclean : ∀ q ∈ P, Clean (lrow cfg q.2 q.1.2).enc.2 := fun q hq => (hgood q hq).clean q.2
  have hagr : ∀ q ∈ P, ∀ q' ∈ P, Agr (lrow cfg q.2 q.1.2).enc.2 (lrow cfg q'.2 q'.1.2).enc.2 := by
    intro q hq q' hq'
    by_cases hij : q.2 = q'.2
    · have := huniq q hq q' hq' hij
      subst this
      exact agr_of_bel (bel_refl (hclean q hq)) (bel_refl (hclean q hq))
    · refine (hgood q hq).agr (hgood q' hq') hij ?_
      intro hr a b ha hb hab
      obtain ⟨h1, h2, h3⟩ := hrow q hq
      obtain ⟨g1, g2, g3⟩ := hrow q' hq'
      obtain ⟨w1, hw1⟩ := alone_run (counts_rowsIn h1) h2 (foldRows_each e2 _ h3)
      obtain ⟨w2, hw2⟩ := alone_run (counts_rowsIn g1) g2 (foldRows_each e2 _ g3)
      have hr' : sameRoot cfg q.1.1 q'.1.1 = true := by
        rw [rowAlone_root h2, rowAlone_root g2] at hr
        exact hr
      have hk := (hgood q hq).key
      have hk' := (hgood q' hq').key
      rw [ha] at hk; rw [hb] at hk'
      have hA := agreeItems_iff.1 (hcon _ h1 _ g1 hr' _ _ _ _ hw1 hw2) _ (by simp) _ (by simp) a b (cellId_toLists (rowKey_ok hk)) (cellId_toLists (rowKey_ok hk')) hab
      intro p u v hu hv'
      refine agr_of_agree (n := cfg.idName) (xml := cfg.row.xml) p (.obj q.1.2.fields) (.obj q'.1.2.fields) u v ?_ ?_ ?_ hu hv'
      · simpa [WFTree] using (hgood q hq).wf
      · simpa [WFTree] using (hgood q' hq').wf
      · simpa [Agree, treeToLists] using hA
  have hapart : ∀ q ∈ P, ∀ q' ∈ P, q.2 ≠ q'.2 → Apart (lrow cfg q.2 q.1.2).enc.2 (lrow cfg q'.2 q'.1.2).enc.2 :=
    fun q hq q' hq' hij => (hgood q hq).apart (hgood q' hq') hij
  -- the first run
  have hrowsP : rows = P.map (·.1.2) := by rw [← p2, ← hPfst, List.map_map]; rfl
  obtain ⟨gs1, t, u1, u2, u3, u4, u5⟩ := run_labels (cfg := cfg) (ys := rows) (xs := P.map (fun q => lrow cfg q.2 q.1.2))
    (by rw [hrowsP]; exact all₂_map (fun q hq => (hgood q hq).labels q.2))
    (by intro x hx; obtain ⟨q, hq, rfl⟩ := List.mem_map.1 hx; exact hclean q hq)
    (by
      intro x hx y hy
      obtain ⟨q, hq, rfl⟩ := List.mem_map.1 hx
      obtain ⟨q', hq', rfl⟩ := List.mem_map.1 hy
      exact hagr q hq q' hq')
    (by
      refine List.pairwise_map.2 ?_
      refine ((List.pairwise_map.1 (List.nodup_iff_pairwise_ne.1 hPn)).imp_of_mem ?_)
      intro q q' hq hq' hne
      exact hapart q hq q' hq' hne)
  rw [u1] at e2
  cases e2
  -- the rows of the other sheets
  obtain ⟨l', hl1, hl2⟩ := perm_map_lift (f := fun q : (RowIn × Row) × Nat => q.1.1.line) hl (l := P) (by
    rw [← p1, ← hPfst, List.map_map, List.map_map]; rfl)
  have hpair : ∀ (L : List ((RowIn × Row) × Nat)) (rs : List RowIn), (∀ q ∈ L, rowAlone cfg q.1.1 = .ok q.1.2) → L.map (fun q => q.1.1.line) = rs.map (·.line) →
      ∃ M : List (((RowIn × Row) × Nat) × Row), M.map (·.1) = L ∧ rowsAlone cfg rs = .ok (M.map (·.2)) ∧ ∀ m ∈ M, Twin cfg m.1.1.2 m.2 := by
    intro L
    induction L with
    | nil =>
      intro rs _ e
      have : rs = [] := by simpa using e.symm
      subst this
      exact ⟨[], rfl, rfl, by simp⟩
    | cons q L ih =>
      intro rs hq e
      cases rs with
      | nil => simp at e
      | cons r rs =>
        simp only [List.map_cons, List.cons.injEq] at e
        obtain ⟨M, m1, m2, m3⟩ := ih rs (fun x hx => hq x (by simp [hx])) e.2
        obtain ⟨x', h1, h2, h3, -, h5⟩ := rowAlone_line e.1 (hq q (by simp))
        refine ⟨(q, x') :: M, by simp [m1], by simp [rowsAlone, h1, m2], ?_⟩
        intro m hm
        rcases List.mem_cons.1 hm with rfl | hm
        · exact ⟨h2, h3, h5⟩
        · exact m3 m hm
  obtain ⟨M, m1, m2, m3⟩ := hpair l' (rowsIn sheets') (fun q hq => (hrow q (hl1.mem_iff.1 hq)).2.1) hl2
  have hMP : ∀ m ∈ M, m.1 ∈ P := fun m hm => hl1.mem_iff.1 (by rw [← m1]; exact List.mem_map_of_mem hm)
  have hcl' : ∀ m ∈ M, Clean (lrow cfg m.1.2 m.2).enc.2 := fun m hm => clean_of_tl ((m3 m hm).tl m.1.2).symm (hclean _ (hMP m hm))
  have hb1 : ∀ m ∈ M, Bel (lrow cfg m.1.2 m.2).enc.2 (lrow cfg m.1.2 m.1.1.2).enc.2 := fun m hm => bel_of_tl ((m3 m hm).tl m.1.2) (hcl' m hm)
  have hb2 : ∀ m ∈ M, Bel (lrow cfg m.1.2 m.1.1.2).enc.2 (lrow cfg m.1.2 m.2).enc.2 := fun m hm =>
    bel_of_tl ((m3 m hm).tl m.1.2).symm (hclean _ (hMP m hm))
  have hlab' : ∀ m ∈ M, Labels cfg m.2 (lrow cfg m.1.2 m.2) := by
    intro m hm
    have hg := hgood _ (hMP m hm)
    have ht := m3 m hm
    have hfor : forgetF (markF m.1.2 m.2.fields) = m.2.fields := by
      obtain ⟨r', -, hr'⟩ := rowsAlone_mem m2 m.2 (List.mem_map_of_mem hm)
      have := forget_mark (n := cfg.idName) (xml := cfg.row.xml) m.1.2 (.obj m.2.fields) (by simpa [WFTree] using rowAlone_wf hr')
      simpa only [markT, forget, Tree.obj.injEq] using this
    refine ⟨rfl, rfl, by simp only [lrow, ht.root]; exact hg.hash, hfor.symm, ?_⟩
    rw [ht.key, hg.key]
    simp only [lrow, ht.keyOf]
    cases hk : keyOf cfg m.1.1.2 with
    | none => simp [mark_hashable]
    | some k => simp [(hg.id k hk).1]
  obtain ⟨gs', t', v1, v2, v3, v4, v5⟩ := run_labels (cfg := cfg) (ys := M.map (·.2)) (xs := M.map (fun m => lrow cfg m.1.2 m.2))
    (all₂_map hlab')
    (by intro x hx; obtain ⟨m, hm, rfl⟩ := List.mem_map.1 hx; exact hcl' m hm)
    (by
      intro x hx y hy
      obtain ⟨m, hm, rfl⟩ := List.mem_map.1 hx
      obtain ⟨m', hm', rfl⟩ := List.mem_map.1 hy
      exact agr_below (hagr _ (hMP m hm) _ (hMP m' hm')) (hb1 m hm) (hb1 m' hm'))
    (by
      refine List.pairwise_map.2 ?_
      have hn : (M.map (fun m => m.1.2)).Nodup := by
        have : M.map (fun m => m.1.2) = l'.map (·.2) := by rw [← m1, List.map_map]; rfl
        rw [this]
        exact (hl1.map _).nodup_iff.2 hPn
      refine ((List.pairwise_map.1 (List.nodup_iff_pairwise_ne.1 hn)).imp_of_mem ?_)
      intro m m' hm hm' hne
      exact apart_below (hapart _ (hMP m hm) _ (hMP m' hm') hne) (hb1 m hm) (hb1 m' hm'))
  have htmp : ∀ (g : Groups) (s : Tree), enc g = forget s → ∃ ks rs, s = .tmp ks rs := by
    intro g s hs
    cases s with
    | cell c => simp [enc, forget] at hs
    | obj c => simp [enc, forget] at hs
    | tmp ks rs => exact ⟨ks, rs, rfl⟩
  obtain ⟨ks, rs, ht⟩ := htmp _ _ u2
  obtain ⟨ks', rs', ht'⟩ := htmp _ _ v2
  have b1 : Bel t t' := by
    intro p u hu
    rcases u5 p u hu with ⟨rfl, hs⟩ | ⟨x, hx, a, ha, hs⟩
    · exact ⟨t', rfl, hs.nodeEq (by rw [ht']; trivial)⟩
    · obtain ⟨q, hq, rfl⟩ := List.mem_map.1 hx
      obtain ⟨m, hm, rfl⟩ : ∃ m ∈ M, m.1 = q := by
        have : q ∈ M.map (·.1) := by rw [m1]; exact hl1.mem_iff.2 hq
        obtain ⟨m, hm, e⟩ := List.mem_map.1 this
        exact ⟨m, hm, e⟩
      obtain ⟨b, hb, e⟩ := ((hb2 m hm).trans (v4 _ (List.mem_map_of_mem hm))) p a ha
      exact ⟨b, hb, hs.nodeEq e⟩
  have b2 : Bel t' t := by
    intro p u hu
    rcases v5 p u hu with ⟨rfl, hs⟩ | ⟨x, hx, a, ha, hs⟩
    · exact ⟨t, rfl, hs.nodeEq (by rw [ht]; trivial)⟩
    · obtain ⟨m, hm, rfl⟩ := List.mem_map.1 hx
      obtain ⟨b, hb, e⟩ := ((hb1 m hm).trans (u4 _ (List.mem_map_of_mem (f := fun q => lrow cfg q.2 q.1.2) (hMP m hm)))) p a ha
      exact ⟨b, hb, hs.nodeEq e⟩
  have hsame := same_forget t t' u3 v3 b1 b2
  rw [← u2, ← v2] at hsame
  obtain ⟨objs, o1, o2⟩ := groups_same _ gs' hsame
  obtain ⟨w', hw', hww⟩ := doUnflatten_of_rows m2 v1
  refine ⟨groupsToList gs', w', objs, hw', o1, o2, ?_⟩
  intro y hy
  rcases (hww y).1 hy with hy | ⟨x', hx', hy⟩ | hy
  · exact Or.inl hy
  · right
    have he := foldRows_each v1 x' hx'
    obtain ⟨r', hr', hrx'⟩ := rowsAlone_mem m2 x' hx'
    obtain ⟨wr, hwr⟩ := alone_run (counts_rowsIn hr') hrx' he
    refine ⟨r', hr', _, wr, hwr, ?_⟩
    obtain ⟨rows2, gs2, mw2, f1, f2, -, -, f3⟩ := doUnflatten_ok hwr
    have hc := counts_rowsIn hr'
    have : rowsAlone cfg (rowsIn [alone r']) = .ok [x'] := by
      have := rowsAlone_alone cfg [r'] (by simpa using hc)
      simp only [List.map_cons, List.map_nil] at this
      rw [this]; simp [rowsAlone, hrx']
    rw [this] at f1; cases f1
    exact (f3 y).2 (Or.inr (Or.inl ⟨x', by simp, hy⟩))
  · simp at hy

/-- C06 without ids: any other arrangement of the same lines into sheets, in any order (each line as often as before), can be unflattened as well and
gives the same objects, up to the order of objects, fields and array items, whether or not rows and array items have ids; provided that rows with the
same root id and the same id do not contradict each other, and values can be compared.  All warnings are about headings of single sheets, or also given
by a single row on its own. -/
theorem C06_any_order_without_ids (cfg : UnCfg) (sheets sheets' : List SheetIn) (out : List (List (Str × CTree))) (w : List Warn)
    (h : doUnflatten cfg sheets = .ok (out, w))
    (hv : ∀ r ∈ rowsIn sheets, Comparable cfg r) (hcon : Consistent cfg (rowsIn sheets))
    (hl : ((rowsIn sheets').map (·.line)).Perm ((rowsIn sheets).map (·.line))) :
    ∃ out' w' objs, doUnflatten cfg sheets' = .ok (out', w') ∧ SameObjects out objs ∧ objs.Perm out' ∧
      ∀ x ∈ w', (∃ s ∈ sheets', ∃ heading cols, x = .dupHeading heading cols s.name) ∨ ∃ r ∈ rowsIn sheets', ∃ o wr, doUnflatten cfg [alone r] = .ok (o, wr) ∧ x ∈ wr := by
  obtain ⟨out', w', objs, h1, h2, h3, h4⟩ := any_order_without_ids_core cfg sheets sheets' out w h hv hcon hl
  exact ⟨out', w', objs, h1, h2, h3, fun x hx => (h4 x hx).imp dupWarns_mem id⟩

/-- C06 without ids, for the JSON output. -/
theorem C06_any_order_without_ids_json (cfg : UnCfg) (sheets sheets' : List SheetIn) (out : List Json) (w : List Warn)
    (h : unflatten cfg sheets = .ok (out, w))
    (hv : ∀ r ∈ rowsIn sheets, Comparable cfg r) (hcon : Consistent cfg (rowsIn sheets))
    (hl : ((rowsIn sheets').map (·.line)).Perm ((rowsIn sheets).map (·.line))) :
    ∃ out' w', unflatten cfg sheets' = .ok (out', w') ∧ SameJson (.arr out) (.arr out') := by
  unfold unflatten at h
  split at h
  · cases h
  · next o wo ho =>
    cases h
    obtain ⟨out', w', objs, h1, h2, h3, -⟩ := C06_any_order_without_ids cfg sheets sheets' o w ho hv hcon hl
    refine ⟨listToValue out', w', by simp [unflatten, h1], .arr (sameJsonItems_of h2) ?_⟩
    rw [listToValue_map, listToValue_map]; exact h3.map _

/-! ### An example: a row without id, and array items without ids -/

/-- Two rows of object 1, each with an item without id, and a row without id. -/
def looseSheet : SheetIn := { name := s%"main", lines := [
  [(some s%"id", .int 1), (some s%"l/0/v", .int 7)],
  [(some s%"t", .str s%"x"), (some s%"l/0/v", .int 7)],
  [(some s%"id", .int 1), (some s%"l/0/v", .int 8)]] }
/-- The same lines in two sheets. -/
def looseOther : List SheetIn := [
  { name := s%"one", lines := [[(some s%"id", .int 1), (some s%"l/0/v", .int 8)]] },
  { name := s%"two", lines := [[(some s%"t", .str s%"x"), (some s%"l/0/v", .int 7)], [(some s%"id", .int 1), (some s%"l/0/v", .int 7)]] }]

def looseRows : List RowIn := [⟨looseSheet, 0, looseSheet.lines[0]⟩, ⟨looseSheet, 1, looseSheet.lines[1]⟩, ⟨looseSheet, 2, looseSheet.lines[2]⟩]

/-- What the rows give on their own. -/
def looseAlone : List (List (Str × CTree)) := [
  [(s%"id", .cell ⟨.atom (.int 1), ⟨s%"main", 1, 2, s%"id"⟩, []⟩), (s%"l", .list [[(s%"v", .cell ⟨.atom (.int 7), ⟨s%"main", 2, 2, s%"l/0/v"⟩, []⟩)]])],
  [(s%"t", .cell ⟨.atom (.str s%"x"), ⟨s%"main", 1, 3, s%"t"⟩, []⟩), (s%"l", .list [[(s%"v", .cell ⟨.atom (.int 7), ⟨s%"main", 2, 3, s%"l/0/v"⟩, []⟩)]])],
  [(s%"id", .cell ⟨.atom (.int 1), ⟨s%"main", 1, 4, s%"id"⟩, []⟩), (s%"l", .list [[(s%"v", .cell ⟨.atom (.int 8), ⟨s%"main", 2, 4, s%"l/0/v"⟩, []⟩)]])]]

theorem looseAlone_eq : ∀ r ∈ looseRows, ∃ o ∈ looseAlone, doUnflatten {} [alone r] = .ok ([o], []) := by
  intro r hr
  simp only [looseRows, List.mem_cons, List.not_mem_nil, or_false] at hr
  rcases hr with rfl | rfl | rfl
  · exact ⟨_, .head _, by with_unfolding_all rfl⟩
  · exact ⟨_, .tail _ (.head _), by with_unfolding_all rfl⟩
  · exact ⟨_, .tail _ (.tail _ (.head _)), by with_unfolding_all rfl⟩

theorem loose_comparable : ∀ r ∈ rowsIn [looseSheet], Comparable {} r := by
  intro r hr
  refine ⟨?_, ?_⟩
  · have hr' : r ∈ looseRows := hr
    simp only [looseRows, List.mem_cons, List.not_mem_nil, or_false] at hr'
    rcases hr' with rfl | rfl | rfl <;> decide +kernel
  intro o w h
  obtain ⟨o', ho', e⟩ := looseAlone_eq r hr
  rw [e] at h
  simp only [Except.ok.injEq, Prod.mk.injEq, List.cons.injEq, and_true] at h
  rw [← h.1]
  clear e h
  revert o'
  simp only [looseAlone, List.mem_cons, List.not_mem_nil, or_false, forall_eq_or_imp, forall_eq]
  simp only [SelfEqualFields, SelfEqual, SelfEqualItems, ne_eq, reduceCtorEq, not_false_eq_true, implies_true, and_true]
  decide +kernel

theorem loose_consistent : Consistent {} (rowsIn [looseSheet]) := by
  intro r hr r' hr' _ o w o' w' h h'
  obtain ⟨a, ha, e⟩ := looseAlone_eq r hr
  obtain ⟨a', ha', e'⟩ := looseAlone_eq r' hr'
  rw [e] at h; rw [e'] at h'
  simp only [Except.ok.injEq, Prod.mk.injEq, List.cons.injEq, and_true] at h h'
  rw [← h.1, ← h'.1]
  clear e e' h h'
  revert a a'
  simp only [looseAlone, List.mem_cons, List.not_mem_nil, or_false, forall_eq_or_imp, forall_eq]
  simp [AgreeItems, AgreeFields, Agree, Dict.get_cons, cellId]
  try decide +kernel

theorem loose_lines : ((rowsIn looseOther).map (·.line)).Perm ((rowsIn [looseSheet]).map (·.line)) := by
  have e1 : (rowsIn looseOther).map (·.line) = [looseSheet.lines[2], looseSheet.lines[1], looseSheet.lines[0]] := rfl
  have e2 : (rowsIn [looseSheet]).map (·.line) = [looseSheet.lines[0], looseSheet.lines[1], looseSheet.lines[2]] := rfl
  rw [e1, e2]
  exact (List.reverse_perm [looseSheet.lines[0], looseSheet.lines[1], looseSheet.lines[2]])

/-- The two outputs. -/
example : (unflatten {} [looseSheet]).map (·.1) =
      .ok [.obj [(s%"id", .leaf (.int 1)), (s%"l", .arr [.obj [(s%"v", .leaf (.int 7))], .obj [(s%"v", .leaf (.int 8))]])],
        .obj [(s%"t", .leaf (.str s%"x")), (s%"l", .arr [.obj [(s%"v", .leaf (.int 7))]])]] ∧
    (unflatten {} looseOther).map (·.1) =
      .ok [.obj [(s%"id", .leaf (.int 1)), (s%"l", .arr [.obj [(s%"v", .leaf (.int 8))], .obj [(s%"v", .leaf (.int 7))]])],
        .obj [(s%"t", .leaf (.str s%"x")), (s%"l", .arr [.obj [(s%"v", .leaf (.int 7))]])]] := by
  decide +kernel

/-- Each line must occur as often as before: without ids, a line given twice is two objects. -/
example : (unflatten {} [{ name := s%"a", lines := [[(some s%"t", .int 1)], [(some s%"t", .int 1)]] }]).map (·.1) =
    .ok [.obj [(s%"t", .leaf (.int 1))], .obj [(s%"t", .leaf (.int 1))]] := by
  decide +kernel

end Verif

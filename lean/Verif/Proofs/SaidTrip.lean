import Verif.Proofs.SaidLine
/-! The lines of a flattened document whose objects all have ids, with and without values of array items on the line of the root object. -/
namespace Verif
open Spec

theorem okP_item {P : List PKey} (h : okP P) {v : Val} (hv : .item v ∈ P) : ∃ PA k PB, P = PA ++ .field k :: .item v :: PB := by
  induction P, h using okP_ind with
  | nil => cases hv
  | item k l r _ _ ih =>
    simp only [List.mem_cons, reduceCtorEq, false_or, PKey.item.injEq] at hv
    rcases hv with rfl | hv
    · exact ⟨[], k, r, rfl⟩
    · obtain ⟨PA, k', PB, rfl⟩ := ih hv
      exact ⟨.field k :: .item l :: PA, k', PB, rfl⟩
  | field k r _ _ _ ih =>
    simp only [List.mem_cons, reduceCtorEq, false_or] at hv
    obtain ⟨PA, k', PB, rfl⟩ := ih hv
    exact ⟨.field k :: PA, k', PB, rfl⟩

/-- The row has values of one of the objects, with their positions. -/
structure RowFor (T : Trip) (cfg : UnCfg) (i : Nat) (fs : List (Str × Json)) (S : List PKey → Atom → Prop) (l : Line) : Prop where
  says : SaysSet T (.obj (docF T [] fs)) S
  has : LineHas T S l
  root : Val.atom (rootCell cfg.rootId l) = T.rootCell fs

theorem RowFor.spec {T : Trip} {cfg : UnCfg} (hcfg : T.Reads cfg) {root : List Json} (hfit : T.FitsRoot root) {i : Nat} {fs : List (Str × Json)}
    (hi : (objects root)[i]? = some fs) (hid : T.idOf fs ≠ none) {S : List PKey → Atom → Prop} {l : Line} (h : RowFor T cfg i fs S l) :
    NamesAll cfg T.idName l ∧ (∀ x, Says cfg T.idName l x → InDoc T root x) ∧
    ∀ P b, S P b → ∃ x, Says cfg T.idName l x ∧ Val.atom x.root = T.rootCell fs ∧ x.id = labelOf T i fs ∧ pk x.pos = P := by
  obtain ⟨ho, hn, hf, hrt⟩ := fitsRoot_mem hfit (List.mem_of_getElem? hi)
  have hself : atomEq (rootCell cfg.rootId l) (rootCell cfg.rootId l) = true := by
    have := rootCell_self hfit (List.mem_of_getElem? hi)
    rw [← h.root] at this
    exact this
  obtain ⟨h1, h2, h3⟩ := line_says hcfg ho hf h.says h.has hself
  have hlab : ∀ a, S [.field T.idName] a → back T [T.idName] a = labelOf T i fs := by
    intro a ha
    obtain ⟨a0, h0⟩ := Option.ne_none_iff_exists'.1 hid
    have e1 := (h.says.cell _ a ha).1
    have e2 := sub_docF (T := T) (D := .obj (docF T [] fs)) (P := []) ho.2.1 rfl (Dict.get_eq_some_mem (idOf_get h0))
    simp only [docT, List.nil_append] at e2
    rw [e2] at e1
    simp only [Option.some.injEq, Tree.cell.injEq, docCell, Cell.mk.injEq, and_true] at e1
    have e3 : keysP [PKey.field T.idName] = [T.idName] := rfl
    have e4 := (fits_id hf h0).leaf
    rw [e3] at e1
    simp only [List.nil_append] at e4
    rw [← e1, labelOf, h0]
    exact e4
  refine ⟨h1, ?_, ?_⟩
  · intro x hx
    obtain ⟨g1, ⟨a, g2, g3⟩, P, b, g4, g5, g6, g7⟩ := h2 x hx
    refine ⟨i, fs, _, hi, by rw [g1]; exact h.root, by rw [g3]; exact hlab a g2, by rw [g6]; exact (h.says.cell P b g4).1, g7, ?_, ?_⟩
    · obtain ⟨-, j, hj⟩ := h.says.cell P b g4
      rw [g7]; exact hj.back.2.2.1
    · intro v hv
      rw [g6] at hv
      obtain ⟨PA, k, PB, rfl⟩ := okP_item g5 hv
      exact (h.says.item PA k v PB b g4).1
  · intro P b hS
    obtain ⟨x, g1, g2, ⟨a, g3, g4⟩, g5, -⟩ := h3 P b hS
    exact ⟨x, g1, by rw [g2]; exact h.root, by rw [g4]; exact hlab a g3, g5⟩

/-! ### The line of a place -/

theorem tog_of_labels {P Q : List PKey} {ls : List Val} (hP : labelsP P <+: ls) (hQ : labelsP Q <+: ls) : Tog P Q := by
  rintro A k v w P' Q' rfl rfl
  simp only [labelsP_append, labelsP] at hP hQ
  obtain ⟨t, ht⟩ := hP
  obtain ⟨u, hu⟩ := hQ
  rw [← hu] at ht
  simp only [List.append_assoc, List.cons_append] at ht
  have := List.append_cancel_left ht
  simp only [List.cons.injEq] at this
  exact this.1

theorem onLine_id {T : Trip} {fs0 : List (Str × Json)} {pl : Place} (hp : Fine T fs0 pl) {a : Atom} (hid : T.idOf fs0 = some a) :
    OnLine T fs0 pl [.field T.idName] a := by
  rcases hp.ends with e | ⟨hin, -⟩
  · subst e
    exact OnLine.own (kk := [T.idName]) (idOf_cell hid)
  · exact OnLine.anc (R := []) hin hid

theorem saysSet_place {T : Trip} {fs0 : List (Str × Json)} (ho : T.Object fs0) (hf : T.FitsFields [] fs0) {pl : Place} (hp : Fine T fs0 pl)
    (hid0 : T.idOf fs0 ≠ none) (hid : T.idOf pl.fields ≠ none) : SaysSet T (.obj (docF T [] fs0)) (OnLine T fs0 pl) := by
  have hl := lineOf ho hf hp
  refine ⟨fun P b h => ⟨(hl.cell P b h).1, (hl.cell P b h).2.1⟩, ?_, fun P Q b b' h h' => tog_of_labels (hl.cell P b h).2.2 (hl.cell Q b' h').2.2, ?_⟩
  · intro PA k l PB b h
    rcases (hl.label PA k l PB b h).2 with h1 | ⟨h1, -⟩
    · exact h1
    · exfalso
      have hpre := onLine_item hp (Q := PA ++ [.field k]) (l := l) (Y := PB) (by simpa using h)
      have : l.hashable = true := by
        by_cases he : (PA ++ [PKey.field k]) ++ [.item l] = pl.path
        · rcases hp.ends with e | ⟨-, Q, i, hQ⟩
          · rw [e] at he; simp at he
          · rw [hQ] at he
            have hll : l = labelOf T i pl.fields := by
              have := (List.append_inj' he rfl).2
              simpa using this
            rw [hll, labelOf_hashable]
            cases hi : T.idOf pl.fields with
            | none => exact absurd hi hid
            | some _ => rfl
        · obtain ⟨gs, a', -, -, rfl⟩ := hp.inner _ _ hpre he
          rfl
      rw [h1] at this; cases this
  · obtain ⟨a, ha⟩ := Option.ne_none_iff_exists'.1 hid0
    refine ⟨a, onLine_id hp ha, ?_⟩
    have := (fits_id hf ha).leaf
    simp only [List.nil_append] at this
    rw [this]; rfl

theorem rowFor_spot {T : Trip} {cfg : UnCfg} (hcfg : T.Reads cfg) {root : List Json} (hfit : T.FitsRoot root) {s : Spot} (hs : s ∈ spots T root)
    (hid0 : T.idOf s.2.1 ≠ none) (hid : T.idOf s.2.2.fields ≠ none) {l : Line} (hr : T.ReadBack (spotLine T s) l) :
    RowFor T cfg s.1 s.2.1 (OnLine T s.2.1 s.2.2) l := by
  obtain ⟨h1, h2⟩ := mem_spots.1 hs
  obtain ⟨ho, hn, hf, hrt⟩ := fitsRoot_mem hfit (List.mem_of_getElem? h1)
  have hp := spot_fine hfit hs
  have hi := spot_line hfit hs
  refine ⟨saysSet_place ho hf hp hid0 hid, lineHas_of ho hf hp hi hr, ?_⟩
  rw [← rootKey_eq]
  exact rootKey_of hcfg.rootId ho hf hfit.rootName (fun rid v h3 h4 => by obtain ⟨a, ha, _⟩ := hrt rid v h3 h4; exact ⟨a, ha⟩) hp hi hr

/-! ### The line of a root object with values of the items of its arrays -/

/-- The values of the line: those of the root object, and those of the only object of an array. -/
def WithRolled (T : Trip) (rolls : Str → Str → Prop) (fs : List (Str × Json)) (P : List PKey) (b : Atom) : Prop :=
  OnLine T fs ⟨[], [], fs⟩ P b ∨
    ∃ key gs k, (key, .arr [.obj gs]) ∈ fs ∧ rolls key k ∧ (k, .leaf b) ∈ gs ∧ P = [.field key, .item (labelOf T 0 gs), .field k]

theorem fits_single {T : Trip} {ks : List Str} {gs : List (Str × Json)} (h : T.Fits ks (.arr [.obj gs])) :
    T.Object gs ∧ T.NoRoot gs ∧ T.Named gs ∧ T.FitsFields ks gs := by
  simp only [Trip.Fits] at h
  rcases h with ⟨t, ht, -⟩ | ⟨-, -, hi, -⟩
  · simp [joinArray, basicStr, innerJoin] at ht
  · obtain ⟨fs, e, h⟩ := fitsItems_iff.1 hi _ (List.mem_singleton.2 rfl)
    cases e; exact h

theorem rolled_cell {T : Trip} {fs : List (Str × Json)} (ho : T.Object fs) (hf : T.FitsFields [] fs) {key : Str} {gs : List (Str × Json)}
    (hm : (key, .arr [.obj gs]) ∈ fs) {k : Str} {b : Atom} (hk : (k, .leaf b) ∈ gs) :
    Tree.sub [.field key, .item (labelOf T 0 gs), .field k] (.obj (docF T [] fs)) = some (.cell (docCell (back T [key, k] b))) ∧
    T.Returns [key, k] b (.leaf b) := by
  have h1 := fitsFields_iff.1 hf _ hm
  obtain ⟨ho', -, -, hf'⟩ := fits_single h1
  have hj : joinArray [Json.obj gs] = none := by simp [joinArray, basicStr, innerJoin]
  constructor
  · simp only [Tree.sub, get_docF, Dict.get_of_mem ho.2.1 hm, Option.map_some, Option.bind_some, docT, hj, docI, keyGet_cons, labelOf_self hf', if_true,
      Dict.get_of_mem ho'.2.1 hk, List.nil_append, List.cons_append]
  · have := fitsFields_iff.1 hf' _ hk
    simp only [Trip.Fits] at this
    exact this.2

theorem onLine_root_flds {T : Trip} {fs : List (Str × Json)} {P : List PKey} {b : Atom} (h : OnLine T fs ⟨[], [], fs⟩ P b) :
    ∃ kk, HasCell everything [] fs kk (.leaf b) ∧ P = flds kk := by
  cases h with
  | own h => exact ⟨_, h, rfl⟩
  | anc hm _ => cases hm
  | root _ hne _ => exact absurd rfl hne

theorem no_item {PA PB : List PKey} {l : Val} {kk : List Str} (h : PA ++ .item l :: PB = flds kk) : False := by
  have : PKey.item l ∈ flds kk := by rw [← h]; simp
  simp [flds] at this

theorem saysSet_rolled {T : Trip} {fs : List (Str × Json)} (ho : T.Object fs) (hn : T.Named fs) (hf : T.FitsFields [] fs) (hid : T.idOf fs ≠ none)
    {rolls : Str → Str → Prop} (hids : ∀ key gs k v, (key, .arr [.obj gs]) ∈ fs → (k, v) ∈ gs → rolls key k → rolls key T.idName ∧ T.idOf gs ≠ none) :
    SaysSet T (.obj (docF T [] fs)) (WithRolled T rolls fs) := by
  have hb := saysSet_place ho hf (fine_root ho hn hf) hid hid
  refine ⟨?_, ?_, ?_, ?_⟩
  · rintro P b (h | ⟨key, gs, k, h1, h2, h3, rfl⟩)
    · exact hb.cell P b h
    · obtain ⟨g1, g2⟩ := rolled_cell ho hf h1 h3
      exact ⟨g1, _, g2⟩
  · rintro PA k l PB b (h | ⟨key, gs, k', h1, h2, h3, e⟩)
    · obtain ⟨kk, -, e⟩ := onLine_root_flds h
      exact (no_item (PA := PA ++ [.field k]) (by simpa using e)).elim
    · have hPA : PA = [] := by
        cases PA with
        | nil => rfl
        | cons s PA =>
          exfalso
          cases PA with
          | nil => simp at e
          | cons s PA => have := congrArg List.length e; simp at this; omega
      subst hPA
      simp only [List.nil_append, List.cons.injEq, PKey.field.injEq, PKey.item.injEq] at e
      obtain ⟨rfl, rfl, -⟩ := e
      obtain ⟨g1, g2⟩ := hids k gs k' _ h1 h3 h2
      obtain ⟨a, ha⟩ := Option.ne_none_iff_exists'.1 g2
      obtain ⟨-, -, -, hf'⟩ := fits_single (fitsFields_iff.1 hf _ h1)
      refine ⟨by rw [labelOf_hashable, ha]; rfl, a, .inr ⟨k, gs, T.idName, h1, g1, Dict.get_eq_some_mem (idOf_get ha), rfl⟩, ?_⟩
      rw [labelOf, ha]
      exact (fits_id hf' ha).leaf
  · rintro P Q b b' (h | ⟨key, gs, k, h1, h2, h3, rfl⟩) (h' | ⟨key', gs', k', h1', h2', h3', rfl⟩)
    · exact hb.one P Q b b' h h'
    · rintro A x v w P' Q' e -
      obtain ⟨kk, -, e'⟩ := onLine_root_flds h
      exact (no_item (PA := A ++ [.field x]) (l := v) (PB := P') (by rw [← e', e]; simp)).elim
    · rintro A x v w P' Q' - e
      obtain ⟨kk, -, e'⟩ := onLine_root_flds h'
      exact (no_item (PA := A ++ [.field x]) (l := w) (PB := Q') (by rw [← e', e]; simp)).elim
    · rintro A x v w P' Q' e e'
      have hA : A = [] := by
        cases A with
        | nil => rfl
        | cons s A =>
          exfalso
          cases A with
          | nil => simp at e
          | cons s A => have := congrArg List.length e; simp at this; omega
      subst hA
      simp only [List.nil_append, List.cons.injEq, PKey.field.injEq, PKey.item.injEq] at e e'
      obtain ⟨rfl, rfl, -⟩ := e
      obtain ⟨rfl, rfl, -⟩ := e'
      have g1 := Dict.get_of_mem ho.2.1 h1
      have g2 := Dict.get_of_mem ho.2.1 h1'
      rw [g1] at g2
      cases g2
      rfl
  · obtain ⟨a, h1, h2⟩ := hb.id
    exact ⟨a, .inl h1, h2⟩

/-- The line of a root object on the main sheet, with rollup. -/
def RolledLine (rolls : Str → Str → Prop) (fs : List (Str × Json)) (fl : FLine) : Prop := ∀ heading v, Dict.get fl heading = some v ↔
  ∃ q, heading = pathText q ∧ (HasCell everything [] fs q v ∨ Rolled rolls fs q v)

/-- In this object, an array is rolled up only if it has one item, and then with the id of the item. -/
def RollsWell (T : Trip) (rolls : Str → Str → Prop) (fs : List (Str × Json)) : Prop :=
  ∀ key l gs k v, (key, .arr l) ∈ fs → .obj gs ∈ l → (k, v) ∈ gs → rolls key k → l = [.obj gs] ∧ rolls key T.idName ∧ T.idOf gs ≠ none

theorem pathText_single {q : List Str} (hq : q ≠ []) (h : '/' ∉ pathText q) : q = [pathText q] := by
  cases q with
  | nil => exact absurd rfl hq
  | cons a r =>
    cases r with
    | nil => simp [pathText, Py.join]
    | cons b r => exfalso; apply h; simp [pathText, Py.join]

theorem rowFor_rolled {T : Trip} {cfg : UnCfg} (hcfg : T.Reads cfg) {root : List Json} (hfit : T.FitsRoot root) {i : Nat} {fs : List (Str × Json)}
    (hi : (objects root)[i]? = some fs) (hid : T.idOf fs ≠ none) {rolls : Str → Str → Prop} (hw : RollsWell T rolls fs) {fl : FLine}
    (hfl : RolledLine rolls fs fl) {l : Line} (hr : T.ReadBack fl l) : RowFor T cfg i fs (WithRolled T rolls fs) l := by
  obtain ⟨ho, hn, hf, hrt⟩ := fitsRoot_mem hfit (List.mem_of_getElem? hi)
  have hS := saysSet_rolled ho hn hf hid (rolls := rolls) (fun key gs k v h1 h2 h3 => (hw key _ gs k v h1 (List.mem_singleton.2 rfl) h2 h3).2)
  have hget : ∀ P b, WithRolled T rolls fs P b → Dict.get fl (pathText (strs P)) = some (.leaf b) := by
    rintro P b (h | ⟨key, gs, k, h1, h2, h3, rfl⟩)
    · obtain ⟨kk, h1, rfl⟩ := onLine_root_flds h
      rw [strs_flds]
      exact (hfl _ _).2 ⟨kk, rfl, .inl h1⟩
    · exact (hfl _ _).2 ⟨[key, s%"0", k], rfl, .inr (.one h1 h2 h3)⟩
  have hhas : LineHas T (WithRolled T rolls fs) l := by
    refine ⟨hr.columns, ?_, ?_⟩
    · intro h a hm hb
      obtain ⟨s, b, rfl, hg, rfl⟩ := hr.from_ h a hm hb
      obtain ⟨q, rfl, hq | hq⟩ := (hfl _ _).1 hg
      · exact ⟨flds q, b, .inl (OnLine.own (kk := q) hq), by rw [strs_flds], rfl⟩
      · cases hq with
        | one h1 h2 h3 => exact ⟨_, b, .inr ⟨_, _, _, h1, h2, h3, rfl⟩, rfl, rfl⟩
        | many h1 h2 h3 h4 h5 =>
          have := (hw _ _ _ _ _ h1 h3 h4 h5).1
          rw [this] at h2
          simp at h2
    · intro P b h
      obtain ⟨-, j, hj⟩ := hS.cell P b h
      exact hr.all _ b (hget P b h) hj.1
  refine ⟨hS, hhas, ?_⟩
  unfold rootCell Trip.rootCell
  rw [hcfg.rootId]
  cases hrt' : T.rootId with
  | none => rfl
  | some rid =>
    simp only
    cases hg : Dict.get fs rid with
    | some v =>
      obtain ⟨a, rfl, -⟩ := hrt rid v hrt' hg
      have hSr : WithRolled T rolls fs [.field rid] a :=
        .inl (OnLine.own (kk := [rid]) (HasCell.scalar (p := []) (Dict.get_eq_some_mem hg) rfl))
      have hm := hhas.all _ _ hSr
      have hpt : pathText (strs [.field rid]) = rid := by simp [strs, strP, pathText, Py.join]
      rw [hpt] at hm
      rw [Dict.get_of_mem hr.columns hm]
      rfl
    | none =>
      have hno : Dict.get fl rid = none := by
        cases hgl : Dict.get fl rid with
        | none => rfl
        | some j =>
          exfalso
          have hslash := (hfit.rootName rid hrt').2
          obtain ⟨q, e, hq | hq⟩ := (hfl _ _).1 hgl
          · obtain ⟨k, r, e2, hk⟩ := hq.starts
            rw [e] at hslash
            have e3 := pathText_single (by rw [e2]; simp) hslash
            rw [← e] at e3
            rw [e2] at e3
            simp only [List.nil_append, List.cons.injEq] at e3
            rw [e3.1] at hk
            exact Dict.get_none_iff.1 hg hk
          · cases hq with
            | one _ _ _ => apply hslash; rw [e]; simp [pathText, Py.join]
            | many _ _ _ _ _ => apply hslash; rw [e]; simp [pathText, Py.join]
      cases hgl : Dict.get l (some rid) with
      | none => rfl
      | some a =>
        have := hr.noRoot rid hrt' hno a (Dict.get_eq_some_mem hgl)
        rw [this]; rfl

end Verif

import Verif.Proofs.XmlWrap
/-! Placing a cell in XML mode is placing it in JSON mode, below the heading with `text()`. -/
namespace Verif
open Spec Xml

/-- The parts of a heading in XML mode, and those of the heading of the same value in JSON mode. -/
inductive XComps (n : Str) : List Str → List Str → Prop
  | attr {k : Str} : isAttribute k = true → isint k = false → XComps n [k] [k]
  | id : isint n = false → XComps n [n] [n]
  | text {k : Str} : Tag n k → isint k = false → XComps n [k] [k, s%"text()"]
  | itemText {k s : Str} : Tag n k → isint k = false → isint s = true → XComps n [k, s] [k, s, s%"text()"]
  | field {k c : Str} {cs ds : List Str} : Tag n k → isint k = false → isint c = false → c ≠ [] → XComps n (c :: cs) (c :: ds) → XComps n (k :: c :: cs) (k :: c :: ds)
  | item {k s : Str} {cs ds : List Str} : Tag n k → isint k = false → isint s = true → cs ≠ [] → XComps n cs ds → XComps n (k :: s :: cs) (k :: s :: ds)

/-- A cell whose value is not changed by conversion. -/
structure TextCell (conv : ConvEnv) (cell : Cell) : Prop where
  text : ∃ a, cell.value = .atom a ∧ a.blank = false ∧ (∀ d, a ≠ .datetime d) ∧ convertType conv .untyped a = .ok (.atom a, [])
  sub : cell.sub = []

theorem TextCell.wC {conv : ConvEnv} {cell : Cell} (h : TextCell conv cell) (n : Str) : wC n cell = cell := by
  obtain ⟨⟨s, h1, -⟩, h2⟩ := h
  obtain ⟨v, l, sub⟩ := cell
  simp only at h1 h2
  subst h1 h2
  simp [Verif.wC, wV]

theorem TextCell.convert {cell : Cell} {cfg : RowCfg} (h : TextCell cfg.conv cell) {ty : Option CType} (ht : ty = none ∨ (cfg.xml = true ∧ ty = some .array)) :
    convertCell cfg ty cell.value = .ok (cell.value, []) := by
  obtain ⟨⟨a, h1, h2, -, h3⟩, -⟩ := h
  rw [h1]
  rcases ht with rfl | ⟨hx, rfl⟩
  · simp [convertCell, h3]
  · simp [convertCell, hx, h3]

theorem TextCell.blank {conv : ConvEnv} {cell : Cell} (h : TextCell conv cell) : cell.value.blank = false := by
  obtain ⟨⟨s, h1, h2, -⟩, -⟩ := h
  rw [h1]; exact h2

theorem TextCell.type {conv : ConvEnv} {cell : Cell} (h : TextCell conv cell) {cfg : RowCfg} (ht : cfg.types = fun _ => none) (path till next : Str) :
    currentType cfg path till cell next = none := by
  obtain ⟨⟨a, h1, -, h2, -⟩, -⟩ := h
  unfold currentType
  rw [h1]
  cases a with
  | datetime d => exact absurd rfl (h2 d)
  | _ => simp [ht]

theorem isAttribute_at (k : Str) : Py.startsWith s%"@" k = isAttribute k := by
  unfold Py.startsWith isAttribute
  cases k with
  | nil => decide
  | cons c k =>
    simp only [List.isPrefixOf, Bool.and_true, List.head?_cons, Option.some.injEq]
    by_cases h : c = '@'
    · subst h; rfl
    · have h' : ¬ '@' = c := fun e => h e.symm
      simp [h, h']

theorem isint_int {s : Str} : isint s = (Py.int? s).isSome := rfl

theorem isint_empty : Py.int? ([] : Str) = none := by decide
theorem isint_text : Py.int? s%"text()" = none := by decide

theorem mapW_nil {f : RFields → RFields} {r : Except Err (RFields × List Warn)} {c : RFields} (h : mapW f [] r = .ok (c, [])) :
    ∃ c0, r = .ok (c0, []) ∧ c = f c0 := by
  cases r with
  | error e => cases h
  | ok p =>
    obtain ⟨c0, w0⟩ := p
    simp only [mapW, List.nil_append, Except.ok.injEq, Prod.mk.injEq] at h
    exact ⟨c0, by rw [h.2], h.1.symm⟩

/-- JSON mode: the last part. -/
theorem placeJ_leaf {j : RowCfg} (hj : j.xml = false) (hjt : j.types = fun _ => none) {path : Str} {pre : List Str} {k : Str} (hk : isint k = false)
    {cell : Cell} (hc : TextCell j.conv cell) {cur cur' : RFields} (h : place j path pre [k] cell cur = .ok (cur', [])) :
    leafBlocked false (Dict.get cur k) = false ∧ cur' = Dict.set cur k (.cell cell) := by
  rw [place] at h
  simp only [hk, Bool.false_eq_true, if_false, List.headD_nil, hc.type hjt, isint_empty, Option.isSome_none, Bool.false_and, arrayIndex,
    reduceCtorEq, ne_eq, not_true, and_false, or_self] at h
  simp only [placeLeaf, hj] at h
  cases hb : leafBlocked false (Dict.get cur k) with
  | true =>
    rw [hb] at h
    simp [mapW, place] at h
  | false =>
    rw [hb] at h
    simp only [Bool.false_eq_true, if_false, hc.convert (.inl rfl), hc.blank, putCell, hj, place, mapW, List.append_nil, Except.ok.injEq, Prod.mk.injEq, and_true, id] at h
    exact ⟨rfl, h.symm⟩

/-- JSON mode: a part that is a key of an object. -/
theorem placeJ_field {j : RowCfg} (hjt : j.types = fun _ => none) {path : Str} {pre : List Str} {k c : Str} {ds : List Str} (hk : isint k = false)
    (hci : isint c = false) (hce : c ≠ []) {cell : Cell} (hc : TextCell j.conv cell) {cur cur' : RFields} (h : place j path pre (k :: c :: ds) cell cur = .ok (cur', [])) :
    ∃ fs fs', objAt cur k = some fs ∧ place j path (pre ++ [k]) (c :: ds) cell fs = .ok (fs', []) ∧ cur' = Dict.set cur k (.obj fs') := by
  have hi : Py.int? c = none := by
    simp only [isint_int] at hci
    cases hh : Py.int? c with
    | none => rfl
    | some i => rw [hh] at hci; cases hci
  rw [place] at h
  simp only [hk, Bool.false_eq_true, if_false, List.headD_cons, hc.type hjt, hi, Option.isSome_none, Bool.false_and, arrayIndex, reduceCtorEq,
    hce, ne_eq, not_false_iff, and_self, or_true, if_true] at h
  cases ho : objAt cur k with
  | none => rw [ho] at h; simp at h
  | some fs =>
    rw [ho] at h
    simp only at h
    obtain ⟨fs', h1, h2⟩ := mapW_nil h
    exact ⟨fs, fs', rfl, h1, h2⟩

/-- JSON mode: a part that is a key of an array. -/
theorem placeJ_item {j : RowCfg} (hj : j.xml = false) (hjt : j.types = fun _ => none) {path : Str} {pre : List Str} {k s : Str} {ds : List Str} (hk : isint k = false)
    (hs : isint s = true) {cell : Cell} (hc : TextCell j.conv cell) {cur cur' : RFields} (h : place j path pre (k :: s :: ds) cell cur = .ok (cur', [])) :
    ∃ i is inner, Py.int? s = some i ∧ ladAt cur k = some is ∧ place j path (pre ++ [k] ++ [s]) ds cell ((Dict.get is i).getD []) = .ok (inner, []) ∧
      cur' = Dict.set cur k (.lad (Dict.set is i inner)) := by
  obtain ⟨i, hi⟩ : ∃ i, Py.int? s = some i := by
    simp only [isint_int] at hs
    cases hh : Py.int? s with
    | none => rw [hh] at hs; cases hs
    | some i => exact ⟨i, rfl⟩
  rw [place] at h
  simp only [hk, Bool.false_eq_true, if_false, List.headD_cons, hc.type hjt, hi, Option.isSome_some, Bool.true_and, arrayIndex, hj, Bool.not_false, Bool.true_or,
    if_true, beq_self_eq_true, Bool.not_true] at h
  cases hl : ladAt cur k with
  | none => rw [hl] at h; simp at h
  | some is =>
    rw [hl] at h
    simp only at h
    obtain ⟨inner, h1, h2⟩ := mapW_nil h
    rw [place] at h1
    have hpe : (pre ++ [k]).isEmpty = false := by cases pre <;> rfl
    simp only [hs, if_true, hpe, Bool.false_eq_true, if_false] at h1
    obtain ⟨c0, h3, h4⟩ := mapW_nil h1
    exact ⟨i, is, inner, hi, rfl, by rw [h4]; exact h3, h2⟩

theorem underR_cell {n k : Str} (c : Cell) (fs : RFields) (hk : k ≠ n) : Dict.set (wRF n fs) k (.cell (wC n c)) = wRF n (Dict.set fs k (.cell c)) := by
  rw [← wRF_set_other hk]; simp [wR]

theorem objAt_w {n k : Str} (hk : k ≠ n) (cur : RFields) : objAt (wRF n cur) k = (objAt cur k).map (wRF n) := by
  unfold objAt
  rw [wRF_get_other hk]
  cases Dict.get cur k with
  | none => simp [wRF]
  | some t => cases t <;> simp [wR]

theorem ladAt_w {n k : Str} (hk : k ≠ n) (cur : RFields) : ladAt (wRF n cur) k = (ladAt cur k).map (wRI n) := by
  unfold ladAt
  rw [wRF_get_other hk]
  cases Dict.get cur k with
  | none => simp [wRI]
  | some t => cases t <;> simp [wR]

theorem inner_w (n : Str) (is : List (Int × RFields)) (i : Int) : (Dict.get (wRI n is) i).getD [] = wRF n ((Dict.get is i).getD []) := by
  rw [wRI_get]
  cases Dict.get is i with
  | none => simp [wRF]
  | some _ => rfl

/-- In XML mode, the last part of a heading is put by `putCell`. -/
theorem placeX_leaf {x : RowCfg} (hx : x.xml = true) (hxt : x.types = fun _ => none) {path : Str} {pre : List Str} {k : Str} (hk : isint k = false)
    {cell : Cell} (hc : TextCell x.conv cell) {cur cur' : RFields} (hp : putCell x none k cell cur = .ok cur') :
    place x path pre [k] cell cur = .ok (cur', []) := by
  rw [place]
  have hb : leafBlocked true (Dict.get cur k) = false := by
    unfold leafBlocked; split <;> rfl
  simp only [hk, Bool.false_eq_true, if_false, List.headD_nil, hc.type hxt, isint_empty, Option.isSome_none, Bool.false_and, arrayIndex,
    reduceCtorEq, ne_eq, not_true, and_false, or_self]
  simp [placeLeaf, hx, hb, hc.convert (.inl rfl), hc.blank, hp, place, mapW]

theorem place_sim {n : Str} (hn : isAttribute n = false ∧ n ≠ s%"text()") {x j : RowCfg} (hx : x.xml = true) (hj : j.xml = false) (hxt : x.types = fun _ => none)
    (hjt : j.types = fun _ => none) (hcv : j.conv = x.conv) {path path' : Str} {cell : Cell} (hc : TextCell x.conv cell) {cs ds : List Str} (h : XComps n cs ds) :
    ∀ {pre : List Str} {cur cur' : RFields}, place j path' pre ds cell cur = .ok (cur', []) → place x path pre cs cell (wRF n cur) = .ok (wRF n cur', []) := by
  have htn : s%"text()" ≠ n := fun e => hn.2 e.symm
  have hcj : TextCell j.conv cell := by rw [hcv]; exact hc
  have hat : ∀ {k}, isAttribute k = false → Py.startsWith s%"@" k = false := fun h => by rw [isAttribute_at]; exact h
  induction h with
  | @attr k hk hi =>
    intro pre cur cur' h
    obtain ⟨-, rfl⟩ := placeJ_leaf hj hjt hi hcj h
    have hkn : k ≠ n := by rintro rfl; rw [hk] at hn; exact absurd hn.1 (by simp)
    refine placeX_leaf hx hxt hi hc ?_
    have h1 : Py.startsWith s%"@" k = true := by rw [isAttribute_at]; exact hk
    simp only [putCell, hx, if_true, h1, Except.ok.injEq]
    rw [← underR_cell cell cur hkn, hc.wC]
  | id hi =>
    intro pre cur cur' h
    obtain ⟨hb, rfl⟩ := placeJ_leaf hj hjt hi hcj h
    refine placeX_leaf hx hxt hi hc ?_
    have hset : wRF n (Dict.set cur n (.cell cell)) = Dict.set (wRF n cur) n (.obj [(s%"text()", .cell cell)]) := by
      rw [← wRF_set]; simp [underR, wR, hc.wC]
    rw [hset]
    simp only [putCell, hx, if_true, hat hn.1, Bool.false_eq_true, if_false, reduceCtorEq]
    rw [wRF_get]
    cases hg : Dict.get cur n with
    | none => simp
    | some t =>
      rw [hg] at hb
      cases t with
      | cell c => simp [underR, wR, Dict.set]
      | obj fs => simp [leafBlocked] at hb
      | lad is => simp [leafBlocked] at hb
  | @text k hk hi =>
    intro pre cur cur' h
    obtain ⟨fs, fs', h1, h2, rfl⟩ := placeJ_field hjt hi (by decide) (by decide) hcj h
    obtain ⟨h3, rfl⟩ := placeJ_leaf hj hjt (by decide) hcj h2
    obtain ⟨hk1, hk2, hk3, hk4, hk5, hk6⟩ := hk
    refine placeX_leaf hx hxt hi hc ?_
    simp only [putCell, hx, if_true, hat hk3, Bool.false_eq_true, if_false, reduceCtorEq]
    have hset : wRF n (Dict.set cur k (.obj (Dict.set fs s%"text()" (.cell cell)))) = Dict.set (wRF n cur) k (.obj (Dict.set (wRF n fs) s%"text()" (.cell cell))) := by
      rw [← wRF_set_other hk6]
      simp only [wR]
      rw [← underR_cell cell fs htn, hc.wC]
    rw [hset, wRF_get_other hk6]
    unfold objAt at h1
    cases hg : Dict.get cur k with
    | none =>
      rw [hg] at h1
      cases h1
      simp [wRF, Dict.set]
    | some t =>
      rw [hg] at h1
      cases t with
      | cell c => simp at h1
      | obj g => simp only [Option.some.injEq] at h1; subst h1; simp [wR]
      | lad is => simp at h1
  | @itemText k s hk hi hs =>
    intro pre cur cur' h
    obtain ⟨i, is, inner, h0, h1, h2, rfl⟩ := placeJ_item hj hjt hi hs hcj h
    obtain ⟨h3, rfl⟩ := placeJ_leaf hj hjt (by decide) hcj h2
    obtain ⟨hk1, hk2, hk3, hk4, hk5, hk6⟩ := hk
    rw [place]
    simp only [hi, Bool.false_eq_true, if_false, List.headD_cons, hc.type hxt, h0, Option.isSome_some, Bool.true_and, arrayIndex, hx,
      if_true, beq_self_eq_true, Bool.not_true, ladAt_w hk6, h1, Option.map_some, Bool.true_or, List.length_cons, List.length_nil, Nat.zero_add, gt_iff_lt, Nat.lt_irrefl,
      decide_false, Bool.or_self]
    rw [inner_w]
    have hb : ∀ t, leafBlocked true t = false := by intro t; unfold leafBlocked; split <;> rfl
    simp only [placeLeaf, hx, hb, Bool.false_eq_true, if_false, hc.convert (.inr ⟨hx, rfl⟩), hc.blank, putCell, if_true, hat hk3]
    have hpe : (pre ++ [k]).isEmpty = false := by cases pre <;> rfl
    rw [place]
    simp only [hs, if_true, hpe, Bool.false_eq_true, if_false, place, mapW, List.append_nil, id, Except.ok.injEq, Prod.mk.injEq, and_true]
    rw [← wRF_set_other hk6]
    simp only [wR]
    rw [← wRI_set, ← underR_cell cell _ htn, hc.wC]
  | @field k c cs ds hk hi hci hce _ ih =>
    intro pre cur cur' h
    obtain ⟨fs, fs', h1, h2, rfl⟩ := placeJ_field hjt hi hci hce hcj h
    obtain ⟨hk1, hk2, hk3, hk4, hk5, hk6⟩ := hk
    have hii : Py.int? c = none := by
      simp only [isint_int] at hci
      cases hh : Py.int? c with
      | none => rfl
      | some i => rw [hh] at hci; cases hci
    rw [place]
    simp only [hi, Bool.false_eq_true, if_false, List.headD_cons, hc.type hxt, hii, Option.isSome_none, Bool.false_and, arrayIndex, reduceCtorEq,
      hce, ne_eq, not_false_iff, and_self, or_true, if_true, objAt_w hk6, h1, Option.map_some]
    rw [ih h2]
    simp only [mapW, List.append_nil]
    rw [← wRF_set_other hk6]
    simp [wR]
  | @item k s cs ds hk hi hs hne _ ih =>
    intro pre cur cur' h
    obtain ⟨i, is, inner, h0, h1, h2, rfl⟩ := placeJ_item hj hjt hi hs hcj h
    obtain ⟨hk1, hk2, hk3, hk4, hk5, hk6⟩ := hk
    rw [place]
    have hlen : (decide ((s :: cs).length > 1)) = true := by
      cases cs with
      | nil => exact absurd rfl hne
      | cons _ _ => simp
    simp only [hi, Bool.false_eq_true, if_false, List.headD_cons, hc.type hxt, h0, Option.isSome_some, Bool.true_and, arrayIndex, hx,
      if_true, beq_self_eq_true, Bool.not_true, ladAt_w hk6, h1, Option.map_some, Bool.true_or, hlen, Bool.or_true]
    rw [inner_w]
    have hpe : (pre ++ [k]).isEmpty = false := by cases pre <;> rfl
    rw [place]
    simp only [hs, if_true, hpe, Bool.false_eq_true, if_false]
    rw [ih h2]
    simp only [mapW, List.append_nil, id]
    rw [← wRF_set_other hk6]
    simp only [wR]
    rw [← wRI_set]

/-- The cells of a row. -/
inductive XCells (n : Str) (conv : ConvEnv) : List (Str × Cell) → List (Str × Cell) → Prop
  | nil : XCells n conv [] []
  | blank {h h' : Str} {c : Cell} {l l' : List (Str × Cell)} : c.value.blank = true → XCells n conv l l' → XCells n conv ((h, c) :: l) ((h', c) :: l')
  | cell {h h' : Str} {c : Cell} {l l' : List (Str × Cell)} : TextCell conv c → XComps n (pathList h) (pathList h') → XCells n conv l l' →
      XCells n conv ((h, c) :: l) ((h', c) :: l')

theorem placeAll_sim {n : Str} (hn : isAttribute n = false ∧ n ≠ s%"text()") {x j : RowCfg} (hx : x.xml = true) (hj : j.xml = false) (hxt : x.types = fun _ => none)
    (hjt : j.types = fun _ => none) (hcv : j.conv = x.conv) {l l' : List (Str × Cell)} (h : XCells n x.conv l l') :
    ∀ {cur cur' : RFields}, placeAll j l' cur = .ok (cur', []) → placeAll x l (wRF n cur) = .ok (wRF n cur', []) := by
  induction h with
  | nil =>
    intro cur cur' h
    simp only [placeAll, Except.ok.injEq, Prod.mk.injEq, and_true] at h ⊢
    rw [h]
  | blank hb _ ih =>
    intro cur cur' h
    simp only [placeAll, hb, if_true] at h ⊢
    exact ih h
  | @cell h h' c l l' hc hcomp _ ih =>
    intro cur cur' hp
    simp only [placeAll, hc.blank, Bool.false_eq_true, if_false] at hp ⊢
    cases h1 : place j h' [] (pathList h') c cur with
    | error e => rw [h1] at hp; cases hp
    | ok p =>
      obtain ⟨c1, w1⟩ := p
      rw [h1] at hp
      simp only at hp
      cases h2 : placeAll j l' c1 with
      | error e => rw [h2] at hp; cases hp
      | ok q =>
        obtain ⟨c2, w2⟩ := q
        rw [h2] at hp
        simp only [Except.ok.injEq, Prod.mk.injEq, List.append_eq_nil_iff] at hp
        obtain ⟨rfl, rfl, rfl⟩ := hp
        rw [place_sim hn hx hj hxt hjt hcv hc hcomp h1]
        simp only
        rw [ih h2]
        rfl

theorem unflattenRow_sim {n : Str} (hn : isAttribute n = false ∧ n ≠ s%"text()") {x j : RowCfg} (hx : x.xml = true) (hj : j.xml = false) (hxt : x.types = fun _ => none)
    (hjt : j.types = fun _ => none) (hcv : j.conv = x.conv) {l l' : List (Str × Cell)} (h : XCells n x.conv l l') {fs : Fields} (hu : unflattenRow j (some n) l' = .ok (fs, [])) :
    unflattenRow x (some n) l = .ok (wF n fs, []) := by
  unfold unflattenRow at hu ⊢
  cases h1 : placeAll j l' [] with
  | error e => rw [h1] at hu; cases hu
  | ok p =>
    obtain ⟨rf, w⟩ := p
    rw [h1] at hu
    simp only [hj] at hu
    cases h2 : toTemp (some n) false rf with
    | error e => rw [h2] at hu; cases hu
    | ok g =>
      rw [h2] at hu
      simp only [Except.ok.injEq, Prod.mk.injEq] at hu
      obtain ⟨rfl, rfl⟩ := hu
      have h3 := placeAll_sim hn hx hj hxt hjt hcv h (cur := []) h1
      simp only [wRF] at h3
      rw [h3]
      simp only [hx]
      rw [toTemp_w rf h2]

end Verif

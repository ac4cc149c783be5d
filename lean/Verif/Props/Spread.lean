import Verif.Proofs.SpreadRun
import Verif.Proofs.SpreadDec
/-! C78: how data are spread over rows and sheets does not matter. -/
namespace Verif
open Spec

theorem run_facts {cfg : UnCfg} (hx : cfg.row.xml = false) {m : Str} (hm : cfg.idName = some m) (sheets : List SheetIn)
    (h : ∀ r ∈ rowsIn sheets, NamesAll cfg m r.line) (hag : ∀ x y, Said cfg m sheets x → Said cfg m sheets y → x.Agree y) :
    ∃ gs w, doUnflatten cfg sheets = .ok (groupsToList gs, w) ∧ Clean (enc gs) ∧
      (∀ x, Said cfg m sheets x → ∃ c, (enc gs).sub (full x) = some (.cell c) ∧ c.value.pyEq x.value = true) ∧
      (∀ ks rs, (∀ x, Said cfg m sheets x → ∃ c, Tree.sub (full x) (.tmp ks rs) = some (.cell c) ∧ c.value.pyEq x.value = true) →
        Bel (enc gs) (.tmp ks rs)) ∧
      ∀ y ∈ w, (∃ s ∈ sheets, ∃ heading cols, y = .dupHeading heading cols s.name) ∨
        ∃ r ∈ rowsIn sheets, ∃ c ∈ columns r.line, ∃ v cw, c.value cfg.row = .ok (v, cw) ∧ y ∈ cw := by
  obtain ⟨rows, e1, e2, e3⟩ := run_says hx hm sheets h
  have hagr : ∀ x ∈ rows, ∀ y ∈ rows, Agr (encR cfg x).2 (encR cfg y).2 := by
    intro x hxm y hym
    obtain ⟨r, hr, hrs, _⟩ := e2 x hxm
    obtain ⟨r', hr', hrs', _⟩ := e2 y hym
    refine agr_of_cells hrs.leafy hrs'.leafy ?_
    intro p q c d hp hq
    obtain ⟨f, f1, f2, f3⟩ := hrs.sound p c hp
    obtain ⟨g, g1, g2, g3⟩ := hrs'.sound q d hq
    have hfg := hag f g ⟨r, hr, f1⟩ ⟨r', hr', g1⟩
    refine ⟨⟨_, f2⟩, fitP_congr f2 g2 (fitP_full hfg), ?_⟩
    rintro rfl
    obtain ⟨s1, s2⟩ := of_samePos_full (SamePos.step (SamePos.flip f2) g2)
    rw [f3, g3]
    exact (hfg s1).2 s2
  obtain ⟨gs, u1, u2, u3, u4⟩ := run_union rows (fun x hx => by obtain ⟨_, _, h, _⟩ := e2 x hx; exact h.filed)
    (fun x hx => by obtain ⟨_, _, h, _⟩ := e2 x hx; exact h.clean) hagr
  obtain ⟨w, hw, hww⟩ := doUnflatten_of_rows e1 u1
  refine ⟨gs, w, hw, u2, ?_, ?_, ?_⟩
  · rintro x ⟨r, hr, hx⟩
    obtain ⟨y, hy, hs⟩ := e3 r hr
    obtain ⟨c, c1, c2⟩ := hs.complete x hx
    obtain ⟨b, b1, b2⟩ := u3 y hy _ _ c1
    cases b with
    | cell d => exact ⟨d, b1, by rw [← c2]; exact Val.pyEq_symm b2⟩
    | obj _ => exact absurd b2 id
    | tmp _ _ => exact absurd b2 id
  · intro ks rs hall
    refine u4 ks rs (fun x hxm => ?_)
    obtain ⟨r, hr, hrs, _⟩ := e2 x hxm
    refine bel_of_cells' hrs.leafy ?_
    intro p c hp
    obtain ⟨f, f1, f2, f3⟩ := hrs.sound p c hp
    obtain ⟨d, d1, d2⟩ := hall f ⟨r, hr, f1⟩
    exact ⟨d, by rw [sub_same f2]; exact d1, by rw [f3]; exact Val.pyEq_symm d2⟩
  · intro y hy
    rcases (hww y).1 hy with hy | ⟨x, hxm, hy⟩ | hy
    · exact Or.inl (dupWarns_mem hy)
    · obtain ⟨r, hr, _, hw⟩ := e2 x hxm
      obtain ⟨c, hc, h⟩ := hw y hy
      exact Or.inr ⟨r, hr, c, hc, h⟩
    · simp at hy

theorem said_same {cfg : UnCfg} {m : Str} {sheets sheets' : List SheetIn} (hs : SameSaid cfg m sheets sheets') {gs : Groups}
    (h : ∀ x, Said cfg m sheets x → ∃ c, (enc gs).sub (full x) = some (.cell c) ∧ c.value.pyEq x.value = true) :
    ∀ y, Said cfg m sheets' y → ∃ c, (enc gs).sub (full y) = some (.cell c) ∧ c.value.pyEq y.value = true := by
  intro y hy
  obtain ⟨x, hx, hsame⟩ := hs.2 y hy
  obtain ⟨c, c1, c2⟩ := h x hx
  exact ⟨c, by rw [sub_same (samePos_full hsame)]; exact c1, Val.pyEq_trans c2 (Val.pyEq_symm hsame.2.2)⟩

theorem SameNamed.flip {p q : NamedPos} (h : SameNamed p q) : SameNamed q p := by
  unfold SameNamed at *
  induction h with
  | nil => exact .nil
  | @cons s t l m h1 _ ih =>
    obtain ⟨k, v⟩ := s
    obtain ⟨k', w⟩ := t
    refine .cons ⟨h1.1.symm, ?_⟩ ih
    have := h1.2
    cases v <;> cases w <;> first | exact trivial | exact absurd this id | exact Val.pyEq_symm this

theorem Spec.Fact.Same.symm {x y : Fact} (h : x.Same y) : y.Same x :=
  ⟨⟨Val.pyEq_symm h.1.1, Val.pyEq_symm h.1.2⟩, SameNamed.flip h.2.1, Val.pyEq_symm h.2.2⟩

theorem fitNamed_of_P : ∀ {P Q : NamedPos}, FitP (pk P) (pk Q) → FitNamed P Q
  | [], [], _ => trivial
  | [], (k, none) :: _, h => h.elim
  | [], (k, some _) :: _, h => h.elim
  | (k, none) :: _, [], h => h.elim
  | (k, some _) :: _, [], h => h.elim
  | (k, none) :: P, (k', none) :: Q, h => fun e => fitNamed_of_P (h e)
  | (k, some v) :: P, (k', some w) :: Q, h => fun e hv => fitNamed_of_P (h e hv)
  | (k, none) :: P, (k', some w) :: Q, h => fun e => by
      have := h e
      cases P with
      | nil => exact this
      | cons s P => obtain ⟨k2, v⟩ := s; cases v <;> exact this
  | (k, some v) :: P, (k', none) :: Q, h => fun e => by
      have := h e
      cases Q with
      | nil => exact this
      | cons s P => obtain ⟨k2, v⟩ := s; cases v <;> exact this

theorem sameNamed_step {p q r : NamedPos} (h : SameNamed p q) (h' : SameNamed q r) : SameNamed p r :=
  sameNamed_of_pk (SamePos.step (samePos_pk h) (samePos_pk h'))

theorem agree_same {x x' y y' : Fact} (hx : x.Same x') (hy : y.Same y') (h : x'.Agree y') : x.Agree y := by
  rintro ⟨h1, h2⟩
  have hso : x'.SameObject y' := ⟨Val.pyEq_trans (Val.pyEq_symm hx.1.1) (Val.pyEq_trans h1 hy.1.1),
    Val.pyEq_trans (Val.pyEq_symm hx.1.2) (Val.pyEq_trans h2 hy.1.2)⟩
  obtain ⟨h3, h4⟩ := h hso
  refine ⟨fitNamed_of_P (fitP_congr (samePos_pk hx.2.1) (samePos_pk hy.2.1) (fitP_of_named h3)), ?_⟩
  intro hs
  have := h4 (sameNamed_step (SameNamed.flip hx.2.1) (sameNamed_step hs hy.2.1))
  exact Val.pyEq_trans hx.2.2 (Val.pyEq_trans this (Val.pyEq_symm hy.2.2))

theorem groups_json {gs gs' : Groups} (c1 : Clean (enc gs)) (c2 : Clean (enc gs')) (b1 : Bel (enc gs) (enc gs')) (b2 : Bel (enc gs') (enc gs)) :
    SameJson (.arr (listToValue (groupsToList gs))) (.arr (listToValue (groupsToList gs'))) := by
  obtain ⟨objs, o1, o2⟩ := groups_same gs gs' (same_of_bel _ _ c1 c2 b1 b2)
  refine .arr (sameJsonItems_of o1) ?_
  rw [listToValue_map, listToValue_map]; exact o2.map _

/-- C78: let the rows of two spreadsheets name everything they speak about, and let what one of them says be free of contradictions.  If both say the same, then both
are unflattened, without a report of a contradiction, and give the same data, up to the order of objects, fields and array items: it does not matter which rows, sheets
and columns the data are in, in which order, how often they are repeated, and how array items are numbered. -/
theorem C78_same_said (cfg : UnCfg) (hx : cfg.row.xml = false) (m : Str) (hm : cfg.idName = some m) (sheets sheets' : List SheetIn)
    (h : ∀ r ∈ rowsIn sheets, NamesAll cfg m r.line) (h' : ∀ r ∈ rowsIn sheets', NamesAll cfg m r.line)
    (hag : ∀ x y, Said cfg m sheets x → Said cfg m sheets y → x.Agree y) (hs : SameSaid cfg m sheets sheets') :
    ∃ out w out' w', unflatten cfg sheets = .ok (out, w) ∧ unflatten cfg sheets' = .ok (out', w') ∧ SameJson (.arr out) (.arr out') ∧
      ∀ y ∈ w', (∃ s ∈ sheets', ∃ heading cols, y = .dupHeading heading cols s.name) ∨
        ∃ r ∈ rowsIn sheets', ∃ c ∈ columns r.line, ∃ v cw, c.value cfg.row = .ok (v, cw) ∧ y ∈ cw := by
  have hag' : ∀ x y, Said cfg m sheets' x → Said cfg m sheets' y → x.Agree y := by
    intro x y hx hy
    obtain ⟨x', hx', sx⟩ := hs.2 x hx
    obtain ⟨y', hy', sy⟩ := hs.2 y hy
    exact agree_same sx sy (hag x' y' hx' hy')
  obtain ⟨gs, w, e1, e2, e3, e4, _⟩ := run_facts hx hm sheets h hag
  obtain ⟨gs', w', f1, f2, f3, f4, f5⟩ := run_facts hx hm sheets' h' hag'
  refine ⟨listToValue (groupsToList gs), w, listToValue (groupsToList gs'), w', by simp [unflatten, e1], by simp [unflatten, f1], ?_, f5⟩
  exact groups_json e2 f2 (e4 _ _ (said_same ⟨hs.2, hs.1⟩ f3)) (f4 _ _ (said_same hs e3))

/-! ### Splitting rows -/

theorem contentOf_of_column {cfg : RowCfg} {cs : List Column} (hnd : ∀ c ∈ cs, ∀ d ∈ cs, c.addr cfg = d.addr cfg → c = d) {c : Column} (hc : c ∈ cs) {a : Addr}
    (ha : c.addr cfg = some a) {v : Val} {w : List Warn} (hv : c.value cfg = .ok (v, w)) : contentOf cfg cs a = some v := by
  unfold contentOf
  cases hf : cs.find? (fun c => c.addr cfg == some a) with
  | none => have := List.find?_eq_none.1 hf c hc; simp [ha] at this
  | some d =>
    have hda := List.find?_some hf
    simp only [beq_iff_eq] at hda
    rw [hnd d (List.mem_of_find?_eq_some hf) c hc (by rw [hda, ha])]
    simp only [hv]

theorem compatible_mem {cfg : RowCfg} {c d : Column} (hcd : c ≠ d) : ∀ l : List Column, (l.map (fun c => (c.addr cfg).getD [])).Pairwise Compatible →
    c ∈ l → d ∈ l → Compatible ((c.addr cfg).getD []) ((d.addr cfg).getD []) := by
  intro l
  induction l with
  | nil => intro _ h; cases h
  | cons x r ih =>
    intro hp h1 h2
    rw [List.map_cons, List.pairwise_cons] at hp
    rcases List.mem_cons.1 h1 with e1 | h1'
    · rcases List.mem_cons.1 h2 with e2 | h2'
      · exact absurd (e1.trans e2.symm) hcd
      · rw [e1]; exact hp.1 _ (List.mem_map.2 ⟨d, h2', rfl⟩)
    · rcases List.mem_cons.1 h2 with e2 | h2'
      · rw [e2]; exact Spec.Compatible.symm _ _ (hp.1 _ (List.mem_map.2 ⟨c, h1', rfl⟩))
      · exact ih hp.2 h1' h2'

theorem nodup_addr {cfg : RowCfg} {cs : List Column} (h : (cs.map (fun c => (c.addr cfg).getD [])).Pairwise Compatible) :
    ∀ c ∈ cs, ∀ d ∈ cs, c.addr cfg = d.addr cfg → c = d := by
  intro c hc d hd he
  by_cases hcd : c = d
  · exact hcd
  · have := compatible_mem (cfg := cfg) hcd cs h hc hd
    rw [he] at this
    exact (compatible_irrefl _ this).elim

theorem namedPos_le {m : Str} (a : Addr) : ∀ {f g : Content}, (∀ a v, f a = some v → g a = some v) →
    (∀ A k i B v, f (A ++ (k, some i) :: B) = some v → ∃ w, f (A ++ [(k, some i), (m, none)]) = some w) →
    ∀ {v}, f a = some v → namedPos m f a = namedPos m g a := by
  induction a with
  | nil => intro f g _ _ v _; rfl
  | cons s a ih =>
    intro f g hle hit v hv
    obtain ⟨k, ix⟩ := s
    have := ih (f := fun rest => f ((k, ix) :: rest)) (g := fun rest => g ((k, ix) :: rest)) (fun a v h => hle _ v h)
      (fun A k' i B v h => hit ((k, ix) :: A) k' i B v h) (v := v) hv
    cases ix with
    | none => simp only [namedPos, this]
    | some i =>
      obtain ⟨w, hw⟩ := hit [] k i a v hv
      simp only [List.nil_append] at hw
      simp only [namedPos, hw, hle _ _ hw, this]

theorem namedPos_refl {m : Str} (a : Addr) : ∀ {f : Content}, (∀ a v, f a = some v → v.pyEq v = true) → ∀ {P}, namedPos m f a = some P → SameNamed P P := by
  induction a with
  | nil => intro f _ P hP; simp only [namedPos, Option.some.injEq] at hP; subst hP; exact .nil
  | cons s a ih =>
    intro f hf P hP
    obtain ⟨k, ix⟩ := s
    cases ix with
    | none =>
      simp only [namedPos] at hP
      obtain ⟨Q, hQ, rfl⟩ := Option.map_eq_some_iff.1 hP
      exact .cons ⟨rfl, trivial⟩ (ih (fun a v h => hf _ v h) hQ)
    | some i =>
      simp only [namedPos] at hP
      cases hw : f [(k, some i), (m, none)] with
      | none => rw [hw] at hP; cases hP
      | some w =>
        rw [hw] at hP
        obtain ⟨Q, hQ, rfl⟩ := Option.map_eq_some_iff.1 hP
        exact .cons ⟨rfl, hf _ _ hw⟩ (ih (fun a v h => hf _ v h) hQ)

theorem self_content {cfg : UnCfg} {m : Str} {l : Line} (h : NamesAll cfg m l) : ∀ a v, contentOf cfg.row (columns l) a = some v → v.pyEq v = true := by
  intro a v hv
  obtain ⟨c, hc, _, w, hw⟩ := contentOf_addr hv
  obtain ⟨v', w', e1, _, e2, _⟩ := h.values c hc
  rw [hw] at e1; cases e1
  exact e2

theorem says_refl {cfg : UnCfg} {m : Str} {l : Line} (h : NamesAll cfg m l) {x : Fact} (hs : Says cfg m l x) : x.Same x := by
  obtain ⟨h1, h2, a, h3, h4⟩ := hs
  refine ⟨⟨by rw [h1]; exact h.root, self_content h _ _ h2⟩, namedPos_refl a (self_content h) h4, self_content h _ _ h3⟩

/-- A part gives the content of its columns. -/
theorem part_le {cfg : UnCfg} {m : Str} {l part : Line} (h : NamesAll cfg m l) (hp : PartOf cfg m l part) : ∀ a v,
    contentOf cfg.row (columns part) a = some v → contentOf cfg.row (columns l) a = some v := by
  intro a v hv
  obtain ⟨c, hc, ha, w, hw⟩ := contentOf_addr hv
  exact contentOf_of_column (nodup_addr h.fit) (hp.among c hc) ha hw

theorem part_has {cfg : UnCfg} {m : Str} {l part : Line} (h : NamesAll cfg m l) (hp : PartOf cfg m l part) {c : Column} (hc : c ∈ columns part) {a : Addr}
    (ha : c.addr cfg.row = some a) {v : Val} (hv : contentOf cfg.row (columns l) a = some v) : contentOf cfg.row (columns part) a = some v := by
  obtain ⟨v', w, hw, _⟩ := h.values c (hp.among c hc)
  have h1 := contentOf_of_column (nodup_addr h.fit) (hp.among c hc) ha hw
  rw [hv] at h1; cases h1
  exact contentOf_of_column (fun c hc d hd he => nodup_addr h.fit c (hp.among c hc) d (hp.among d hd) he) hc ha hw

theorem part_names {cfg : UnCfg} {m : Str} {l part : Line} (h : NamesAll cfg m l) (hp : PartOf cfg m l part) : NamesAll cfg m part where
  positions := fun c hc => h.positions c (hp.among c hc)
  fit := by
    have hn := hp.once
    rw [List.pairwise_map]
    exact hn.imp_of_mem (fun hc hd hcd => compatible_mem hcd _ h.fit (hp.among _ hc) (hp.among _ hd))
  values := fun c hc => h.values c (hp.among c hc)
  id := by
    obtain ⟨v, hv, hh⟩ := h.id
    obtain ⟨c, hc, ha⟩ := hp.id
    exact ⟨v, part_has h hp hc ha hv, hh⟩
  items := by
    intro A k i B v hv
    obtain ⟨w, hw, hh⟩ := h.items A k i B v (part_le h hp _ _ hv)
    obtain ⟨c, hc, ha, _⟩ := contentOf_addr hv
    obtain ⟨d, hd, hda⟩ := hp.items c hc A k i B ha
    exact ⟨w, part_has h hp hd hda hw, hh⟩
  distinct := fun above key i j m' a b hn hij h1 h2 => h.distinct above key i j m' a b hn hij (part_le h hp _ _ h1) (part_le h hp _ _ h2)
  root := by rw [hp.root]; exact h.root

theorem part_says {cfg : UnCfg} {m : Str} {l part : Line} (h : NamesAll cfg m l) (hp : PartOf cfg m l part) {x : Fact} (hx : Says cfg m part x) :
    Says cfg m l x := by
  obtain ⟨h1, h2, a, h3, h4⟩ := hx
  refine ⟨h1.trans hp.root, part_le h hp _ _ h2, a, part_le h hp _ _ h3, ?_⟩
  rw [← namedPos_le a (part_le h hp) (fun A k i B v hv => by
    obtain ⟨w, hw, _⟩ := (part_names h hp).items A k i B v hv; exact ⟨w, hw⟩) h3]
  exact h4

theorem says_part {cfg : UnCfg} {m : Str} {l part : Line} (h : NamesAll cfg m l) (hp : PartOf cfg m l part) {x : Fact} {a : Addr}
    (h1 : x.root = rootCell cfg.rootId l) (h2 : contentOf cfg.row (columns l) [(m, none)] = some x.id)
    (h3 : contentOf cfg.row (columns l) a = some x.value) (h4 : namedPos m (contentOf cfg.row (columns l)) a = some x.pos)
    {c : Column} (hc : c ∈ columns part) (ha : c.addr cfg.row = some a) : Says cfg m part x := by
  obtain ⟨d, hd, hda⟩ := hp.id
  have h3' := part_has h hp hc ha h3
  refine ⟨h1.trans hp.root.symm, part_has h hp hd hda h2, a, h3', ?_⟩
  rw [namedPos_le a (part_le h hp) (fun A k i B v hv => by
    obtain ⟨w, hw, _⟩ := (part_names h hp).items A k i B v hv; exact ⟨w, hw⟩) h3']
  exact h4

/-- C78: rows can be split.  If every row of the second spreadsheet is a part of a row of the first one, and every cell of the first one is in a part of its row, both give
the same data. -/
theorem C78_split (cfg : UnCfg) (hx : cfg.row.xml = false) (m : Str) (hm : cfg.idName = some m) (sheets sheets' : List SheetIn)
    (h : ∀ r ∈ rowsIn sheets, NamesAll cfg m r.line) (hag : ∀ x y, Said cfg m sheets x → Said cfg m sheets y → x.Agree y)
    (hparts : ∀ r' ∈ rowsIn sheets', ∃ r ∈ rowsIn sheets, PartOf cfg m r.line r'.line)
    (hcells : ∀ r ∈ rowsIn sheets, ∀ c ∈ columns r.line, ∃ r' ∈ rowsIn sheets', PartOf cfg m r.line r'.line ∧ c ∈ columns r'.line) :
    ∃ out w out' w', unflatten cfg sheets = .ok (out, w) ∧ unflatten cfg sheets' = .ok (out', w') ∧ SameJson (.arr out) (.arr out') := by
  have hs : SameSaid cfg m sheets sheets' := by
    constructor
    · rintro x ⟨r, hr, hx⟩
      have hrefl := says_refl (h r hr) hx
      obtain ⟨h1, h2, a, h3, h4⟩ := hx
      obtain ⟨c, hc, ha, _⟩ := contentOf_addr h3
      obtain ⟨r', hr', hp, hc'⟩ := hcells r hr c hc
      exact ⟨x, ⟨r', hr', says_part (h r hr) hp h1 h2 h3 h4 hc' ha⟩, hrefl⟩
    · rintro x ⟨r', hr', hx⟩
      obtain ⟨r, hr, hp⟩ := hparts r' hr'
      have hx' := part_says (h r hr) hp hx
      exact ⟨x, ⟨r, hr, hx'⟩, says_refl (h r hr) hx'⟩
  obtain ⟨out, w, out', w', e1, e2, e3, _⟩ := C78_same_said cfg hx m hm sheets sheets' h (fun r' hr' => by
    obtain ⟨r, hr, hp⟩ := hparts r' hr'
    exact part_names (h r hr) hp) hag hs
  exact ⟨out, w, out', w', e1, e2, e3⟩

namespace SpreadEx

def cfg : UnCfg := {}

/-- Everything in one row. -/
def wide : List SheetIn := [{ name := s%"main", lines := [[(some s%"id", .str s%"A"), (some s%"t", .str s%"T"), (some s%"l/0/id", .int 1), (some s%"l/0/x/y", .str s%"p"),
  (some s%"l/1/id", .int 2), (some s%"l/1/x/y", .str s%"q"), (some s%"l/1/m/0/id", .str s%"n"), (some s%"l/1/m/0/z", .str s%"r")]] }]

/-- The same in two sheets, the items out of order and always numbered 0, and a cell said twice. -/
def tall : List SheetIn := [
  { name := s%"l", lines := [[(some s%"id", .str s%"A"), (some s%"l/0/id", .int 2), (some s%"l/0/x/y", .str s%"q"), (some s%"t", .str s%"T")],
    [(some s%"l/0/x/y", .str s%"p"), (some s%"id", .str s%"A"), (some s%"l/0/id", .int 1)],
    [(some s%"id", .str s%"A"), (some s%"l/0/id", .int 2), (some s%"l/0/m/0/id", .str s%"n"), (some s%"l/0/m/0/z", .str s%"r")]] },
  { name := s%"main", lines := [[(some s%"id", .str s%"A"), (some s%"t", .str s%"T")]] }]

set_option synthInstance.maxSize 2000 in
/-- They meet the hypotheses. -/
example : ∃ out w out' w', unflatten cfg wide = .ok (out, w) ∧ unflatten cfg tall = .ok (out', w') ∧ SameJson (.arr out) (.arr out') ∧
    ∀ y ∈ w', (∃ s ∈ tall, ∃ heading cols, y = .dupHeading heading cols s.name) ∨
      ∃ r ∈ rowsIn tall, ∃ c ∈ columns r.line, ∃ v cw, c.value cfg.row = .ok (v, cw) ∧ y ∈ cw :=
  C78_same_said cfg rfl s%"id" rfl wide tall (namesAll_all (by decide +kernel)) (namesAll_all (by decide +kernel)) (agree_all (by decide +kernel))
    (sameSaid_all (by decide +kernel) (by decide +kernel) (by decide +kernel) (by decide +kernel))

set_option synthInstance.maxSize 2000 in
/-- And this is what they give. -/
example : unflatten cfg wide = .ok ([.obj [(s%"id", .leaf (.str s%"A")), (s%"t", .leaf (.str s%"T")),
    (s%"l", .arr [.obj [(s%"id", .leaf (.int 1)), (s%"x", .obj [(s%"y", .leaf (.str s%"p"))])],
      .obj [(s%"id", .leaf (.int 2)), (s%"x", .obj [(s%"y", .leaf (.str s%"q"))]), (s%"m", .arr [.obj [(s%"id", .leaf (.str s%"n")), (s%"z", .leaf (.str s%"r"))]])]])]], []) ∧
  unflatten cfg tall = .ok ([.obj [(s%"id", .leaf (.str s%"A")),
    (s%"l", .arr [.obj [(s%"id", .leaf (.int 2)), (s%"x", .obj [(s%"y", .leaf (.str s%"q"))]), (s%"m", .arr [.obj [(s%"id", .leaf (.str s%"n")), (s%"z", .leaf (.str s%"r"))]])],
      .obj [(s%"x", .obj [(s%"y", .leaf (.str s%"p"))]), (s%"id", .leaf (.int 1))]]),
    (s%"t", .leaf (.str s%"T"))]], []) := by decide +kernel

set_option synthInstance.maxSize 2000 in
/-- Why every item needs an id: without ids a row that repeats an item gives a second item. -/
example : unflatten cfg [{ name := s%"main", lines := [[(some s%"id", .str s%"A"), (some s%"l/0/x", .str s%"p"), (some s%"l/0/y", .str s%"q")]] }] =
    .ok ([.obj [(s%"id", .leaf (.str s%"A")), (s%"l", .arr [.obj [(s%"x", .leaf (.str s%"p")), (s%"y", .leaf (.str s%"q"))]])]], []) ∧
  unflatten cfg [{ name := s%"main", lines := [[(some s%"id", .str s%"A"), (some s%"l/0/x", .str s%"p")], [(some s%"id", .str s%"A"), (some s%"l/0/y", .str s%"q")]] }] =
    .ok ([.obj [(s%"id", .leaf (.str s%"A")), (s%"l", .arr [.obj [(s%"x", .leaf (.str s%"p"))], .obj [(s%"y", .leaf (.str s%"q"))]])]], []) := by decide +kernel

end SpreadEx

end Verif

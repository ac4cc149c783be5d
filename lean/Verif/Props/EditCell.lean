import Verif.Props.Edit
import Verif.Props.Holds
import Verif.Props.Spread
import Verif.Proofs.SpreadDec
import Verif.Proofs.DecEq
/-! C82: what the edit of one cell does to the object. -/
namespace Verif
open Spec

theorem columns_split {h : Option Str} {a : Atom} (ha : a.blank = false) (left right : Line) :
    columns (left ++ (h, a) :: right) = columns left ++ ⟨h.getD s%"None", a⟩ :: columns right := by
  simp [columns, List.filter_append, ha]

theorem content_other {cfg : RowCfg} {C1 C2 : List Column} {c c' : Column} {p b : Addr} (hc : c.addr cfg = some p) (hc' : c'.addr cfg = some p) (hb : b ≠ p) :
    contentOf cfg (C1 ++ c :: C2) b = contentOf cfg (C1 ++ c' :: C2) b := by
  unfold contentOf
  have h1 : (c.addr cfg == some b) = false := by rw [hc]; simpa using fun e => hb e.symm
  have h2 : (c'.addr cfg == some b) = false := by rw [hc']; simpa using fun e => hb e.symm
  rw [List.find?_append, List.find?_append, List.find?_cons, List.find?_cons, h1, h2]

theorem content_at {cfg : RowCfg} {C1 C2 : List Column} {c : Column} {p : Addr} (hc : c.addr cfg = some p)
    (hf : ((C1 ++ c :: C2).map (fun c => (c.addr cfg).getD [])).Pairwise Compatible) {v : Val} {w : List Warn} (hv : c.value cfg = .ok (v, w)) :
    contentOf cfg (C1 ++ c :: C2) p = some v := by
  have hn : C1.find? (fun d => d.addr cfg == some p) = none := by
    rw [List.find?_eq_none]
    intro d hd
    simp only [beq_iff_eq]
    intro he
    rw [List.map_append, List.pairwise_append] at hf
    have := hf.2.2 ((d.addr cfg).getD []) (List.mem_map_of_mem hd) ((c.addr cfg).getD []) (by simp)
    rw [he, hc] at this
    exact compatible_irrefl _ this
  unfold contentOf
  rw [List.find?_append, hn, List.find?_cons, hc]
  simp [hv]

theorem namedPos_congr {m : Str} (a : Addr) : ∀ {f g : Content}, (∀ A, f (A ++ [(m, none)]) = g (A ++ [(m, none)])) → namedPos m f a = namedPos m g a := by
  induction a with
  | nil => intros; rfl
  | cons s a ih =>
    intro f g h
    obtain ⟨k, ix⟩ := s
    cases ix with
    | none => simp only [namedPos]; rw [ih (f := fun rest => f ((k, none) :: rest)) (g := fun rest => g ((k, none) :: rest)) (fun A => h ((k, none) :: A))]
    | some i =>
      simp only [namedPos]
      rw [ih (f := fun rest => f ((k, some i) :: rest)) (g := fun rest => g ((k, some i) :: rest)) (fun A => h ((k, some i) :: A)),
        show f [(k, some i), (m, none)] = g [(k, some i), (m, none)] from h [(k, some i)]]

theorem hasId_eqv {m : Str} {v w : Val} {fs : List (Str × Json)} (h : HasId m w fs) (e : v.pyEq w = true) : HasId m v fs := by
  obtain ⟨a, h1, h2⟩ := h
  exact ⟨a, h1, Val.pyEq_trans h2 (Val.pyEq_symm e)⟩

theorem holdsAt_same {m : Str} {fs : List (Str × Json)} {p : NamedPos} {j : Json} (h : HoldsAt m fs p j) : ∀ {q : NamedPos}, SameNamed q p → HoldsAt m fs q j := by
  induction h with
  | value h1 h2 =>
    intro q hq
    cases hq with
    | @cons s _ _ _ e r =>
      cases r
      obtain ⟨k, ix⟩ := s
      obtain ⟨rfl, e⟩ := e
      cases ix with
      | none => exact .value h1 h2
      | some v => exact e.elim
  | field h1 h2 ih =>
    intro q hq
    cases hq with
    | @cons s _ _ _ e r =>
      obtain ⟨k, ix⟩ := s
      obtain ⟨rfl, e⟩ := e
      cases ix with
      | none => exact .field h1 (ih r)
      | some v => exact e.elim
  | item h1 h2 h3 h4 ih =>
    intro q hq
    cases hq with
    | @cons s _ _ _ e r =>
      obtain ⟨k, ix⟩ := s
      obtain ⟨rfl, e⟩ := e
      cases ix with
      | none => exact e.elim
      | some v => exact .item h1 h2 (hasId_eqv h3 e) (ih r)

/-- What the changed line says. -/
theorem says_changed {cfg : UnCfg} {m : Str} {h : Option Str} {a a' : Atom} {l l' : Line} (hl : CellChanged h a a' l l') {p : Addr}
    (ha : (⟨h.getD s%"None", a⟩ : Column).addr cfg.row = some p) (hid : ∀ A, p ≠ A ++ [(m, none)]) (hroot : rootCell cfg.rootId l = rootCell cfg.rootId l')
    {pos : NamedPos} (hp : namedPos m (contentOf cfg.row (columns l)) p = some pos) {y : Fact} (hy : Says cfg m l y) : y.pos = pos ∨ Says cfg m l' y := by
  obtain @⟨left, right, hb, hb'⟩ := hl
  have ha' : (⟨h.getD s%"None", a'⟩ : Column).addr cfg.row = some p := ha
  have hother : ∀ b, b ≠ p → contentOf cfg.row (columns (left ++ (h, a) :: right)) b = contentOf cfg.row (columns (left ++ (h, a') :: right)) b := by
    intro b hbp
    rw [columns_split hb, columns_split hb']
    exact content_other ha ha' hbp
  obtain ⟨h1, h2, b, h3, h4⟩ := hy
  by_cases hbp : b = p
  · subst hbp
    rw [hp] at h4
    exact .inl (Option.some.inj h4).symm
  · refine .inr ⟨h1.trans hroot, ?_, b, ?_, ?_⟩
    · rw [← hother [(m, none)] (fun e => hid [] e.symm)]; exact h2
    · rw [← hother b hbp]; exact h3
    · rw [← namedPos_congr b (fun A => hother _ (fun e => hid A e.symm))]; exact h4

theorem rowId_names {cfg : UnCfg} (hx : cfg.row.xml = false) {m : Str} (hm : cfg.idName = some m) {r : RowIn} (hc : Counts r) (h : NamesAll cfg m r.line)
    (hag : ∀ x y, Says cfg m r.line x → Says cfg m r.line y → x.Agree y) :
    (rowId cfg r).map Val.atom = contentOf cfg.row (columns r.line) [(m, none)] := by
  have hrows : rowsIn [alone r] = [⟨alone r, r.number, r.line⟩] := rowsIn_alone r hc.1 hc.2
  have hn : ∀ q ∈ rowsIn [alone r], NamesAll cfg m q.line := by rw [hrows]; simpa using h
  obtain ⟨out, w, keys, h1, -⟩ := C80_exactly cfg hx m hm [alone r] hn (by
    intro x y ⟨q, hq, hs⟩ ⟨q', hq', hs'⟩
    rw [hrows] at hq hq'
    simp only [List.mem_singleton] at hq hq'
    subst hq hq'
    exact hag x y hs hs')
  obtain ⟨x, e1, e2, -⟩ := row_says hx hm h
  obtain ⟨rows, gs, mw, f1, f2, -⟩ := unflatten_ok h1
  have hra := rowsAlone_alone cfg [r] (by simpa using hc)
  simp only [List.map_cons, List.map_nil] at hra
  rw [hra] at f1
  simp only [rowsAlone, e1] at f1
  cases f1
  rw [rowId_eq hc e1 (foldRows_each f2 x (by simp)), e2.key]

theorem said_alone {cfg : UnCfg} {m : Str} {rs : List RowIn} (h : ∀ r ∈ rs, Counts r) {y : Fact} :
    Said cfg m (rs.map alone) y ↔ ∃ r ∈ rs, Says cfg m r.line y := by
  have hrows : rowsIn (rs.map alone) = rs.map (fun r => ⟨alone r, r.number, r.line⟩) := by
    induction rs with
    | nil => rfl
    | cons r rs ih =>
      have := rowsIn_append [alone r] (rs.map alone)
      rw [List.singleton_append] at this
      rw [List.map_cons, this, rowsIn_alone r (h r (by simp)).1 (h r (by simp)).2, ih (fun r hr => h r (by simp [hr]))]
      rfl
  unfold Said
  rw [hrows]
  constructor
  · rintro ⟨q, hq, hs⟩
    obtain ⟨r, hr, rfl⟩ := List.mem_map.1 hq
    exact ⟨r, hr, hs⟩
  · rintro ⟨r, hr, hs⟩
    exact ⟨_, List.mem_map_of_mem hr, hs⟩

/-- One object, from its rows. -/
theorem group_object {cfg : UnCfg} (hx : cfg.row.xml = false) {m : Str} (hm : cfg.idName = some m) {rs : List RowIn} (hc : ∀ r ∈ rs, Counts r)
    (hn : ∀ r ∈ rs, NamesAll cfg m r.line) (hag : ∀ r ∈ rs, ∀ r' ∈ rs, ∀ x y, Says cfg m r.line x → Says cfg m r'.line y → x.Agree y)
    {o : Json} {w : List Warn} (h : unflatten cfg (rs.map alone) = .ok ([o], w)) :
    ∃ fs, o = .obj fs ∧ (∀ r ∈ rs, ∀ y, Says cfg m r.line y → HasId m y.id fs ∧ ∃ j, HoldsAt m fs y.pos j ∧ ShowsVal j y.value) ∧
      ∀ q j, HoldsAt m fs q j → ∃ r ∈ rs, ∃ y, Says cfg m r.line y ∧ SameNamed q y.pos ∧ ShowsVal j y.value := by
  obtain ⟨out, w', keys, h1, h2, -, h4⟩ := C80_exactly cfg hx m hm (rs.map alone) (by
      intro r hr
      have : ∃ q ∈ rs, q.line = r.line := by
        have hrows : rowsIn (rs.map alone) = rs.map (fun r => ⟨alone r, r.number, r.line⟩) := by
          clear hn hag h hr
          induction rs with
          | nil => rfl
          | cons r rs ih =>
            have := rowsIn_append [alone r] (rs.map alone)
            rw [List.singleton_append] at this
            rw [List.map_cons, this, rowsIn_alone r (hc r (by simp)).1 (hc r (by simp)).2, ih (fun r hr => hc r (by simp [hr]))]
            rfl
        rw [hrows] at hr
        obtain ⟨q, hq, rfl⟩ := List.mem_map.1 hr
        exact ⟨q, hq, rfl⟩
      obtain ⟨q, hq, e⟩ := this
      rw [← e]; exact hn q hq)
    (by
      intro x y hs hs'
      obtain ⟨r, hr, hs⟩ := (said_alone hc).1 hs
      obtain ⟨r', hr', hs'⟩ := (said_alone hc).1 hs'
      exact hag r hr r' hr' x y hs hs')
  rw [h] at h1
  simp only [Except.ok.injEq, Prod.mk.injEq] at h1
  rw [← h1.1] at h2
  cases h2 with
  | @cons key _ _ _ h2 h2' =>
    cases h2'
    obtain ⟨fs, rfl, hs⟩ := h2
    refine ⟨fs, rfl, ?_, ?_⟩
    · intro r hr y hy
      have hsaid := (said_alone hc).2 ⟨r, hr, hy⟩
      obtain ⟨k, hk, k1, k2⟩ := h4 y hsaid
      simp only [List.mem_singleton] at hk
      subst hk
      exact ⟨hasId_eqv hs.named k2, hs.holds y hsaid k1 k2⟩
    · intro q j hq
      obtain ⟨y, y1, -, -, y2, y3⟩ := hs.said q j hq
      obtain ⟨r, hr, y1⟩ := (said_alone hc).1 y1
      exact ⟨r, hr, y, y1, y2, y3⟩

/-- The positions other than the edited one hold the same. -/
theorem holds_moved {cfg : UnCfg} {m : Str} {rs rs' : List RowIn} {pos : NamedPos} {fs fs' : List (Str × Json)}
    (hsaid : ∀ q j, HoldsAt m fs q j → ∃ r ∈ rs, ∃ y, Says cfg m r.line y ∧ SameNamed q y.pos ∧ ShowsVal j y.value)
    (hmove : ∀ r ∈ rs, ∀ y, Says cfg m r.line y → y.pos = pos ∨ ∃ r' ∈ rs', Says cfg m r'.line y)
    (hhold : ∀ r ∈ rs', ∀ y, Says cfg m r.line y → HasId m y.id fs' ∧ ∃ j, HoldsAt m fs' y.pos j ∧ ShowsVal j y.value)
    {q : NamedPos} (hq : ¬ SameNamed q pos) {j : Json} (h : HoldsAt m fs q j) : ∃ j', HoldsAt m fs' q j' ∧ SameShown j j' := by
  obtain ⟨r, hr, y, y1, y2, y3⟩ := hsaid q j h
  rcases hmove r hr y y1 with e | ⟨r', hr', y1'⟩
  · rw [e] at y2; exact absurd y2 hq
  · obtain ⟨-, j', z1, z2⟩ := hhold r' hr' y y1'
    exact ⟨j', holdsAt_same z1 y2, y.value, y3, z2⟩

theorem CellChanged.symm' {h : Option Str} {a a' : Atom} {l l' : Line} (hl : CellChanged h a a' l l') : CellChanged h a' a l' l := by
  obtain ⟨h1, h2⟩ := hl
  exact ⟨h2, h1⟩

theorem changed_value {cfg : UnCfg} {m : Str} {h : Option Str} {a a' : Atom} {l l' : Line} (hl : CellChanged h a a' l l') {p : Addr}
    (hp : (⟨h.getD s%"None", a⟩ : Column).addr cfg.row = some p) (hn : NamesAll cfg m l) :
    ∃ v cw, (⟨h.getD s%"None", a⟩ : Column).value cfg.row = .ok (v, cw) ∧ contentOf cfg.row (columns l) p = some v := by
  obtain ⟨hb, hb'⟩ := hl
  have hfit := hn.fit
  have hval := hn.values
  rw [columns_split hb] at hfit hval ⊢
  obtain ⟨v, cw, e1, -⟩ := hval ⟨h.getD s%"None", a⟩ (by simp)
  exact ⟨v, cw, e1, content_at hp hfit e1⟩

theorem names_nc {cfg : UnCfg} {m : Str} {l : Line} (h : NamesAll cfg m l) : NC m (contentOf cfg.row (columns l)) := by
  refine ⟨?_, h.items, h.distinct⟩
  intro a v hv
  obtain ⟨c, hc, _, w, hw⟩ := contentOf_addr hv
  obtain ⟨v', w', e1, _, e2⟩ := h.values c hc
  rw [hw] at e1; cases e1
  exact e2

/-- C82: let the rows of a spreadsheet name everything they speak about without contradicting each other, and still do so after one cell, that is not an id, has got another value
(neither is blank).  Then only one object changes: the one with the id of the edited row.  It held the old value at the position of the cell and holds the new one now, and at all
other positions it holds what it held before, and nothing else. -/
theorem C82_cell (cfg : UnCfg) (hx : cfg.row.xml = false) (m : Str) (hm : cfg.idName = some m) (sh : SheetIn) (hh : sh.headings ≠ some []) (n : Nat)
    (h : Option Str) (a a' : Atom) (l l' : Line) (S S' : List SheetIn) (hS : LineReplaced sh n l l' S S') (hl : CellChanged h a a' l l')
    (hn : ∀ r ∈ rowsIn S, NamesAll cfg m r.line) (hag : ∀ x y, Said cfg m S x → Said cfg m S y → x.Agree y)
    (hn' : ∀ r ∈ rowsIn S', NamesAll cfg m r.line) (hag' : ∀ x y, Said cfg m S' x → Said cfg m S' y → x.Agree y)
    (p : Addr) (hp : (⟨h.getD s%"None", a⟩ : Column).addr cfg.row = some p) (hid : ∀ A, p ≠ A ++ [(m, none)]) (hroot : rootCell cfg.rootId l = rootCell cfg.rootId l') :
    ∃ out w out' w' id pos v cw v' cw', unflatten cfg S = .ok (out, w) ∧ unflatten cfg S' = .ok (out', w') ∧
      contentOf cfg.row (columns l) [(m, none)] = some id ∧ namedPos m (contentOf cfg.row (columns l)) p = some pos ∧
      (⟨h.getD s%"None", a⟩ : Column).value cfg.row = .ok (v, cw) ∧ (⟨h.getD s%"None", a'⟩ : Column).value cfg.row = .ok (v', cw') ∧
      out.length = out'.length ∧ ∃ (k : Nat) (fs fs' : List (Str × Json)), (∀ i : Nat, i ≠ k → out[i]? = out'[i]?) ∧ out[k]? = some (.obj fs) ∧ out'[k]? = some (.obj fs') ∧
        HasId m id fs ∧ HasId m id fs' ∧ (∃ j, HoldsAt m fs pos j ∧ ShowsVal j v) ∧ (∃ j, HoldsAt m fs' pos j ∧ ShowsVal j v') ∧
        ∀ q, ¬ SameNamed q pos → (∀ j, HoldsAt m fs q j → ∃ j', HoldsAt m fs' q j' ∧ SameShown j j') ∧
          (∀ j', HoldsAt m fs' q j' → ∃ j, HoldsAt m fs q j ∧ SameShown j' j) := by
  have hp' : (⟨h.getD s%"None", a'⟩ : Column).addr cfg.row = some p := hp
  -- the two rows
  obtain ⟨r0, r0', m0, m0', rl0, rl0', rs0, rs0', num⟩ : ∃ r r' : RowIn, r ∈ rowsIn S ∧ r' ∈ rowsIn S' ∧ r.line = l ∧ r'.line = l' ∧
      alone r = alone ⟨sh, n, l⟩ ∧ alone r' = alone ⟨sh, n, l'⟩ ∧ Counts r ∧ Counts r' := by
    have hdl : hasData l = true := by obtain ⟨h1, h2⟩ := hl; simp [hasData, h1]
    have hdl' : hasData l' = true := by obtain ⟨h1, h2⟩ := hl; simp [hasData, h2]
    obtain @⟨before, after, above, below, rfl⟩ := hS
    refine ⟨⟨{ sh with lines := above ++ l :: below }, above.length, l⟩, ⟨{ sh with lines := above ++ l' :: below }, above.length, l'⟩, ?_, ?_, rfl, rfl, rfl, rfl,
      ⟨hdl, hh⟩, ⟨hdl', hh⟩⟩
    · rw [rowsIn_eq, List.flatMap_append, List.flatMap_cons]
      simp only [List.mem_append]
      refine .inr (.inl ?_)
      simp only [rowsOf, hh, if_false, List.zipIdx_append, List.zipIdx_cons, List.filter_append, List.filter_cons, hdl, if_true, List.map_append, List.map_cons]
      simp
    · rw [rowsIn_eq, List.flatMap_append, List.flatMap_cons]
      simp only [List.mem_append]
      refine .inr (.inl ?_)
      simp only [rowsOf, hh, if_false, List.zipIdx_append, List.zipIdx_cons, List.filter_append, List.filter_cons, hdl', if_true, List.map_append, List.map_cons]
      simp
  have hnl : NamesAll cfg m l := rl0 ▸ hn r0 m0
  have hnl' : NamesAll cfg m l' := rl0' ▸ hn' r0' m0'
  obtain ⟨id, hidc, -⟩ := hnl.id
  -- the contents
  have hcont : ∀ b, b ≠ p → contentOf cfg.row (columns l) b = contentOf cfg.row (columns l') b := by
    intro b hbp
    obtain ⟨hb, hb'⟩ := hl
    rw [columns_split hb, columns_split hb']
    exact content_other hp hp' hbp
  obtain ⟨v, cw, hv, hcv⟩ := changed_value hl hp hnl
  obtain ⟨v', cw', hv', hcv'⟩ := changed_value (CellChanged.symm' hl) hp' hnl'
  obtain ⟨pos, hpos⟩ := namedPos_some p (names_nc hnl) hcv
  have hidc' : contentOf cfg.row (columns l') [(m, none)] = some id := by rw [← hcont [(m, none)] (fun e => hid [] e.symm)]; exact hidc
  have hpos' : namedPos m (contentOf cfg.row (columns l')) p = some pos := by
    rw [← namedPos_congr p (fun A => hcont _ (fun e => hid A e.symm))]; exact hpos
  have hrid : rowId cfg ⟨sh, n, l⟩ = rowId cfg ⟨sh, n, l'⟩ := by
    have e1 := rowId_names hx hm (r := ⟨sh, n, l⟩) ⟨rl0 ▸ num.1.1, hh⟩ hnl (fun x y hs hs' => hag x y ⟨r0, m0, rl0 ▸ hs⟩ ⟨r0, m0, rl0 ▸ hs'⟩)
    have e2 := rowId_names hx hm (r := ⟨sh, n, l'⟩) ⟨rl0' ▸ num.2.1, hh⟩ hnl' (fun x y hs hs' => hag' x y ⟨r0', m0', rl0' ▸ hs⟩ ⟨r0', m0', rl0' ▸ hs'⟩)
    simp only at e1 e2
    rw [hidc] at e1
    rw [hidc', ← e1] at e2
    cases f1 : rowId cfg ⟨sh, n, l⟩ with
    | none => rw [f1] at e1; simp at e1
    | some b =>
      cases f2 : rowId cfg ⟨sh, n, l'⟩ with
      | none => rw [f1, f2] at e2; simp at e2
      | some b' => rw [f1, f2] at e2; simpa using e2.symm
  obtain ⟨out, w, -, run, -⟩ := C80_exactly cfg hx m hm S hn hag
  obtain ⟨out', w', -, run', -⟩ := C80_exactly cfg hx m hm S' hn' hag'
  obtain ⟨G, g1, g2, g3, k, g4, g5⟩ := line_same_groups hS (rl0 ▸ num.1.1) (rl0' ▸ num.2.1) hrid hroot
  obtain ⟨len, rest⟩ := same_elsewhere run run' g1 g2 g4
  obtain ⟨g, hg, q0, hq0, ql, ql'⟩ := g5 hh
  have hgm : g ∈ G := List.mem_of_getElem? hg
  have a1 := C07_one_object_per_id cfg S out w run
  have a2 := C07_one_object_per_id cfg S' out' w' run'
  rw [g1] at a1
  rw [g2] at a2
  obtain ⟨l1, n1⟩ := all₂_nth a1
  obtain ⟨l2, n2⟩ := all₂_nth a2
  rw [List.length_map] at l1 l2
  have hlt : k < G.length := (List.getElem?_eq_some_iff.1 hg).1
  have o1 : out[k]? = some (out[k]'(by omega)) := List.getElem?_eq_getElem _
  have o2 : out'[k]? = some (out'[k]'(by omega)) := List.getElem?_eq_getElem _
  obtain ⟨w1, b1, -⟩ := n1 k (g.map (·.1)) _ (by simp [hg]) o1
  obtain ⟨w2, b2, -⟩ := n2 k (g.map (·.2)) _ (by simp [hg]) o2
  have in1 : ∀ r ∈ g.map (·.1), r ∈ rowsIn S := by
    intro r hr
    obtain ⟨q, hq, rfl⟩ := List.mem_map.1 hr
    exact (g3 g hgm q hq).1
  have in2 : ∀ r ∈ g.map (·.2), r ∈ rowsIn S' := by
    intro r hr
    obtain ⟨q, hq, rfl⟩ := List.mem_map.1 hr
    exact (g3 g hgm q hq).2.1
  obtain ⟨fs, c1, c2, c3⟩ := group_object hx hm (fun r hr => counts_rowsIn (in1 r hr)) (fun r hr => hn r (in1 r hr))
    (fun r hr r' hr' x y hs hs' => hag x y ⟨r, in1 r hr, hs⟩ ⟨r', in1 r' hr', hs'⟩) b1
  obtain ⟨fs', d1, d2, d3⟩ := group_object hx hm (fun r hr => counts_rowsIn (in2 r hr)) (fun r hr => hn' r (in2 r hr))
    (fun r hr r' hr' x y hs hs' => hag' x y ⟨r, in2 r hr, hs⟩ ⟨r', in2 r' hr', hs'⟩) b2
  have f1 := c2 q0.1 (List.mem_map_of_mem hq0) ⟨rootCell cfg.rootId l, id, pos, v⟩ (by rw [ql]; exact ⟨rfl, hidc, p, hcv, hpos⟩)
  have f2 := d2 q0.2 (List.mem_map_of_mem hq0) ⟨rootCell cfg.rootId l', id, pos, v'⟩ (by rw [ql']; exact ⟨rfl, hidc', p, hcv', hpos'⟩)
  have sameLine : ∀ q : RowIn × RowIn, alone q.1 = alone q.2 → q.1.line = q.2.line := by
    intro q e
    have := congrArg (fun s : SheetIn => s.lines.getLast?) e
    simpa [alone] using this
  refine ⟨out, w, out', w', id, pos, v, cw, v', cw', run, run', hidc, hpos, hv, hv', len, k, fs, fs', rest, by rw [o1, c1], by rw [o2, d1], f1.1, f2.1, f1.2, f2.2, ?_⟩
  intro q hq
  constructor
  · intro j hj
    refine holds_moved c3 ?_ d2 hq hj
    intro r hr y hy
    obtain ⟨e, he, rfl⟩ := List.mem_map.1 hr
    rcases (g3 g hgm e he).2.2 with e1 | ⟨e1, e2⟩
    · exact .inr ⟨e.2, List.mem_map_of_mem he, sameLine e e1 ▸ hy⟩
    · rw [e1] at hy
      rcases says_changed hl hp hid hroot hpos hy with z | z
      · exact .inl z
      · exact .inr ⟨e.2, List.mem_map_of_mem he, e2 ▸ z⟩
  · intro j hj
    refine holds_moved d3 ?_ c2 hq hj
    intro r hr y hy
    obtain ⟨e, he, rfl⟩ := List.mem_map.1 hr
    rcases (g3 g hgm e he).2.2 with e1 | ⟨e1, e2⟩
    · exact .inr ⟨e.1, List.mem_map_of_mem he, sameLine e e1 ▸ hy⟩
    · rw [e2] at hy
      rcases says_changed (CellChanged.symm' hl) hp' hid hroot.symm hpos' hy with z | z
      · exact .inl z
      · exact .inr ⟨e.1, List.mem_map_of_mem he, e1 ▸ z⟩

namespace EditEx

/-- A line of the example. -/
def line (id : Str) (item : Int) (x : Str) : Line := [(some s%"id", .str id), (some s%"l/0/id", .int item), (some s%"l/0/x", .str x)]

/-- The sheet, with the value of the cell to be edited. -/
def sheet (x : Str) : SheetIn := { name := s%"main", lines := [line s%"A" 1 s%"p", line s%"B" 1 x, line s%"A" 2 s%"r"] }

/-- A spreadsheet in which one cell is edited: the item 1 of the object B. -/
example : LineReplaced (sheet s%"q") 1 (line s%"B" 1 s%"q") (line s%"B" 1 s%"new") [sheet s%"q"] [sheet s%"new"] :=
  .intro (before := []) (after := []) (above := [line s%"A" 1 s%"p"]) (below := [line s%"A" 2 s%"r"]) rfl

example : CellChanged (some s%"l/0/x") (.str s%"q") (.str s%"new") (line s%"B" 1 s%"q") (line s%"B" 1 s%"new") :=
  .intro (left := [(some s%"id", .str s%"B"), (some s%"l/0/id", .int 1)]) (right := []) rfl rfl

/-- The hypotheses hold before and after the edit. -/
example : (∀ r ∈ rowsIn [sheet s%"q"], NamesAll {} s%"id" r.line) ∧ (∀ r ∈ rowsIn [sheet s%"new"], NamesAll {} s%"id" r.line) ∧
    (∀ x y, Said {} s%"id" [sheet s%"q"] x → Said {} s%"id" [sheet s%"q"] y → x.Agree y) ∧
    (∀ x y, Said {} s%"id" [sheet s%"new"] x → Said {} s%"id" [sheet s%"new"] y → x.Agree y) ∧
    (⟨s%"l/0/x", .str s%"q"⟩ : Column).addr ({} : UnCfg).row = some [(s%"l", some 0), (s%"x", none)] ∧
    rowId {} ⟨sheet s%"q", 1, line s%"B" 1 s%"q"⟩ = some (.str s%"B") ∧ rowId {} ⟨sheet s%"q", 1, line s%"B" 1 s%"new"⟩ = some (.str s%"B") := by
  refine ⟨namesAll_all (by decide +kernel), namesAll_all (by decide +kernel), agree_all (by decide +kernel), agree_all (by decide +kernel), ?_, ?_, ?_⟩ <;> decide +kernel

/-- Before and after: only the value in the object B differs. -/
example : ∀ x ∈ [s%"q", s%"new"], unflatten {} [sheet x] = .ok (
    [.obj [(s%"id", .leaf (.str s%"A")), (s%"l", .arr [.obj [(s%"id", .leaf (.int 1)), (s%"x", .leaf (.str s%"p"))], .obj [(s%"id", .leaf (.int 2)), (s%"x", .leaf (.str s%"r"))]])],
     .obj [(s%"id", .leaf (.str s%"B")), (s%"l", .arr [.obj [(s%"id", .leaf (.int 1)), (s%"x", .leaf (.str x))]])]], []) := by
  decide +kernel

/-- A line added: for the object A it extends the first object, for a new id it gives a new one. -/
example : (LineAdded (sheet s%"q") (line s%"A" 3 s%"s") [sheet s%"q"] [{ sheet s%"q" with lines := (sheet s%"q").lines ++ [line s%"A" 3 s%"s"] }]) ∧
    (unflatten {} [{ sheet s%"q" with lines := (sheet s%"q").lines ++ [line s%"A" 3 s%"s"] }]).map (·.1.length) = .ok 2 ∧
    (unflatten {} [{ sheet s%"q" with lines := (sheet s%"q").lines ++ [line s%"C" 3 s%"s"] }]).map (·.1.length) = .ok 3 :=
  ⟨.intro (before := []), by decide +kernel, by decide +kernel⟩

end EditEx

end Verif

import Verif.Proofs.Spread
import Verif.Props.Positions
import Verif.Proofs.Between
/-! A run over rows that name everything: the cells of the result are what the rows say. -/
namespace Verif
open Spec

/-! ### Paths -/

/-- Both paths can be in one tree. -/
def FitP : List PKey → List PKey → Prop
  | [], [] => True
  | .field k :: p, .field k' :: q => k = k' → FitP p q
  | .item v :: p, .item w :: q => v.pyEq w = true → FitP p q
  | _, _ => False

theorem fitP_of_named : ∀ {P Q : NamedPos}, FitNamed P Q → FitP (pk P) (pk Q)
  | [], [], _ => trivial
  | [], (k, none) :: _, h => h.elim
  | [], (k, some _) :: _, h => h.elim
  | (k, none) :: _, [], h => h.elim
  | (k, some _) :: _, [], h => h.elim
  | (k, none) :: P, (k', none) :: Q, h => fun e => fitP_of_named (h e)
  | (k, some v) :: P, (k', some w) :: Q, h => fun e hv => fitP_of_named (h e hv)
  | (k, none) :: P, (k', some w) :: Q, h => fun e => absurd e h
  | (k, some v) :: P, (k', none) :: Q, h => fun e => absurd e h

theorem samePos_pk {P Q : NamedPos} (h : SameNamed P Q) : SamePos (pk P) (pk Q) := by
  unfold SameNamed at h
  induction h with
  | nil => exact .nil
  | @cons s t l m h1 _ ih =>
    obtain ⟨k, v⟩ := s
    obtain ⟨k', w⟩ := t
    obtain ⟨rfl, h2⟩ := h1
    cases v with
    | none => cases w with
      | none => exact .cons rfl ih
      | some w => exact absurd h2 id
    | some v => cases w with
      | none => exact absurd h2 id
      | some w => exact .cons rfl (.cons h2 ih)

theorem sameNamed_of_pk : ∀ {P Q : NamedPos}, SamePos (pk P) (pk Q) → SameNamed P Q
  | [], [], _ => .nil
  | [], (k, none) :: _, h => by cases h
  | [], (k, some _) :: _, h => by cases h
  | (k, none) :: _, [], h => by cases h
  | (k, some _) :: _, [], h => by cases h
  | (k, none) :: P, (k', none) :: Q, .cons h1 h2 => .cons ⟨h1, trivial⟩ (sameNamed_of_pk h2)
  | (k, some v) :: P, (k', some w) :: Q, .cons h1 (.cons h2 h3) => .cons ⟨h1, h2⟩ (sameNamed_of_pk h3)
  | (k, none) :: P, (k', some w) :: Q, .cons h1 h2 => by
      cases P with
      | nil => cases h2
      | cons s P => obtain ⟨k2, v⟩ := s; cases v <;> (cases h2 with | cons h3 _ => exact absurd h3 id)
  | (k, some v) :: P, (k', none) :: Q, .cons h1 h2 => by
      cases Q with
      | nil => cases h2
      | cons s Q => obtain ⟨k2, w⟩ := s; cases w <;> (cases h2 with | cons h3 _ => exact absurd h3 id)

theorem SamePos.flip {p q : List PKey} (h : SamePos p q) : SamePos q p := by
  unfold SamePos at *
  induction h with
  | nil => exact .nil
  | cons h1 _ ih => exact .cons (PKey.same_symm h1) ih

theorem SamePos.step {p q r : List PKey} (h : SamePos p q) : SamePos q r → SamePos p r := by
  unfold SamePos at *
  induction h generalizing r with
  | nil => intro h; exact h
  | cons h1 _ ih => intro h'; cases h' with | cons h2 h3 => exact .cons (PKey.same_trans h1 h2) (ih h3)

theorem fitP_congr {p p' : List PKey} (h : SamePos p p') : ∀ {q q' : List PKey}, SamePos q q' → FitP p' q' → FitP p q := by
  unfold SamePos at h
  induction h with
  | nil => intro q q' h hf; cases h with | nil => trivial | @cons a b _ _ _ _ => cases b <;> exact hf.elim
  | @cons a b l m h1 _ ih =>
    intro q q' h hf
    cases h with
    | nil => cases b <;> exact hf.elim
    | @cons a' b' l' m' h2 h3 =>
      cases a <;> cases b <;> first | exact absurd h1 id | skip
      · cases a' <;> cases b' <;> first | exact absurd h2 id | exact hf.elim | skip
        cases h1; cases h2
        exact fun e => ih h3 (hf e)
      · cases a' <;> cases b' <;> first | exact absurd h2 id | exact hf.elim | skip
        exact fun e => ih h3 (hf (Val.pyEq_trans (Val.pyEq_symm h1) (Val.pyEq_trans e h2)))

theorem fitP_append {p : List PKey} : ∀ {q q' x : List PKey}, SamePos p x → FitP (p ++ q) (p ++ q') → FitP q q' := by
  induction p with
  | nil => intro q q' x _ h; exact h
  | cons s p ih =>
    intro q q' x hx h
    cases hx with
    | @cons _ b _ m h1 h2 =>
      cases s with
      | field k => exact ih h2 (h rfl)
      | item v =>
        cases b with
        | field k => exact absurd h1 id
        | item w => exact ih h2 (h (Val.pyEq_trans h1 (Val.pyEq_symm h1)))

theorem samePos_left {a b P : List PKey} (h : SamePos (a ++ b) P) : ∃ x, SamePos a x := by
  obtain ⟨c, d, _, h1, _⟩ := samePos_split_left h
  exact ⟨c, h1⟩

/-! ### Trees by their cells -/

theorem bel_of_cells' {t u : Tree} (ht : Leafy t)
    (h : ∀ p c, t.sub p = some (.cell c) → ∃ d, u.sub p = some (.cell d) ∧ c.value.pyEq d.value = true) : Bel t u := by
  intro p a ha
  obtain ⟨q, c, hq⟩ := ht p a ha
  have hpq : t.sub (p ++ q) = some (.cell c) := by rw [sub_append, ha]; exact hq
  obtain ⟨d, hd, hv⟩ := h _ _ hpq
  rw [sub_append] at hd
  cases hb : u.sub p with
  | none => rw [hb] at hd; simp at hd
  | some b =>
    rw [hb] at hd
    simp only [Option.bind_some] at hd
    refine ⟨b, rfl, ?_⟩
    cases q with
    | nil =>
      simp only [Tree.sub, Option.some.injEq] at hq hd
      rw [hq, hd]; exact hv
    | cons s q =>
      cases s <;> cases a <;> simp [Tree.sub] at hq <;> cases b <;> simp [Tree.sub] at hd <;> trivial

theorem agr_of_cells {t u : Tree} (ht : Leafy t) (hu : Leafy u)
    (h : ∀ p q c d, t.sub p = some (.cell c) → u.sub q = some (.cell d) → (∃ x, SamePos p x) ∧ FitP p q ∧ (p = q → c.value.pyEq d.value = true)) :
    Agr t u := by
  intro p a b ha hb
  obtain ⟨q, c, hq⟩ := ht p a ha
  obtain ⟨q', d, hq'⟩ := hu p b hb
  have h1 : t.sub (p ++ q) = some (.cell c) := by rw [sub_append, ha]; exact hq
  have h2 : u.sub (p ++ q') = some (.cell d) := by rw [sub_append, hb]; exact hq'
  obtain ⟨⟨x, hx⟩, hf, hv⟩ := h _ _ _ _ h1 h2
  obtain ⟨y, hy⟩ := samePos_left hx
  have hf := fitP_append hy hf
  cases q with
  | nil =>
    cases q' with
    | nil =>
      simp only [Tree.sub, Option.some.injEq] at hq hq'
      subst hq hq'
      exact hv rfl
    | cons s q' => cases s <;> exact hf.elim
  | cons s q =>
    cases q' with
    | nil => cases s <;> exact hf.elim
    | cons s' q' =>
      cases s with
      | field k =>
        cases s' with
        | item v => exact hf.elim
        | field k' => cases a <;> simp [Tree.sub] at hq <;> cases b <;> simp [Tree.sub] at hq' <;> trivial
      | item k =>
        cases s' with
        | field v => exact hf.elim
        | item k' => cases a <;> simp [Tree.sub] at hq <;> cases b <;> simp [Tree.sub] at hq' <;> trivial

/-! ### Rows -/

/-- The path of what is said in the tree of the whole run. -/
def full (x : Fact) : List PKey := .item (.atom x.root) :: .field [] :: .item x.id :: pk x.pos

theorem fitP_full {x y : Fact} (h : x.Agree y) : FitP (full x) (full y) :=
  fun h1 _ h2 => fitP_of_named (h ⟨h1, h2⟩).1

theorem samePos_full {x y : Fact} (h : x.Same y) : SamePos (full x) (full y) :=
  .cons h.1.1 (.cons rfl (.cons h.1.2 (samePos_pk h.2.1)))

theorem of_samePos_full {x y : Fact} (h : SamePos (full x) (full y)) : x.SameObject y ∧ SameNamed x.pos y.pos := by
  cases h with
  | cons h1 h =>
    cases h with
    | cons _ h =>
      cases h with
      | cons h2 h => exact ⟨⟨h1, h2⟩, sameNamed_of_pk h⟩

/-- The row and its tree. -/
structure RowSays (cfg : UnCfg) (m : Str) (l : Line) (x : Row) : Prop where
  filed : Filed cfg x
  clean : Clean (encR cfg x).2
  leafy : Leafy (encR cfg x).2
  sound : ∀ p c, (encR cfg x).2.sub p = some (.cell c) → ∃ f, Says cfg m l f ∧ SamePos p (full f) ∧ c.value = f.value
  complete : ∀ f, Says cfg m l f → ∃ c, (encR cfg x).2.sub (full f) = some (.cell c) ∧ c.value = f.value
  key : keyOf cfg x = contentOf cfg.row (columns l) [(m, none)]

theorem row_says {cfg : UnCfg} (hx : cfg.row.xml = false) {m : Str} (hm : cfg.idName = some m) {r : RowIn} (h : NamesAll cfg m r.line) :
    ∃ x, rowAlone cfg r = .ok x ∧ RowSays cfg m r.line x ∧
      ∀ w ∈ x.warns, ∃ c ∈ columns r.line, ∃ v cw, c.value cfg.row = .ok (v, cw) ∧ w ∈ cw := by
  have hcc := cellColumns_line r.sheet.name r.sheet.headings r.number r.line 0
  obtain ⟨rf, w, h1, h2, h3⟩ := placeAll_ok hx (lineCells r.sheet.name r.sheet.headings r.number 0 r.line) (done := []) (cur := [])
    (lineCells_atom _ _ _ _ _) (by rw [hcc]; simpa using h.positions)
    (by rw [hcc]; intro c hc; obtain ⟨v, w, e1, e2, _⟩ := h.values c hc; exact ⟨v, w, e1, e2⟩)
    (by rw [hcc]; simpa using h.fit) ⟨by simp [RFullF], fun a => by cases a <;> simp [rget, contentOf]⟩
  rw [hcc] at h2 h3
  simp only [List.nil_append] at h2
  have hcont : content rf = contentOf cfg.row (columns r.line) := funext h2.content
  have hnc : NC m (content rf) := by
    rw [hcont]
    refine ⟨?_, h.items, h.distinct⟩
    intro a v hv
    obtain ⟨c, hc, _, w, hw⟩ := contentOf_addr hv
    obtain ⟨v', w', e1, _, e2⟩ := h.values c hc
    rw [hw] at e1; cases e1
    exact e2
  obtain ⟨fs, ht, hrt⟩ := fgood m rf h2.full hnc
  obtain ⟨k, hk, hkh⟩ := h.id
  have hk' : content rf [(m, none)] = some k := by rw [hcont]; exact hk
  have hkk := (hnc.good _ _ hk').1
  have hne : rf ≠ [] := by intro e; subst e; simp [content, rget] at hk'
  have hrow : rowAlone cfg r = .ok ⟨r.sheet.name, rootKey cfg r.line, fs, w⟩ := by
    unfold rowAlone unflattenRow
    rw [h1, hm, hx]
    simp only [ht]
  have hrk : rowKey cfg.idName cfg.row.xml fs = .ok (some k) := by
    obtain ⟨c, hc, rfl⟩ := get_id hk'
    rcases all₂_get (toTemp_all₂ h2.full ht) m with ⟨e1, _⟩ | ⟨t, t', e1, e2, e3⟩
    · rw [e1] at hc; cases hc
    · rw [hc] at e1; cases e1
      simp only [TempOf] at e3
      subst e3
      simp [rowKey, hm, e2]
  refine ⟨_, hrow, ?_, h3⟩
  have hko : keyOf cfg ⟨r.sheet.name, rootKey cfg r.line, fs, w⟩ = some k := by unfold keyOf; simp only; rw [hrk]
  have hroot : rootKey cfg r.line = .atom (rootCell cfg.rootId r.line) := rootKey_eq cfg r.line
  have henc : (encR cfg ⟨r.sheet.name, rootKey cfg r.line, fs, w⟩).2 = encRow (.atom (rootCell cfg.rootId r.line)) k fs := by
    simp only [encR, hko, Option.getD_some]; rw [hroot]
  have hrr : (Val.atom (rootCell cfg.rootId r.line)).pyEq (.atom (rootCell cfg.rootId r.line)) = true := h.root
  have hleaf : Leafy (encRow (.atom (rootCell cfg.rootId r.line)) k fs) := by
    unfold encRow
    refine leafy_tmp (by simp) (by simpa using hrr) ?_
    intro e he
    simp only [List.mem_singleton] at he
    subst he
    refine leafy_obj (by simp) ?_
    intro e he
    simp only [List.mem_singleton] at he
    subst he
    refine leafy_tmp (by simp) (by simpa using hkk) ?_
    intro e he
    simp only [List.mem_singleton] at he
    subst he
    exact hrt.leafy hne
  refine ⟨⟨k, hrk, hkh⟩, by rw [henc]; exact clean_encRow hrr hkk hrt.clean, by rw [henc]; exact hleaf, ?_, ?_, hko.trans hk.symm⟩
  · rw [henc]
    intro p c hp
    -- walk down to the object
    cases p with
    | nil => simp [encRow, Tree.sub] at hp
    | cons s p =>
      cases s with
      | field f => simp [encRow, Tree.sub] at hp
      | item v =>
        simp only [encRow, Tree.sub, keyGet_cons, keyGet_nil] at hp
        by_cases hv : (Val.atom (rootCell cfg.rootId r.line)).pyEq v = true
        · rw [if_pos hv] at hp
          simp only [Option.bind_some] at hp
          cases p with
          | nil => simp [Tree.sub] at hp
          | cons s p =>
            cases s with
            | item w => simp [Tree.sub] at hp
            | field f =>
              simp only [Tree.sub, Dict.get_cons, Dict.get_nil] at hp
              by_cases hf : ([] : Str) = f
              · subst hf
                simp only [if_true, Option.bind_some] at hp
                cases p with
                | nil => simp [Tree.sub] at hp
                | cons s p =>
                  cases s with
                  | field f => simp [Tree.sub] at hp
                  | item u =>
                    simp only [Tree.sub, keyGet_cons, keyGet_nil] at hp
                    by_cases hu : k.pyEq u = true
                    · rw [if_pos hu] at hp
                      simp only [Option.bind_some] at hp
                      obtain ⟨a, P, a1, a2, a3⟩ := hrt.sound p c hp
                      refine ⟨⟨rootCell cfg.rootId r.line, k, P, c.value⟩, ⟨rfl, hk, a, ?_, ?_⟩,
                        .cons (Val.pyEq_symm hv) (.cons rfl (.cons (Val.pyEq_symm hu) a3)), rfl⟩
                      · rw [← hcont]; simp [content, a1]
                      · rw [← hcont]; exact a2
                    · rw [if_neg hu] at hp; simp at hp
              · rw [if_neg hf] at hp; simp at hp
        · rw [if_neg hv] at hp; simp at hp
  · rw [henc]
    rintro ⟨root, id, pos, value⟩ ⟨hr, hi, a, ha, hP⟩
    simp only at hr hi ha hP
    subst hr
    rw [hk] at hi; cases hi
    rw [← hcont] at ha hP
    obtain ⟨c, hc, rfl⟩ := Option.map_eq_some_iff.1 ha
    have := hrt.complete a c pos hc hP
    refine ⟨c, ?_, rfl⟩
    simp only [full, encRow, Tree.sub, keyGet_cons, hrr, if_true, Option.bind_some, Dict.get_cons, hkk]
    exact this

/-- The whole run. -/
theorem run_says {cfg : UnCfg} (hx : cfg.row.xml = false) {m : Str} (hm : cfg.idName = some m) (sheets : List SheetIn)
    (h : ∀ r ∈ rowsIn sheets, NamesAll cfg m r.line) :
    ∃ rows, rowsAlone cfg (rowsIn sheets) = .ok rows ∧
      (∀ x ∈ rows, ∃ r ∈ rowsIn sheets, RowSays cfg m r.line x ∧
        ∀ w ∈ x.warns, ∃ c ∈ columns r.line, ∃ v cw, c.value cfg.row = .ok (v, cw) ∧ w ∈ cw) ∧
      (∀ r ∈ rowsIn sheets, ∃ x ∈ rows, RowSays cfg m r.line x) := by
  have hall : ∀ rs : List RowIn, (∀ r ∈ rs, NamesAll cfg m r.line) → ∃ xs, rowsAlone cfg rs = .ok xs ∧
      (∀ x ∈ xs, ∃ r ∈ rs, RowSays cfg m r.line x ∧
        ∀ w ∈ x.warns, ∃ c ∈ columns r.line, ∃ v cw, c.value cfg.row = .ok (v, cw) ∧ w ∈ cw) ∧
      (∀ r ∈ rs, ∃ x ∈ xs, RowSays cfg m r.line x) := by
    intro rs
    induction rs with
    | nil => intro _; exact ⟨[], rfl, by simp, by simp⟩
    | cons r rs ih =>
      intro hr
      obtain ⟨xs, h1, h2, h3⟩ := ih (fun r h => hr r (by simp [h]))
      obtain ⟨x, hx, hs, hw⟩ := row_says hx hm (hr r (by simp))
      refine ⟨x :: xs, by simp [rowsAlone, hx, h1], ?_, ?_⟩
      · intro y hy
        rcases List.mem_cons.1 hy with rfl | hy
        · exact ⟨r, by simp, hs, hw⟩
        · obtain ⟨r', hr', h⟩ := h2 y hy; exact ⟨r', by simp [hr'], h⟩
      · intro r' hr'
        rcases List.mem_cons.1 hr' with rfl | hr'
        · exact ⟨x, by simp, hs⟩
        · obtain ⟨y, hy, h⟩ := h3 r' hr'; exact ⟨y, by simp [hy], h⟩
  exact hall _ h

end Verif

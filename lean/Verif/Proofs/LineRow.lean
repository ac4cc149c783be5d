import Verif.Proofs.DocRow
import Verif.Props.Positions
/-! The object of a line whose cells are at known positions of a document. -/
namespace Verif
open Spec

theorem okP_append {P Q : List PKey} (hP : okP P) (hQ : okP Q) : okP (P ++ Q) ∧ addrOf (P ++ Q) = addrOf P ++ addrOf Q ∨
    ∃ l r, Q = .item l :: r := by
  cases Q with
  | nil => left; simpa [addrOf] using hP
  | cons s Q =>
    cases s with
    | item l => exact .inr ⟨l, Q, rfl⟩
    | field k =>
      left
      induction P, hP using okP_ind with
      | nil => exact ⟨hQ, rfl⟩
      | item k' l r _ _ ih =>
        refine ⟨?_, ?_⟩
        · show okP (r ++ .field k :: Q)
          exact ih.1
        · show (k', some 0) :: addrOf (r ++ .field k :: Q) = _
          rw [ih.2]; rfl
      | field k' r h h' ha ih =>
        cases r with
        | nil =>
          refine ⟨?_, ?_⟩
          · show okP (.field k' :: .field k :: Q)
            simpa [okP] using hQ
          · rfl
        | cons s r =>
          cases s with
          | item l => exact absurd h (by simp [okP])
          | field k2 =>
            refine ⟨?_, ?_⟩
            · show okP (.field k2 :: (r ++ .field k :: Q))
              exact ih.1
            · show (k', none) :: addrOf ((.field k2 :: r) ++ .field k :: Q) = _
              rw [ih.2, ha]; rfl

theorem addrOf_snoc_id {PA : List PKey} (h : okP PA) (k n : Str) (l : Val) :
    addrOf (PA ++ [.field k, .item l, .field n]) = addrOf PA ++ [(k, some 0), (n, none)] := by
  rcases okP_append h (Q := [.field k, .item l, .field n]) trivial with h | ⟨l', r, h⟩
  · exact h.2
  · cases h

/-- The values (`S`, with their positions) of a line about the object with tree `D`; `ls` are the ids of the items on the way. -/
structure LineOf (T : Trip) (D : Tree) (ls : List Val) (S : List PKey → Atom → Prop) : Prop where
  cell : ∀ P b, S P b → D.sub P = some (.cell (docCell (back T (keysP P) b))) ∧ (∃ j, T.Returns (keysP P) b j) ∧ labelsP P <+: ls
  label : ∀ PA k l PB b, S (PA ++ .field k :: .item l :: PB) b → l.pyEq l = true ∧
    (l.hashable = true ∧ (∃ a, S (PA ++ [.field k, .item l, .field T.idName]) a ∧
        back T (keysP (PA ++ [.field k, .item l, .field T.idName])) a = l) ∨
      l.hashable = false ∧ ∀ X b', ¬ S (PA ++ .field k :: .item l :: .field T.idName :: X) b')
  some : ∃ P b, S P b

/-- The line has these values and no others. -/
structure LineHas (T : Trip) (S : List PKey → Atom → Prop) (l : Line) : Prop where
  columns : (l.map (·.1)).Nodup
  from_ : ∀ h a, (h, a) ∈ l → a.blank = false → ∃ P b, S P b ∧ h = some (pathText (strs P)) ∧ a = T.write b
  all : ∀ P b, S P b → (some (pathText (strs P)), T.write b) ∈ l

/-- The object of a line. -/
structure RowIs (T : Trip) (ls : List Val) (S : List PKey → Atom → Prop) (rf : RFields) : Prop where
  full : RFullF rf
  shape : ∀ e ∈ rf, Shape T.idName ls e.2
  get : ∀ a c, rget rf a = some c → ∃ P b, S P b ∧ okP P ∧ a = addrOf P ∧ c.value = back T (keysP P) b
  has : ∀ P b, S P b → okP P ∧ ∃ c, rget rf (addrOf P) = some c ∧ c.value = back T (keysP P) b

theorem row_of_line {T : Trip} {cfg : RowCfg} (hx : cfg.xml = false) (ht : cfg.types = T.types) (hc : cfg.conv = T.conv)
    {fs : List (Str × Json)} (ho : T.Object fs) (hf : T.FitsFields [] fs) {ls : List Val} {S : List PKey → Atom → Prop}
    (hS : LineOf T (.obj (docF T [] fs)) ls S) {l : Line} (hl : LineHas T S l) (sheet : Str) (hs : Option (List (Option Str))) (j : Nat) :
    ∃ rf w, unflattenRow cfg (some T.idName) (lineCells sheet hs j 0 l) = .ok (forgetF (labF ls rf), w) ∧ RowIs T ls S rf ∧
      ∀ x ∈ w, ∃ c ∈ columns l, ∃ v w', c.value cfg = .ok (v, w') ∧ x ∈ w' := by
  have hpos : ∀ P b, S P b → okP P ∧ (∀ k ∈ keysP P, GoodKey k) ∧ address T.types [] (strs P) = some (addrOf P) ∧ P ≠ [] := by
    intro P b h
    have h1 := (hS.cell P b h).1
    have h2 := (address_docT (T := T) (.obj fs)).1 fs [] rfl ho hf P _ h1
    refine ⟨h2.1, h2.2.1, h2.2.2, ?_⟩
    rintro rfl
    simp [Tree.sub] at h1
  -- the columns
  have hcol : ∀ c ∈ columns l, ∃ P b, S P b ∧ c = ⟨pathText (strs P), T.write b⟩ := by
    intro c hcm
    simp only [columns, List.mem_map, List.mem_filter, Bool.not_eq_true', Prod.exists] at hcm
    obtain ⟨h, a, ⟨hm, hb⟩, rfl⟩ := hcm
    obtain ⟨P, b, h1, rfl, rfl⟩ := hl.from_ h a hm hb
    exact ⟨P, b, h1, rfl⟩
  have haddr : ∀ P b, S P b → (⟨pathText (strs P), T.write b⟩ : Column).addr cfg = some (addrOf P) := by
    intro P b h
    obtain ⟨h1, h2, h3, h4⟩ := hpos P b h
    simp only [Column.addr, pathList_strs h4 h2, ht, h3]
  have hval : ∀ P b, S P b → ∃ w, (⟨pathText (strs P), T.write b⟩ : Column).value cfg = .ok (back T (keysP P) b, w) := by
    intro P b h
    obtain ⟨-, ⟨j, hr⟩, -⟩ := hS.cell P b h
    obtain ⟨⟨w, hw⟩, -⟩ := hr.back
    refine ⟨w, ?_⟩
    simp only [Column.value, haddr P b h, Option.getD_some, ht, hc]
    rw [addrOf_keys (hpos P b h).1]
    exact hw
  have hcompat : ((columns l).map (fun c => (c.addr cfg).getD [])).Pairwise Compatible := by
    rw [List.pairwise_map]
    have h0 : l.Pairwise (fun x y => x.1 ≠ y.1) := by
      have := hl.columns
      rw [List.Nodup, List.pairwise_map] at this
      exact this
    unfold columns
    rw [List.pairwise_map]
    refine (List.Pairwise.sublist List.filter_sublist h0).imp_of_mem ?_
    intro x y hx hy hne
    simp only [List.mem_filter, Bool.not_eq_true'] at hx hy
    obtain ⟨P, b, h1, e1, e2⟩ := hl.from_ x.1 x.2 hx.1 hx.2
    obtain ⟨Q, b', h1', e1', e2'⟩ := hl.from_ y.1 y.2 hy.1 hy.2
    rw [e1, e2, e1', e2']
    simp only [Option.getD_some]
    rw [haddr P b h1, haddr Q b' h1']
    simp only [Option.getD_some]
    refine compatible_cells (hpos P b h1).1 (hpos Q b' h1').1 (hS.cell P b h1).1 (hS.cell Q b' h1').1
      (hS.cell P b h1).2.2 (hS.cell Q b' h1').2.2 ?_
    rintro rfl
    exact hne (by rw [e1, e1'])
  have hcc := cellColumns_line sheet hs j l 0
  obtain ⟨rf, w, hp, hinv, hwarn⟩ := placeAll_ok hx (lineCells sheet hs j 0 l) (done := []) (cur := []) (lineCells_atom _ _ _ _ _)
    (by
      rw [hcc]; simp only [List.nil_append]
      intro c hcm
      obtain ⟨P, b, h, rfl⟩ := hcol c hcm
      rw [haddr P b h]; simp)
    (by
      rw [hcc]
      intro c hcm
      obtain ⟨P, b, h, rfl⟩ := hcol c hcm
      obtain ⟨w, hw⟩ := hval P b h
      obtain ⟨-, ⟨j, hr⟩, -⟩ := hS.cell P b h
      exact ⟨_, w, hw, hr.back.2.1⟩)
    (by rw [hcc]; simpa using hcompat)
    ⟨by simp [RFullF], fun a => by cases a <;> simp [rget, contentOf]⟩
  rw [hcc, List.nil_append] at hinv
  rw [hcc] at hwarn
  have hget : ∀ a c, rget rf a = some c → ∃ P b, S P b ∧ okP P ∧ a = addrOf P ∧ c.value = back T (keysP P) b := by
    intro a c h
    have h1 := hinv.content a
    rw [h] at h1
    obtain ⟨d, hd, hda, w', hdv⟩ := contentOf_addr h1.symm
    obtain ⟨P, b, h2, rfl⟩ := hcol d hd
    rw [haddr P b h2] at hda
    cases hda
    obtain ⟨w2, hw2⟩ := hval P b h2
    rw [hw2] at hdv
    simp only [Except.ok.injEq, Prod.mk.injEq] at hdv
    exact ⟨P, b, h2, (hpos P b h2).1, rfl, hdv.1.symm⟩
  have hhas : ∀ P b, S P b → okP P ∧ ∃ c, rget rf (addrOf P) = some c ∧ c.value = back T (keysP P) b := by
    intro P b h
    refine ⟨(hpos P b h).1, ?_⟩
    have hm : (⟨pathText (strs P), T.write b⟩ : Column) ∈ columns l := by
      simp only [columns, List.mem_map, List.mem_filter, Bool.not_eq_true', Prod.exists]
      obtain ⟨-, ⟨j, hr⟩, -⟩ := hS.cell P b h
      exact ⟨_, _, ⟨hl.all P b h, hr.1⟩, rfl⟩
    have h1 := hinv.content (addrOf P)
    cases hg : rget rf (addrOf P) with
    | none =>
      rw [hg] at h1
      unfold contentOf at h1
      cases hfnd : (columns l).find? (fun c => c.addr cfg == some (addrOf P)) with
      | none =>
        have := List.find?_eq_none.1 hfnd _ hm
        rw [haddr P b h] at this; simp at this
      | some d =>
        rw [hfnd] at h1
        have hdm := List.mem_of_find?_eq_some hfnd
        obtain ⟨Q, b', h2, rfl⟩ := hcol d hdm
        obtain ⟨w2, hw2⟩ := hval Q b' h2
        simp only at h1
        rw [hw2] at h1
        cases h1
    | some c =>
      refine ⟨c, rfl, ?_⟩
      obtain ⟨Q, b', h2, hQ, he, hv⟩ := hget _ _ hg
      have e1 := pos_addrOf (hpos P b h).1 ls (hS.cell P b h).2.2
      have e2 := pos_addrOf hQ ls (hS.cell Q b' h2).2.2
      rw [he, e2] at e1
      subst e1
      -- the same heading: the same cell
      have hm1 := hl.all _ b h
      have hm2 := hl.all _ b' h2
      have hnd := hl.columns
      have hww : T.write b = T.write b' := by
        have g1 := Dict.get_of_mem hnd hm1
        rw [Dict.get_of_mem hnd hm2] at g1
        exact (Option.some.inj g1).symm
      rw [hv]
      unfold back
      rw [hww]
  have hlab : LabC T.idName ls (content rf) := by
    have hcont : ∀ a v, content rf a = some v → ∃ P b, S P b ∧ okP P ∧ a = addrOf P ∧ v = back T (keysP P) b := by
      intro a v h
      simp only [content, Option.map_eq_some_iff] at h
      obtain ⟨c, h1, rfl⟩ := h
      obtain ⟨P, b, h2, h3, h4, h5⟩ := hget a c h1
      exact ⟨P, b, h2, h3, h4, h5⟩
    refine ⟨?_, ?_, ?_⟩
    · intro a v h
      obtain ⟨P, b, h1, h2, rfl, -⟩ := hcont a v h
      exact addrOf_zero h2
    · intro a v h
      obtain ⟨P, b, h1, h2, rfl, -⟩ := hcont a v h
      rw [crossed_addrOf h2]
      exact (hS.cell P b h1).2.2.length_le
    · intro A k B v x h hx
      have key : ∀ B v, content rf (A ++ (k, some 0) :: B) = some v → ∃ PA PB b, S (PA ++ .field k :: .item x :: PB) b ∧ okP PA ∧
          addrOf PA = A ∧ PA = pos ls A ∧ addrOf PB = B ∧ okP PB := by
        intro B v h
        obtain ⟨P, b, h1, h2, h3, -⟩ := hcont _ v h
        obtain ⟨PA, l', PB, rfl, e1, e2, e3, e4⟩ := addrOf_split A h2 h3.symm
        have hpre := (hS.cell _ b h1).2.2
        simp only [labelsP_append, labelsP] at hpre
        have hl' : ls[(labelsP PA).length]? = some l' := by
          obtain ⟨t, rfl⟩ := hpre
          simp
        have hpre' : labelsP PA <+: ls := (List.prefix_append _ _).trans hpre
        rw [← e1, crossed_addrOf e2, hl'] at hx
        cases hx
        exact ⟨PA, PB, b, h1, e2, e1, by rw [← e1, pos_addrOf e2 ls hpre'], e3, e4⟩
      obtain ⟨PA, PB, b, h1, h2, h3, h4, h5, -⟩ := key B v h
      obtain ⟨hself, hor⟩ := hS.label PA k x PB b h1
      refine ⟨hself, ?_⟩
      rcases hor with ⟨hh, a, hSa, hba⟩ | ⟨hh, hno⟩
      · left
        refine ⟨hh, ?_⟩
        obtain ⟨-, c, hc1, hc2⟩ := hhas _ a hSa
        rw [addrOf_snoc_id h2, h3] at hc1
        simp only [content, hc1, Option.map_some, hc2, hba]
      · right
        refine ⟨hh, ?_⟩
        intro ix B'
        cases hcn : content rf (A ++ (k, some 0) :: (T.idName, ix) :: B') with
        | none => rfl
        | some v' =>
          exfalso
          obtain ⟨PA', PB', b', g1, g2, g3, g4, g5, g6⟩ := key _ v' hcn
          rw [g4, ← h4] at g1
          rcases okP_cases g6 with rfl | ⟨k2, l2, r, rfl, hr⟩ | ⟨k2, r, rfl, hr, hh2⟩
          · cases g5
          · simp only [addrOf, List.cons.injEq, Prod.mk.injEq] at g5
            obtain ⟨⟨rfl, -⟩, -⟩ := g5
            exact hno _ _ g1
          · rw [hh2] at g5
            simp only [List.cons.injEq, Prod.mk.injEq] at g5
            obtain ⟨⟨rfl, -⟩, -⟩ := g5
            exact hno _ _ g1
  have hshape := shapes_of T.idName ls rf hinv.full hlab
  refine ⟨rf, w, ?_, ⟨hinv.full, hshape, hget, hhas⟩, hwarn⟩
  unfold unflattenRow
  rw [hp]
  simp only [hx]
  rw [toTemp_labF hinv.full hshape]

end Verif

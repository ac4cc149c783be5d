import Verif.Proofs.TripDoc
import Verif.Props.Spread
/-! Rows that say exactly what is in a document give the document. -/
namespace Verif
open Spec

/-- The run over rows that name everything and do not contradict each other: its cells have exactly the values that are said. -/
theorem run_exact {cfg : UnCfg} (hx : cfg.row.xml = false) {m : Str} (hm : cfg.idName = some m) (sheets : List SheetIn)
    (h : ∀ r ∈ rowsIn sheets, NamesAll cfg m r.line) (hag : ∀ x y, Said cfg m sheets x → Said cfg m sheets y → x.Agree y) :
    ∃ gs w, doUnflatten cfg sheets = .ok (groupsToList gs, w) ∧ Clean (enc gs) ∧
      (∀ x, Said cfg m sheets x → ∃ c, (enc gs).sub (full x) = some (.cell c)) ∧
      (∀ p c, (enc gs).sub p = some (.cell c) → ∃ x, Said cfg m sheets x ∧ SamePos p (full x) ∧ c.value = x.value) ∧
      (∀ p u, (enc gs).sub p = some u → p = [] ∨ ∃ q c, u.sub q = some (.cell c)) ∧
      ∀ y ∈ w, (∃ s ∈ sheets, ∃ heading cols, y = .dupHeading heading cols s.name) ∨
        ∃ r ∈ rowsIn sheets, ∃ c ∈ columns r.line, ∃ v cw, c.value cfg.row = .ok (v, cw) ∧ y ∈ cw := by
  obtain ⟨rows, e1, e2, e3⟩ := run_says hx hm sheets h
  have hagr : ∀ x ∈ rows, ∀ y ∈ rows, Agr (encR cfg x).2 (encR cfg y).2 := by
    intro x hxm y hym
    obtain ⟨r, hr, hrs, _⟩ := e2 x hxm
    obtain ⟨r', hr', hrs', _⟩ := e2 y hym
    refine agr_of_cells hrs.leafy hrs'.leafy ?_
    intro p q c d hp hq
    obtain ⟨f, f1, f2, f3⟩ := hrs.sound p c hp
    obtain ⟨g, g1, g2, g3⟩ := hrs'.sound q d hq
    have hfg := hag f g ⟨r, hr, f1⟩ ⟨r', hr', g1⟩
    refine ⟨⟨_, f2⟩, fitP_congr f2 g2 (fitP_full hfg), ?_⟩
    rintro rfl
    obtain ⟨s1, s2⟩ := of_samePos_full (SamePos.step (SamePos.flip f2) g2)
    rw [f3, g3]
    exact (hfg s1).2 s2
  have hfiled : ∀ x ∈ rows, Filed cfg x := fun x hx => by obtain ⟨_, _, h, _⟩ := e2 x hx; exact h.filed
  have hclean : ∀ x ∈ rows, Clean (encR cfg x).2 := fun x hx => by obtain ⟨_, _, h, _⟩ := e2 x hx; exact h.clean
  obtain ⟨gs, u1, u2, u3, -⟩ := run_union rows hfiled hclean hagr
  -- every node is a node of a row
  have hfrom : ∀ p u, (enc gs).sub p = some u → p = [] ∨ ∃ x ∈ rows, ∃ a, (encR cfg x).2.sub p = some a ∧ NodeSame a u := by
    obtain ⟨gs', f1, f2⟩ := foldRows_enc rows hfiled []
    rw [u1] at f1
    simp only [Except.ok.injEq, Prod.mk.injEq] at f1
    rw [← f1.1] at f2
    have hempty : ∀ p u, (enc []).sub p = some u → p = [] ∧ u = .tmp [] [] := by
      intro p u hu
      cases p with
      | nil => simp only [Tree.sub, Option.some.injEq] at hu; exact ⟨rfl, hu.symm⟩
      | cons s p => cases s <;> simp [enc, Tree.sub] at hu
    have hmem : ∀ y ∈ rows.map (encR cfg), ∃ x ∈ rows, encR cfg x = y := fun y hy => List.mem_map.1 hy
    intro p u hu
    rw [f2] at hu
    rcases mergeAll_same (rows.map (encR cfg)) (enc [])
        (fun y hy => by obtain ⟨x, hx, rfl⟩ := hmem y hy; exact hclean x hx)
        (fun y hy z hz => by
          obtain ⟨x, hx, rfl⟩ := hmem y hy
          obtain ⟨x', hx', rfl⟩ := hmem z hz
          exact hagr x hx x' hx')
        (fun p u hu => by obtain ⟨-, rfl⟩ := hempty p u hu; simp [Local, KeysDistinct])
        (fun y hy p a b h1 h2 => by
          obtain ⟨x, hx, rfl⟩ := hmem y hy
          obtain ⟨rfl, rfl⟩ := hempty p b h2
          simp only [Tree.sub, Option.some.injEq] at h1
          subst h1
          simp [encR, encRow, NodeEq]) p u hu with ⟨c, hc, -⟩ | ⟨y, hy, a, h1, h2⟩
    · exact .inl (hempty p c hc).1
    · obtain ⟨x, hx, rfl⟩ := hmem y hy
      exact .inr ⟨x, hx, a, h1, h2⟩
  obtain ⟨w, hw, hww⟩ := doUnflatten_of_rows e1 u1
  have hcomp : ∀ x, Said cfg m sheets x → ∃ c, (enc gs).sub (full x) = some (.cell c) := by
    rintro x ⟨r, hr, hx⟩
    obtain ⟨y, hy, hs⟩ := e3 r hr
    obtain ⟨c, c1, c2⟩ := hs.complete x hx
    obtain ⟨b, b1, b2⟩ := u3 y hy _ _ c1
    cases b with
    | cell d => exact ⟨d, b1⟩
    | obj _ => exact absurd b2 id
    | tmp _ _ => exact absurd b2 id
  refine ⟨gs, w, hw, u2, hcomp, ?_, ?_, ?_⟩
  · intro p c hp
    rcases hfrom p _ hp with rfl | ⟨x, hxm, a, h1, h2⟩
    · simp [enc, Tree.sub] at hp
    · cases a with
      | obj _ => exact absurd h2 id
      | tmp _ _ => exact absurd h2 id
      | cell d =>
        obtain ⟨r, hr, hrs, _⟩ := e2 x hxm
        obtain ⟨f, f1, f2, f3⟩ := hrs.sound p d h1
        exact ⟨f, ⟨r, hr, f1⟩, f2, by rw [← f3]; exact h2.symm⟩
  · intro p u hp
    rcases hfrom p _ hp with rfl | ⟨x, hxm, a, h1, h2⟩
    · exact .inl rfl
    · right
      obtain ⟨r, hr, hrs, _⟩ := e2 x hxm
      obtain ⟨q, c, hq⟩ := hrs.leafy p a h1
      have hfull : (encR cfg x).2.sub (p ++ q) = some (.cell c) := by rw [sub_append, h1]; exact hq
      obtain ⟨b, b1, b2⟩ := u3 x hxm _ _ hfull
      cases b with
      | obj _ => exact absurd b2 id
      | tmp _ _ => exact absurd b2 id
      | cell d =>
        rw [sub_append, hp] at b1
        exact ⟨q, d, b1⟩
  · intro y hy
    rcases (hww y).1 hy with hy | ⟨x, hxm, hy⟩ | hy
    · exact Or.inl (dupWarns_mem hy)
    · obtain ⟨r, hr, _, hw⟩ := e2 x hxm
      obtain ⟨c, hc, h⟩ := hw y hy
      exact Or.inr ⟨r, hr, c, hc, h⟩
    · simp at hy

/-- Two values of one tree are at positions that fit. -/
theorem fit_cells (p : List PKey) : ∀ (q : List PKey) (t : Tree) (c d : Cell), t.sub p = some (.cell c) → t.sub q = some (.cell d) → FitP p q := by
  induction p with
  | nil =>
    intro q t c d hp hq
    simp only [Tree.sub, Option.some.injEq] at hp
    subst hp
    obtain ⟨rfl, -⟩ := sub_cell _ hq
    trivial
  | cons s p ih =>
    intro q t c d hp hq
    cases q with
    | nil =>
      simp only [Tree.sub, Option.some.injEq] at hq
      subst hq
      cases s <;> simp [Tree.sub] at hp
    | cons s' q =>
      cases s with
      | field k =>
        cases s' with
        | item w => cases t <;> simp [Tree.sub] at hp hq
        | field k' =>
          rintro rfl
          cases t with
          | cell _ => simp [Tree.sub] at hp
          | tmp _ _ => simp [Tree.sub] at hp
          | obj fs =>
            simp only [Tree.sub] at hp hq
            cases hg : Dict.get fs k with
            | none => rw [hg] at hp; simp at hp
            | some u => rw [hg] at hp hq; exact ih q u c d hp hq
      | item v =>
        cases s' with
        | field k' => cases t <;> simp [Tree.sub] at hp hq
        | item w =>
          intro hvw
          cases t with
          | cell _ => simp [Tree.sub] at hp
          | obj _ => simp [Tree.sub] at hp
          | tmp ks rs =>
            have hq' : Tree.sub (.item v :: q) (.tmp ks rs) = some (.cell d) := by
              rw [← hq]
              simp only [Tree.sub]
              rw [keyGet_congr hvw]
            simp only [Tree.sub] at hp hq'
            cases hg : keyGet ks v with
            | none => rw [hg] at hp; simp at hp
            | some fs => rw [hg] at hp hq'; exact ih q _ c d hp hq'

/-- What is said is in the document. -/
def InDoc (T : Trip) (root : List Json) (x : Fact) : Prop := ∃ i fs d, (objects root)[i]? = some fs ∧ Val.atom x.root = T.rootCell fs ∧
  x.id = labelOf T i fs ∧ Tree.sub (pk x.pos) (.obj (docF T [] fs)) = some (.cell d) ∧ x.value = d.value ∧ x.value.pyEq x.value = true ∧ ∀ v, .item v ∈ pk x.pos → v.hashable = true

/-- The document is said. -/
def DocSaid (T : Trip) (cfg : UnCfg) (sheets : List SheetIn) (root : List Json) : Prop := ∀ i fs p d, (objects root)[i]? = some fs →
  Tree.sub p (.obj (docF T [] fs)) = some (.cell d) →
    ∃ x, Said cfg T.idName sheets x ∧ Val.atom x.root = T.rootCell fs ∧ x.id = labelOf T i fs ∧ SamePos p (pk x.pos)

mutual
/-- All keys can be ids, and every item has one. -/
def AllIds : Tree → Prop
  | .cell _ => True
  | .obj fs => AllIdsF fs
  | .tmp ks rs => rs = [] ∧ AllIdsK ks
def AllIdsF : List (Str × Tree) → Prop
  | [] => True
  | (_, t) :: r => AllIds t ∧ AllIdsF r
def AllIdsK : List (Val × List (Str × Tree)) → Prop
  | [] => True
  | (k, fs) :: r => k.hashable = true ∧ AllIdsF fs ∧ AllIdsK r
end

mutual
theorem forget_id : (t : Tree) → AllIds t → forget t = t
  | .cell _, _ => by simp [forget]
  | .obj fs, h => by simp only [AllIds] at h; simp only [forget, forgetF_id fs h]
  | .tmp ks rs, h => by
    simp only [AllIds] at h
    obtain ⟨rfl, h⟩ := h
    obtain ⟨h1, h2⟩ := forgetK_id ks h
    simp only [forget, h1, h2]
theorem forgetF_id : (fs : List (Str × Tree)) → AllIdsF fs → forgetF fs = fs
  | [], _ => by simp [forgetF]
  | (k, t) :: r, h => by simp only [AllIdsF] at h; simp only [forgetF, forget_id t h.1, forgetF_id r h.2]
theorem forgetK_id : (ks : List (Val × List (Str × Tree))) → AllIdsK ks → forgetK ks = ks ∧ forgetU ks = []
  | [], _ => by simp [forgetK, forgetU]
  | (k, fs) :: r, h => by
    simp only [AllIdsK] at h
    obtain ⟨h1, h2⟩ := forgetK_id r h.2.2
    simp only [forgetK, forgetU, h.1, if_true, forgetF_id fs h.2.1, h1, h2, and_self]
end

mutual
theorem allIds_of : (t : Tree) → Clean t → (∀ p v u, t.sub (p ++ [.item v]) = some u → v.hashable = true) → AllIds t
  | .cell _, _, _ => by simp [AllIds]
  | .obj fs, hc, h => by
    simp only [AllIds]
    have hn : (Dict.keys fs).Nodup := hc.node
    refine allIdsF_of fs (fun e he => hc.field (Dict.get_of_mem hn he)) ?_
    intro e he p v u hu
    refine h (.field e.1 :: p) v u ?_
    simp only [List.cons_append, Tree.sub, Dict.get_of_mem hn he, Option.bind_some]
    exact hu
  | .tmp ks rs, hc, h => by
    simp only [AllIds]
    obtain ⟨h1, h2, h3⟩ := hc.node
    refine ⟨h1, allIdsK_of ks (fun e he => hc.item (keyGet_of_mem h2 he (h3 e he))) ?_ ?_⟩
    · intro e he
      exact h [] e.1 (.obj e.2) (by simp [Tree.sub, keyGet_of_mem h2 he (h3 e he)])
    · intro e he p v u hu
      refine h (.item e.1 :: p) v u ?_
      simp only [List.cons_append, Tree.sub, keyGet_of_mem h2 he (h3 e he), Option.bind_some]
      exact hu
theorem allIdsF_of : (fs : List (Str × Tree)) → (∀ e ∈ fs, Clean e.2) →
    (∀ e ∈ fs, ∀ p v u, e.2.sub (p ++ [.item v]) = some u → v.hashable = true) → AllIdsF fs
  | [], _, _ => by simp [AllIdsF]
  | (k, t) :: r, hc, h => by
    simp only [AllIdsF]
    exact ⟨allIds_of t (hc (k, t) (by simp)) (h (k, t) (by simp)), allIdsF_of r (fun e he => hc e (by simp [he])) (fun e he => h e (by simp [he]))⟩
theorem allIdsK_of : (ks : List (Val × List (Str × Tree))) → (∀ e ∈ ks, Clean (.obj e.2)) → (∀ e ∈ ks, e.1.hashable = true) →
    (∀ e ∈ ks, ∀ p v u, Tree.sub (p ++ [.item v]) (.obj e.2) = some u → v.hashable = true) → AllIdsK ks
  | [], _, _, _ => by simp [AllIdsK]
  | (k, fs) :: r, hc, hk, h => by
    have hcf := hc (k, fs) (by simp)
    have hn : (Dict.keys fs).Nodup := hcf.node
    simp only [AllIdsK]
    refine ⟨hk (k, fs) (by simp), allIdsF_of fs (fun e he => hcf.field (Dict.get_of_mem hn he)) ?_,
      allIdsK_of r (fun e he => hc e (by simp [he])) (fun e he => hk e (by simp [he])) (fun e he => h e (by simp [he]))⟩
    intro e he p v u hu
    refine h (k, fs) (by simp) (.field e.1 :: p) v u ?_
    simp only [List.cons_append, Tree.sub, Dict.get_of_mem hn he, Option.bind_some]
    exact hu
end


theorem mem_samePos {p q : List PKey} (h : SamePos p q) {v : Val} (hv : .item v ∈ p) : ∃ w, .item w ∈ q ∧ v.pyEq w = true := by
  unfold SamePos at h
  induction h with
  | nil => cases hv
  | @cons a b l m h1 _ ih =>
    rcases List.mem_cons.1 hv with rfl | hv
    · cases b with
      | field k => exact absurd h1 id
      | item w => exact ⟨w, by simp, h1⟩
    · obtain ⟨w, h2, h3⟩ := ih hv
      exact ⟨w, by simp [h2], h3⟩

/-- Rows that name everything, and say what is in a document and nothing else, give the document. -/
theorem said_doc {T : Trip} {cfg : UnCfg} (hr : T.Reads cfg) {root : List Json} (hfit : T.FitsRoot root) (sheets : List SheetIn)
    (hn : ∀ r ∈ rowsIn sheets, NamesAll cfg T.idName r.line) (hin : ∀ x, Said cfg T.idName sheets x → InDoc T root x)
    (hsaid : DocSaid T cfg sheets root) (hids : ∀ i fs, (objects root)[i]? = some fs → (labelOf T i fs).hashable = true) :
    ∃ out w, unflatten cfg sheets = .ok (out, w) ∧ Rearranged (.arr root) (.arr out) ∧
      ∀ y ∈ w, (∃ s ∈ sheets, ∃ heading cols, y = .dupHeading heading cols s.name) ∨
        ∃ r ∈ rowsIn sheets, ∃ c ∈ columns r.line, ∃ v cw, c.value cfg.row = .ok (v, cw) ∧ y ∈ cw := by
  have hag : ∀ x y, Said cfg T.idName sheets x → Said cfg T.idName sheets y → x.Agree y := by
    intro x y hx hy hso
    obtain ⟨i, fs, d, h1, h2, h3, h4, h5, h6, -⟩ := hin x hx
    obtain ⟨j, gs, e, g1, g2, g3, g4, g5, -, -⟩ := hin y hy
    have hij := same_root hfit h1 g1 (by rw [← h2, ← g2]; exact hso.1) (by rw [← h3, ← g3]; exact hso.2)
    subst hij
    rw [h1] at g1
    cases g1
    refine ⟨fitNamed_of_P (fit_cells _ _ _ _ _ h4 g4), ?_⟩
    intro hs
    rw [← sub_same (samePos_pk hs), h4] at g4
    simp only [Option.some.injEq, Tree.cell.injEq] at g4
    rw [g5, ← g4, ← h5]
    exact h6
  obtain ⟨gs, w, hrun, hclean, hcomp, hsound, hleaf, hw⟩ := run_exact hr.xml hr.idName sheets hn hag
  -- a cell of the tree is in the document
  have hback : ∀ {i fs} (hi : (objects root)[i]? = some fs) {p c}, (enc gs).sub (rootPos T i fs ++ p) = some (.cell c) →
      ∃ d, Tree.sub p (.obj (docF T [] fs)) = some (.cell d) ∧ c.value = d.value := by
    intro i fs hi p c hc
    obtain ⟨x, hx, hs, hv⟩ := hsound _ _ hc
    obtain ⟨j, gs', d, h1, h2, h3, h4, h5, -, -⟩ := hin x hx
    simp only [rootPos, full, List.cons_append, List.nil_append] at hs
    cases hs with
    | cons a hs =>
      cases hs with
      | cons _ hs =>
        cases hs with
        | cons b hs =>
          have hij := same_root hfit hi h1 (by rw [← h2]; exact a) (by rw [← h3]; exact b)
          subst hij
          rw [hi] at h1
          cases h1
          exact ⟨d, by rw [sub_same hs]; exact h4, by rw [hv, h5]⟩
  have hself : ∀ {i fs}, (objects root)[i]? = some fs → ∀ {p d}, Tree.sub p (.obj (docF T [] fs)) = some (.cell d) →
      ∃ c, (enc gs).sub (rootPos T i fs ++ p) = some (.cell c) := by
    intro i fs hi p d hd
    obtain ⟨x, hx, h1, h2, h3⟩ := hsaid i fs p d hi hd
    obtain ⟨c, hc⟩ := hcomp x hx
    have hsp : SamePos (rootPos T i fs ++ p) (full x) := by
      obtain ⟨j, gs', d', g1, g2, g3, -⟩ := hin x hx
      have ho := fitsRoot_mem hfit (List.mem_of_getElem? hi)
      simp only [rootPos, full, List.cons_append, List.nil_append]
      refine .cons ?_ (.cons rfl (.cons ?_ h3))
      · show (T.rootCell fs).pyEq (.atom x.root) = true
        rw [h1]; exact rootCell_self hfit (List.mem_of_getElem? hi)
      · show (labelOf T i fs).pyEq x.id = true
        rw [h2]; exact labelOf_self ho.2.2.1
    exact ⟨c, by rw [sub_same hsp]; exact hc⟩
  have hdoc : DocTree T root (enc gs) := by
    refine ⟨hfit, hclean, ?_, ?_⟩
    · intro i fs hi
      obtain ⟨ho, hnm, hf, hrr⟩ := fitsRoot_mem hfit (List.mem_of_getElem? hi)
      obtain ⟨q, d, hq⟩ := leafy_docF [] fs ho hf [] _ rfl
      obtain ⟨c, hc⟩ := hself hi hq
      rw [sub_append] at hc
      cases hF : (enc gs).sub (rootPos T i fs) with
      | none => rw [hF] at hc; simp at hc
      | some u =>
        rw [hF] at hc
        simp only [Option.bind_some] at hc
        cases q with
        | nil => simp [Tree.sub] at hq
        | cons s q =>
          cases s with
          | item v => simp [Tree.sub] at hq
          | field k =>
            cases u with
            | cell _ => simp [Tree.sub] at hc
            | tmp _ _ => simp [Tree.sub] at hc
            | obj F =>
              have hsub : ∀ p, (enc gs).sub (rootPos T i fs ++ p) = Tree.sub p (.obj F) := by
                intro p
                rw [sub_append, hF]
                rfl
              refine ⟨F, rfl, ?_, ?_⟩
              · refine same_of_cells (leafy_docF [] fs ho hf) ?_
                intro p c hc
                obtain ⟨e, he⟩ := hself hi hc
                obtain ⟨d', h1, h2⟩ := hback hi he
                rw [hc] at h1
                cases h1
                rw [hsub] at he
                exact ⟨e, he, h2.symm⟩
              · refine same_of_cells ?_ ?_
                · intro p u hu
                  rw [← hsub] at hu
                  rcases hleaf _ _ hu with h | h
                  · simp [rootPos] at h
                  · exact h
                · intro p c hc
                  rw [← hsub] at hc
                  exact hback hi hc
    · intro v w' F hF
      rcases hleaf _ _ hF with h | ⟨q, c, hq⟩
      · cases h
      · have hfull : (enc gs).sub ([PKey.item v, PKey.field [], PKey.item w'] ++ q) = some (.cell c) := by rw [sub_append, hF]; exact hq
        obtain ⟨x, hx, hs, -⟩ := hsound _ _ hfull
        obtain ⟨j, gs', d, h1, h2, h3, -⟩ := hin x hx
        simp only [full, List.cons_append, List.nil_append] at hs
        cases hs with
        | cons a hs =>
          cases hs with
          | cons _ hs =>
            cases hs with
            | cons b hs =>
              exact ⟨j, gs', h1, by rw [← h2]; exact Val.pyEq_symm a, by rw [← h3]; exact Val.pyEq_symm b⟩
  have hforget : forget (enc gs) = enc gs := by
    refine forget_id _ (allIds_of _ hclean ?_)
    intro p v u hu
    rcases hleaf _ _ hu with h | ⟨q, c, hq⟩
    · simp at h
    · have hfull : (enc gs).sub ((p ++ [.item v]) ++ q) = some (.cell c) := by rw [sub_append, hu]; exact hq
      obtain ⟨x, hx, hs, -⟩ := hsound _ _ hfull
      obtain ⟨w', h1, h2⟩ := mem_samePos hs (v := v) (by simp)
      rw [Val.hashable_congr h2]
      obtain ⟨j, gs', d, g1, g2, g3, g4, g5, g6, g7⟩ := hin x hx
      simp only [full, List.mem_cons, PKey.item.injEq, reduceCtorEq, false_or] at h1
      rcases h1 with rfl | rfl | h1
      · rfl
      · rw [g3]; exact hids j gs' g1
      · exact g7 w' h1
  refine ⟨_, w, ?_, hdoc.back hforget.symm, hw⟩
  unfold unflatten
  rw [hrun]

end Verif

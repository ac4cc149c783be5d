import Verif.Proofs.At
import Verif.Proofs.Again
import Verif.Proofs.Objects
import Verif.Spec.Order
/-!
A whole run seen as one tree: root ids, then ids, then the objects.  A run over rows that
do not contradict each other gives the union of the rows.
-/
namespace Verif
open Spec

/-! ### Encoding the state of a run as a tree -/

/-- The objects of a group. -/
def encTD (td : TDict) : Fields := [(s%"", Tree.tmp td.keyed td.rest)]

/-- The groups as a tree. -/
def enc (gs : Groups) : Tree := .tmp (gs.map (fun e => (e.1, encTD e.2))) []

/-- A row as a tree. -/
def encRow (root k : Val) (fs : Fields) : Tree := .tmp [(root, [(s%"", Tree.tmp [(k, fs)] [])])] []

theorem merge_keyed1 (sheet : Str) (k : Val) (fs : Fields) (ks : List (Val × Fields)) :
    mergeKeyed sheet [(k, fs)] ks = match keyGet ks k with
      | none => (keySet ks k fs, [])
      | some base => (keySet ks k (mergeFields sheet fs base).1, (mergeFields sheet fs base).2) := by
  cases h : keyGet ks k <;> simp [mergeKeyed, h]

theorem merge_td (sheet : Str) (k : Val) (fs : Fields) (ks : List (Val × Fields)) (rs : List Fields) :
    mergeFields sheet [(([] : Str), Tree.tmp [(k, fs)] [])] [(([] : Str), Tree.tmp ks rs)] =
      ([(([] : Str), Tree.tmp (mergeKeyed sheet [(k, fs)] ks).1 rs)], (mergeKeyed sheet [(k, fs)] ks).2) := by
  have hg : Dict.get [(([] : Str), Tree.tmp ks rs)] [] = some (Tree.tmp ks rs) := by rw [Dict.get_cons]; simp
  simp only [mergeFields, hg, mergeTree]
  simp [Dict.set]

theorem addRow_enc {cfg : UnCfg} {sheet : Str} {root k : Val} {fs : Fields} (gs : Groups)
    (hk : rowKey cfg.idName cfg.row.xml fs = .ok (some k)) (hh : k.hashable = true) :
    ∃ gs', addRow cfg sheet root fs gs = .ok (gs', (mergeTree sheet [] (encRow root k fs) (enc gs)).2) ∧
      enc gs' = (mergeTree sheet [] (encRow root k fs) (enc gs)).1 := by
  have hi := rowKey_ok hk
  have hm := keyGet_map encTD gs root
  cases hg : keyGet gs root with
  | none =>
    rw [hg] at hm
    refine ⟨keySet gs root { keyed := [(k, fs)] }, ?_, ?_⟩
    · simp only [addRow, addToGroup, hg, Option.getD_none, hk, hh, keyGet_nil, TDict.append, hi, encRow, enc, mergeTree, mergeKeyed, hm]
      simp
    · simp only [encRow, enc, mergeTree, mergeKeyed, hm]
      have := keySet_map encTD gs root { keyed := [(k, fs)] }
      rw [← this]
      simp [encTD]
  | some td =>
    rw [hg] at hm
    simp only [Option.map_some] at hm
    have hmt : mergeTree sheet [] (encRow root k fs) (enc gs) =
        (.tmp (keySet (gs.map (fun e => (e.1, encTD e.2))) root (encTD { td with keyed := (mergeKeyed sheet [(k, fs)] td.keyed).1 })) [],
          (mergeKeyed sheet [(k, fs)] td.keyed).2) := by
      simp only [encRow, enc, mergeTree, merge_keyed1 sheet root, hm]
      simp only [encTD, merge_td, List.append_nil]
    rw [hmt]
    simp only [keySet_map encTD]
    refine ⟨_, ?_, rfl⟩
    cases hb : keyGet td.keyed k with
    | none =>
      simp only [addRow, addToGroup, hg, Option.getD_some, hk, hh, hb, TDict.append, hi, merge_keyed1]
      simp [keySet_of_none fs hb]
    | some base =>
      simp only [addRow, addToGroup, hg, Option.getD_some, hk, hh, hb, merge_keyed1]
      simp

/-- The tree of a row. -/
def encR (cfg : UnCfg) (x : Row) : Str × Tree := (x.sheet, encRow x.root ((keyOf cfg x).getD (.atom .none)) x.fields)

/-- The row can be filed under an id. -/
def Filed (cfg : UnCfg) (x : Row) : Prop := ∃ k, rowKey cfg.idName cfg.row.xml x.fields = .ok (some k) ∧ k.hashable = true

theorem foldRows_enc {cfg : UnCfg} (rows : List Row) (h : ∀ x ∈ rows, Filed cfg x) (gs : Groups) :
    ∃ gs', foldRows cfg rows gs = .ok (gs', (mergeAllInto (rows.map (encR cfg)) (enc gs)).2) ∧
      enc gs' = (mergeAllInto (rows.map (encR cfg)) (enc gs)).1 := by
  induction rows generalizing gs with
  | nil => exact ⟨gs, rfl, rfl⟩
  | cons x r ih =>
    obtain ⟨k, hk, hh⟩ := h x (by simp)
    have hko : keyOf cfg x = some k := by unfold keyOf; rw [hk]
    obtain ⟨gs1, e1, e2⟩ := addRow_enc (cfg := cfg) (sheet := x.sheet) (root := x.root) gs hk hh
    obtain ⟨gs2, e3, e4⟩ := ih (fun y hy => h y (by simp [hy])) gs1
    refine ⟨gs2, ?_, ?_⟩
    · simp only [foldRows, e1, e3, List.map_cons, encR, hko, Option.getD_some, mergeAllInto, e2]
    · simp only [List.map_cons, encR, hko, Option.getD_some, mergeAllInto, ← e2]
      exact e4

/-! ### Single steps -/

theorem bel_tmp1 {k k' : Val} {fs gs : Fields} (hk : k.pyEq k' = true) (h : Bel (.obj fs) (.obj gs)) :
    Bel (.tmp [(k, fs)] []) (.tmp [(k', gs)] []) := by
  intro p a ha
  cases p with
  | nil => exact ⟨_, rfl, by simp only [Tree.sub, Option.some.injEq] at ha; subst ha; trivial⟩
  | cons s p =>
    cases s with
    | field k => simp [Tree.sub] at ha
    | item v =>
      simp only [Tree.sub, keyGet_cons] at ha ⊢
      by_cases hv : k.pyEq v = true
      · rw [if_pos hv] at ha
        rw [if_pos (Val.pyEq_trans (Val.pyEq_symm hk) hv)]
        simp only [Option.bind_some] at ha ⊢
        exact h p a ha
      · rw [if_neg hv] at ha; simp at ha

theorem bel_obj1 {k : Str} {t u : Tree} (h : Bel t u) : Bel (.obj [(k, t)]) (.obj [(k, u)]) := by
  intro p a ha
  cases p with
  | nil => exact ⟨_, rfl, by simp only [Tree.sub, Option.some.injEq] at ha; subst ha; trivial⟩
  | cons s p =>
    cases s with
    | item v => simp [Tree.sub] at ha
    | field j =>
      simp only [Tree.sub, Dict.get_cons] at ha ⊢
      by_cases hv : k = j
      · rw [if_pos hv] at ha ⊢
        simp only [Option.bind_some] at ha ⊢
        exact h p a ha
      · rw [if_neg hv] at ha; simp at ha

theorem bel_encRow {root root' k k' : Val} {fs fs' : Fields} (h1 : root.pyEq root' = true) (h2 : k.pyEq k' = true)
    (h : Bel (.obj fs) (.obj fs')) : Bel (encRow root k fs) (encRow root' k' fs') :=
  bel_tmp1 h1 (bel_obj1 (bel_tmp1 h2 h))

theorem agr_tmp1 {k k' : Val} {fs gs : Fields} (h : k.pyEq k' = true → Agr (.obj fs) (.obj gs)) :
    Agr (.tmp [(k, fs)] []) (.tmp [(k', gs)] []) := by
  intro p a b ha hb
  cases p with
  | nil => simp only [Tree.sub, Option.some.injEq] at ha hb; subst ha hb; trivial
  | cons s p =>
    cases s with
    | field k => simp [Tree.sub] at ha
    | item v =>
      simp only [Tree.sub, keyGet_cons] at ha hb
      by_cases hv : k.pyEq v = true
      · by_cases hv' : k'.pyEq v = true
        · rw [if_pos hv] at ha; rw [if_pos hv'] at hb
          exact h (Val.pyEq_trans hv (Val.pyEq_symm hv')) p a b ha hb
        · rw [if_neg hv'] at hb; simp at hb
      · rw [if_neg hv] at ha; simp at ha

theorem agr_obj1 {k : Str} {t u : Tree} (h : Agr t u) : Agr (.obj [(k, t)]) (.obj [(k, u)]) := by
  intro p a b ha hb
  cases p with
  | nil => simp only [Tree.sub, Option.some.injEq] at ha hb; subst ha hb; trivial
  | cons s p =>
    cases s with
    | item v => simp [Tree.sub] at ha
    | field j =>
      simp only [Tree.sub, Dict.get_cons] at ha hb
      by_cases hv : k = j
      · rw [if_pos hv] at ha hb; exact h p a b ha hb
      · rw [if_neg hv] at ha; simp at ha

theorem agr_encRow {root root' k k' : Val} {fs fs' : Fields} (h : root.pyEq root' = true → k.pyEq k' = true → Agr (.obj fs) (.obj fs')) :
    Agr (encRow root k fs) (encRow root' k' fs') :=
  agr_tmp1 (fun h1 => agr_obj1 (agr_tmp1 (fun h2 => h h1 h2)))

theorem clean_tmp1 {k : Val} {fs : Fields} (hk : k.pyEq k = true) (h : Clean (.obj fs)) : Clean (.tmp [(k, fs)] []) := by
  intro p u hu
  cases p with
  | nil =>
    simp only [Tree.sub, Option.some.injEq] at hu; subst hu
    exact ⟨rfl, by simp [KeysDistinct], by simpa using hk⟩
  | cons s p =>
    cases s with
    | field k => simp [Tree.sub] at hu
    | item v =>
      simp only [Tree.sub, keyGet_cons] at hu
      by_cases hv : k.pyEq v = true
      · rw [if_pos hv] at hu; exact h p u hu
      · rw [if_neg hv] at hu; simp at hu

theorem clean_obj1 {k : Str} {t : Tree} (h : Clean t) : Clean (.obj [(k, t)]) := by
  intro p u hu
  cases p with
  | nil => simp only [Tree.sub, Option.some.injEq] at hu; subst hu; simp [Local, Dict.keys]
  | cons s p =>
    cases s with
    | item v => simp [Tree.sub] at hu
    | field j =>
      simp only [Tree.sub, Dict.get_cons] at hu
      by_cases hv : k = j
      · rw [if_pos hv] at hu; exact h p u hu
      · rw [if_neg hv] at hu; simp at hu

theorem clean_encRow {root k : Val} {fs : Fields} (h1 : root.pyEq root = true) (h2 : k.pyEq k = true) (h : Clean (.obj fs)) :
    Clean (encRow root k fs) :=
  clean_tmp1 h1 (clean_obj1 (clean_tmp1 h2 h))

/-! ### Trees of rows -/

theorem clean_of_wf {n : Option Str} {xml : Bool} (p : List PKey) : ∀ (t u : Tree), WFTree n xml t → IdT t → t.sub p = some u → Local u := by
  induction p with
  | nil =>
    intro t u hw hi hu
    simp only [Tree.sub, Option.some.injEq] at hu; subst hu
    cases t with
    | cell c => simpa [IdT, Local] using hi
    | obj fs => exact wfFields_nodup (by simpa [WFTree] using hw)
    | tmp ks rs =>
      simp only [WFTree] at hw
      simp only [IdT] at hi
      exact ⟨hi.2, hw.1, fun e he => (idK_iff.1 hi.1 e he).1⟩
  | cons s p ih =>
    intro t u hw hi hu
    cases s with
    | field k =>
      cases t with
      | cell c => simp [Tree.sub] at hu
      | tmp ks rs => simp [Tree.sub] at hu
      | obj fs =>
        simp only [Tree.sub] at hu
        cases hg : Dict.get fs k with
        | none => rw [hg] at hu; simp at hu
        | some t =>
          rw [hg] at hu
          exact ih t u ((wfFields_iff.1 (by simpa [WFTree] using hw)).2 k t hg) (idF_iff.1 (by simpa [IdT] using hi) _ (Dict.get_eq_some_mem hg)) hu
    | item v =>
      cases t with
      | cell c => simp [Tree.sub] at hu
      | obj ks => simp [Tree.sub] at hu
      | tmp ks rs =>
        simp only [Tree.sub] at hu
        cases hg : keyGet ks v with
        | none => rw [hg] at hu; simp at hu
        | some fs =>
          rw [hg] at hu
          obtain ⟨k', hm, _⟩ := keyGet_some_mem hg
          simp only [WFTree] at hw
          simp only [IdT] at hi
          exact ih (.obj fs) u (by simpa [WFTree] using (wfKeyed_iff.1 hw.2.1 _ hm).2) (by simpa [IdT] using (idK_iff.1 hi.1 _ hm).2) hu

theorem agreeFields_iff {n : Option Str} {xml : Bool} {fs gs : List (Str × CTree)} :
    AgreeFields n xml fs gs ↔ ∀ e ∈ fs, ∀ u, Dict.get gs e.1 = some u → Agree n xml e.2 u := by
  induction fs with
  | nil => simp [AgreeFields]
  | cons e r ih => obtain ⟨k, t⟩ := e; simp [AgreeFields, ih]

theorem agreeItems_iff {n : Option Str} {xml : Bool} {is js : List (List (Str × CTree))} :
    AgreeItems n xml is js ↔ ∀ x ∈ is, ∀ y ∈ js, ∀ a b, cellId n xml x = some a → cellId n xml y = some b → a.pyEq b = true →
      AgreeFields n xml x y := by
  induction is with
  | nil => simp [AgreeItems]
  | cons e r ih => simp [AgreeItems, ih]

theorem sameKey_pyEq {k v i : Val} (h : SameKey k i) (hk : k.pyEq v = true) : i.pyEq v = true := by
  rcases h with rfl | h
  · exact hk
  · exact Val.pyEq_trans (Val.pyEq_symm h) hk

theorem agr_of_agree {n : Option Str} {xml : Bool} (p : List PKey) : ∀ (t u a b : Tree), WFTree n xml t → WFTree n xml u →
    Agree n xml (treeToLists t) (treeToLists u) → t.sub p = some a → u.sub p = some b → NodeEq a b := by
  induction p with
  | nil =>
    intro t u a b _ _ h ha hb
    simp only [Tree.sub, Option.some.injEq] at ha hb; subst ha hb
    cases t <;> cases u <;> simp_all [treeToLists, Agree, NodeEq]
  | cons s p ih =>
    intro t u a b hw hw' h ha hb
    cases s with
    | field k =>
      cases t with
      | cell c => simp [Tree.sub] at ha
      | tmp ks rs => simp [Tree.sub] at ha
      | obj fs =>
      cases u with
      | cell c => simp [Tree.sub] at hb
      | tmp ks rs => simp [Tree.sub] at hb
      | obj gs =>
        simp only [Tree.sub] at ha hb
        simp only [treeToLists, Agree, CTree.obj.injEq, exists_eq_left'] at h
        cases hf : Dict.get fs k with
        | none => rw [hf] at ha; simp at ha
        | some t =>
        cases hg : Dict.get gs k with
        | none => rw [hg] at hb; simp at hb
        | some u =>
          rw [hf] at ha; rw [hg] at hb
          refine ih t u a b ((wfFields_iff.1 (by simpa [WFTree] using hw)).2 k t hf) ((wfFields_iff.1 (by simpa [WFTree] using hw')).2 k u hg) ?_ ha hb
          rw [agreeFields_iff] at h
          refine h (k, treeToLists t) ?_ _ ?_
          · rw [toLists_eq]; exact List.mem_map.2 ⟨_, Dict.get_eq_some_mem hf, rfl⟩
          · rw [toLists_eq, Dict.get_map, hg]; rfl
    | item v =>
      cases t with
      | cell c => simp [Tree.sub] at ha
      | obj ks => simp [Tree.sub] at ha
      | tmp ks rs =>
      cases u with
      | cell c => simp [Tree.sub] at hb
      | obj ks => simp [Tree.sub] at hb
      | tmp bk br =>
        simp only [Tree.sub] at ha hb
        cases hf : keyGet ks v with
        | none => rw [hf] at ha; simp at ha
        | some fs =>
        cases hg : keyGet bk v with
        | none => rw [hg] at hb; simp at hb
        | some gs =>
          rw [hf] at ha; rw [hg] at hb
          obtain ⟨k1, hm1, hv1⟩ := keyGet_some_mem hf
          obtain ⟨k2, hm2, hv2⟩ := keyGet_some_mem hg
          simp only [WFTree] at hw hw'
          obtain ⟨⟨_, i1, hi1, hs1⟩, hw1⟩ := wfKeyed_iff.1 hw.2.1 _ hm1
          obtain ⟨⟨_, i2, hi2, hs2⟩, hw2⟩ := wfKeyed_iff.1 hw'.2.1 _ hm2
          refine ih (.obj fs) (.obj gs) a b (by simpa [WFTree] using hw1) (by simpa [WFTree] using hw2) ?_ ha hb
          simp only [treeToLists, Agree, CTree.list.injEq, exists_eq_left'] at h
          simp only [treeToLists, Agree, CTree.obj.injEq, exists_eq_left']
          refine agreeItems_iff.1 h _ ?_ _ ?_ i1 i2 (cellId_toLists hi1) (cellId_toLists hi2)
            (Val.pyEq_trans (sameKey_pyEq hs1 hv1) (Val.pyEq_symm (sameKey_pyEq hs2 hv2)))
          · rw [keyedToLists_eq]; exact List.mem_append_left _ (List.mem_map.2 ⟨_, hm1, rfl⟩)
          · rw [keyedToLists_eq]; exact List.mem_append_left _ (List.mem_map.2 ⟨_, hm2, rfl⟩)

/-! ### Locations do not matter -/

theorem sub_tl (g : Loc → Loc) (p : List PKey) : ∀ t : Tree, (tl g t).sub p = (t.sub p).map (tl g) := by
  induction p with
  | nil => intro t; rfl
  | cons s p ih =>
    intro t
    cases s with
    | field k =>
      cases t with
      | cell c => simp [tl, Tree.sub]
      | tmp ks rs => simp [tl, Tree.sub]
      | obj fs =>
        simp only [tl, Tree.sub, tlF_get]
        cases Dict.get fs k with
        | none => rfl
        | some t => exact ih t
    | item v =>
      cases t with
      | cell c => simp [tl, Tree.sub]
      | obj ks => simp [tl, Tree.sub]
      | tmp ks rs =>
        simp only [tl, Tree.sub, tlK_get]
        cases keyGet ks v with
        | none => rfl
        | some fs => exact ih (.obj fs)

theorem nodeEq_tl {g : Loc → Loc} {a b : Tree} (h : tl g a = tl g b) (hl : Local a) : NodeEq a b := by
  cases a <;> cases b <;> simp_all [tl, NodeEq]
  next c d =>
    have : c.value = d.value := by
      have := congrArg Cell.value h
      simpa using this
    rw [← this]; exact hl.1

theorem bel_of_tl {g : Loc → Loc} {t u : Tree} (h : tl g t = tl g u) (ht : Clean t) : Bel t u := by
  intro p a ha
  have h1 := sub_tl g p t
  rw [h, sub_tl g p u, ha] at h1
  cases hb : u.sub p with
  | none => rw [hb] at h1; simp at h1
  | some b =>
    rw [hb] at h1
    simp only [Option.map_some, Option.some.injEq] at h1
    exact ⟨b, rfl, nodeEq_tl h1.symm (ht p a ha)⟩

theorem local_tl {g : Loc → Loc} {a b : Tree} (h : tl g a = tl g b) (hl : Local a) : Local b := by
  cases a with
  | cell c =>
    cases b with
    | cell d =>
      simp only [tl, Tree.cell.injEq] at h
      have hv : c.value = d.value := by simpa using congrArg Cell.value h
      simpa [Local, hv] using hl
    | obj fs => simp [tl] at h
    | tmp a b => simp [tl] at h
  | obj fs =>
    cases b with
    | obj gs =>
      simp only [tl, Tree.obj.injEq] at h
      have : Dict.keys fs = Dict.keys gs := by
        have := congrArg Dict.keys h
        simpa [tlF_eq, Dict.keys, Function.comp_def] using this
      simp only [Local, ← this] at hl ⊢
      exact hl
    | cell fs => simp [tl] at h
    | tmp a b => simp [tl] at h
  | tmp ks rs =>
    cases b with
    | tmp bk br =>
      simp only [tl, Tree.tmp.injEq] at h
      obtain ⟨l1, l2, l3⟩ := hl
      have hk : ks.map (·.1) = bk.map (·.1) := by
        have := congrArg (List.map (·.1)) h.1
        simpa [tlK_eq, Function.comp_def] using this
      refine ⟨?_, ?_, ?_⟩
      · have := h.2; rw [l1] at this
        cases br with
        | nil => rfl
        | cons _ _ => simp [tlI] at this
      · have h1 : (ks.map (·.1)).Pairwise (fun a b => ¬ a.pyEq b = true) := List.pairwise_map.2 l2
        rw [hk] at h1
        exact List.pairwise_map.1 h1
      · intro e he
        have : e.1 ∈ ks.map (·.1) := by rw [hk]; exact List.mem_map_of_mem he
        obtain ⟨e', he', h'⟩ := List.mem_map.1 this
        rw [← h']; exact l3 e' he'
    | cell fs => simp [tl] at h
    | obj b => simp [tl] at h

theorem clean_of_tl {g : Loc → Loc} {t u : Tree} (h : tl g t = tl g u) (ht : Clean t) : Clean u := by
  intro p b hb
  have h1 := sub_tl g p t
  rw [h, sub_tl g p u, hb] at h1
  cases ha : t.sub p with
  | none => rw [ha] at h1; simp at h1
  | some a =>
    rw [ha] at h1
    simp only [Option.map_some, Option.some.injEq] at h1
    exact local_tl h1.symm (ht p a ha)

/-- Nowhere. -/
def noLoc : Loc → Loc := fun _ => ⟨[], 0, 0, []⟩

theorem lineCells_noLoc (s s' : Str) (hs hs' : Option (List (Option Str))) (j j' k k' : Nat) (l : Line) :
    (lineCells s hs j k l).map (fun e => (e.1, e.2.reloc noLoc)) = (lineCells s' hs' j' k' l).map (fun e => (e.1, e.2.reloc noLoc)) := by
  induction l generalizing k k' with
  | nil => rfl
  | cons e r ih =>
    obtain ⟨h, v⟩ := e
    simp only [lineCells, List.map_cons]
    rw [ih (k + 1) (k' + 1)]
    simp [Cell.reloc, noLoc]

/-- Rows with the same line give the same data. -/
theorem rowAlone_line {cfg : UnCfg} {r r' : RowIn} (h : r.line = r'.line) {x : Row} (hx : rowAlone cfg r = .ok x) :
    ∃ x', rowAlone cfg r' = .ok x' ∧ x'.root = x.root ∧ tlF noLoc x'.fields = tlF noLoc x.fields ∧ x'.warns = x.warns ∧
      rowKey cfg.idName cfg.row.xml x'.fields = rowKey cfg.idName cfg.row.xml x.fields := by
  unfold rowAlone at hx ⊢
  have e1 := unflattenRow_reloc noLoc cfg.row cfg.idName (lineCells r.sheet.name r.sheet.headings r.number 0 r.line)
  have e2 := unflattenRow_reloc noLoc cfg.row cfg.idName (lineCells r'.sheet.name r'.sheet.headings r'.number 0 r'.line)
  rw [lineCells_noLoc r.sheet.name r'.sheet.name r.sheet.headings r'.sheet.headings r.number r'.number 0 0 r.line, h, e2] at e1
  split at hx
  · cases hx
  · next fs w he =>
    cases hx
    rw [h] at he
    rw [he] at e1
    cases h2 : unflattenRow cfg.row cfg.idName (lineCells r'.sheet.name r'.sheet.headings r'.number 0 r'.line) with
    | error e => rw [h2] at e1; simp [Except.map] at e1
    | ok y =>
      obtain ⟨fs', w'⟩ := y
      rw [h2] at e1
      simp only [Except.map, Except.ok.injEq, Prod.mk.injEq] at e1
      refine ⟨_, rfl, by rw [h], e1.1, e1.2, ?_⟩
      dsimp only
      rw [← rowKey_reloc noLoc _ _ fs', e1.1, rowKey_reloc]

/-! ### Equal trees give the same data -/

/-- Matching up two lists. -/
theorem match_up {α β : Type} {R : α → β → Prop} (l : List α) : ∀ (m : List β), (∀ x ∈ l, ∃ y ∈ m, R x y) → (∀ y ∈ m, ∃ x ∈ l, R x y) →
    l.Pairwise (fun x x' => ∀ y, R x y → ¬ R x' y) → m.Pairwise (fun y y' => ∀ x, R x y → ¬ R x y') →
    ∃ m', All₂ R l m' ∧ m'.Perm m := by
  induction l with
  | nil =>
    intro m _ h2 _ _
    cases m with
    | nil => exact ⟨[], .nil, .nil⟩
    | cons y r => obtain ⟨x, hx, _⟩ := h2 y (by simp); simp at hx
  | cons x l ih =>
    intro m h1 h2 h3 h4
    obtain ⟨y, hy, hxy⟩ := h1 x (by simp)
    obtain ⟨a, b, rfl⟩ := List.append_of_mem hy
    rw [List.pairwise_cons] at h3
    have h4' := h4
    rw [List.pairwise_append, List.pairwise_cons] at h4'
    obtain ⟨p1, ⟨p2, p3⟩, p4⟩ := h4'
    have q1 : ∀ x' ∈ l, ∃ y ∈ a ++ b, R x' y := by
      intro x' hx'
      obtain ⟨y', hy', hr⟩ := h1 x' (by simp [hx'])
      rcases List.mem_append.1 hy' with hm | hm
      · exact ⟨y', List.mem_append_left _ hm, hr⟩
      · rcases List.mem_cons.1 hm with rfl | hm
        · exact absurd hr (h3.1 x' hx' _ hxy)
        · exact ⟨y', List.mem_append_right _ hm, hr⟩
    have q2 : ∀ y' ∈ a ++ b, ∃ x' ∈ l, R x' y' := by
      intro y' hy'
      obtain ⟨x', hx', hr⟩ := h2 y' (by
        rcases List.mem_append.1 hy' with hm | hm
        · exact List.mem_append_left _ hm
        · exact List.mem_append_right _ (List.mem_cons_of_mem _ hm))
      rcases List.mem_cons.1 hx' with rfl | hx'
      · exfalso
        rcases List.mem_append.1 hy' with hm | hm
        · exact p4 y' hm y (by simp) x' hr hxy
        · exact p2 y' hm x' hxy hr
      · exact ⟨x', hx', hr⟩
    have q3 : (a ++ b).Pairwise (fun y y' => ∀ x, R x y → ¬ R x y') := by
      rw [List.pairwise_append]
      exact ⟨p1, p3, fun u hu v hv => p4 u hu v (List.mem_cons_of_mem _ hv)⟩
    obtain ⟨m', e1, e2⟩ := ih (a ++ b) q1 q2 h3.2 q3
    exact ⟨y :: m', .cons hxy e1, (List.Perm.cons y e2).trans List.perm_middle.symm⟩

theorem sameFields_of {l m : Fields} (h : All₂ (fun a b => a.1 = b.1 ∧ SameData (treeToLists a.2) (treeToLists b.2)) l m) :
    SameFields (toLists l) (toLists m) := by
  induction h with
  | nil => simp only [toLists]; exact .nil
  | @cons a b l m h1 _ ih =>
    obtain ⟨k, t⟩ := a
    obtain ⟨k', u⟩ := b
    simp only at h1
    obtain ⟨rfl, h1⟩ := h1
    simp only [toLists]
    exact .cons h1 ih

theorem sameObjects_of {l m : List (Val × Fields)} (h : All₂ (fun a b => a.1.pyEq b.1 = true ∧ SameData (.obj (toLists a.2)) (.obj (toLists b.2))) l m) :
    SameObjects (keyedToLists l) (keyedToLists m) := by
  induction h with
  | nil => simp only [keyedToLists]; exact .nil
  | @cons a b l m h1 _ ih =>
    obtain ⟨k, t⟩ := a
    obtain ⟨k', u⟩ := b
    simp only [keyedToLists]
    exact .cons h1.2 ih

theorem bel_field {fs gs : Fields} (h : Bel (.obj fs) (.obj gs)) {k : Str} {t : Tree} (hk : Dict.get fs k = some t) :
    ∃ u, Dict.get gs k = some u ∧ Bel t u := by
  obtain ⟨u, hu, _⟩ := h [.field k] t (by simp [Tree.sub, hk])
  simp only [Tree.sub] at hu
  cases hg : Dict.get gs k with
  | none => rw [hg] at hu; simp at hu
  | some v =>
    refine ⟨v, rfl, fun p a ha => ?_⟩
    obtain ⟨b, hb, e⟩ := h (.field k :: p) a (by simp [Tree.sub, hk, ha])
    exact ⟨b, by simpa [Tree.sub, hg] using hb, e⟩

theorem bel_item {ks bk : List (Val × Fields)} {rs br : List Fields} (h : Bel (.tmp ks rs) (.tmp bk br)) {v : Val} {fs : Fields} (hk : keyGet ks v = some fs) :
    ∃ gs, keyGet bk v = some gs ∧ Bel (.obj fs) (.obj gs) := by
  obtain ⟨u, hu, _⟩ := h [.item v] (.obj fs) (by simp [Tree.sub, hk])
  simp only [Tree.sub] at hu
  cases hg : keyGet bk v with
  | none => rw [hg] at hu; simp at hu
  | some gs =>
    refine ⟨gs, rfl, fun p a ha => ?_⟩
    obtain ⟨b, hb, e⟩ := h (.item v :: p) a (by simp [Tree.sub, hk, ha])
    exact ⟨b, by simpa [Tree.sub, hg] using hb, e⟩

theorem same_of_bel (t : Tree) : ∀ u, Clean t → Clean u → Bel t u → Bel u t → SameData (treeToLists t) (treeToLists u) := by
  have fields : ∀ fs : Fields, (∀ e ∈ fs, ∀ u, Clean e.2 → Clean u → Bel e.2 u → Bel u e.2 → SameData (treeToLists e.2) (treeToLists u)) →
      ∀ gs : Fields, Clean (.obj fs) → Clean (.obj gs) → Bel (.obj fs) (.obj gs) → Bel (.obj gs) (.obj fs) →
      SameData (.obj (toLists fs)) (.obj (toLists gs)) := by
    intro fs ih gs g1 g2 h1 h2
    obtain ⟨m, e1, e2⟩ := match_up (R := fun (a b : Str × Tree) => a.1 = b.1 ∧ SameData (treeToLists a.2) (treeToLists b.2)) fs gs
      (fun a ha => by
        have hg := Dict.get_of_mem g1.node ha
        obtain ⟨u, hu, hb⟩ := bel_field h1 hg
        obtain ⟨t, ht, hb'⟩ := bel_field h2 hu
        rw [hg] at ht; cases ht
        exact ⟨(a.1, u), Dict.get_eq_some_mem hu, rfl, ih a ha u (g1.field hg) (g2.field hu) hb hb'⟩)
      (fun b hb => by
        have hg := Dict.get_of_mem g2.node hb
        obtain ⟨t, ht, hb'⟩ := bel_field h2 hg
        obtain ⟨u, hu, hb2⟩ := bel_field h1 ht
        rw [hg] at hu; cases hu
        exact ⟨(b.1, t), Dict.get_eq_some_mem ht, rfl, ih _ (Dict.get_eq_some_mem ht) b.2 (g1.field ht) (g2.field hg) hb2 hb'⟩)
      (by
        have := g1.node
        simp only [Local, Dict.keys] at this
        refine (List.pairwise_map.1 (List.nodup_iff_pairwise_ne.1 this)).imp (fun hne y r1 r2 => hne (r1.1.trans r2.1.symm)))
      (by
        have := g2.node
        simp only [Local, Dict.keys] at this
        refine (List.pairwise_map.1 (List.nodup_iff_pairwise_ne.1 this)).imp (fun hne y r1 r2 => hne (r1.1.symm.trans r2.1)))
    refine .obj (sameFields_of e1) ?_
    rw [toLists_eq, toLists_eq]
    exact e2.map _
  induction t using Tree.ind with
  | cell c =>
    intro u _ _ h _
    obtain ⟨b, hb, e⟩ := h [] (.cell c) rfl
    simp only [Tree.sub, Option.some.injEq] at hb; subst hb
    cases u with
    | cell d => exact .cell e
    | obj fs => exact absurd e id
    | tmp a b => exact absurd e id
  | obj fs ih =>
    intro u g1 g2 h h'
    obtain ⟨b, hb, e⟩ := h [] (.obj fs) rfl
    simp only [Tree.sub, Option.some.injEq] at hb; subst hb
    cases u with
    | obj gs => exact fields fs ih gs g1 g2 h h'
    | cell d => exact absurd e id
    | tmp a b => exact absurd e id
  | tmp ks rs ih _ =>
    intro u g1 g2 h h'
    obtain ⟨b, hb, e⟩ := h [] (.tmp ks rs) rfl
    simp only [Tree.sub, Option.some.injEq] at hb; subst hb
    cases u with
    | obj gs => exact absurd e id
    | cell d => exact absurd e id
    | tmp bk br =>
      obtain ⟨l1, l2, l3⟩ := g1.node
      obtain ⟨m1, m2, m3⟩ := g2.node
      obtain ⟨m, e1, e2⟩ := match_up (R := fun (a b : Val × Fields) => a.1.pyEq b.1 = true ∧ SameData (.obj (toLists a.2)) (.obj (toLists b.2))) ks bk
        (fun a ha => by
          have hg := keyGet_of_mem l2 (k := a.1) (v := a.2) ha (l3 a ha)
          obtain ⟨gs, hu, hb⟩ := bel_item h hg
          obtain ⟨fs, ht, hb'⟩ := bel_item h' hu
          rw [hg] at ht; cases ht
          obtain ⟨k', hm, hk'⟩ := keyGet_some_mem hu
          exact ⟨(k', gs), hm, Val.pyEq_symm hk', fields a.2 (ih a ha) gs (g1.item hg) (g2.item hu) hb hb'⟩)
        (fun b hb => by
          have hg := keyGet_of_mem m2 (k := b.1) (v := b.2) hb (m3 b hb)
          obtain ⟨fs, ht, hb'⟩ := bel_item h' hg
          obtain ⟨gs, hu, hb2⟩ := bel_item h ht
          rw [hg] at hu; cases hu
          obtain ⟨k', hm, hk'⟩ := keyGet_some_mem ht
          exact ⟨(k', fs), hm, hk', fields fs (ih _ hm) b.2 (g1.item ht) (g2.item hg) hb2 hb'⟩)
        (l2.imp (fun hne y r1 r2 => hne (Val.pyEq_trans r1.1 (Val.pyEq_symm r2.1))))
        (m2.imp (fun hne y r1 r2 => hne (Val.pyEq_trans (Val.pyEq_symm r1.1) r2.1)))
      simp only [treeToLists, l1, m1, itemsToLists, List.append_nil]
      refine .list (sameObjects_of e1) ?_
      rw [keyedToLists_eq, keyedToLists_eq]
      exact e2.map _

/-! ### Runs -/

/-- What a group tree contains. -/
def groupItems : List (Str × CTree) → List (List (Str × CTree))
  | [(_, .list is)] => is
  | _ => []

theorem SameObjects.append {a b c d : List (List (Str × CTree))} (h : SameObjects a b) (h' : SameObjects c d) : SameObjects (a ++ c) (b ++ d) := by
  induction a generalizing b with
  | nil => cases h; simpa using h'
  | cons x r ih => cases h with | cons h1 h2 => exact .cons h1 (ih h2)

theorem groups_same (gs gs' : Groups) (h : SameData (treeToLists (enc gs)) (treeToLists (enc gs'))) :
    ∃ objs, SameObjects (groupsToList gs) objs ∧ objs.Perm (groupsToList gs') := by
  have hl : ∀ gs : Groups, treeToLists (enc gs) = .list (gs.map (fun e => [(s%"", CTree.list (keyedToLists e.2.keyed ++ itemsToLists e.2.rest))])) := by
    intro gs
    simp [enc, treeToLists, itemsToLists, keyedToLists_eq, encTD, toLists, Function.comp_def]
  rw [hl, hl] at h
  have hitems : ∀ gs : Groups, (gs.map (fun e => [(s%"", CTree.list (keyedToLists e.2.keyed ++ itemsToLists e.2.rest))])).flatMap groupItems = groupsToList gs := by
    intro gs
    unfold groupsToList
    rw [List.flatMap_map]
    rfl
  cases h with
  | @list _ _ hs h1 h2 =>
    have h3 := h2.flatMap_right groupItems
    rw [hitems] at h3
    suffices ∃ objs, SameObjects (groupsToList gs) objs ∧ objs.Perm (hs.flatMap groupItems) by
      obtain ⟨objs, e1, e2⟩ := this
      exact ⟨objs, e1, e2.trans h3⟩
    clear h2 h3
    induction gs generalizing hs with
    | nil => cases h1; exact ⟨[], .nil, .nil⟩
    | cons e r ih =>
      cases h1 with
      | @cons _ y _ s hx hr =>
        obtain ⟨objs, e1, e2⟩ := ih hr
        cases hx with
        | @obj _ _ hs' f1 f2 =>
          cases f1 with
          | @cons _ _ u _ s' g1 g2 =>
            cases g2
            have hy : y = [(s%"", u)] := List.perm_singleton.1 f2.symm
            cases g1 with
            | @list _ js zs k1 k2 =>
              subst hy
              refine ⟨zs ++ objs, ?_, ?_⟩
              · exact SameObjects.append k1 e1
              · exact k2.append e2

/-- A run over rows that do not contradict each other: no warnings, and the result is the
union of the rows. -/
theorem run_union {cfg : UnCfg} (rows : List Row) (hid : ∀ x ∈ rows, Filed cfg x) (hg : ∀ x ∈ rows, Clean (encR cfg x).2)
    (ha : ∀ x ∈ rows, ∀ y ∈ rows, Agr (encR cfg x).2 (encR cfg y).2) :
    ∃ gs, foldRows cfg rows [] = .ok (gs, []) ∧ Clean (enc gs) ∧ (∀ x ∈ rows, Bel (encR cfg x).2 (enc gs)) ∧
      ∀ ks rs, (∀ x ∈ rows, Bel (encR cfg x).2 (.tmp ks rs)) → Bel (enc gs) (.tmp ks rs) := by
  obtain ⟨gs, e1, e2⟩ := foldRows_enc rows hid []
  have hempty : ∀ p u, (enc []).sub p = some u → p = [] ∧ u = .tmp [] [] := by
    intro p u hu
    cases p with
    | nil => simp only [Tree.sub, Option.some.injEq] at hu; exact ⟨rfl, hu.symm⟩
    | cons s p => cases s <;> simp [enc, Tree.sub] at hu
  have good0 : Clean (enc []) := by
    intro p u hu
    obtain ⟨-, rfl⟩ := hempty p u hu
    simp [Local, KeysDistinct]
  have hmem : ∀ y ∈ rows.map (encR cfg), ∃ x ∈ rows, encR cfg x = y := fun y hy => List.mem_map.1 hy
  obtain ⟨m1, m2, _, m4, m5⟩ := mergeAll_spec (rows.map (encR cfg)) (enc [])
    (fun y hy => by obtain ⟨x, hx, rfl⟩ := hmem y hy; exact hg x hx)
    (fun y hy z hz => by
      obtain ⟨x, hx, rfl⟩ := hmem y hy
      obtain ⟨x', hx', rfl⟩ := hmem z hz
      exact ha x hx x' hx') good0
    (fun y hy p a b h1 h2 => by
      obtain ⟨x, hx, rfl⟩ := hmem y hy
      obtain ⟨rfl, rfl⟩ := hempty p b h2
      simp only [Tree.sub, Option.some.injEq] at h1
      subst h1
      simp [encR, encRow, NodeEq])
  rw [m1] at e1
  rw [← e2] at m2 m4 m5
  refine ⟨gs, e1, m2, fun x hx => m4 _ (List.mem_map_of_mem hx), fun ks rs h => m5 _ ?_ ?_⟩
  · intro p a hp
    obtain ⟨rfl, rfl⟩ := hempty p a hp
    exact ⟨.tmp ks rs, rfl, trivial⟩
  · intro y hy
    obtain ⟨x, hx, rfl⟩ := hmem y hy
    exact h x hx

end Verif

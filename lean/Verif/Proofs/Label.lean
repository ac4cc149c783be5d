import Verif.Proofs.AtRun
/-!
Items without id, seen as items with a label that is no id.  A run over rows whose items have labels gives, when
the labels are forgotten, the run over the rows themselves.
-/
namespace Verif
open Spec

mutual
/-- Forget labels: the items whose key cannot be an id are items without id. -/
def forget : Tree → Tree
  | .cell c => .cell c
  | .obj fs => .obj (forgetF fs)
  | .tmp ks _ => .tmp (forgetK ks) (forgetU ks)
/-- Fields. -/
def forgetF : List (Str × Tree) → List (Str × Tree)
  | [] => []
  | (k, t) :: r => (k, forget t) :: forgetF r
/-- The items with ids. -/
def forgetK : List (Val × List (Str × Tree)) → List (Val × List (Str × Tree))
  | [] => []
  | (k, fs) :: r => if k.hashable then (k, forgetF fs) :: forgetK r else forgetK r
/-- The items without. -/
def forgetU : List (Val × List (Str × Tree)) → List (List (Str × Tree))
  | [] => []
  | (k, fs) :: r => if k.hashable then forgetU r else forgetF fs :: forgetU r
end

theorem forgetF_map (fs : Fields) : forgetF fs = fs.map (fun e => (e.1, forget e.2)) := by
  induction fs with
  | nil => rfl
  | cons e r ih => obtain ⟨k, t⟩ := e; simp [forgetF, ih]

theorem Val.hashable_congr {a b : Val} (h : a.pyEq b = true) : a.hashable = b.hashable := by
  unfold Val.pyEq at h
  cases a <;> cases b <;> simp_all [Val.hashable, Val.canon] <;>
    (revert h; split <;> simp_all <;> grind)

theorem Dict.get_map_snd {κ α β : Type} [DecidableEq κ] (f : α → β) (d : List (κ × α)) (k : κ) :
    Dict.get (d.map (fun e => (e.1, f e.2))) k = (Dict.get d k).map f := by
  induction d with
  | nil => rfl
  | cons e r ih =>
    obtain ⟨a, b⟩ := e
    simp only [List.map_cons, Dict.get_cons, ih]
    split <;> rfl

theorem get_forgetF (fs : Fields) (k : Str) : Dict.get (forgetF fs) k = (Dict.get fs k).map forget := by
  rw [forgetF_map, Dict.get_map_snd]

theorem set_forgetF (fs : Fields) (k : Str) (t : Tree) : forgetF (Dict.set fs k t) = Dict.set (forgetF fs) k (forget t) := by
  induction fs with
  | nil => rfl
  | cons e r ih =>
    obtain ⟨a, b⟩ := e
    simp only [Dict.set, forgetF]
    split <;> simp [forgetF, ih]

theorem keyGet_forgetK {ks : List (Val × Fields)} {k : Val} (h : k.hashable = true) :
    keyGet (forgetK ks) k = (keyGet ks k).map forgetF := by
  induction ks with
  | nil => rfl
  | cons e r ih =>
    obtain ⟨a, b⟩ := e
    simp only [forgetK, keyGet_cons]
    by_cases hp : a.pyEq k = true
    · rw [if_pos (by rw [Val.hashable_congr hp]; exact h), keyGet_cons, if_pos hp, if_pos hp]; rfl
    · rw [if_neg hp, ← ih]
      split
      · rw [keyGet_cons, if_neg hp]
      · rfl

theorem forgetK_keySet {ks : List (Val × Fields)} {k : Val} (fs : Fields) (h : k.hashable = true) :
    forgetK (keySet ks k fs) = keySet (forgetK ks) k (forgetF fs) ∧ forgetU (keySet ks k fs) = forgetU ks := by
  induction ks with
  | nil => simp [keySet, forgetK, forgetU, h]
  | cons e r ih =>
    obtain ⟨a, b⟩ := e
    simp only [keySet]
    by_cases hp : a.pyEq k = true
    · have ha : a.hashable = true := by rw [Val.hashable_congr hp]; exact h
      simp [hp, forgetK, forgetU, ha, keySet]
    · rw [if_neg hp]
      simp only [forgetK, forgetU, ih.1, ih.2]
      refine ⟨?_, trivial⟩
      split <;> simp [keySet, hp]

theorem forget_append (a b : List (Val × Fields)) : forgetK (a ++ b) = forgetK a ++ forgetK b ∧ forgetU (a ++ b) = forgetU a ++ forgetU b := by
  induction a with
  | nil => simp [forgetK, forgetU]
  | cons e r ih =>
    obtain ⟨k, fs⟩ := e
    simp only [List.cons_append, forgetK, forgetU, ih.1, ih.2]
    constructor <;> split <;> rfl

/-- No labelled item is in both trees. -/
def Apart (t u : Tree) : Prop := ∀ p k a b, k.hashable = false → t.sub (p ++ [.item k]) = some a → u.sub (p ++ [.item k]) = some b → False

theorem Apart.field {fs gs : Fields} (h : Apart (.obj fs) (.obj gs)) {k : Str} {t u : Tree} (hk : Dict.get fs k = some t)
    (hg : Dict.get gs k = some u) : Apart t u := by
  intro p l a b hl ha hb
  exact h (.field k :: p) l a b hl (by simp [Tree.sub, hk, ha]) (by simp [Tree.sub, hg, hb])

theorem Apart.item {ks bk : List (Val × Fields)} {rs br : List Fields} (h : Apart (.tmp ks rs) (.tmp bk br)) {v : Val} {fs gs : Fields}
    (hk : keyGet ks v = some fs) (hg : keyGet bk v = some gs) : Apart (.obj fs) (.obj gs) := by
  intro p l a b hl ha hb
  exact h (.item v :: p) l a b hl (by simp [Tree.sub, hk, ha]) (by simp [Tree.sub, hg, hb])

theorem Apart.key {ks bk : List (Val × Fields)} {rs br : List Fields} (h : Apart (.tmp ks rs) (.tmp bk br)) {v : Val} {fs gs : Fields}
    (hk : keyGet ks v = some fs) (hg : keyGet bk v = some gs) : v.hashable = true := by
  by_cases hv : v.hashable = true
  · exact hv
  · exact (h [] v (.obj fs) (.obj gs) (by simpa using hv) (by simp [Tree.sub, hk]) (by simp [Tree.sub, hg])).elim

theorem Apart.symm {t u : Tree} (h : Apart t u) : Apart u t := fun p k a b hk ha hb => h p k b a hk hb ha

/-- Merging commutes with forgetting, for fields. -/
theorem mergeFields_forget (sheet : Str) (fs : Fields) : ∀ gs : Fields, (Dict.keys fs).Nodup →
    (∀ e ∈ fs, ∀ b, Dict.get gs e.1 = some b →
      mergeTree sheet e.1 (forget e.2) (forget b) = (forget (mergeTree sheet e.1 e.2 b).1, (mergeTree sheet e.1 e.2 b).2)) →
    mergeFields sheet (forgetF fs) (forgetF gs) = (forgetF (mergeFields sheet fs gs).1, (mergeFields sheet fs gs).2) := by
  induction fs with
  | nil => intro gs _ _; rfl
  | cons e r ih =>
    obtain ⟨k, t⟩ := e
    intro gs hn h
    have hk : k ∉ Dict.keys r := (List.nodup_cons.1 hn).1
    have hr : ∀ u, ∀ e ∈ r, ∀ b, Dict.get (Dict.set gs k u) e.1 = some b →
        mergeTree sheet e.1 (forget e.2) (forget b) = (forget (mergeTree sheet e.1 e.2 b).1, (mergeTree sheet e.1 e.2 b).2) := by
      intro u e he b hb
      have hne : k ≠ e.1 := fun hh => hk (hh ▸ List.mem_map.2 ⟨e, he, rfl⟩)
      rw [Dict.get_set, if_neg hne] at hb
      exact h e (List.mem_cons_of_mem _ he) b hb
    simp only [forgetF, mergeFields, get_forgetF]
    cases hg : Dict.get gs k with
    | none =>
      simp only [Option.map_none, ← set_forgetF]
      rw [ih _ (List.nodup_cons.1 hn).2 (hr t)]
    | some b =>
      simp only [Option.map_some]
      rw [h (k, t) (List.mem_cons_self ..) b hg]
      simp only [← set_forgetF]
      rw [ih _ (List.nodup_cons.1 hn).2 (hr _)]

/-- Merging commutes with forgetting, for items. -/
theorem mergeKeyed_forget (sheet : Str) (ks : List (Val × Fields)) : ∀ bk : List (Val × Fields), KeysDistinct ks →
    (∀ e ∈ ks, ∀ g, keyGet bk e.1 = some g → e.1.hashable = true ∧
      mergeFields sheet (forgetF e.2) (forgetF g) = (forgetF (mergeFields sheet e.2 g).1, (mergeFields sheet e.2 g).2)) →
    mergeKeyed sheet (forgetK ks) (forgetK bk) = (forgetK (mergeKeyed sheet ks bk).1, (mergeKeyed sheet ks bk).2) ∧
    forgetU (mergeKeyed sheet ks bk).1 = forgetU bk ++ forgetU ks := by
  induction ks with
  | nil => intro bk _ _; simp [forgetK, forgetU, mergeKeyed]
  | cons e r ih =>
    obtain ⟨k, fs⟩ := e
    intro bk hd h
    have hk := (List.pairwise_cons.1 hd).1
    have hr : ∀ u, ∀ e ∈ r, ∀ g, keyGet (keySet bk k u) e.1 = some g → e.1.hashable = true ∧
        mergeFields sheet (forgetF e.2) (forgetF g) = (forgetF (mergeFields sheet e.2 g).1, (mergeFields sheet e.2 g).2) := by
      intro u e he g hg
      rw [keyGet_keySet, if_neg (hk e he)] at hg
      exact h e (List.mem_cons_of_mem _ he) g hg
    have hrest := (List.pairwise_cons.1 hd).2
    simp only [mergeKeyed]
    cases hg : keyGet bk k with
    | none =>
      obtain ⟨i1, i2⟩ := ih (keySet bk k fs) hrest (hr fs)
      simp only
      by_cases hh : k.hashable = true
      · obtain ⟨s1, s2⟩ := forgetK_keySet (ks := bk) fs hh
        simp only [forgetK, forgetU, hh, if_true, mergeKeyed, keyGet_forgetK hh, hg, Option.map_none]
        rw [s1] at i1; rw [s2] at i2
        rw [i1, i2]; simp
      · have e1 : keySet bk k fs = bk ++ [(k, fs)] := keySet_of_none fs hg
        simp only [forgetK, forgetU, hh]
        rw [e1] at i1 i2 ⊢
        obtain ⟨a1, a2⟩ := forget_append bk [(k, fs)]
        rw [a1] at i1; rw [a2] at i2
        simp only [forgetK, forgetU, hh, List.append_nil] at i1 i2
        simp only [Bool.false_eq_true, if_false, List.append_nil] at i1 i2 ⊢
        rw [i1, i2]; simp
    | some g =>
      obtain ⟨hh, hm⟩ := h (k, fs) (List.mem_cons_self ..) g hg
      simp only at hh hm
      obtain ⟨i1, i2⟩ := ih (keySet bk k (mergeFields sheet fs g).1) hrest (hr _)
      obtain ⟨s1, s2⟩ := forgetK_keySet (ks := bk) (mergeFields sheet fs g).1 hh
      rw [s1] at i1; rw [s2] at i2
      simp only [forgetK, forgetU, hh, if_true, mergeKeyed, keyGet_forgetK hh, hg, Option.map_some, hm, i1, i2, and_self]

/-- Merging commutes with forgetting. -/
theorem merge_forget (sheet : Str) (v : Tree) : ∀ (key : Str) (b : Tree), Clean v → Agr v b → Apart v b →
    mergeTree sheet key (forget v) (forget b) = (forget (mergeTree sheet key v b).1, (mergeTree sheet key v b).2) := by
  have fields : ∀ fs : Fields, (∀ e ∈ fs, ∀ (key : Str) (b : Tree), Clean e.2 → Agr e.2 b → Apart e.2 b →
      mergeTree sheet key (forget e.2) (forget b) = (forget (mergeTree sheet key e.2 b).1, (mergeTree sheet key e.2 b).2)) →
      ∀ gs : Fields, Clean (.obj fs) → Agr (.obj fs) (.obj gs) → Apart (.obj fs) (.obj gs) →
      mergeFields sheet (forgetF fs) (forgetF gs) = (forgetF (mergeFields sheet fs gs).1, (mergeFields sheet fs gs).2) := by
    intro fs ih gs hc ha hp
    refine mergeFields_forget sheet fs gs hc.node ?_
    intro e he b hb
    have hg : Dict.get fs e.1 = some e.2 := Dict.get_of_mem hc.node he
    exact ih e he e.1 b (hc.field hg) (ha.field hg hb) (hp.field hg hb)
  induction v using Tree.ind with
  | cell c =>
    intro key b _ ha _
    have hn := ha.node
    cases b with
    | cell d =>
      obtain ⟨b', e1, _⟩ := mergeTree_cell sheet key (.cell c) d
      simp only [forget]
      have : forget (mergeTree sheet key (.cell c) (.cell d)).1 = (mergeTree sheet key (.cell c) (.cell d)).1 := by rw [e1]; rfl
      rw [this]
    | obj gs => exact absurd hn id
    | tmp k r => exact absurd hn id
  | obj fs ih =>
    intro key b hc ha hp
    have hn := ha.node
    cases b with
    | cell d => exact absurd hn id
    | tmp k r => exact absurd hn id
    | obj gs => simp only [forget, mergeTree, fields fs ih gs hc ha hp]
  | tmp ks rs ih _ =>
    intro key b hc ha hp
    have hn := ha.node
    cases b with
    | cell d => exact absurd hn id
    | obj gs => exact absurd hn id
    | tmp bk br =>
      obtain ⟨_, l2, l3⟩ := hc.node
      have := mergeKeyed_forget sheet ks bk l2 (by
        intro e he g hg
        have hk : keyGet ks e.1 = some e.2 := keyGet_of_mem l2 (k := e.1) he (l3 e he)
        exact ⟨hp.key hk hg, fields e.2 (ih e he) g (hc.item hk) (ha.item hk hg) (hp.item hk hg)⟩)
      simp only [forget, mergeTree, this.1, this.2]

/-- Same kind of node, with the same value for cells. -/
def NodeSame : Tree → Tree → Prop
  | .cell c, .cell d => c.value = d.value
  | .obj _, .obj _ => True
  | .tmp _ _, .tmp _ _ => True
  | _, _ => False

theorem NodeSame.refl (a : Tree) : NodeSame a a := by cases a <;> simp [NodeSame]
theorem NodeSame.symm {a b : Tree} (h : NodeSame a b) : NodeSame b a := by cases a <;> cases b <;> simp_all [NodeSame]
theorem NodeSame.trans {a b c : Tree} (h : NodeSame a b) (h' : NodeSame b c) : NodeSame a c := by
  cases a <;> cases b <;> cases c <;> simp_all [NodeSame]

/-- Every node of a merged tree is a node of one of the two. -/
theorem merge_same {sheet key : Str} {v b : Tree} (hv : Clean v) (ha : Agr v b) {p : List PKey} {u : Tree}
    (h : (mergeTree sheet key v b).1.sub p = some u) :
    (∃ a, v.sub p = some a ∧ NodeSame a u) ∨ ∃ c, b.sub p = some c ∧ NodeSame c u := by
  obtain ⟨k, e⟩ := merge_sub sheet p key v b hv ha
  rw [h] at e
  cases hc : b.sub p with
  | none =>
    cases hp : v.sub p with
    | none => rw [hc, hp] at e; simp [mergedAt] at e
    | some a => rw [hc, hp] at e; simp only [mergedAt, Option.some.injEq] at e; subst e; exact .inl ⟨u, rfl, .refl _⟩
  | some c =>
    cases hp : v.sub p with
    | none => rw [hc, hp] at e; simp only [mergedAt, Option.some.injEq] at e; subst e; exact .inr ⟨u, rfl, .refl _⟩
    | some a =>
      rw [hp, hc] at e; simp only [mergedAt, Option.some.injEq] at e
      refine .inr ⟨c, rfl, ?_⟩
      have hn := ha p a c hp hc
      cases c with
      | cell d =>
        obtain ⟨b', e1, e2, _⟩ := mergeTree_cell sheet k a d
        rw [e, e1]
        exact e2.symm
      | obj gs =>
        cases a with
        | obj fs => rw [e]; simp [mergeTree, NodeSame]
        | cell d => exact absurd hn id
        | tmp k r => exact absurd hn id
      | tmp bk br =>
        cases a with
        | tmp ks rs => rw [e]; simp [mergeTree, NodeSame]
        | cell d => exact absurd hn id
        | obj gs => exact absurd hn id

theorem merge_apart {sheet key : Str} {v b u : Tree} (hv : Clean v) (ha : Agr v b) (h1 : Apart u v) (h2 : Apart u b) :
    Apart u (mergeTree sheet key v b).1 := by
  intro p k x y hk hx hy
  rcases merge_same hv ha hy with ⟨a, h, _⟩ | ⟨a, h, _⟩
  · exact h1 p k x a hk hx h
  · exact h2 p k x a hk hx h

/-- Merging many. -/
theorem mergeAll_same (xs : List (Str × Tree)) : ∀ (acc : Tree), (∀ x ∈ xs, Clean x.2) → (∀ x ∈ xs, ∀ y ∈ xs, Agr x.2 y.2) →
    Clean acc → (∀ x ∈ xs, Agr x.2 acc) → ∀ p u, (mergeAllInto xs acc).1.sub p = some u →
    (∃ c, acc.sub p = some c ∧ NodeSame c u) ∨ ∃ x ∈ xs, ∃ a, x.2.sub p = some a ∧ NodeSame a u := by
  induction xs with
  | nil => intro acc _ _ _ _ p u h; exact .inl ⟨u, h, .refl _⟩
  | cons x r ih =>
    obtain ⟨sheet, x⟩ := x
    intro acc hx hxx hc ha p u h
    simp only [mergeAllInto] at h
    have c1 := hx (sheet, x) (List.mem_cons_self ..)
    have a1 := ha (sheet, x) (List.mem_cons_self ..)
    rcases ih _ (fun y hy => hx y (List.mem_cons_of_mem _ hy))
        (fun y hy z hz => hxx y (List.mem_cons_of_mem _ hy) z (List.mem_cons_of_mem _ hz))
        (merge_good (sheet := sheet) (key := []) c1 hc a1)
        (fun y hy => merge_agr c1 hc a1 (hxx y (List.mem_cons_of_mem _ hy) _ (List.mem_cons_self ..))
          (ha y (List.mem_cons_of_mem _ hy))) p u h with ⟨c, h1, h2⟩ | ⟨y, hy, a, h1, h2⟩
    · rcases merge_same c1 a1 h1 with ⟨a, e1, e2⟩ | ⟨a, e1, e2⟩
      · exact .inr ⟨(sheet, x), List.mem_cons_self .., a, e1, e2.trans h2⟩
      · exact .inl ⟨a, e1, e2.trans h2⟩
    · exact .inr ⟨y, List.mem_cons_of_mem _ hy, a, h1, h2⟩

/-- A row whose items are labelled. -/
structure LRow where
  sheet : Str
  root : Val
  label : Val
  fields : Fields

/-- The tree of a labelled row. -/
def LRow.enc (x : LRow) : Str × Tree := (x.sheet, encRow x.root x.label x.fields)

/-- The row is the labelled row without its labels. -/
structure Labels (cfg : UnCfg) (y : Row) (x : LRow) : Prop where
  sheet : y.sheet = x.sheet
  root : y.root = x.root
  hash : x.root.hashable = true
  fields : y.fields = forgetF x.fields
  key : rowKey cfg.idName cfg.row.xml y.fields = .ok (if x.label.hashable then some x.label else none)

theorem addRow_forget {cfg : UnCfg} {y : Row} {x : LRow} (h : Labels cfg y x) (gs : Groups) :
    ∃ gs', addRow cfg y.sheet y.root y.fields gs = .ok (gs', (mergeTree x.sheet [] (forget x.enc.2) (enc gs)).2) ∧
      enc gs' = (mergeTree x.sheet [] (forget x.enc.2) (enc gs)).1 := by
  obtain ⟨h1, h2, h3, h4, h5⟩ := h
  by_cases hh : x.label.hashable = true
  · rw [if_pos hh] at h5
    have he : forget x.enc.2 = encRow y.root x.label y.fields := by
      simp [LRow.enc, encRow, forget, forgetK, forgetU, forgetF, hh, h2, h3, h4]
    rw [he, h1]
    exact addRow_enc gs h5 hh
  · rw [if_neg hh] at h5
    have he : forget x.enc.2 = .tmp [(y.root, encTD { rest := [y.fields] })] [] := by
      simp [LRow.enc, encRow, forget, forgetK, forgetU, forgetF, hh, h2, h3, h4, encTD]
    rw [he]
    have hi := rowKey_ok h5
    have hm := keyGet_map encTD gs y.root
    cases hg : keyGet gs y.root with
    | none =>
      rw [hg] at hm
      refine ⟨keySet gs y.root { rest := [y.fields] }, ?_, ?_⟩
      · simp [addRow, addToGroup, hg, h5, TDict.append, hi, enc, mergeTree, mergeKeyed, hm]
      · simp only [enc, mergeTree, mergeKeyed, hm, Option.map_none]
        rw [← keySet_map encTD]
        simp
    | some td =>
      rw [hg] at hm
      simp only [Option.map_some] at hm
      have hm1 : mergeFields x.sheet (encTD { rest := [y.fields] }) (encTD td) = (encTD { td with rest := td.rest ++ [y.fields] }, []) := by
        have hg' : Dict.get [(([] : Str), Tree.tmp td.keyed td.rest)] [] = some (Tree.tmp td.keyed td.rest) := by rw [Dict.get_cons]; simp
        simp only [encTD, mergeFields, hg', mergeTree, mergeKeyed]
        simp [Dict.set]
      refine ⟨keySet gs y.root { td with rest := td.rest ++ [y.fields] }, ?_, ?_⟩
      · simp [addRow, addToGroup, hg, h5, TDict.append, hi, enc, mergeTree, mergeKeyed, hm, hm1]
      · simp only [enc, mergeTree, mergeKeyed, hm, hm1]
        rw [← keySet_map encTD]
        simp

theorem foldRows_forget {cfg : UnCfg} {ys : List Row} {xs : List LRow} (h : All₂ (Labels cfg) ys xs) : ∀ (gs : Groups) (acc : Tree),
    enc gs = forget acc → (∀ x ∈ xs, Clean x.enc.2) → (∀ x ∈ xs, ∀ y ∈ xs, Agr x.enc.2 y.enc.2) →
    xs.Pairwise (fun x y => Apart x.enc.2 y.enc.2) →
    Clean acc → (∀ x ∈ xs, Agr x.enc.2 acc) → (∀ x ∈ xs, Apart x.enc.2 acc) →
    ∃ gs', foldRows cfg ys gs = .ok (gs', (mergeAllInto (xs.map LRow.enc) acc).2) ∧ enc gs' = forget (mergeAllInto (xs.map LRow.enc) acc).1 := by
  induction h with
  | nil => intro gs acc he _ _ _ _ _ _; exact ⟨gs, rfl, he⟩
  | @cons y x ys xs hl _ ih =>
    intro gs acc he hc haa hap hacc hxa hxp
    obtain ⟨gs1, e1, e2⟩ := addRow_forget hl gs
    have c1 := hc x (List.mem_cons_self ..)
    have a1 := hxa x (List.mem_cons_self ..)
    rw [he, merge_forget x.sheet x.enc.2 [] acc c1 a1 (hxp x (List.mem_cons_self ..))] at e1 e2
    simp only at e1 e2
    obtain ⟨gs2, e3, e4⟩ := ih gs1 _ e2 (fun z hz => hc z (List.mem_cons_of_mem _ hz))
      (fun z hz w hw => haa z (List.mem_cons_of_mem _ hz) w (List.mem_cons_of_mem _ hw)) (List.pairwise_cons.1 hap).2
      (merge_good c1 hacc a1)
      (fun z hz => merge_agr c1 hacc a1 (haa z (List.mem_cons_of_mem _ hz) x (List.mem_cons_self ..)) (hxa z (List.mem_cons_of_mem _ hz)))
      (fun z hz => merge_apart c1 a1 ((List.pairwise_cons.1 hap).1 z hz).symm (hxp z (List.mem_cons_of_mem _ hz)))
    refine ⟨gs2, ?_, ?_⟩
    · simp only [foldRows, e1, e3, List.map_cons, mergeAllInto, LRow.enc]
    · simpa only [List.map_cons, mergeAllInto, LRow.enc] using e4

/-- A run over labelled rows that do not contradict each other: no warnings, and the result is, without the labels, a tree that is the
union of the rows. -/
theorem run_labels {cfg : UnCfg} {ys : List Row} {xs : List LRow} (h : All₂ (Labels cfg) ys xs)
    (hc : ∀ x ∈ xs, Clean x.enc.2) (haa : ∀ x ∈ xs, ∀ y ∈ xs, Agr x.enc.2 y.enc.2)
    (hap : xs.Pairwise (fun x y => Apart x.enc.2 y.enc.2)) :
    ∃ gs t, foldRows cfg ys [] = .ok (gs, []) ∧ enc gs = forget t ∧ Clean t ∧ (∀ x ∈ xs, Bel x.enc.2 t) ∧
      ∀ p u, t.sub p = some u → p = [] ∧ NodeSame (.tmp [] []) u ∨ ∃ x ∈ xs, ∃ a, x.enc.2.sub p = some a ∧ NodeSame a u := by
  have hacc : Clean (.tmp [] []) := by
    intro p u hu
    cases p with
    | nil => cases hu; exact ⟨rfl, List.Pairwise.nil, by simp⟩
    | cons s p => cases s <;> simp [Tree.sub] at hu
  have hnone : ∀ p a, Tree.sub p (.tmp [] []) = some a → p = [] := by
    intro p a h
    cases p with
    | nil => rfl
    | cons s p => cases s <;> simp [Tree.sub] at h
  have hxa : ∀ x ∈ xs, Agr x.enc.2 (.tmp [] []) := by
    intro x _ p a b ha hb
    have := hnone p b hb
    subst this
    cases hb; cases ha
    simp [LRow.enc, encRow, NodeEq]
  have hxp : ∀ x ∈ xs, Apart x.enc.2 (.tmp [] []) := by
    intro x _ p k a b _ _ hb
    have := hnone _ b hb
    simp at this
  obtain ⟨gs, e1, e2⟩ := foldRows_forget h [] (.tmp [] []) rfl hc haa hap hacc hxa hxp
  have hcx : ∀ x ∈ xs.map LRow.enc, Clean x.2 := by
    intro x hx; obtain ⟨y, hy, rfl⟩ := List.mem_map.1 hx; exact hc y hy
  have hax : ∀ x ∈ xs.map LRow.enc, ∀ y ∈ xs.map LRow.enc, Agr x.2 y.2 := by
    intro x hx y hy
    obtain ⟨x', hx', rfl⟩ := List.mem_map.1 hx
    obtain ⟨y', hy', rfl⟩ := List.mem_map.1 hy
    exact haa x' hx' y' hy'
  have hxa' : ∀ x ∈ xs.map LRow.enc, Agr x.2 (.tmp [] []) := by
    intro x hx; obtain ⟨y, hy, rfl⟩ := List.mem_map.1 hx; exact hxa y hy
  obtain ⟨m1, m2, _, m4, _⟩ := mergeAll_spec (xs.map LRow.enc) (.tmp [] []) hcx hax hacc hxa'
  rw [m1] at e1
  refine ⟨gs, _, e1, e2, m2, fun x hx => m4 x.enc (List.mem_map.2 ⟨x, hx, rfl⟩), ?_⟩
  intro p u hu
  rcases mergeAll_same (xs.map LRow.enc) (.tmp [] []) hcx hax hacc hxa' p u hu with ⟨c, h1, h2⟩ | ⟨x, hx, a, h1, h2⟩
  · have := hnone p c h1
    subst this
    cases h1
    exact .inl ⟨rfl, h2⟩
  · obtain ⟨y, hy, rfl⟩ := List.mem_map.1 hx
    exact .inr ⟨y, hy, a, h1, h2⟩

end Verif

import Verif.Proofs.Blank
import Verif.Spec.Objects
/-! Grouping of rows into objects. -/
namespace Verif
open Spec

theorem classes_snoc {α : Type} (eq : α → α → Bool) (l : List α) (x : α) :
    classes eq (l ++ [x]) = addToClass eq x (classes eq l) := by simp [classes]

theorem addToClass_map {α β : Type} (f : α → β) (eq : α → α → Bool) (eq' : β → β → Bool) (x : α) (cs : List (List α))
    (h : ∀ c ∈ cs, ∀ y ∈ c, eq' (f y) (f x) = eq y x) :
    addToClass eq' (f x) (cs.map (List.map f)) = (addToClass eq x cs).map (List.map f) := by
  induction cs with
  | nil => rfl
  | cons c r ih =>
    have h1 : (c.map f).head?.any (fun y => eq' y (f x)) = c.head?.any (fun y => eq y x) := by
      cases c with
      | nil => rfl
      | cons y t => simp [h (y :: t) (by simp) y (by simp)]
    simp only [List.map_cons, addToClass, h1]
    split
    · simp
    · simp [ih (fun c hc => h c (by simp [hc]))]

theorem mem_addToClass {α : Type} {eq : α → α → Bool} {x : α} {cs : List (List α)} {c : List α} {y : α}
    (h : c ∈ addToClass eq x cs) (hy : y ∈ c) : y = x ∨ ∃ c' ∈ cs, y ∈ c' := by
  induction cs with
  | nil => simp [addToClass] at h; subst h; simp at hy; exact Or.inl hy
  | cons d r ih =>
    simp only [addToClass] at h
    split at h
    · rcases List.mem_cons.1 h with rfl | h
      · rcases List.mem_append.1 hy with hy | hy
        · exact Or.inr ⟨d, by simp, hy⟩
        · simp at hy; exact Or.inl hy
      · exact Or.inr ⟨c, by simp [h], hy⟩
    · rcases List.mem_cons.1 h with rfl | h
      · exact Or.inr ⟨c, by simp, hy⟩
      · rcases ih h with h | ⟨c', h1, h2⟩
        · exact Or.inl h
        · exact Or.inr ⟨c', by simp [h1], h2⟩

theorem mem_foldl_class {α : Type} (eq : α → α → Bool) (l : List α) :
    ∀ cs : List (List α), ∀ c ∈ l.foldl (fun cs x => addToClass eq x cs) cs, ∀ y ∈ c, y ∈ l ∨ ∃ c' ∈ cs, y ∈ c' := by
  induction l with
  | nil => intro cs c hc y hy; exact Or.inr ⟨c, hc, hy⟩
  | cons a l ih =>
    intro cs c hc y hy
    simp only [List.foldl_cons] at hc
    rcases ih _ c hc y hy with h | ⟨c', h1, h2⟩
    · exact Or.inl (by simp [h])
    · rcases mem_addToClass h1 h2 with rfl | h
      · exact Or.inl (by simp)
      · exact Or.inr h

theorem mem_classes {α : Type} {eq : α → α → Bool} {l : List α} {c : List α} {y : α} (h : c ∈ classes eq l) (hy : y ∈ c) :
    y ∈ l := by
  rcases mem_foldl_class eq l [] c h y hy with h | ⟨c', h, _⟩
  · exact h
  · simp at h

theorem classes_map {α β : Type} (f : α → β) (eq : α → α → Bool) (eq' : β → β → Bool) (l : List α)
    (h : ∀ a ∈ l, ∀ b ∈ l, eq' (f a) (f b) = eq a b) :
    classes eq' (l.map f) = (classes eq l).map (List.map f) := by
  have key : ∀ (l : List α) (cs : List (List α)),
      (∀ a, (a ∈ l ∨ ∃ c ∈ cs, a ∈ c) → ∀ b ∈ l, eq' (f a) (f b) = eq a b) →
      (l.map f).foldl (fun cs x => addToClass eq' x cs) (cs.map (List.map f)) =
        (l.foldl (fun cs x => addToClass eq x cs) cs).map (List.map f) := by
    intro l
    induction l with
    | nil => intro cs _; rfl
    | cons x r ih =>
      intro cs hh
      simp only [List.map_cons, List.foldl_cons]
      rw [addToClass_map f eq eq' x cs (fun c hc y hy => hh y (Or.inr ⟨c, hc, hy⟩) x (by simp))]
      apply ih
      intro a ha b hb
      rcases ha with ha | ⟨c, hc, ha⟩
      · exact hh a (Or.inl (by simp [ha])) b (by simp [hb])
      · rcases mem_addToClass hc ha with rfl | h
        · exact hh a (Or.inl (by simp)) b (by simp [hb])
        · exact hh a (Or.inr h) b (by simp [hb])
  have := key l [] (by intro a ha b hb; rcases ha with ha | ⟨c, hc, _⟩; exact h a ha b hb; simp at hc)
  simpa [classes] using this

theorem All₂.append {α β : Type} {R : α → β → Prop} {a c : List α} {b d : List β} (h : All₂ R a b) (h' : All₂ R c d) :
    All₂ R (a ++ c) (b ++ d) := by
  induction h with
  | nil => exact h'
  | cons h _ ih => exact .cons h ih

theorem All₂.flatMap {α β γ δ : Type} {R : α → β → Prop} {S : γ → δ → Prop} {a : List α} {b : List β} (f : α → List γ)
    (g : β → List δ) (h : All₂ R a b) (hfg : ∀ x y, R x y → All₂ S (f x) (g y)) : All₂ S (a.flatMap f) (b.flatMap g) := by
  induction h with
  | nil => exact .nil
  | cons h _ ih => simp only [List.flatMap_cons]; exact All₂.append (hfg _ _ h) ih

theorem All₂.map {α β γ δ : Type} {R : α → β → Prop} {S : γ → δ → Prop} {a : List α} {b : List β} (f : α → γ)
    (g : β → δ) (h : All₂ R a b) (hfg : ∀ x y, R x y → S (f x) (g y)) : All₂ S (a.map f) (b.map g) := by
  induction h with
  | nil => exact .nil
  | cons h _ ih => exact .cons (hfg _ _ h) ih

theorem All₂.imp {α β : Type} {R S : α → β → Prop} {a : List α} {b : List β} (h : All₂ R a b)
    (hrs : ∀ x y, R x y → S x y) : All₂ S a b := by
  induction h with
  | nil => exact .nil
  | cons h _ ih => exact .cons (hrs _ _ h) ih

theorem All₂.symm {α β : Type} {R : α → β → Prop} {a : List α} {b : List β} (h : All₂ R a b) :
    All₂ (fun x y => R y x) b a := by
  induction h with
  | nil => exact .nil
  | cons h _ ih => exact .cons h ih

/-- Filing a value in a dict and an element in a class, side by side. -/
theorem all₂_keySet {α β : Type} {R : Val × α → List β → Prop} {key : β → Val} {gs : List (Val × α)} {cs : List (List β)}
    (h : All₂ R gs cs) (hR : ∀ g c, R g c → ∃ y, c.head? = some y ∧ key y = g.1) (x : β) (v : α)
    (hnew : keyGet gs (key x) = none → R (key x, v) [x])
    (hold : ∀ k old c, c ∈ cs → keyGet gs (key x) = some old → k.pyEq (key x) = true → R (k, old) c → R (k, v) (c ++ [x])) :
    All₂ R (keySet gs (key x) v) (addToClass (fun a b => (key a).pyEq (key b)) x cs) := by
  induction h with
  | nil => exact .cons (hnew rfl) .nil
  | @cons g c gs cs h1 h2 ih =>
    obtain ⟨k, old⟩ := g
    obtain ⟨y, hy, hk⟩ := hR _ _ h1
    simp only [keySet, addToClass, hy, Option.any_some, hk]
    by_cases he : k.pyEq (key x) = true
    · rw [if_pos he, if_pos he]
      exact .cons (hold k old c (by simp) (by simp [keyGet_cons, he]) he h1) h2
    · rw [if_neg he, if_neg he]
      refine .cons h1 (ih ?_ ?_)
      · intro hn; exact hnew (by simp [keyGet_cons, he, hn])
      · intro k' o c' hm hg hp hr
        exact hold k' o c' (by simp [hm]) (by simp [keyGet_cons, he, hg]) hp hr

/-- The id of a row, as the merger sees it. -/
def keyOf (cfg : UnCfg) (x : Row) : Option Val :=
  match rowKey cfg.idName cfg.row.xml x.fields with
  | .ok k => k
  | .error _ => none

def hasKey (cfg : UnCfg) (x : Row) : Bool := (keyOf cfg x).isSome

/-- One entry of a group against the class of its rows. -/
def KeyedInv (cfg : UnCfg) (W : List Warn) (e : Val × Fields) (cls : List Row) : Prop :=
  ∃ y, cls.head? = some y ∧ (keyOf cfg y).getD (.atom .none) = e.1 ∧
    (∃ w, foldRows cfg cls [] = .ok ([(y.root, { keyed := [e] })], w) ∧ ∀ x ∈ w, x ∈ W)

def RestInv (cfg : UnCfg) (fs : Fields) (x : Row) : Prop :=
  foldRows cfg [x] [] = .ok ([(x.root, { rest := [fs] })], [])

def byKey (cfg : UnCfg) (a b : Row) : Bool :=
  ((keyOf cfg a).getD (.atom .none)).pyEq ((keyOf cfg b).getD (.atom .none))

structure SegInv (cfg : UnCfg) (W : List Warn) (td : TDict) (rows : List Row) : Prop where
  keyed : All₂ (KeyedInv cfg W) td.keyed (classes (byKey cfg) (rows.filter (hasKey cfg)))
  rest : All₂ (RestInv cfg) td.rest (rows.filter (fun x => !hasKey cfg x))

theorem rowKey_itemKey {n : Option Str} {xml : Bool} {fs : Fields} {k : Option Val} (h : itemKey n xml fs = .ok k) :
    rowKey n xml fs = .ok k := by
  unfold rowKey
  unfold itemKey at h
  cases n with
  | none => simpa using h
  | some m =>
    simp only at h ⊢
    cases hg : Dict.get fs m with
    | none => simpa [hg] using h
    | some t =>
      simp only [hg] at h ⊢
      cases t with
      | cell c => simpa using h
      | obj g =>
        simp only at h ⊢
        cases xml with
        | false => simp at h
        | true =>
          simp only [if_true] at h ⊢
          cases hg2 : Dict.get g s%"text()" with
          | none => simp [hg2] at h
          | some t2 =>
            simp only [hg2] at h ⊢
            cases t2 <;> simp_all
      | tmp a b => cases xml <;> simp at h

/-- What adding a row to a group does. -/
theorem addToGroup_cases {cfg : UnCfg} {x : Row} {td td' : TDict} {w : List Warn}
    (h : addToGroup cfg x.sheet x.fields td = .ok (td', w)) :
    (keyOf cfg x = none ∧ td' = { td with rest := td.rest ++ [x.fields] } ∧ w = [] ∧
        rowKey cfg.idName cfg.row.xml x.fields = .ok none) ∨
    (∃ k, keyOf cfg x = some k ∧ k.hashable = true ∧ rowKey cfg.idName cfg.row.xml x.fields = .ok (some k) ∧
      ((keyGet td.keyed k = none ∧ td' = { td with keyed := td.keyed ++ [(k, x.fields)] } ∧ w = []) ∨
      ∃ base, keyGet td.keyed k = some base ∧
        td' = { td with keyed := keySet td.keyed k (mergeFields x.sheet x.fields base).1 } ∧
        w = (mergeFields x.sheet x.fields base).2)) := by
  unfold addToGroup at h
  unfold keyOf
  split at h
  · cases h
  · next hk =>
    left
    rw [hk]
    unfold TDict.append at h
    rw [rowKey_ok hk] at h
    simp at h
    exact ⟨rfl, h.1.symm, h.2, rfl⟩
  · next k hk =>
    right
    rw [hk]
    refine ⟨k, rfl, ?_⟩
    split at h
    · cases h
    · next hh =>
      have hh' : k.hashable = true := by simpa using hh
      refine ⟨hh', rfl, ?_⟩
      split at h
      · next base hb => cases h; exact Or.inr ⟨base, hb, rfl, rfl⟩
      · next hb =>
        left
        unfold TDict.append at h
        rw [rowKey_ok hk] at h
        simp [hh', hb] at h
        exact ⟨hb, h.1.symm, h.2⟩

theorem foldRows_snoc (cfg : UnCfg) (rows : List Row) (x : Row) (gs gs1 gs2 : Groups) (w1 w2 : List Warn)
    (h1 : foldRows cfg rows gs = .ok (gs1, w1)) (h2 : addRow cfg x.sheet x.root x.fields gs1 = .ok (gs2, w2)) :
    foldRows cfg (rows ++ [x]) gs = .ok (gs2, w1 ++ w2) := by
  rw [foldRows_append, h1]
  simp [foldRows, h2]

theorem segInv_step {cfg : UnCfg} {W : List Warn} {x : Row} {td td' : TDict} {w : List Warn} {rows : List Row}
    (h : addToGroup cfg x.sheet x.fields td = .ok (td', w)) (inv : SegInv cfg W td rows) (hw : ∀ x ∈ w, x ∈ W)
    (hroot : ∀ y ∈ rows, y.root.pyEq x.root = true) : SegInv cfg W td' (rows ++ [x]) := by
  rcases addToGroup_cases h with ⟨hk, rfl, rfl, hrk⟩ | ⟨k, hk, hh, hrk, hc⟩
  · have hx : hasKey cfg x = false := by simp [hasKey, hk]
    refine ⟨?_, ?_⟩
    · simpa [List.filter_append, List.filter_cons, hx] using inv.keyed
    · simp only [List.filter_append, List.filter_cons, hx, Bool.not_false, if_true, List.filter_nil]
      refine All₂.append inv.rest (.cons ?_ .nil)
      show foldRows cfg [x] [] = _
      simp only [foldRows, addRow, addToGroup, hrk, keyGet_nil, Option.getD_none, TDict.append, rowKey_ok hrk, keySet]
      simp
  · have hx : hasKey cfg x = true := by simp [hasKey, hk]
    have hkx : (keyOf cfg x).getD (.atom .none) = k := by simp [hk]
    have hfirst : KeyedInv cfg W (k, x.fields) [x] := by
      refine ⟨x, rfl, hkx, [], ?_, by simp⟩
      simp [foldRows, addRow, addToGroup, hrk, TDict.append, rowKey_ok hrk, keySet, hh]
    have hrest : All₂ (RestInv cfg) td.rest ((rows ++ [x]).filter (fun x => !hasKey cfg x)) := by
      simpa [List.filter_append, List.filter_cons, hx] using inv.rest
    have hkeyed : ∀ v, (keyGet td.keyed k = none → v = x.fields) →
        (∀ base, keyGet td.keyed k = some base → v = (mergeFields x.sheet x.fields base).1) →
        (∀ base, keyGet td.keyed k = some base → ∀ y ∈ (mergeFields x.sheet x.fields base).2, y ∈ W) →
        All₂ (KeyedInv cfg W) (keySet td.keyed k v) (classes (byKey cfg) ((rows ++ [x]).filter (hasKey cfg))) := by
      intro v hv1 hv2 hv3
      have hfil : (rows ++ [x]).filter (hasKey cfg) = rows.filter (hasKey cfg) ++ [x] := by
        simp [List.filter_append, List.filter_cons, hx]
      rw [hfil, classes_snoc]
      have := all₂_keySet (key := fun a => (keyOf cfg a).getD (.atom .none)) inv.keyed
        (fun g c hr => by obtain ⟨y, h1, h2, _⟩ := hr; exact ⟨y, h1, h2⟩) x v
      have hfin := this ?_ ?_
      · unfold byKey
        simp only [hkx] at hfin ⊢
        exact hfin
      · intro hn
        simp only [hkx] at hn ⊢
        rw [hv1 hn]; exact hfirst
      · intro k' old c hm hg hp hr
        simp only [hkx] at hg hp
        obtain ⟨y, h1, h2, w', h3, h4⟩ := hr
        have hym : y ∈ rows := by
          have hyc : y ∈ c := by
            cases c with
            | nil => simp at h1
            | cons a b => simp at h1; simp [h1]
          exact (List.mem_filter.1 (mem_classes hm hyc)).1
        refine ⟨y, ?_, h2, ?_⟩
        · cases c with
          | nil => simp at h1
          | cons a b => simpa using h1
        · refine ⟨w' ++ (mergeFields x.sheet x.fields old).2, foldRows_snoc cfg c x [] _ _ _ _ h3 ?_, ?_⟩
          rotate_left
          · intro z hz
            rcases List.mem_append.1 hz with hz | hz
            · exact h4 z hz
            · exact hv3 old hg z hz
          simp [addRow, addToGroup, hrk, hh, keyGet_cons, hroot y hym, hp, keySet, hv2 old hg]
    rcases hc with ⟨hn, rfl, rfl⟩ | ⟨base, hb, rfl, rfl⟩
    · refine ⟨?_, hrest⟩
      simp only
      rw [← keySet_of_none x.fields hn]
      exact hkeyed _ (fun _ => rfl) (fun b hb => by rw [hn] at hb; cases hb) (fun b hb => by rw [hn] at hb; cases hb)
    · refine ⟨hkeyed _ (fun hn => by rw [hn] at hb; cases hb) (fun b hb' => by rw [hb] at hb'; cases hb'; rfl)
        (fun b hb' => by rw [hb] at hb'; cases hb'; exact hw), hrest⟩

def byRoot (a b : Row) : Bool := a.root.pyEq b.root

/-- A group against the class of its rows. -/
def GroupInv (cfg : UnCfg) (W : List Warn) (g : Val × TDict) (c : List Row) : Prop :=
  (∃ y, c.head? = some y ∧ y.root = g.1) ∧ SegInv cfg W g.2 c ∧ ∀ y ∈ c, y.root = g.1 ∨ y.root.pyEq g.1 = true

theorem segInv_nil (cfg : UnCfg) (W : List Warn) : SegInv cfg W {} [] := ⟨.nil, .nil⟩

theorem groupInv_step {cfg : UnCfg} {W : List Warn} {x : Row} {gs gs' : Groups} {w : List Warn} {rows : List Row}
    (h : addRow cfg x.sheet x.root x.fields gs = .ok (gs', w))
    (inv : All₂ (GroupInv cfg W) gs (classes byRoot rows)) (hw : ∀ x ∈ w, x ∈ W) :
    All₂ (GroupInv cfg W) gs' (classes byRoot (rows ++ [x])) := by
  unfold addRow at h
  split at h
  · cases h
  · next td w1 h1 =>
    cases h
    rw [classes_snoc]
    refine all₂_keySet (key := Row.root) inv (fun g c hr => hr.1) x td ?_ ?_
    · intro hn
      rw [hn] at h1
      simp only [Option.getD_none] at h1
      refine ⟨⟨x, rfl, rfl⟩, ?_, by simp⟩
      exact segInv_step h1 (segInv_nil cfg W) hw (by simp)
    · intro k old c _ hg hp hr
      rw [hg] at h1
      simp only [Option.getD_some] at h1
      obtain ⟨⟨y, hy1, hy2⟩, hseg, hall⟩ := hr
      refine ⟨⟨y, ?_, hy2⟩, ?_, ?_⟩
      · cases c with
        | nil => simp at hy1
        | cons a b => simpa using hy1
      · refine segInv_step h1 hseg hw ?_
        intro z hz
        rcases hall z hz with h | h
        · rw [h]; exact hp
        · exact Val.pyEq_trans h hp
      · intro z hz
        rcases List.mem_append.1 hz with hz | hz
        · exact hall z hz
        · simp at hz; subst hz; exact Or.inr (Val.pyEq_symm hp)

theorem groupInv_run {cfg : UnCfg} {W : List Warn} (rows : List Row) : ∀ {done : List Row} {gs gs' : Groups} {w : List Warn},
    foldRows cfg rows gs = .ok (gs', w) → All₂ (GroupInv cfg W) gs (classes byRoot done) → (∀ x ∈ w, x ∈ W) →
    All₂ (GroupInv cfg W) gs' (classes byRoot (done ++ rows)) := by
  induction rows with
  | nil => intro done gs gs' w h inv _; simp [foldRows] at h; rw [← h.1]; simpa using inv
  | cons r rs ih =>
    intro done gs gs' w h inv hw
    simp only [foldRows] at h
    split at h
    · cases h
    · next g1 w1 h1 =>
      split at h
      · cases h
      · next g2 w2 h2 =>
        cases h
        have := ih h2 (groupInv_step h1 inv (fun x hx => hw x (List.mem_append_left _ hx))) (fun x hx => hw x (List.mem_append_right _ hx))
        simpa using this

/-- The classes of rows that make up the objects. -/
def objectRows' (cfg : UnCfg) (rows : List Row) : List (List Row) :=
  (classes byRoot rows).flatMap (fun g =>
    classes (byKey cfg) (g.filter (hasKey cfg)) ++ (g.filter (fun r => !hasKey cfg r)).map (fun r => [r]))

/-- The objects in the groups. -/
def treesOf (gs : Groups) : List Fields := gs.flatMap (fun g => g.2.keyed.map (·.2) ++ g.2.rest)

theorem jgs_trees (gs : Groups) : jgs gs = (treesOf gs).map jobj := by
  unfold jgs treesOf
  rw [List.map_flatMap]
  congr 1
  funext g
  simp [jtd]

theorem groupsToList_trees (gs : Groups) : groupsToList gs = (treesOf gs).map toLists := by
  unfold groupsToList treesOf
  rw [List.map_flatMap]
  congr 1
  funext g
  rw [keyedToLists_eq, itemsToLists_eq, List.map_append, List.map_map]
  rfl

theorem objects_rows {cfg : UnCfg} {rows : List Row} {gs : Groups} {W : List Warn}
    (h : foldRows cfg rows [] = .ok (gs, W)) :
    All₂ (fun cls fs => ∃ gs w, foldRows cfg cls [] = .ok (gs, w) ∧ treesOf gs = [fs] ∧ ∀ x ∈ w, x ∈ W)
      (objectRows' cfg rows) (treesOf gs) := by
  have inv := groupInv_run rows (done := []) (W := W) h .nil (fun _ h => h)
  simp only [List.nil_append] at inv
  refine All₂.flatMap _ _ (All₂.symm inv) ?_
  intro c g hg
  obtain ⟨-, hseg, -⟩ := hg
  refine All₂.append ?_ ?_
  · have := All₂.map (S := fun cls fs => ∃ gs w, foldRows cfg cls [] = .ok (gs, w) ∧ treesOf gs = [fs] ∧ ∀ x ∈ w, x ∈ W) id
      (fun e : Val × Fields => e.2) (All₂.symm hseg.keyed) ?_
    · simpa using this
    · intro cls e he
      obtain ⟨y, _, _, w', h', h''⟩ := he
      exact ⟨_, w', h', by simp [treesOf], h''⟩
  · have := All₂.map (S := fun cls fs => ∃ gs w, foldRows cfg cls [] = .ok (gs, w) ∧ treesOf gs = [fs] ∧ ∀ x ∈ w, x ∈ W) (fun r => [r])
      (fun e : Fields => e) (All₂.symm hseg.rest) ?_
    · simpa using this
    · intro x fs hx
      exact ⟨_, [], hx, by simp [treesOf], by simp⟩

/-! ### Back to the rows of the spreadsheet -/

theorem rowsIn_alone (r : RowIn) (hd : hasData r.line = true) (hh : r.sheet.headings ≠ some []) :
    rowsIn [alone r] = [⟨alone r, r.number, r.line⟩] := by
  have h1 : rowsIn [alone r] = lineRows (alone r) 0 (List.replicate r.number [] ++ [r.line]) := by
    rw [rowsIn_cons]
    simp [alone, hh, rowsIn]
  rw [h1]
  have h2 : ∀ s n j, lineRows s j (List.replicate n [] ++ [r.line]) = [⟨s, j + n, r.line⟩] := by
    intro s n
    induction n with
    | zero => intro j; simp [lineRows, hd]
    | succ n ih =>
      intro j
      rw [List.replicate_succ, List.cons_append, lineRows_cons, ih]
      simp [hasData]; omega
  rw [h2]; simp

theorem rowAlone_alone (cfg : UnCfg) (r : RowIn) : rowAlone cfg ⟨alone r, r.number, r.line⟩ = rowAlone cfg r := rfl

/-- A row that counts. -/
def Counts (r : RowIn) : Prop := hasData r.line = true ∧ r.sheet.headings ≠ some []

theorem counts_rowsIn {ss : List SheetIn} {r : RowIn} (h : r ∈ rowsIn ss) : Counts r := by
  unfold rowsIn at h
  rw [List.mem_flatMap] at h
  obtain ⟨s, _, h⟩ := h
  split at h
  · simp at h
  · next hs =>
    rw [List.mem_map] at h
    obtain ⟨p, hp, rfl⟩ := h
    exact ⟨by simpa using (List.mem_filter.1 hp).2, hs⟩

theorem rowsAlone_alone (cfg : UnCfg) (rs : List RowIn) (h : ∀ r ∈ rs, Counts r) :
    rowsAlone cfg (rowsIn (rs.map alone)) = rowsAlone cfg rs := by
  induction rs with
  | nil => rfl
  | cons r rs ih =>
    have h1 : rowsIn (alone r :: rs.map alone) = ⟨alone r, r.number, r.line⟩ :: rowsIn (rs.map alone) := by
      have := rowsIn_append [alone r] (rs.map alone)
      rw [List.singleton_append] at this
      rw [this, rowsIn_alone r (h r (by simp)).1 (h r (by simp)).2]
      rfl
    rw [List.map_cons, h1]
    simp only [rowsAlone, rowAlone_alone, ih (fun r hr => h r (by simp [hr]))]

theorem idOf_jobj {n : Option Str} {xml : Bool} {fs : Fields} {k : Option Val} (h : itemKey n xml fs = .ok k)
    (hh : ∀ v, k = some v → v.hashable = true) :
    (idOf n xml (jobj fs)).map Val.atom = k := by
  unfold itemKey at h
  unfold idOf jobj
  cases n with
  | none => simp at h; subst h; rfl
  | some m =>
    simp only at h ⊢
    have hget : Dict.get (jf fs) m = (Dict.get fs m).map jv := by unfold jf; rw [Dict.get_map]
    rw [hget]
    cases hg : Dict.get fs m with
    | none => simp [hg] at h; subst h; rfl
    | some t =>
      simp only [hg] at h
      cases t with
      | cell c =>
        simp at h; subst h
        have := hh c.value rfl
        cases hv : c.value with
        | atom a => simp [jv_cell, hv, Val.toJson]
        | arr l => rw [hv] at this; simp [Val.hashable] at this
        | arr2 l => rw [hv] at this; simp [Val.hashable] at this
        | geo l => rw [hv] at this; simp [Val.hashable] at this
      | obj gs =>
        simp only at h
        cases xml with
        | false => simp at h
        | true =>
          simp only [if_true] at h
          have hget2 : Dict.get (jf gs) s%"text()" = (Dict.get gs s%"text()").map jv := by unfold jf; rw [Dict.get_map]
          simp only [Option.map_some, jv_obj, if_true, hget2]
          cases hg2 : Dict.get gs s%"text()" with
          | none => simp [hg2] at h
          | some t2 =>
            simp only [hg2] at h
            cases t2 with
            | cell c =>
              simp at h; subst h
              have := hh c.value rfl
              cases hv : c.value with
              | atom a => simp [jv_cell, hv, Val.toJson]
              | arr l => rw [hv] at this; simp [Val.hashable] at this
              | arr2 l => rw [hv] at this; simp [Val.hashable] at this
              | geo l => rw [hv] at this; simp [Val.hashable] at this
            | obj _ => simp at h
            | tmp _ _ => simp at h
      | tmp a b => cases xml <;> simp at h

theorem unflatten_of_rows {cfg : UnCfg} {sheets : List SheetIn} {rows : List Row} {gs : Groups} {mw : List Warn}
    (h1 : rowsAlone cfg (rowsIn sheets) = .ok rows) (h2 : foldRows cfg rows [] = .ok (gs, mw)) :
    ∃ w, unflatten cfg sheets = .ok (jgs gs, w) ∧
      ∀ x, x ∈ w ↔ x ∈ dupWarns sheets ∨ (∃ r ∈ rows, x ∈ r.warns) ∨ x ∈ mw := by
  obtain ⟨w, e1, e2⟩ := doUnflatten_of_rows h1 h2
  exact ⟨w, by simp [unflatten, e1, jgs_eq], e2⟩

theorem unflatten_ok {cfg : UnCfg} {sheets : List SheetIn} {out : List Json} {w : List Warn}
    (h : unflatten cfg sheets = .ok (out, w)) :
    ∃ rows gs mw, rowsAlone cfg (rowsIn sheets) = .ok rows ∧ foldRows cfg rows [] = .ok (gs, mw) ∧
      out = jgs gs ∧ GWF cfg gs ∧
      ∀ x, x ∈ w ↔ x ∈ dupWarns sheets ∨ (∃ r ∈ rows, x ∈ r.warns) ∨ x ∈ mw := by
  unfold unflatten at h
  split at h
  · cases h
  · next t w' ht =>
    cases h
    obtain ⟨rows, gs, mw, e1, e2, e3, e4, e5⟩ := doUnflatten_ok ht
    exact ⟨rows, gs, mw, e1, e2, by rw [e3, jgs_eq], e4, e5⟩

/-- A row that can be added to some group can be added to the empty result. -/
theorem rowId_eq {cfg : UnCfg} {r : RowIn} {x : Row} (hc : Counts r) (hx : rowAlone cfg r = .ok x)
    (hk : ∃ td td' w, addToGroup cfg x.sheet x.fields td = .ok (td', w)) :
    (rowId cfg r).map Val.atom = keyOf cfg x := by
  have hra : rowsAlone cfg (rowsIn [alone r]) = .ok [x] := by
    have := rowsAlone_alone cfg [r] (by simpa using hc)
    simp only [List.map_cons, List.map_nil] at this
    rw [this]; simp [rowsAlone, hx]
  obtain ⟨td, td', w, h⟩ := hk
  unfold rowId
  rcases addToGroup_cases h with ⟨hk, -, -, hrk⟩ | ⟨k, hk, hh, hrk, -⟩
  · have hf : foldRows cfg [x] [] = .ok ([(x.root, { rest := [x.fields] })], []) := by
      simp only [foldRows, addRow, addToGroup, hrk, keyGet_nil, Option.getD_none, TDict.append, rowKey_ok hrk, keySet]
      simp
    obtain ⟨w, hw, -⟩ := unflatten_of_rows hra hf
    rw [hw, hk]
    simp only [jgs, jtd, List.flatMap_cons, List.flatMap_nil, List.map_nil, List.map_cons, List.nil_append, List.append_nil]
    rw [idOf_jobj (rowKey_ok hrk) (by simp)]
  · have hf : foldRows cfg [x] [] = .ok ([(x.root, { keyed := [(k, x.fields)] })], []) := by
      simp [foldRows, addRow, addToGroup, hrk, TDict.append, rowKey_ok hrk, keySet, hh]
    obtain ⟨w, hw, -⟩ := unflatten_of_rows hra hf
    rw [hw, hk]
    simp only [jgs, jtd, List.flatMap_cons, List.flatMap_nil, List.map_nil, List.map_cons, List.append_nil]
    rw [idOf_jobj (rowKey_ok hrk) (by rintro v ⟨rfl⟩; exact hh)]

theorem foldRows_each {cfg : UnCfg} {rows : List Row} : ∀ {gs gs' : Groups} {w : List Warn},
    foldRows cfg rows gs = .ok (gs', w) → ∀ x ∈ rows, ∃ td td' w, addToGroup cfg x.sheet x.fields td = .ok (td', w) := by
  induction rows with
  | nil => simp
  | cons r rs ih =>
    intro gs gs' w h x hx
    simp only [foldRows] at h
    split at h
    · cases h
    · next g1 w1 h1 =>
      split at h
      · cases h
      · next g2 w2 h2 =>
        rcases List.mem_cons.1 hx with rfl | hx
        · unfold addRow at h1
          split at h1
          · cases h1
          · next td w' h3 => exact ⟨_, _, _, h3⟩
        · exact ih h2 x hx

theorem rowsAlone_pairs {cfg : UnCfg} {rs : List RowIn} : ∀ {rows : List Row}, rowsAlone cfg rs = .ok rows →
    ∃ ps : List (RowIn × Row), ps.map (·.1) = rs ∧ ps.map (·.2) = rows ∧ ∀ p ∈ ps, rowAlone cfg p.1 = .ok p.2 := by
  induction rs with
  | nil => intro rows h; simp [rowsAlone] at h; subst h; exact ⟨[], rfl, rfl, by simp⟩
  | cons r rs ih =>
    intro rows h
    simp only [rowsAlone] at h
    split at h
    · cases h
    · next y hy =>
      split at h
      · cases h
      · next ys hys =>
        cases h
        obtain ⟨ps, e1, e2, e3⟩ := ih hys
        exact ⟨(r, y) :: ps, by simp [e1], by simp [e2], by intro p hp; exact (List.mem_cons.1 hp).elim (fun h => h ▸ hy) (e3 p)⟩

theorem rowsAlone_of_pairs {cfg : UnCfg} (ps : List (RowIn × Row)) (h : ∀ p ∈ ps, rowAlone cfg p.1 = .ok p.2) :
    rowsAlone cfg (ps.map (·.1)) = .ok (ps.map (·.2)) := by
  induction ps with
  | nil => rfl
  | cons p r ih =>
    simp only [List.map_cons, rowsAlone, h p (by simp), ih (fun p hp => h p (by simp [hp]))]

theorem rowAlone_root {cfg : UnCfg} {r : RowIn} {x : Row} (h : rowAlone cfg r = .ok x) :
    x.root = .atom (rootCell cfg.rootId r.line) := by
  unfold rowAlone at h
  split at h
  · cases h
  · cases h; exact rootKey_eq cfg r.line

theorem filter_map_congr {α β : Type} (f : α → β) (p : α → Bool) (q : β → Bool) (l : List α)
    (h : ∀ a ∈ l, q (f a) = p a) : (l.map f).filter q = (l.filter p).map f := by
  induction l with
  | nil => rfl
  | cons a l ih =>
    have ha := h a (by simp)
    simp only [List.map_cons, List.filter_cons, ih (fun a ha => h a (by simp [ha])), ha]
    split <;> simp

theorem sheet_of_rowsIn {ss : List SheetIn} {r : RowIn} (h : r ∈ rowsIn ss) : r.sheet ∈ ss := by
  unfold rowsIn at h
  rw [List.mem_flatMap] at h
  obtain ⟨s, hs, h⟩ := h
  split at h
  · simp at h
  · rw [List.mem_map] at h
    obtain ⟨p, _, rfl⟩ := h
    exact hs

/-- The objects of a run and the rows they come from. -/
theorem objects_of_run_cells {cfg : UnCfg} {sheets : List SheetIn} {out : List (List (Str × CTree))} {w : List Warn}
    (h : doUnflatten cfg sheets = .ok (out, w)) :
    All₂ (fun cls o => ∃ w', doUnflatten cfg (cls.map alone) = .ok ([o], w') ∧ ∀ x ∈ w', x ∈ w)
      (objectRows cfg (rowsIn sheets)) out := by
  obtain ⟨rows, gs, mw, e1, e2, rfl, -, hwarn⟩ := doUnflatten_ok h
  obtain ⟨ps, p1, p2, p3⟩ := rowsAlone_pairs e1
  have hc : ∀ p ∈ ps, Counts p.1 := by
    intro p hp
    apply counts_rowsIn (ss := sheets)
    rw [← p1]
    exact List.mem_map_of_mem hp
  have hid : ∀ p ∈ ps, (rowId cfg p.1).map Val.atom = keyOf cfg p.2 := by
    intro p hp
    refine rowId_eq (hc p hp) (p3 p hp) (foldRows_each e2 p.2 ?_)
    rw [← p2]; exact List.mem_map_of_mem hp
  have hhas : ∀ p ∈ ps, hasKey cfg p.2 = (rowId cfg p.1).isSome := by
    intro p hp
    unfold hasKey; rw [← hid p hp]; cases rowId cfg p.1 <;> rfl
  -- the classes, on pairs
  let objs : List (List (RowIn × Row)) := (classes (fun p q => sameRoot cfg p.1 q.1) ps).flatMap (fun g =>
    classes (fun p q => sameId cfg p.1 q.1) (g.filter (fun r => (rowId cfg r.1).isSome)) ++
      (g.filter (fun r => (rowId cfg r.1).isNone)).map (fun r => [r]))
  have hmemg : ∀ g ∈ classes (fun p q : RowIn × Row => sameRoot cfg p.1 q.1) ps, ∀ p ∈ g, p ∈ ps :=
    fun g hg p hp => mem_classes hg hp
  have f1 : objectRows cfg (rowsIn sheets) = objs.map (List.map (·.1)) := by
    unfold objectRows
    rw [← p1, classes_map (fun p : RowIn × Row => p.1) (fun p q => sameRoot cfg p.1 q.1) (sameRoot cfg) ps (fun _ _ _ _ => rfl)]
    simp only [objs, List.flatMap_map, List.map_flatMap]
    congr 1
    funext g
    rw [filter_map_congr (fun p : RowIn × Row => p.1) (fun r => (rowId cfg r.1).isSome) _ g (fun _ _ => rfl),
      filter_map_congr (fun p : RowIn × Row => p.1) (fun r => (rowId cfg r.1).isNone) _ g (fun _ _ => rfl),
      classes_map (fun p : RowIn × Row => p.1) (fun p q => sameId cfg p.1 q.1) (sameId cfg) _ (fun _ _ _ _ => rfl)]
    simp
  have f2 : objectRows' cfg rows = objs.map (List.map (·.2)) := by
    unfold objectRows'
    have hr : ∀ a ∈ ps, ∀ b ∈ ps, byRoot a.2 b.2 = sameRoot cfg a.1 b.1 := by
      intro a ha b hb
      unfold byRoot sameRoot atomEq
      rw [rowAlone_root (p3 a ha), rowAlone_root (p3 b hb)]
    rw [← p2, classes_map (fun p : RowIn × Row => p.2) (fun p q => sameRoot cfg p.1 q.1) byRoot ps hr]
    simp only [objs, List.flatMap_map, List.map_flatMap]
    rw [List.flatMap_def, List.flatMap_def]
    congr 1
    apply List.map_congr_left
    intro g hg
    have hg' := hmemg g hg
    rw [filter_map_congr (fun p : RowIn × Row => p.2) (fun r => (rowId cfg r.1).isSome) _ g (fun p hp => hhas p (hg' p hp)),
      filter_map_congr (fun p : RowIn × Row => p.2) (fun r => (rowId cfg r.1).isNone) (fun r => !hasKey cfg r) g
        (fun p hp => by rw [hhas p (hg' p hp)]; cases rowId cfg p.1 <;> rfl),
      classes_map (fun p : RowIn × Row => p.2) (fun p q => sameId cfg p.1 q.1) (byKey cfg) _ ?_]
    · simp
    · intro a ha b hb
      obtain ⟨ha1, ha2⟩ := List.mem_filter.1 ha
      obtain ⟨hb1, hb2⟩ := List.mem_filter.1 hb
      unfold byKey sameId atomEq
      rw [← hid a (hg' a ha1), ← hid b (hg' b hb1)]
      cases ha3 : rowId cfg a.1 with
      | none => simp [ha3] at ha2
      | some u =>
        cases hb3 : rowId cfg b.1 with
        | none => simp [hb3] at hb2
        | some v => rfl
  have hobjs : ∀ c ∈ objs, ∀ p ∈ c, p ∈ ps := by
    intro c hcm p hp
    simp only [objs, List.mem_flatMap] at hcm
    obtain ⟨g, hg, hcm⟩ := hcm
    rcases List.mem_append.1 hcm with hcm | hcm
    · exact hmemg g hg p (List.mem_filter.1 (mem_classes hcm hp)).1
    · obtain ⟨r, hr, rfl⟩ := List.mem_map.1 hcm
      simp at hp; subst hp
      exact hmemg g hg p (List.mem_filter.1 hr).1
  have main := objects_rows e2
  rw [f2] at main
  rw [f1, groupsToList_trees]
  -- transfer
  have key : ∀ (os : List (List (RowIn × Row))) (out : List Fields), (∀ c ∈ os, ∀ p ∈ c, p ∈ ps) →
      All₂ (fun cls fs => ∃ gs w, foldRows cfg cls [] = .ok (gs, w) ∧ treesOf gs = [fs] ∧ ∀ x ∈ w, x ∈ mw) (os.map (List.map (·.2))) out →
      All₂ (fun cls o => ∃ w', doUnflatten cfg (cls.map alone) = .ok ([o], w') ∧ ∀ x ∈ w', x ∈ w) (os.map (List.map (·.1))) (out.map toLists) := by
    intro os
    induction os with
    | nil => intro out _ h; cases h; exact .nil
    | cons c os ih =>
      intro out hm h
      simp only [List.map_cons] at h ⊢
      cases h with
      | @cons _ o _ out' h1 h2 =>
        refine .cons ?_ (ih _ (fun c hc => hm c (by simp [hc])) h2)
        obtain ⟨gs', w', h3, h4, hsub⟩ := h1
        have hcm := hm c (by simp)
        have h5 : rowsAlone cfg (rowsIn ((c.map (·.1)).map alone)) = .ok (c.map (·.2)) := by
          rw [rowsAlone_alone]
          · exact rowsAlone_of_pairs c (fun p hp => p3 p (hcm p hp))
          · intro r hr
            obtain ⟨p, hp, rfl⟩ := List.mem_map.1 hr
            exact hc p (hcm p hp)
        obtain ⟨w'', h6, h7⟩ := doUnflatten_of_rows h5 h3
        refine ⟨w'', by rw [h6, groupsToList_trees, h4]; rfl, ?_⟩
        intro x hx
        rw [hwarn]
        rcases (h7 x).1 hx with hx | ⟨r, hr, hx⟩ | hx
        · left
          unfold dupWarns at hx ⊢
          rw [List.mem_flatMap] at hx ⊢
          obtain ⟨s, hs, hx⟩ := hx
          obtain ⟨r, hr, rfl⟩ := List.mem_map.1 hs
          obtain ⟨p, hp, rfl⟩ := List.mem_map.1 hr
          refine ⟨p.1.sheet, ?_, hx⟩
          have : p.1 ∈ rowsIn sheets := by rw [← p1]; exact List.mem_map_of_mem (hcm p hp)
          exact sheet_of_rowsIn this
        · right; left
          obtain ⟨p, hp, rfl⟩ := List.mem_map.1 hr
          exact ⟨p.2, by rw [← p2]; exact List.mem_map_of_mem (hcm p hp), hx⟩
        · exact Or.inr (Or.inr (hsub x hx))
  exact key objs _ hobjs main

/-- The same for the JSON. -/
theorem objects_of_run {cfg : UnCfg} {sheets : List SheetIn} {out : List Json} {w : List Warn}
    (h : unflatten cfg sheets = .ok (out, w)) :
    All₂ (fun cls o => ∃ w', unflatten cfg (cls.map alone) = .ok ([o], w') ∧ ∀ x ∈ w', x ∈ w)
      (objectRows cfg (rowsIn sheets)) out := by
  unfold unflatten at h
  split at h
  · cases h
  · next t w1 ht =>
    cases h
    have := objects_of_run_cells ht
    rw [listToValue_eq]
    generalize objectRows cfg (rowsIn sheets) = os at this
    clear ht
    induction this with
    | nil => exact .nil
    | cons h1 _ ih =>
      refine .cons ?_ ih
      obtain ⟨w', h1, h2⟩ := h1
      exact ⟨w', by simp [unflatten, h1, listToValue], h2⟩

end Verif

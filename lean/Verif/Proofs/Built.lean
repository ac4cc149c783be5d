import Verif.Proofs.Address
import Verif.Proofs.Objects
/-! The object of a row has the content its columns give. -/
namespace Verif
open Spec

/-! ### All columns of a row -/

theorem contentOf_snoc {cfg : RowCfg} (done : List Column) (c : Column) {a0 : Addr} (ha : c.addr cfg = some a0) {v : Val} {w : List Warn}
    (hv : c.value cfg = .ok (v, w)) (hnew : ∀ d ∈ done, d.addr cfg ≠ some a0) (a : Addr) :
    contentOf cfg (done ++ [c]) a = if a = a0 then some v else contentOf cfg done a := by
  unfold contentOf
  rw [List.find?_append]
  by_cases h : a = a0
  · subst h
    have : done.find? (fun c => c.addr cfg == some a) = none := by
      rw [List.find?_eq_none]
      intro d hd; simpa using hnew d hd
    simp [this, ha, hv]
  · rw [if_neg h]
    cases hf : done.find? (fun c => c.addr cfg == some a) with
    | some d => simp
    | none =>
      have : ¬ (c.addr cfg == some a) = true := by rw [ha]; simpa using fun e => h e.symm
      simp [List.find?_cons, this]

/-- The scalar in a cell. -/
def atomOf (v : Val) : Atom := match v with | .atom a => a | _ => .none

/-- The columns of cells. -/
def cellColumns (cells : List (Str × Cell)) : List Column :=
  (cells.filter (fun c => !c.2.value.blank)).map (fun c => ⟨c.1, atomOf c.2.value⟩)

/-- The content of a row being built. -/
structure PutInv (cfg : RowCfg) (done : List Column) (cur : RFields) : Prop where
  full : RFullF cur
  content : ∀ a, (rget cur a).map (·.value) = contentOf cfg done a

theorem placeAll_kept {cfg : RowCfg} (hx : cfg.xml = false) (cells : List (Str × Cell)) :
    ∀ {done : List Column} {cur cur' : RFields} {w : List Warn},
    (∀ c ∈ cells, ∃ a, c.2.value = .atom a) →
    (∀ c ∈ done ++ cellColumns cells, c.addr cfg ≠ none) →
    (∀ c ∈ cellColumns cells, ∀ v w, c.value cfg = .ok (v, w) → v.blank = false) →
    ((done ++ cellColumns cells).map (fun c => c.addr cfg)).Nodup →
    PutInv cfg done cur → placeAll cfg cells cur = .ok (cur', w) →
    ∃ kept, kept.Sublist (cellColumns cells) ∧ PutInv cfg (done ++ kept) cur' ∧
      (∀ c ∈ kept, ∃ v cw, c.value cfg = .ok (v, cw) ∧ ∀ x ∈ cw, x ∈ w) ∧
      (∀ c ∈ cellColumns cells, c ∈ kept ∨ ColumnIgnored cfg w c) ∧
      (∀ x ∈ w, (∃ c ∈ kept, ∃ v cw, c.value cfg = .ok (v, cw) ∧ x ∈ cw) ∨
        ∃ c ∈ cellColumns cells, c ∉ kept ∧ ColumnIgnored cfg [x] c) ∧
      (((done ++ cellColumns cells).map (fun c => (c.addr cfg).getD [])).Pairwise Compatible → kept = cellColumns cells) := by
  induction cells with
  | nil =>
    intro done cur cur' w _ _ _ _ hinv h
    simp [placeAll] at h
    exact ⟨[], by simp [cellColumns], by simpa [h.1] using hinv, by simp, by simp [cellColumns], by simp [h.2], by simp [cellColumns]⟩
  | cons e cells ih =>
    intro done cur cur' w hatom haddr hconv hnd hinv h
    obtain ⟨path, cell⟩ := e
    rw [placeAll] at h
    by_cases hb : cell.value.blank = true
    · rw [if_pos hb] at h
      have hcc : cellColumns ((path, cell) :: cells) = cellColumns cells := by simp [cellColumns, hb]
      rw [hcc] at haddr hconv hnd ⊢
      exact ih (fun c hc => hatom c (List.mem_cons_of_mem _ hc)) haddr hconv hnd hinv h
    · rw [if_neg hb] at h
      have hb' : cell.value.blank = false := by simpa using hb
      obtain ⟨at0, hat⟩ := hatom (path, cell) List.mem_cons_self
      simp only at hat
      have hcc : cellColumns ((path, cell) :: cells) = ⟨path, at0⟩ :: cellColumns cells := by
        rw [cellColumns, List.filter_cons_of_pos (by simp [hb'])]; simp [hat, atomOf, cellColumns]
      rw [hcc] at haddr hconv hnd ⊢
      obtain ⟨a0, ha0⟩ : ∃ a0, (⟨path, at0⟩ : Column).addr cfg = some a0 := by
        have := haddr ⟨path, at0⟩ (by simp)
        cases h : (⟨path, at0⟩ : Column).addr cfg with
        | none => exact absurd h this
        | some a => exact ⟨a, rfl⟩
      have hgood := good_of_address _ _ _ ha0
      cases hp : place cfg path [] (pathList path) cell cur with
      | error e => rw [hp] at h; simp at h
      | ok r =>
        obtain ⟨cur1, w1⟩ := r
        rw [hp] at h; simp only at h
        cases hp2 : placeAll cfg cells cur1 with
        | error e => rw [hp2] at h; simp at h
        | ok r2 =>
          obtain ⟨cur2, w2⟩ := r2
          rw [hp2] at h; simp only [Except.ok.injEq, Prod.mk.injEq] at h
          obtain ⟨rfl, rfl⟩ := h
          have hatom' : ∀ c ∈ cells, ∃ a, c.2.value = .atom a := fun c hc => hatom c (List.mem_cons_of_mem _ hc)
          have hconv' : ∀ c ∈ cellColumns cells, ∀ v w, c.value cfg = .ok (v, w) → v.blank = false :=
            fun c hc => hconv c (List.mem_cons_of_mem _ hc)
          have hval : ∀ t, convertCell cfg (cfg.types t) cell.value = convertType cfg.conv ((cfg.types t).getD .untyped) at0 := by
            intro t; rw [hat]; simp [convertCell, hx]
          have hign : ∀ c, ColumnIgnored cfg w2 c → ColumnIgnored cfg (w1 ++ w2) c := by
            intro c hc
            rcases hc with ⟨t, h⟩ | ⟨t, h⟩ | h
            · exact Or.inl ⟨t, List.mem_append_right _ h⟩
            · exact Or.inr (Or.inl ⟨t, List.mem_append_right _ h⟩)
            · exact Or.inr (Or.inr (List.mem_append_right _ h))
          have hpre : keysOf ([] : List Str) = [] := rfl
          have hfresh : (⟨path, at0⟩ : Column) ∉ cellColumns cells := by
            intro hm
            rw [List.map_append, List.nodup_append] at hnd
            have := hnd.2.1
            rw [List.map_cons, List.nodup_cons] at this
            exact this.1 (List.mem_map.2 ⟨_, hm, rfl⟩)
          rcases place_putAt hx a0 (pre := []) ha0 hp with ⟨v, hcv, hput⟩ | ⟨rfl, hfail, x0, hx0, hw⟩
          · -- the value is put
            rw [hpre, List.nil_append, hval] at hcv
            have hv : (⟨path, at0⟩ : Column).value cfg = .ok (v, w1) := by
              unfold Column.value; rw [ha0]; exact hcv
            have hvb := hconv ⟨path, at0⟩ (by simp) v w1 hv
            have hput := hput hvb
            have hnew : ∀ d ∈ done, d.addr cfg ≠ some a0 := by
              intro d hd he
              rw [List.map_append, List.nodup_append] at hnd
              exact hnd.2.2 _ (List.mem_map.2 ⟨d, hd, he⟩) (some a0) (by simp [ha0]) rfl
            have hinv1 : PutInv cfg (done ++ [⟨path, at0⟩]) cur1 := by
              refine ⟨(putAt_full hinv.full hput).1, ?_⟩
              intro a
              rw [rget_putAt hgood hput, contentOf_snoc done _ ha0 hv hnew]
              split
              · simp
              · exact hinv.content a
            obtain ⟨kept, hsub, hk1, hk2, hk3, hk5, hk4⟩ := ih (done := done ++ [⟨path, at0⟩]) hatom' (by simpa using haddr) hconv' (by simpa using hnd) hinv1 hp2
            refine ⟨⟨path, at0⟩ :: kept, hsub.cons_cons _, by simpa using hk1, ?_, ?_, ?_, ?_⟩
            · intro c hc
              rcases List.mem_cons.1 hc with rfl | hc
              · exact ⟨v, w1, hv, fun x hx => List.mem_append_left _ hx⟩
              · obtain ⟨v', cw, h1, h2⟩ := hk2 c hc
                exact ⟨v', cw, h1, fun x hx => List.mem_append_right _ (h2 x hx)⟩
            · intro c hc
              rcases List.mem_cons.1 hc with rfl | hc
              · simp
              · rcases hk3 c hc with h | h
                · exact Or.inl (by simp [h])
                · exact Or.inr (hign c h)
            · intro x hxw
              rcases List.mem_append.1 hxw with hxw | hxw
              · exact Or.inl ⟨_, List.mem_cons_self, v, w1, hv, hxw⟩
              · rcases hk5 x hxw with ⟨c, hc, h⟩ | ⟨c, hc, hck, h⟩
                · exact Or.inl ⟨c, List.mem_cons_of_mem _ hc, h⟩
                · refine Or.inr ⟨c, List.mem_cons_of_mem _ hc, ?_, h⟩
                  intro hm
                  rcases List.mem_cons.1 hm with rfl | hm
                  · exact hfresh hc
                  · exact hck hm
            · intro hc
              rw [hk4 (by simpa using hc)]
          · -- the column is reported
            have hsub' : (done ++ cellColumns cells).Sublist (done ++ ⟨path, at0⟩ :: cellColumns cells) :=
              (List.sublist_cons_self _ _).append_left done
            obtain ⟨kept, hsub, hk1, hk2, hk3, hk5, hk4⟩ := ih (done := done) hatom' (fun c hc => haddr c (hsub'.subset hc)) hconv'
              ((hsub'.map _).nodup hnd) hinv hp2
            refine ⟨kept, hsub.trans (List.sublist_cons_self _ _), hk1, ?_, ?_, ?_, ?_⟩
            · intro c hc
              obtain ⟨v', cw, h1, h2⟩ := hk2 c hc
              exact ⟨v', cw, h1, fun x hx => List.mem_append_right _ (h2 x hx)⟩
            · intro c hc
              rcases List.mem_cons.1 hc with rfl | hc
              · right
                unfold ColumnIgnored
                rw [ha0]
                subst hx0
                rcases hw with ⟨t, rfl⟩ | ⟨t, rfl⟩ | rfl
                · exact Or.inl ⟨t, by simp⟩
                · exact Or.inr (Or.inl ⟨t, by simp⟩)
                · exact Or.inr (Or.inr (by simp [keysOf, Addr.keys]))
              · rcases hk3 c hc with h | h
                · exact Or.inl h
                · exact Or.inr (hign c h)
            · intro x hxw
              rcases List.mem_append.1 hxw with hxw | hxw
              · right
                refine ⟨_, List.mem_cons_self, fun hm => hfresh (hsub.subset hm), ?_⟩
                subst hx0
                cases List.mem_singleton.1 hxw
                unfold ColumnIgnored
                rw [ha0]
                rcases hw with ⟨t, rfl⟩ | ⟨t, rfl⟩ | rfl
                · exact Or.inl ⟨t, by simp⟩
                · exact Or.inr (Or.inl ⟨t, by simp⟩)
                · exact Or.inr (Or.inr (by simp [keysOf, Addr.keys]))
              · rcases hk5 x hxw with h | ⟨c, hc, h⟩
                · exact Or.inl h
                · exact Or.inr ⟨c, List.mem_cons_of_mem _ hc, h⟩
            · intro hc
              exfalso
              obtain ⟨b, c', hb, hcompat⟩ := putAt_none hinv.full hgood (hfail cell)
              have hcont := hinv.content b
              rw [hb] at hcont
              unfold contentOf at hcont
              cases hf : done.find? (fun c => c.addr cfg == some b) with
              | none => rw [hf] at hcont; simp at hcont
              | some d =>
                have hd := List.mem_of_find?_eq_some hf
                have hda := List.find?_some hf
                simp only [beq_iff_eq] at hda
                rw [List.map_append, List.pairwise_append] at hc
                have := hc.2.2 _ (List.mem_map.2 ⟨d, hd, rfl⟩) a0 (by simp [ha0])
                rw [hda] at this
                exact hcompat (Spec.Compatible.symm _ _ this)

/-! ### From indices to lists -/

/-- The content below a value. -/
def ct (t : RTree) (ix : Option Int) (rest : Addr) : Option Val :=
  match t with
  | .cell c => if ix = none ∧ rest = [] then some c.value else none
  | .obj g => if ix = none then (rget g rest).map (·.value) else none
  | .lad is =>
    match ix with
    | some i => (match Dict.get is i with | some g => (rget g rest).map (·.value) | none => none)
    | none => none

/-- The content of an object. -/
def content (fs : RFields) : Content := fun a => (rget fs a).map (·.value)

theorem content_cons {fs : RFields} {k : Str} {t : RTree} (h : Dict.get fs k = some t) (ix : Option Int) (rest : Addr) :
    content fs ((k, ix) :: rest) = ct t ix rest := by
  unfold content ct
  rw [rget, h]
  cases t with
  | cell c => simp only; split <;> rfl
  | obj g => simp only; split <;> rfl
  | lad is =>
    cases ix with
    | none => rfl
    | some i => simp only; cases Dict.get is i <;> rfl

theorem content_none {fs : RFields} {k : Str} (h : Dict.get fs k = none) (ix : Option Int) (rest : Addr) :
    content fs ((k, ix) :: rest) = none := by
  unfold content; rw [rget, h]; rfl

/-- How a value is converted. -/
def TempOf (n : Option Str) : RTree → Tree → Prop
  | .cell c, t => t = .cell c
  | .obj g, t => ∃ g', t = .obj g' ∧ toTemp n false g = .ok g'
  | .lad is, t => ∃ is' td, t = .tmp td.keyed td.rest ∧ toTempItems n false is = .ok is' ∧
      appendAll n false ((sortIdx is').map (·.2)) {} = .ok td

theorem toTemp_all₂ {n : Option Str} {rf : RFields} : ∀ {fs : Fields}, RFullF rf → toTemp n false rf = .ok fs →
    All₂ (fun e e' => e.1 = e'.1 ∧ TempOf n e.2 e'.2) rf fs := by
  induction rf with
  | nil => intro fs _ h; simp [toTemp] at h; subst h; exact .nil
  | cons e r ih =>
    intro fs hf h
    obtain ⟨k, t⟩ := e
    simp only [RFullF] at hf
    obtain ⟨-, ht, hr⟩ := hf
    cases t with
    | cell c =>
      rw [toTemp] at h
      cases h2 : toTemp n false r with
      | error e => rw [h2] at h; cases h
      | ok r' =>
        rw [h2] at h; injection h with h; subst h
        exact .cons ⟨rfl, rfl⟩ (ih hr h2)
    | obj g =>
      simp only [RFull] at ht
      rw [toTemp] at h
      have hne : g.isEmpty = false := by simpa using ht.1
      rw [hne] at h
      simp only [Bool.false_eq_true, if_false] at h
      cases h1 : toTemp n false g with
      | error e => rw [h1] at h; cases h
      | ok g' =>
        rw [h1] at h; simp only at h
        cases h2 : toTemp n false r with
        | error e => rw [h2] at h; cases h
        | ok r' =>
          rw [h2] at h; injection h with h; subst h
          exact .cons ⟨rfl, g', rfl, h1⟩ (ih hr h2)
    | lad is =>
      rw [toTemp] at h
      cases h1 : toTempItems n false is with
      | error e => rw [h1] at h; cases h
      | ok is' =>
        rw [h1] at h; simp only at h
        cases h3 : appendAll n false ((sortIdx is').map (·.2)) {} with
        | error e => rw [h3] at h; cases h
        | ok td =>
          rw [h3] at h; simp only at h
          cases h2 : toTemp n false r with
          | error e => rw [h2] at h; cases h
          | ok r' =>
            rw [h2] at h; injection h with h; subst h
            exact .cons ⟨rfl, is', td, rfl, h1, h3⟩ (ih hr h2)

theorem toTempItems_all₂ {n : Option Str} {is : List (Int × RFields)} : ∀ {is' : List (Int × Fields)}, RFullI is →
    toTempItems n false is = .ok is' → All₂ (fun e e' => e.1 = e'.1 ∧ toTemp n false e.2 = .ok e'.2) is is' := by
  induction is with
  | nil => intro fs _ h; simp [toTempItems] at h; subst h; exact .nil
  | cons e r ih =>
    intro is' hf h
    obtain ⟨i, g⟩ := e
    simp only [RFullI] at hf
    obtain ⟨-, ht, hr⟩ := hf
    rw [toTempItems] at h
    have hne : g.isEmpty = false := by simpa using ht.1
    rw [hne] at h
    simp only [Bool.false_eq_true, if_false] at h
    cases h1 : toTemp n false g with
    | error e => rw [h1] at h; cases h
    | ok g' =>
      rw [h1] at h; simp only at h
      cases h2 : toTempItems n false r with
      | error e => rw [h2] at h; cases h
      | ok r' =>
        rw [h2] at h; injection h with h; subst h
        exact .cons ⟨rfl, h1⟩ (ih hr h2)

theorem all₂_get {κ α β : Type} [DecidableEq κ] {R : α → β → Prop} {a : List (κ × α)} {b : List (κ × β)}
    (h : All₂ (fun e e' => e.1 = e'.1 ∧ R e.2 e'.2) a b) (k : κ) :
    Dict.get a k = none ∧ Dict.get b k = none ∨ ∃ t t', Dict.get a k = some t ∧ Dict.get b k = some t' ∧ R t t' := by
  induction h with
  | nil => left; exact ⟨rfl, rfl⟩
  | @cons x y xs ys h1 _ ih =>
    obtain ⟨k1, t⟩ := x
    obtain ⟨k2, t'⟩ := y
    obtain ⟨he, hr⟩ := h1
    simp only at he hr
    subst he
    rw [Dict.get_cons, Dict.get_cons]
    by_cases hk : k1 = k
    · right; exact ⟨t, t', by simp [hk], by simp [hk], hr⟩
    · simpa [hk] using ih

theorem all₂_keys {κ α β : Type} {R : α → β → Prop} {a : List (κ × α)} {b : List (κ × β)}
    (h : All₂ (fun e e' => e.1 = e'.1 ∧ R e.2 e'.2) a b) : b.map (·.1) = a.map (·.1) := by
  induction h with
  | nil => rfl
  | cons h1 _ ih => simp [ih, h1.1]

theorem all₂_mem_right {α β : Type} {R : α → β → Prop} {a : List α} {b : List β} (h : All₂ R a b) {y : β} (hy : y ∈ b) :
    ∃ x ∈ a, R x y := by
  induction h with
  | nil => cases hy
  | @cons x y' xs ys h1 _ ih =>
    rcases List.mem_cons.1 hy with rfl | hy
    · exact ⟨x, by simp, h1⟩
    · obtain ⟨z, hz, hr⟩ := ih hy; exact ⟨z, by simp [hz], hr⟩

/-! ### Sorted items -/

theorem insertIdx_perm {α : Type} (x : Int × α) (l : List (Int × α)) : (insertIdx x l).Perm (x :: l) := by
  induction l with
  | nil => exact List.Perm.refl _
  | cons y r ih =>
    rw [insertIdx]
    split
    · exact List.Perm.refl _
    · exact (List.Perm.cons y ih).trans (List.Perm.swap x y r)

theorem sortIdx_perm {α : Type} (l : List (Int × α)) : (sortIdx l).Perm l := by
  induction l with
  | nil => exact List.Perm.refl _
  | cons x r ih => exact (insertIdx_perm x _).trans (ih.cons x)

theorem insertIdx_sorted {α : Type} {x : Int × α} {l : List (Int × α)} (h : l.Pairwise (fun a b => a.1 ≤ b.1)) :
    (insertIdx x l).Pairwise (fun a b => a.1 ≤ b.1) := by
  induction l with
  | nil => simp [insertIdx]
  | cons y r ih =>
    rw [insertIdx]
    rw [List.pairwise_cons] at h
    split
    · next hxy =>
      refine List.pairwise_cons.2 ⟨?_, List.pairwise_cons.2 h⟩
      intro z hz
      rcases List.mem_cons.1 hz with rfl | hz
      · exact hxy
      · have := h.1 z hz; omega
    · next hxy =>
      refine List.pairwise_cons.2 ⟨?_, ih h.2⟩
      intro z hz
      rcases List.mem_cons.1 ((insertIdx_perm x r).subset hz) with rfl | hz
      · omega
      · exact h.1 z hz

theorem sortIdx_sorted {α : Type} (l : List (Int × α)) : (sortIdx l).Pairwise (fun a b => a.1 ≤ b.1) := by
  induction l with
  | nil => simp [sortIdx]
  | cons x r ih => exact insertIdx_sorted ih

theorem sortIdx_ascending {α : Type} {l : List (Int × α)} (h : (l.map (·.1)).Nodup) : (sortIdx l).Pairwise (fun a b => a.1 < b.1) := by
  have h1 := sortIdx_sorted l
  have h2 : ((sortIdx l).map (·.1)).Nodup := ((sortIdx_perm l).map _).nodup_iff.2 h
  rw [List.Nodup, List.pairwise_map] at h2
  exact (h1.and h2).imp (fun ⟨a, b⟩ => by omega)

/-! ### Appending items with distinct ids -/

/-- The id of an item. -/
def ik (n : Option Str) (item : Fields) : Option Val :=
  match itemKey n false item with | .ok k => k | .error _ => none

theorem appendAll_distinct {n : Option Str} (items : List Fields) : ∀ {td td' : TDict},
    appendAll n false items td = .ok td' →
    items.Pairwise (fun x y => ∀ a b, ik n x = some a → ik n y = some b → a.pyEq b = false) →
    (∀ x ∈ items, ∀ a, ik n x = some a → keyGet td.keyed a = none) →
    td'.keyed = td.keyed ++ items.filterMap (fun x => (ik n x).map (fun k => (k, x))) ∧
    td'.rest = td.rest ++ items.filter (fun x => (ik n x).isNone) ∧ ∀ x ∈ items, ∃ k, itemKey n false x = .ok k := by
  induction items with
  | nil => intro td td' h _ _; simp [appendAll] at h; subst h; simp
  | cons x r ih =>
    intro td td' h hp hk
    rw [appendAll] at h
    rw [List.pairwise_cons] at hp
    cases h1 : td.append n false x with
    | error e => rw [h1] at h; cases h
    | ok td1 =>
      rw [h1] at h; simp only at h
      unfold TDict.append at h1
      cases hi : itemKey n false x with
      | error e => rw [hi] at h1; cases h1
      | ok key =>
        rw [hi] at h1
        have hik : ik n x = key := by simp [ik, hi]
        cases key with
        | none =>
          simp only [Except.ok.injEq] at h1
          subst h1
          obtain ⟨e1, e2, e3⟩ := ih h hp.2 (fun y hy a ha => hk y (by simp [hy]) a ha)
          refine ⟨by simpa [hik] using e1, by simpa [hik, List.filter_cons] using e2, ?_⟩
          intro y hy
          rcases List.mem_cons.1 hy with rfl | hy
          · exact ⟨_, hi⟩
          · exact e3 y hy
        | some k =>
          simp only at h1
          have hnone := hk x (by simp) k hik
          split at h1
          · cases h1
          · rw [hnone] at h1
            simp only [Except.ok.injEq] at h1
            subst h1
            obtain ⟨e1, e2, e3⟩ := ih h hp.2 (by
              intro y hy a ha
              simp only
              rw [keyGet_append, hk y (by simp [hy]) a ha]
              have := hp.1 y hy k a hik ha
              simp [keyGet, this])
            refine ⟨by simpa [hik] using e1, by simpa [hik, List.filter_cons] using e2, ?_⟩
            intro y hy
            rcases List.mem_cons.1 hy with rfl | hy
            · exact ⟨_, hi⟩
            · exact e3 y hy

/-- The id of a converted item is the value at its id field. -/
theorem ik_content {n : Option Str} {g : RFields} {g' : Fields} (hf : RFullF g) (h : toTemp n false g = .ok g')
    (hk : ∃ k, itemKey n false g' = .ok k) (m : Str) (hn : n = some m) : ik n g' = content g [(m, none)] := by
  obtain ⟨k, hk⟩ := hk
  have : ik n g' = k := by simp [ik, hk]
  rw [this]
  subst hn
  simp only [itemKey] at hk
  rcases all₂_get (toTemp_all₂ hf h) m with ⟨h1, h2⟩ | ⟨t, t', h1, h2, h3⟩
  · rw [h2] at hk; simp at hk; rw [content_none h1]; exact hk.symm
  · rw [content_cons h1]
    rw [h2] at hk
    cases t with
    | cell c =>
      simp only [TempOf] at h3
      subst h3
      simp at hk; simp [ct, ← hk]
    | obj _ => obtain ⟨g', rfl, -⟩ := h3; simp at hk
    | lad _ => obtain ⟨_, _, rfl, -⟩ := h3; simp at hk

/-- The value as the content of a field of any name. -/
def lift (t : RTree) : Content
  | [] => none
  | (_, ix) :: rest => ct t ix rest

theorem distinct_lift {n : Option Str} {fs : RFields} {k : Str} {t : RTree} (h : Dict.get fs k = some t) (hd : DistinctIds n (content fs)) :
    DistinctIds n (lift t) := by
  intro above key i j m a b hn hij h1 h2
  cases above with
  | nil =>
    have := hd [] k i j m a b hn hij
    simp only [List.nil_append] at this h1 h2
    rw [content_cons h, content_cons h] at this
    exact this h1 h2
  | cons s above =>
    obtain ⟨k0, ix⟩ := s
    have := hd ((k, ix) :: above) key i j m a b hn hij
    simp only [List.cons_append] at this h1 h2
    rw [content_cons h, content_cons h] at this
    exact this h1 h2

theorem content_nil (fs : RFields) : content fs [] = none := rfl

theorem fieldsAre_content {n : Option Str} {rf : RFields} {fs : Fields} (hf : RFullF rf) (h : toTemp n false rf = .ok fs) :
    FieldsAre (content rf) (jf fs) := by
  have hall := toTemp_all₂ hf h
  have hkeys : (jf fs).map (·.1) = rf.map (·.1) := by
    rw [← all₂_keys hall]; simp [jf]
  refine ⟨by rw [hkeys]; exact (rfullF_iff.1 hf).1, ?_⟩
  intro k
  rw [hkeys]
  constructor
  · intro hk
    have : (Dict.get rf k).isSome := Dict.get_isSome_iff.2 hk
    obtain ⟨t, ht⟩ := Option.isSome_iff_exists.1 this
    obtain ⟨ix, a, c, hc⟩ := exists_cell t ((rfullF_iff.1 hf).2 _ _ ht)
    refine ⟨ix, a, ?_⟩
    have := hc rf k ht
    simp [content, this]
  · rintro ⟨ix, rest, hr⟩
    refine Dict.get_isSome_iff.1 ?_
    cases hg : Dict.get rf k with
    | some t => rfl
    | none => exact absurd (content_none hg ix rest) hr

theorem builtItems_map {n : Option Str} {f : Option Int → Content} (l : List (Int × Fields))
    (h : ∀ x ∈ l, Built n (f (some x.1)) (jf x.2)) : BuiltItems n f (l.map (·.1)) (l.map (fun x => jobj x.2)) := by
  induction l with
  | nil => simp [BuiltItems]
  | cons x r ih =>
    simp only [List.map_cons, jobj, BuiltItems]
    exact ⟨h x (by simp), ih (fun y hy => h y (by simp [hy]))⟩

theorem builtFields_iff {n : Option Str} {f : Content} (fs : List (Str × Json)) :
    BuiltFields n f fs ↔ ∀ e ∈ fs, BuiltVal n (fun ix rest => f ((e.1, ix) :: rest)) e.2 := by
  induction fs with
  | nil => simp [BuiltFields]
  | cons e r ih => obtain ⟨k, v⟩ := e; simp [BuiltFields, ih]

theorem builtVal_of_isValue {n : Option Str} {f : Option Int → Content} (j : Json) (h : IsValue f j) : BuiltVal n f j := by
  cases j with
  | leaf a => simpa only [BuiltVal] using h
  | obj fs => rw [BuiltVal]; exact Or.inl h
  | arr is => rw [BuiltVal]; exact Or.inl h

theorem toTemp_fields {n : Option Str} {rf : RFields} {fs : Fields} (hf : RFullF rf) (h : toTemp n false rf = .ok fs)
    (hd : DistinctIds n (content rf))
    (ih : ∀ e ∈ rf, ∀ t', RFull e.2 → TempOf n e.2 t' → DistinctIds n (lift e.2) → BuiltVal n (ct e.2) (jv t')) :
    Built n (content rf) (jf fs) := by
  refine ⟨rfl, fieldsAre_content hf h, ?_⟩
  rw [builtFields_iff]
  intro e he
  obtain ⟨e', he', rfl⟩ := List.mem_map.1 he
  simp only
  obtain ⟨x, hx, hk, ht⟩ := all₂_mem_right (toTemp_all₂ hf h) he'
  obtain ⟨k, t⟩ := x
  simp only at hk ht
  have hget : Dict.get rf k = some t := Dict.get_of_mem (rfullF_iff.1 hf).1 hx
  have : (fun ix rest => content rf ((e'.1, ix) :: rest)) = ct t := by
    funext ix rest; rw [← hk]; exact content_cons hget ix rest
  rw [this]
  exact ih _ hx _ ((rfullF_iff.1 hf).2 _ _ hget) ht (distinct_lift hget hd)

theorem tempOf_built {n : Option Str} (t : RTree) : ∀ t', RFull t → TempOf n t t' → DistinctIds n (lift t) → BuiltVal n (ct t) (jv t') := by
  induction t using RTree.ind with
  | cell c =>
    intro t' _ ht _
    simp only [TempOf] at ht
    subst ht
    rw [jv_cell]
    refine builtVal_of_isValue _ ⟨c.value, rfl, ?_⟩
    intro ix rest v
    simp only [ct]
    split
    · next h => simp [h, eq_comm]
    · next h => simp; intro h1 h2; exact absurd ⟨h1, h2⟩ h
  | obj g ih =>
    intro t' hf ht hd
    obtain ⟨g', rfl, hg⟩ := ht
    simp only [RFull] at hf
    rw [jv_obj, BuiltVal]
    right
    have hb : Built n (content g) (jf g') := by
      refine toTemp_fields hf.2 hg ?_ ih
      intro above key i j m a b hn hij h1 h2
      exact hd ((key, none) :: above) key i j m a b hn hij (by simpa [lift, ct, content] using h1) (by simpa [lift, ct, content] using h2)
    have hc : ct (.obj g) none = content g := by funext rest; simp [ct, content]
    rw [hc]
    refine ⟨?_, hb⟩
    rintro ix ⟨rest, hr⟩
    cases ix with
    | none => rfl
    | some i => simp [ct] at hr
  | lad is ih =>
    intro t' hf ht hd
    obtain ⟨is', td, rfl, h1, h2⟩ := ht
    simp only [RFull] at hf
    obtain ⟨hne, hfi⟩ := hf
    rw [jv_tmp, BuiltVal]
    right
    have hall := toTempItems_all₂ hfi h1
    have hkeys := all₂_keys (R := fun x y => toTemp n false x = .ok y) hall
    have hnd := (rfullI_iff.1 hfi).1
    have hasc := sortIdx_ascending (l := is') (by rw [hkeys]; exact hnd)
    -- the items of the sorted list
    have hitem : ∀ x ∈ sortIdx is', ∃ g, Dict.get is x.1 = some g ∧ g ≠ [] ∧ RFullF g ∧ toTemp n false g = .ok x.2 ∧
        ct (.lad is) (some x.1) = content g := by
      intro x hx
      obtain ⟨y, hy, hk, ht⟩ := all₂_mem_right hall (mem_sortIdx.1 hx)
      have hget : Dict.get is x.1 = some y.2 := by
        rw [← hk]; exact Dict.get_of_mem hnd hy
      obtain ⟨a, b⟩ := (rfullI_iff.1 hfi).2 _ _ hget
      exact ⟨y.2, hget, a, b, ht, by funext rest; simp [ct, hget, content]⟩
    have hexist : ∀ i g, Dict.get is i = some g → ∃ x ∈ sortIdx is', x.1 = i := by
      intro i g hg
      have : i ∈ is.map (·.1) := Dict.get_isSome_iff.1 (by rw [hg]; rfl)
      rw [← hkeys] at this
      obtain ⟨x, hx, rfl⟩ := List.mem_map.1 this
      exact ⟨x, mem_sortIdx.2 hx, rfl⟩
    have hkeyof : ∀ x ∈ sortIdx is', (∃ k, itemKey n false x.2 = .ok k) → ∀ m, n = some m → ik n x.2 = ct (.lad is) (some x.1) [(m, none)] := by
      intro x hx hk m hn
      obtain ⟨g, -, -, hfg, ht, hc⟩ := hitem x hx
      rw [hc]; exact ik_content hfg ht hk m hn
    have happ : ∀ items (td td' : TDict), appendAll n false items td = .ok td' → ∀ x ∈ items, ∃ k, itemKey n false x = .ok k := by
      intro items
      induction items with
      | nil => intro _ _ _ x hx; cases hx
      | cons y r ihr =>
        intro td td' h x hx
        rw [appendAll] at h
        cases h3 : td.append n false y with
        | error e => rw [h3] at h; cases h
        | ok td1 =>
          rw [h3] at h; simp only at h
          rcases List.mem_cons.1 hx with rfl | hx
          · unfold TDict.append at h3
            cases hi : itemKey n false x with
            | error e => rw [hi] at h3; cases h3
            | ok k => exact ⟨k, rfl⟩
          · exact ihr _ _ h x hx
    have hok : ∀ x ∈ sortIdx is', ∃ k, itemKey n false x.2 = .ok k := fun x hx => happ _ _ _ h2 _ (List.mem_map_of_mem hx)
    have hpair : ((sortIdx is').map (·.2)).Pairwise (fun x y => ∀ a b, ik n x = some a → ik n y = some b → a.pyEq b = false) := by
      rw [List.pairwise_map]
      refine hasc.imp_of_mem ?_
      intro x y hx hy hlt a b ha hb
      cases hn : n with
      | none => subst hn; simp [ik, itemKey] at ha
      | some m =>
        rw [hkeyof x hx (hok x hx) m hn] at ha
        rw [hkeyof y hy (hok y hy) m hn] at hb
        exact hd [] m x.1 y.1 m a b hn (by omega) (by simpa [lift] using ha) (by simpa [lift] using hb)
    obtain ⟨e1, e2, -⟩ := appendAll_distinct _ h2 hpair (by simp [keyGet])
    simp only [List.nil_append] at e1 e2
    have hjtd : jtd td.keyed td.rest =
        ((sortIdx is').filter (fun x => (ik n x.2).isSome) ++ (sortIdx is').filter (fun x => (ik n x.2).isNone)).map (fun x => jobj x.2) := by
      rw [jtd, e1, e2]
      generalize sortIdx is' = l
      rw [List.map_append]
      congr 1
      · induction l with
        | nil => rfl
        | cons x r ihl =>
          cases hk : ik n x.2 with
          | none => simpa [List.filter_cons, hk] using ihl
          | some k => simpa [List.filter_cons, hk] using ihl
      · induction l with
        | nil => rfl
        | cons x r ihl =>
          cases hk : ik n x.2 with
          | none => simpa [List.filter_cons, hk] using ihl
          | some k => simpa [List.filter_cons, hk] using ihl
    rw [hjtd]
    refine ⟨?_, ((sortIdx is').filter (fun x => (ik n x.2).isSome)).map (·.1), ((sortIdx is').filter (fun x => (ik n x.2).isNone)).map (·.1),
      ?_, ?_, ?_, ?_, ?_⟩
    · rintro ix ⟨rest, hr⟩ rfl; simp [ct] at hr
    · unfold Ascending; rw [List.pairwise_map]; exact hasc.filter _
    · unfold Ascending; rw [List.pairwise_map]; exact hasc.filter _
    · intro i
      constructor
      · intro hi
        obtain ⟨x, hx, rfl⟩ := List.mem_map.1 hi
        obtain ⟨hx, hs⟩ := List.mem_filter.1 hx
        cases hn : n with
        | none => subst hn; simp [ik, itemKey] at hs
        | some m =>
          refine ⟨m, rfl, ?_⟩
          rw [← hkeyof x hx (hok x hx) m hn]
          intro h0; rw [h0] at hs; cases hs
      · rintro ⟨m, hn, hm⟩
        have : ∃ g, Dict.get is i = some g := by
          cases hg : Dict.get is i with
          | some g => exact ⟨g, rfl⟩
          | none => simp [ct, hg] at hm
        obtain ⟨g, hg⟩ := this
        obtain ⟨x, hx, rfl⟩ := hexist i g hg
        refine List.mem_map.2 ⟨x, List.mem_filter.2 ⟨hx, ?_⟩, rfl⟩
        rw [← hkeyof x hx (hok x hx) m hn] at hm
        cases hk : ik n x.2 with
        | none => exact absurd hk hm
        | some k => rfl
    · intro i
      constructor
      · intro hi
        obtain ⟨x, hx, rfl⟩ := List.mem_map.1 hi
        obtain ⟨hx, hs⟩ := List.mem_filter.1 hx
        refine ⟨?_, ?_⟩
        · obtain ⟨g, hg, hne, hfg, -, hc⟩ := hitem x hx
          obtain ⟨a, c, ha⟩ := exists_rget hfg hne
          refine ⟨a, ?_⟩
          rw [hc]; simp [content, ha]
        · intro m hn
          rw [← hkeyof x hx (hok x hx) m hn]
          simpa using hs
      · rintro ⟨⟨rest, hr⟩, hm⟩
        have : ∃ g, Dict.get is i = some g := by
          cases hg : Dict.get is i with
          | some g => exact ⟨g, rfl⟩
          | none => simp [ct, hg] at hr
        obtain ⟨g, hg⟩ := this
        obtain ⟨x, hx, rfl⟩ := hexist i g hg
        refine List.mem_map.2 ⟨x, List.mem_filter.2 ⟨hx, ?_⟩, rfl⟩
        cases hn : n with
        | none => simp [ik, itemKey]
        | some m =>
          have := hm m hn
          rw [← hkeyof x hx (hok x hx) m hn, hn] at this
          simp [this]
    · rw [← List.map_append]
      refine builtItems_map _ ?_
      intro x hx
      have hx' : x ∈ sortIdx is' := by
        rcases List.mem_append.1 hx with h | h <;> exact (List.mem_filter.1 h).1
      obtain ⟨g, hg, hne, hfg, ht, hc⟩ := hitem x hx'
      rw [hc]
      refine toTemp_fields hfg ht ?_ ?_
      · intro above key i j m a b hn hij h1 h2
        exact hd ((key, some x.1) :: above) key i j m a b hn hij (by simpa [lift, hc] using h1) (by simpa [lift, hc] using h2)
      · intro e he
        exact ih (x.1, g) (Dict.get_eq_some_mem hg) e he

theorem toTemp_built {n : Option Str} {rf : RFields} {fs : Fields} (hf : RFullF rf) (h : toTemp n false rf = .ok fs)
    (hd : DistinctIds n (content rf)) : Built n (content rf) (jf fs) :=
  toTemp_fields hf h hd (fun e _ => tempOf_built e.2)

end Verif
